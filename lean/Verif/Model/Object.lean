import Verif.Model.Str
import Verif.Model.Arena

/-!
# Model of objects: `src/mjs_object.c`, `mjs_strcmp` and `mjs_to_string`

An object is a cell whose first word points to the first of its properties; a property is a cell with the next property,
the name and the value.  Loops over property lists are total only for lists that end; on others the model has no result,
as the C code has none.
-/

namespace Mjs.Obj
open Mjs Mjs.Mbuf Mjs.Str Mjs.Arena

/-- `enum mjs_err`, mjs_core_public.h:68-80. -/
inductive Err where
  | ok | syntax | reference | type | outOfMemory | internal | notImplemented | fileRead | badArgs
deriving DecidableEq, Repr

/-- The parts of `struct mjs` (mjs_core.h:111-139) that objects use.  The rest of an object cell is empty, the rest of a
property cell is the name and the value (mjs_object.h:18-26). -/
structure Heap where
  str : Store
  objs : Arena Unit
  props : Arena (Val × Val)

/-- The answers of the C allocator during one operation: string buffers, a block of objects, a block of properties.
`hr` is the head room parameter of the buffers. -/
structure Allocs where
  hr : Nat
  strs : Nat → Alloc
  obj : Option Nat
  prop : Option Nat

/-- The heap part of `mjs_create`, mjs_core.c:78-79, 93-101, with the sizes of lines 20-35: an object is 8 bytes, a
property 24.  `bo` and `bp` are the addresses of the two first blocks. -/
def createHeap (hr : Nat) (cmem : Nat → Option UInt8) (al1 al2 : Alloc) (bo bp : Option Nat) : Option Heap := do
  let st ← createStore hr cmem al1 al2
  let ao ← Arena.init 8 20 10 bo
  let ap ← Arena.init 24 20 10 bp
  some ⟨st, ao, ap⟩

/-- `get_object_struct`, mjs_object.c:24-33; `none` is the failed assert. -/
def getObjectStruct (v : Val) : Option Nat :=
  if isNull v then some 0 else if isObject v then some (getPtrRaw v).toNat else none

/-- `mjs_mk_object`, mjs_object.c:35-43.  (`new_object` aborts instead of returning NULL.) -/
def mkObject (h : Heap) (al : Allocs) : Option (Heap × Val) := do
  let (a, o, _) ← allocCell h.objs al.obj
  let c ← a.mem o
  let v ← objectToValue (BitVec.ofNat 64 o)
  some ({ h with objs := { a with mem := upd a.mem o (some ⟨0, c.body⟩) } }, v)

/-- `mjs_mk_array`, mjs_array.c:31-37. -/
def mkArray (h : Heap) (al : Allocs) : Option (Heap × Val) :=
  (mkObject h al).map fun r => (r.1, toArrayTag r.2)

/-- `strncmp(s, b, len) == 0` on equally long byte strings: equal up to and including the first NUL of `s`. -/
def strncmpEq : List UInt8 → List UInt8 → Bool
  | [], _ => true
  | _, [] => true
  | x :: xs, y :: ys => x == y && (x == 0 || strncmpEq xs ys)

/-- `mjs_strcmp(mjs, &a, b, len) == 0`, mjs_string.c:219-228, for `len` other than `~0`; the difference of the lengths is
converted to `int`. -/
def strcmpEq (st : Store) (a : Val) (b : Ptr) (len : Nat) : Option Bool := do
  let (s, n) ← getString st a
  if n ≠ len then some (n % 2 ^ 32 == len % 2 ^ 32)
  else do
    let x ← load st.cmem st.owned s len
    let y ← load st.cmem st.owned b len
    some (strncmpEq x y)

/-- The search for a name of at most 5 bytes, mjs_object.c:65-67. -/
def findShort (h : Heap) (ss : Val) (p : Nat) : Option Nat :=
  if p = 0 then some 0
  else do
    let c ← h.props.mem p
    if c.body.1 = ss then some p else findShort h ss c.head
partial_fixpoint

/-- The search for a longer name, mjs_object.c:69-72. -/
def findLong (h : Heap) (name : Ptr) (len p : Nat) : Option Nat :=
  if p = 0 then some 0
  else do
    let c ← h.props.mem p
    let eq ← strcmpEq h.str c.body.1 name len
    if eq then some p else findLong h name len c.head
partial_fixpoint

/-- `mjs_get_own_property`, mjs_object.c:50-76: the address of the property, 0 if there is none.  `mjs_mk_string` of at
most 5 bytes allocates nothing.  `long` is true when the length was given as `~0`, which is not `≤ 5` in line 63; `len` is
then the length that `mjs_strcmp` finds with `strlen`. -/
def getOwnProperty (h : Heap) (obj : Val) (name : Ptr) (len : Nat) (long : Bool := false) : Option Nat :=
  if ¬ isObject obj then some 0
  else do
    let o ← getObjectStruct obj
    let c ← h.objs.mem o
    if len ≤ 5 ∧ long = false then do
      let (_, ss) ← mkStringCopy 0 h.str name len fun _ => none
      findShort h ss c.head
    else findLong h name len c.head

/-- `strlen`. -/
def strlen (cmem : Nat → Option UInt8) (a : Nat) : Option Nat := do
  let b ← cmem a
  if b = 0 then some 0 else do
    let n ← strlen cmem (a + 1)
    some (n + 1)
partial_fixpoint

/-- The value of the property at address `p`, undefined for NULL: mjs_object.c:112-116. -/
def valueAt (h : Heap) (p : Nat) : Option Val :=
  if p = 0 then some mkUndefined else (h.props.mem p).map fun c => c.body.2

/-- `mjs_get`, mjs_object.c:103-117, with a length other than `~0`. -/
def get (h : Heap) (obj : Val) (name : Ptr) (len : Nat) : Option Val :=
  (getOwnProperty h obj name len).bind (valueAt h)

/-- `mjs_get(mjs, obj, name, ~0)`: line 107 takes `strlen(name)`. -/
def getZ (h : Heap) (obj : Val) (name : Nat) : Option Val :=
  (strlen h.str.cmem name).bind fun n => get h obj (.ext name) n

/-- `mjs_mk_property`, mjs_object.c:93-101, and linking it at the head of the list of object `o`, lines 197-199. -/
def addProperty (h : Heap) (o : Nat) (name val : Val) (al : Allocs) : Option (Heap × Nat) := do
  let (a, p, _) ← allocCell h.props al.prop
  let _ ← a.mem p
  let co ← h.objs.mem o
  some ({ h with
    props := { a with mem := upd a.mem p (some ⟨co.head, (name, val)⟩) }
    objs := { h.objs with mem := upd h.objs.mem o (some ⟨p, co.body⟩) } }, p)

/-- `p->value = val`, line 202. -/
def setValue (h : Heap) (p : Nat) (val : Val) : Option Heap :=
  (h.props.mem p).map fun c => { h with props := { h.props with mem := upd h.props.mem p (some ⟨c.head, (c.body.1, val)⟩) } }

/-- The name of a new property, lines 191-193: a string value is used as it is, anything else is replaced by a copy of the
text.  `nameV` is `none` when the caller gave a pointer. -/
def propName (h : Heap) (nameV : Option Val) (name : Ptr) (len : Nat) (al : Allocs) : Option (Heap × Val) :=
  match nameV with
  | some v => if isString v then some (h, v) else
      (mkStringCopy al.hr h.str name len al.strs).map fun r => ({ h with str := r.1 }, r.2)
  | none => (mkStringCopy al.hr h.str name len al.strs).map fun r => ({ h with str := r.1 }, r.2)

/-- `mjs_set_internal`, mjs_object.c:158-212, after the name is known as pointer and length. -/
def setInternal (h : Heap) (obj : Val) (nameV : Option Val) (name : Ptr) (len : Nat) (val : Val) (al : Allocs)
    (long : Bool := false) : Option (Heap × Err) := do
  let p ← getOwnProperty h obj name len long                              -- line 180
  if p = 0 then
    if ¬ isObject obj then some (h, .reference)                           -- lines 184-186
    else do
      let (h1, nv) ← propName h nameV name len al
      let o ← getObjectStruct obj
      let (h2, p) ← addProperty h1 o nv val al
      let h3 ← setValue h2 p val
      some (h3, .ok)
  else do
    let h1 ← setValue h p val
    some (h1, .ok)

/-- `mjs_set`, mjs_object.c:147-151, with a length other than `~0`. -/
def set (h : Heap) (obj : Val) (name : Ptr) (len : Nat) (val : Val) (al : Allocs) : Option (Heap × Err) :=
  setInternal h obj none name len val al

/-- `mjs_set(mjs, obj, name, ~0, val)`: the length stays `~0` until `mjs_strcmp` and `mjs_mk_string` replace it. -/
def setZ (h : Heap) (obj : Val) (name : Nat) (val : Val) (al : Allocs) : Option (Heap × Err) :=
  (strlen h.str.cmem name).bind fun n => setInternal h obj none (.ext name) n val al true

/-- `mjs_to_string`, mjs_conversion.c:12-62: pointer and length, `some none` for an error.  `numText` is the text of a
number (`mjs_jprintf`, `%lld` or `%f` of the C library), a parameter here; `Print.numText` is the one of Linux; texts that are not engine strings are local
bytes.  The failure of `malloc` (line 28) is left out. -/
def toStr (numText : Val → List UInt8) (st : Store) (v : Val) : Option (Option (Ptr × Nat)) :=
  if isString v then (getString st v).map some
  else if isNumber v then some (some (.loc (numText v), (numText v).length))
  else if isBoolean v then
    some (some (if getBool v then (.loc [116, 114, 117, 101], 4) else (.loc [102, 97, 108, 115, 101], 5)))
  else if isUndefined v then some (some (.loc [117, 110, 100, 101, 102, 105, 110, 101, 100], 9))
  else if isNull v then some (some (.loc [110, 117, 108, 108], 4))
  else if isObject v then some none
  else if isForeign v then some (some (.loc [84, 79, 68, 79, 95, 102, 111, 114, 101, 105, 103, 110], 12))
  else some none

/-- `mjs_get_v`, mjs_object.c:119-137; the value is undefined when the name has no text. -/
def getV (numText : Val → List UInt8) (h : Heap) (obj name : Val) : Option Val :=
  (toStr numText h.str name).bind fun r =>
    match r with
    | none => some mkUndefined
    | some (p, n) => get h obj p n

/-- `mjs_set_v`, mjs_object.c:153-156 and 168-171. -/
def setV (numText : Val → List UInt8) (h : Heap) (obj name val : Val) (al : Allocs) : Option (Heap × Err) :=
  (toStr numText h.str name).bind fun r =>
    match r with
    | none => some (h, .type)
    | some (p, n) => setInternal h obj (some name) p n val al

/-- `mjs_get_own_property_v`, mjs_object.c:78-91. -/
def getOwnPropertyV (numText : Val → List UInt8) (h : Heap) (obj key : Val) : Option Nat :=
  (toStr numText h.str key).bind fun r =>
    match r with
    | none => some 0
    | some (p, n) => getOwnProperty h obj p n

/-- `MJS_PROTO_PROP_NAME`, mjs_object.h:57: `"__p"`, as the value `mjs_mk_string` makes of it. -/
def protoName (h : Heap) : Option Val := (mkStringCopy 0 h.str (.loc [95, 95, 112]) 3 fun _ => none).map (·.2)

/-- `mjs_get_v_proto`, mjs_object.c:139-145. -/
def getVProto (numText : Val → List UInt8) (h : Heap) (obj key : Val) : Option Val := do
  let pn ← protoName h
  let p ← getOwnPropertyV numText h obj key
  if p ≠ 0 then valueAt h p
  else do
    let q ← getOwnPropertyV numText h obj pn
    if q = 0 then some mkUndefined
    else do
      let v ← valueAt h q
      getVProto numText h v key
partial_fixpoint

/-- The heap effect of `mjs_op_create_object` (`Object.create`), mjs_object.c:276-277, after the check of the argument;
`lit` is the address of the literal `"__p"`, `al1` and `al2` the allocations of the two calls. -/
def createObject (h : Heap) (lit : Nat) (proto : Val) (al1 al2 : Allocs) : Option (Heap × Val) := do
  let (h1, ret) ← mkObject h al1
  let (h2, _) ← setZ h1 ret lit proto al2
  some (h2, ret)

/-- `prev->next = prop->next` or `properties = prop->next`, mjs_object.c:235-239; `prev` 0 is NULL. -/
def unlink (h : Heap) (o prev next : Nat) : Option Heap :=
  if prev ≠ 0 then
    (h.props.mem prev).map fun c => { h with props := { h.props with mem := upd h.props.mem prev (some ⟨next, c.body⟩) } }
  else
    (h.objs.mem o).map fun c => { h with objs := { h.objs with mem := upd h.objs.mem o (some ⟨next, c.body⟩) } }

/-- `n == len && strncmp(s, name, len) == 0`, mjs_object.c:234. -/
def delMatch (st : Store) (pname : Val) (name : Ptr) (len : Nat) : Option Bool := do
  let (s, n) ← getString st pname
  if n = len then do
    let x ← load st.cmem st.owned s len
    let y ← load st.cmem st.owned name len
    some (strncmpEq x y)
  else some false

/-- The loop of `mjs_del`, mjs_object.c:230-243: `true` if a property was removed (result 0). -/
def delLoop (h : Heap) (o : Nat) (name : Ptr) (len prev p : Nat) : Option (Heap × Bool) :=
  if p = 0 then some (h, false)
  else do
    let c ← h.props.mem p
    let eq ← delMatch h.str c.body.1 name len
    if eq then (unlink h o prev c.head).map fun h' => (h', true)
    else delLoop h o name len p c.head
partial_fixpoint

/-- `mjs_del`, mjs_object.c:221-245, with a length other than `~0`; `true` for the result 0, `false` for -1. -/
def del (h : Heap) (obj : Val) (name : Ptr) (len : Nat) : Option (Heap × Bool) :=
  if ¬ isObject obj then some (h, false)
  else do
    let o ← getObjectStruct obj
    let c ← h.objs.mem o
    delLoop h o name len 0 c.head

/-- `mjs_next`, mjs_object.c:247-266: the key and the new iterator. -/
def next (h : Heap) (obj iter : Val) : Option (Val × Val) := do
  let p ← if iter = mkUndefined then do
      let o ← getObjectStruct obj
      (h.objs.mem o).map (·.head)
    else (h.props.mem (getPtrRaw iter).toNat).map (·.head)
  if p = 0 then some (mkUndefined, mkUndefined)
  else (h.props.mem p).map fun c => (c.body.1, (mkForeign (BitVec.ofNat 64 p)).1)

end Mjs.Obj
