import Verif.Model.Exec
import Verif.Model.Builtin
import Verif.Model.GcVm
import Verif.Lemmas.Client
import Verif.Lemmas.ObjectSet

/-!
# When two engines are in the same state, up to where things are in memory

A state without addresses (`State`): values are numbers and the like, strings as lists of bytes, and objects by a number; the
objects are lists of keys with values.  `Shows` says that an engine is in such a state, `Alike` that two engines are in the same
one.  `Run` are the executions of code in which collections may happen between any two instructions, wherever the allocator puts
new things.
-/

namespace Mjs.Spec.Invisible
open Mjs Mjs.Mbuf Mjs.Varint Mjs.Str Mjs.Arena Mjs.Obj Mjs.Spec Mjs.Spec.Gc Mjs.Gc Mjs.Core Mjs.Exec
open Mjs.Client (Pairs)

/-! ### Values and objects without addresses -/

/-- A value: the same bits in every run, a string, or an object (with its tag and its number). -/
inductive AVal where
  | imm (v : Val)
  | str (bs : List UInt8)
  | obj (t : Val) (i : Nat)

/-- The properties of an object, the most recent first. -/
abbrev AObj := List (List UInt8 × AVal)

/-- The objects; `next` is the number of the next one. -/
structure World where
  objs : Nat → AObj
  next : Nat

def World.setObj (w : World) (i : Nat) (l : AObj) : World := { w with objs := fun j => if j = i then l else w.objs j }

def World.new (w : World) : World := { (w.setObj w.next []) with next := w.next + 1 }

/-- The value of a key. -/
def aget (l : AObj) (k : List UInt8) : AVal :=
  match l.find? fun q => sameKey q.1 k with
  | some q => q.2
  | none => .imm mkUndefined

/-- Assign to a key. -/
def aset (l : AObj) (k : List UInt8) (x : AVal) : AObj :=
  match l.find? fun q => sameKey q.1 k with
  | some q => l.map fun r => if r.1 = q.1 then (r.1, x) else r
  | none => (k, x) :: l

/-- A value that has the same bits in every run. -/
def IsImm (v : Val) : Prop := isObject v = false ∧ isString v = false ∧ isFfiSig v = false

/-- A string value as the engine makes it by copying. -/
def StrRep (L : List (List UInt8)) (v : Val) (bs : List UInt8) : Prop :=
  (bs.length ≤ 5 ∧ v = inlineVal bs) ∨ ∃ pre, refersTo L v pre bs

/-- The value `v` of the engine is the value `x`; `g` gives the number of the object in a cell. -/
def Rep (L : List (List UInt8)) (g : Nat → Option Nat) (v : Val) : AVal → Prop
  | .imm w => v = w ∧ IsImm w
  | .str bs => StrRep L v bs
  | .obj t i => isObject v = true ∧ v &&& tagMask = t ∧ g (getPtrRaw v).toNat = some i

def RepEnt (L : List (List UInt8)) (g : Nat → Option Nat) (e : Ent) (q : List UInt8 × AVal) : Prop :=
  e.key = q.1 ∧ Rep L g e.val q.2

/-- The heap holds the objects of the world. -/
structure Side (h : Heap) (w : World) (L : List (List UInt8)) (g : Nat → Option Nat) (A : Nat → Option (List Ent))
    (fo fp : List Nat) : Prop where
  inv : HInv h A fo fp
  content : h.str.owned.content = stringBytes L
  long : ∀ bs ∈ L, 5 < bs.length
  room : h.str.owned.len < 2 ^ 48
  size : h.props.cellSize = 24
  cleanObj : ∀ o c, h.objs.mem o = some c → c.head % 2 = 0
  cleanProp : ∀ p c, h.props.mem p = some c → c.head % 2 = 0
  dom : ∀ o, A o = none ↔ g o = none
  inj : ∀ o o' i, g o = some i → g o' = some i → o = o'
  lt : ∀ o i, g o = some i → i < w.next
  lists : ∀ o Ls i, A o = some Ls → g o = some i → Pairs (RepEnt L g) Ls (w.objs i)
  names : ∀ o Ls, A o = some Ls → ∀ e ∈ Ls, StrRep L e.name e.key

/-- The heap holds the objects of the world, in some way. -/
def Held (h : Heap) (w : World) (L : List (List UInt8)) (g : Nat → Option Nat) : Prop := ∃ A fo fp, Side h w L g A fo fp

/-- An engine without addresses. -/
structure State where
  world : World
  stack : List AVal
  callStack : List AVal
  argStack : List AVal
  scopes : List AVal
  this : AVal
  lastGetprop : AVal
  loopAddrs : List Val
  parts : List Part
  bcodeLen : Nat
  error : Err
  msg : Option (List UInt8)
  cmem : Nat → Option UInt8

/-- The engine is in the state, with the strings `L` in its buffer and the objects in the cells that `g` says. -/
structure Shows (vm : Vm) (s : State) (L : List (List UInt8)) (g : Nat → Option Nat) : Prop where
  heap : Held vm.heap s.world L g
  stack : Pairs (Rep L g) vm.stack s.stack
  callStack : Pairs (Rep L g) vm.callStack s.callStack
  argStack : Pairs (Rep L g) vm.argStack s.argStack
  scopes : Pairs (Rep L g) vm.scopes s.scopes
  this : Rep L g vm.this s.this
  lastGetprop : Rep L g vm.lastGetprop s.lastGetprop
  loopAddrs : vm.loopAddrs = s.loopAddrs
  parts : vm.parts = s.parts
  bcodeLen : vm.bcodeLen = s.bcodeLen
  error : vm.error = s.error
  msg : vm.msg = s.msg
  cmem : vm.heap.str.cmem = s.cmem

/-- Two engines that differ only in where things are in memory. -/
def Alike (vm vm' : Vm) : Prop := ∃ s L g L' g', Shows vm s L g ∧ Shows vm' s L' g'

/-! ### Memory -/

/-- One operation that allocates, with one set of answers of the allocator: the heap after it.  Strings that are made have at
most `2 ^ 31` bytes. -/
inductive Request (h : Heap) (al : Allocs) : Heap → Prop
  | none : Request h al h
  | obj {v h'} : mkObject h al = some (h', v) → Request h al h'
  | str {p n st' v} : n ≤ 2 ^ 31 → mkStringCopy al.hr h.str p n al.strs = some (st', v) → Request h al { h with str := st' }
  | concat {a b pa na pb nb st' v} : getString h.str a = some (pa, na) → getString h.str b = some (pb, nb) → na + nb ≤ 2 ^ 31 →
      sConcat al.hr h.str a b al.strs = some (st', v) → Request h al { h with str := st' }
  | set {obj nameV p n x h' e long} : n ≤ 2 ^ 31 → setInternal h obj nameV p n x al long = some (h', e) → Request h al h'

/-- The allocator grants what `n` operations ask for, whatever they are. -/
def Supplied : Nat → Heap → (Nat → Allocs) → Prop
  | 0, _, _ => True
  | n + 1, h, al => Granted h (2 ^ 31) (al 0) ∧ ∀ h', Request h (al 0) h' → Supplied n h' fun k => al (k + 1)

/-- There is memory for an instruction (for `n` operations and twice as many as there are values on the stack, which may be the arguments
of a call), and there are less than 512 MB of strings. -/
structure Ready (n : Nat) (vm : Vm) : Prop where
  supply : Supplied (n + 2 * vm.stack.length) vm.heap vm.al
  small : vm.heap.str.owned.len < 2 ^ 29

/-! ### Collections -/

/-- `vm'` is the engine after a collection.  The values that wait in `arg_stack` are numbers and the like or objects that can be
reached otherwise (C26 shows what happens to others); there are no FFI signatures. -/
structure Collection (vm vm' : Vm) : Prop where
  collects : ∃ (pl : Places) (sigs : Arena Unit) (fs : List Nat) (full : Bool) (al : Alloc) (m' : Mem Unit),
    -- where the variables are
    ((slotsOf pl vm).map (·.1)).Nodup ∧
    (∀ s ∈ slotsOf pl vm, 0 < s.1 ∧ s.1 < 2 ^ 48 ∧ vm.heap.props.mem (s.1 - 8) = none ∧ vm.heap.props.mem (s.1 - 16) = none) ∧
    pl.dataviewVal = mkUndefined ∧
    Ok sigs fs ∧ (∀ a c, sigs.mem a = some c → c.head % 2 = 0) ∧
    -- the collection
    AllocLow al ∧ (∃ N, ∀ n, N ≤ n → mjsGc n (memOf pl vm sigs) (rootsOf pl vm) full al = some m') ∧
    -- the engine after it
    memOf pl vm' m'.sigs = m' ∧
    -- what waits for a call
    ∀ v ∈ vm.argStack, v &&& tagMask ≠ tagStringO ∧
      (isObject v = true → Reach (memOf pl vm sigs) (rootsOf pl vm).all (.obj (getPtrRaw v).toNat))
  small : vm.heap.str.owned.len < 2 ^ 31
  stack : vm'.stack.length = vm.stack.length
  callStack : vm'.callStack.length = vm.callStack.length
  scopes : vm'.scopes.length = vm.scopes.length
  argStack : vm'.argStack = vm.argStack
  loopAddrs : vm'.loopAddrs = vm.loopAddrs
  parts : vm'.parts = vm.parts
  bcodeLen : vm'.bcodeLen = vm.bcodeLen
  error : vm'.error = vm.error
  msg : vm'.msg = vm.msg

/-! ### Executions -/

/-- The execution of code, mjs_exec.c:574-990, as `Exec.loop`; the engine `r` is the one at the end.  If `free`, then collections
may happen between instructions wherever one likes, and the allocator decides what it answers when an instruction is executed.
Before every instruction there is memory for it. -/
inductive Run (free : Bool) (E : Env) (n : Nat) (s : Saved) : Mach → Vm → Prop
  | stop {m} : ¬ m.i < m.bp.data.length → Run free E n s m m.vm
  | clean {m op vm} : m.i < m.bp.data.length → m.bp.data[m.i]? = some op → Ready n m.vm → op ≠ FOR_IN_NEXT →
      execOp E { m with op := op } m.op = some (.clean vm) → Run free E n s m vm
  | error {m op m' vm} : m.i < m.bp.data.length → m.bp.data[m.i]? = some op → Ready n m.vm → op ≠ FOR_IN_NEXT →
      execOp E { m with op := op } m.op = some (.go m') → m'.vm.error ≠ .ok → unwind s m'.vm = some vm → Run free E n s m vm
  | step {m op m' vm} : m.i < m.bp.data.length → m.bp.data[m.i]? = some op → Ready n m.vm → op ≠ FOR_IN_NEXT →
      execOp E { m with op := op } m.op = some (.go m') → m'.vm.error = .ok →
      Run free E n s { m' with i := wrap ((m'.i : Int) + 1) } vm → Run free E n s m vm
  | answers {m : Mach} {al vm} : free = true → Run free E n s { m with vm := { m.vm with al := al } } vm → Run free E n s m vm
  | collect {m : Mach} {vm' vm} : free = true → Collection m.vm vm' → Run free E n s { m with vm := vm' } vm → Run free E n s m vm

/-- `mjs_execute`, mjs_exec.c:550-993, as `Exec.execute`, with such a run: `vm'` is the engine at the end and `v` the value. -/
def Executes (free : Bool) (E : Env) (n : Nat) (vm : Vm) (off : Nat) (vm' : Vm) (v : Val) : Prop :=
  ∃ bp vm1 n1 part, partAt vm off = some bp ∧
    Run free E n (save vm) { vm := setErrorf vm .ok none, bp := bp, i := wrap ((off : Int) - bp.startIdx) } vm1 ∧
    partIdx vm1 off = some n1 ∧ vm1.parts[n1]? = some part ∧
    (v, vm') = pop { vm1 with parts := vm1.parts.set n1 { part with execRes := some vm1.error } }

/-- The execution, without collections, gets to an instruction for which there is no memory. -/
inductive Starves (E : Env) (n : Nat) : Mach → Prop
  | here {m} : m.i < m.bp.data.length → ¬ Ready n m.vm → Starves E n m
  | step {m op m'} : m.i < m.bp.data.length → m.bp.data[m.i]? = some op → Ready n m.vm → op ≠ FOR_IN_NEXT →
      execOp E { m with op := op } m.op = some (.go m') → m'.vm.error = .ok →
      Starves E n { m' with i := wrap ((m'.i : Int) + 1) } → Starves E n m

/-- `mjs_execute` gets to an instruction for which there is no memory. -/
def RunsOut (E : Env) (n : Nat) (vm : Vm) (off : Nat) : Prop :=
  ∃ bp, partAt vm off = some bp ∧ Starves E n { vm := setErrorf vm .ok none, bp := bp, i := wrap ((off : Int) - bp.startIdx) }

/-- What the host can tell of a value, and of what it finds in it, as deep as it looks: the same bits for numbers and the like, the same
bytes for strings, and for objects the same keys in the same order with values that are again the same. -/
def Same : Nat → Heap → Val → Heap → Val → Prop
  | 0, _, _, _, _ => True
  | d + 1, h1, v1, h2, v2 =>
    (v1 = v2 ∧ IsImm v1) ∨
    (∃ bs, Reads h1.str v1 bs ∧ Reads h2.str v2 bs) ∨
    (isObject v1 = true ∧ isObject v2 = true ∧ isArray v1 = isArray v2 ∧
      ∃ c1 c2 l1 l2, h1.objs.mem (getPtrRaw v1).toNat = some c1 ∧ h2.objs.mem (getPtrRaw v2).toNat = some c2 ∧
        Chain h1.props.mem c1.head l1 ∧ Chain h2.props.mem c2.head l2 ∧
        Pairs (fun e1 e2 => e1.key = e2.key ∧ Reads h1.str e1.name e1.key ∧ Reads h2.str e2.name e2.key ∧ Same d h1 e1.val h2 e2.val) l1 l2)

/-- What the C functions have to respect: called with engines that are alike, they leave engines that are alike. -/
def Respects (n : Nat) (f : Vm → Option Vm) : Prop :=
  ∀ vm1 vm2 r1, Alike vm1 vm2 → Ready n vm1 → Ready n vm2 → f vm1 = some r1 → ∃ r2, f vm2 = some r2 ∧ Alike r1 r2

/-! ### Built-in functions -/

/-- The literal `"__p"` is at `lit`. -/
def LitAt (cmem : Nat → Option UInt8) (lit : Nat) : Prop :=
  cmem lit = some 95 ∧ cmem (lit + 1) = some 95 ∧ cmem (lit + 2) = some 112 ∧ cmem (lit + 3) = some 0

instance (cmem : Nat → Option UInt8) (lit : Nat) : Decidable (LitAt cmem lit) := by unfold LitAt; infer_instance

/-- The C function runs only while the literal `"__p"` is as it was (writing to a string literal is undefined behaviour). -/
def whileLit (lit : Nat) (b : Builtin.Body) : Builtin.Body := fun t as h al => if LitAt h.str.cmem lit then b t as h al else none

/-- Functions of the library: `charCodeAt` and `at`, `indexOf`, `slice`, `push`, `chr`, `isNaN`, `die` and `Object.create`. -/
inductive InLibrary (lit : Nat) : Builtin.Body → Prop
  | charCodeAt : InLibrary lit Builtin.charCodeAt
  | indexOf : InLibrary lit Builtin.indexOf
  | slice : InLibrary lit Builtin.slice
  | push : InLibrary lit Builtin.push
  | chr : InLibrary lit Builtin.chr
  | isNaN : InLibrary lit Builtin.isNaN
  | die : InLibrary lit Builtin.die
  | objectCreate : InLibrary lit (whileLit lit (Builtin.objectCreate lit))

end Mjs.Spec.Invisible
