import Verif.Model.Value

/-!
# What a history of object operations means

Independent of the heap: the operations a user performed, the most recent first, and what they imply.  `current` and
`order` are what the user expects.  `engineCurrent` and `engineOrder` are what the engine does: keys longer than 5 bytes
are compared with `strncmp`, that is up to the first NUL, and deletion compares all keys so.
-/

namespace Mjs.Spec

abbrev Key := List UInt8

/-- One operation on objects; objects are named by the values the engine handed out for them. -/
inductive ObjOp where
  | new (v : Val)
  | set (v : Val) (key : Key) (x : Val)
  | del (v : Val) (key : Key)

/-- The key an operation is about has no NUL byte. -/
def ObjOp.noNul : ObjOp → Prop
  | .new _ => True
  | .set _ k _ => (0 : UInt8) ∉ k
  | .del _ k => (0 : UInt8) ∉ k

/-- White space of the C library: blank, tab, line feed, vertical tab, form feed, carriage return. -/
def isBlank (c : UInt8) : Bool := c == 32 || (9 ≤ c.toNat && c.toNat ≤ 13)

/-- A decimal digit. -/
def isDecimal (c : UInt8) : Bool := 48 ≤ c.toNat && c.toNat ≤ 57

/-- What remains after the blanks and the sign before a number. -/
def afterSign (k : Key) : Key :=
  match k.dropWhile isBlank with
  | c :: t => if c = 43 ∨ c = 45 then t else c :: t
  | [] => []

/-- The whole key may be the start of a number in text: blanks, a sign, digits. -/
def numberish (k : Key) : Bool := (afterSign k).all isDecimal

/-- The object was created in this history. -/
def created : List ObjOp → Val → Prop
  | [], _ => False
  | .new w :: t, v => v = w ∨ created t v
  | _ :: t, v => created t v

/-- The value last written to `key` of `v` and not deleted since. -/
def current : List ObjOp → Val → Key → Option Val
  | [], _, _ => none
  | .new w :: t, v, k => if v = w then none else current t v k
  | .set w k' x :: t, v, k => if v = w ∧ k = k' then some x else current t v k
  | .del w k' :: t, v, k => if v = w ∧ k = k' then none else current t v k

/-- The keys of `v` in the order in which they were created, the most recent first. -/
def order : List ObjOp → Val → List Key
  | [], _ => []
  | .new w :: t, v => if v = w then [] else order t v
  | .set w k _ :: t, v => if v = w ∧ k ∉ order t v then k :: order t v else order t v
  | .del w k :: t, v => if v = w then (order t v).filter (· ≠ k) else order t v

/-- Equal for `strncmp` with the common length. -/
def cSame (a b : Key) : Bool := a.length == b.length && a.takeWhile (· ≠ 0) == b.takeWhile (· ≠ 0)

/-- Keys the engine does not tell apart in reading and writing. -/
def sameKey (a b : Key) : Bool := if b.length ≤ 5 then a == b else cSame a b

/-- The key that deleting `k` removes. -/
def victim (l : List Key) (k : Key) : Option Key := l.find? fun a => cSame a k

/-- The keys in the engine. -/
def engineOrder : List ObjOp → Val → List Key
  | [], _ => []
  | .new w :: t, v => if v = w then [] else engineOrder t v
  | .set w k _ :: t, v =>
      if v = w ∧ (engineOrder t v).all (fun a => !sameKey a k) then k :: engineOrder t v else engineOrder t v
  | .del w k :: t, v =>
      if v = w then match victim (engineOrder t v) k with
        | none => engineOrder t v
        | some a => (engineOrder t v).erase a
      else engineOrder t v

/-- The value under a key in the engine. -/
def engineCurrent : List ObjOp → Val → Key → Option Val
  | [], _, _ => none
  | .new w :: t, v, k => if v = w then none else engineCurrent t v k
  | .set w k' x :: t, v, k => if v = w ∧ sameKey k k' then some x else engineCurrent t v k
  | .del w k' :: t, v, k =>
      if v = w ∧ (victim (engineOrder t v) k').any (fun a => sameKey a k) then none else engineCurrent t v k

/-- `l` is the prototype chain of `v`: `v`, then the value of its property `p`, and so on up to a value without one. -/
inductive ProtoChain (own : Val → Key → Option Val) (p : Key) : Val → List Val → Prop
  | last {v} : own v p = none → ProtoChain own p v [v]
  | step {v w l} : own v p = some w → ProtoChain own p w l → ProtoChain own p v (v :: l)

/-- The value of the first object of the chain that has the key. -/
def nearest (own : Val → Key → Option Val) (chain : List Val) (k : Key) : Option Val :=
  chain.findSome? fun v => own v k

end Mjs.Spec
