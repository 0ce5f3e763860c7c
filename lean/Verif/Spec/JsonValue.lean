import Verif.Spec.Json
import Verif.Model.Json
import Verif.Model.Array
import Verif.Lemmas.Object
import Verif.Lemmas.ObjectSet

/-!
# When a value of the engine is the value a JSON text describes
-/

namespace Mjs.Spec.Json
open Mjs Mjs.Str Mjs.Obj Mjs.Exec Mjs.Spec

/-- As far as a program can see — by the length and the elements of an array, the properties of an object, the bytes of a
string — the value `v` is what `j` describes.  Of the members of an object with the same key the last one counts.
`numVal` gives the number that a numeral stands for. -/
inductive Shows (numVal : List UInt8 → Val) (h : Heap) : Val → J → Prop
  | null : Shows numVal h mkNull .null
  | bool {b} : Shows numVal h (mkBoolean b) (.bool b)
  | num {neg t} : Shows numVal h (mkNumber (if neg then negD (numVal t) else numVal t)) (.num neg t)
  | str {v bs} : isString v = true → Reads h.str v bs → Shows numVal h v (.str bs)
  | arr {v l} (x : Nat → Val) : isArray v = true → Arr.length h v = some l.length →
      (∀ i j, l[i]? = some j → Arr.get h v i = some (x i)) → (∀ i j, l[i]? = some j → Shows numVal h (x i) j) →
      Shows numVal h v (.arr l)
  | obj {v ms} (x : Key → Val) : isObject v = true → isArray v = false →
      (∀ k j, lastOf ms k = some j → Obj.get h v (.loc k) k.length = some (x k)) →
      (∀ k j, lastOf ms k = some j → Shows numVal h (x k) j) →
      (∀ k, lastOf ms k = none → k.length < 2 ^ 32 → Obj.get h v (.loc k) k.length = some mkUndefined) →
      Shows numVal h v (.obj ms)

/-- One request to the engine with one set of answers of the allocator: an assignment, a new object, array or string, or
none.  Keys and strings have at most `need` bytes. -/
inductive Request (need : Nat) (h : Heap) (al : Allocs) : Heap → Prop
  | set {v k x h' e} : k.length ≤ need → Obj.set h v (.loc k) k.length x al = some (h', e) → Request need h al h'
  | setZ {v a k x h' e} : k.length ≤ need → k.length < 2 ^ 32 → (0 : UInt8) ∉ k → readC h.str.cmem a (k.length + 1) = some (k ++ [0]) →
      Obj.setZ h v a x al = some (h', e) → Request need h al h'
  | obj {v h'} : mkObject h al = some (h', v) → Request need h al h'
  | arr {v h'} : mkArray h al = some (h', v) → Request need h al h'
  | str {bs st' v} : bs.length ≤ need → mkStringCopy al.hr h.str (.loc bs) bs.length al.strs = some (st', v) →
      Request need h al { h with str := st' }
  | none : Request need h al h

/-- The allocator grants what `n` requests ask for, whatever they are. -/
def Supplied (need : Nat) : Nat → Heap → (Nat → Allocs) → Prop
  | 0, _, _ => True
  | n + 1, h, al => Granted h need (al 0) ∧ ∀ h', Request need h (al 0) h' → Supplied need n h' fun k => al (k + 1)

end Mjs.Spec.Json
