import Verif.Spec.JsonValue
import Verif.Spec.Array

/-!
# The JSON value of a value of the engine

What `JSON.stringify` is expected to write, in terms of the history of the objects: values without JSON form are left out of objects and are
`null` in arrays, as are holes.
-/

namespace Mjs.Spec.Json
open Mjs Mjs.Str Mjs.Spec

/-- Strings made of ASCII characters, without the vertical tab, and of groups with the shape of UTF-8. -/
inductive Quotable : List UInt8 → Prop
  | nil : Quotable []
  | ascii {c b} : c.toNat < 128 → c ≠ 11 → Quotable b → Quotable (c :: b)
  | two {c x b} : 192 ≤ c.toNat → c.toNat < 224 → Cont x → Quotable b → Quotable (c :: x :: b)
  | three {c x y b} : 224 ≤ c.toNat → c.toNat < 240 → Cont x → Cont y → Quotable b → Quotable (c :: x :: y :: b)
  | four {c x y z b} : 240 ≤ c.toNat → Cont x → Cont y → Cont z → Quotable b → Quotable (c :: x :: y :: z :: b)

/-- Values without JSON form: `undefined`, functions of the script, foreign pointers and functions of the host. -/
def omitted (x : Val) : Bool := isUndefined x || isFunction x || isForeign x

/-- `v` is a tree and `j` is its JSON value.  `numText` is how the engine prints numbers; `ops` is the history of the objects, and the members are
those with a current value, the most recently created first. -/
inductive Denotes (numText : Val → List UInt8) (ops : List ObjOp) (st : Store) : Val → J → Prop
  | null : Denotes numText ops st mkNull .null
  | bool {b} : Denotes numText ops st (mkBoolean b) (.bool b)
  | num {x neg t} : isNumber x = true → IsNumeral t → numText x = (if neg then [45] else []) ++ t → Denotes numText ops st x (.num neg t)
  | str {v bs} : isString v = true → Reads st v bs → Quotable bs → Denotes numText ops st v (.str bs)
  | arr {v l f} : isArray v = true → ArrayOps v ops f → IsLength f l.length →
      (∀ i j, l[i]? = some j → f i = none → j = .null) →
      (∀ i j x, l[i]? = some j → f i = some x → omitted x = true → j = .null) →
      (∀ i j x, l[i]? = some j → f i = some x → omitted x = false → Denotes numText ops st x j) →
      Denotes numText ops st v (.arr l)
  | obj {v ms} : created ops v → isArray v = false →
      ms.map (·.1) = (order ops v).filter (fun k => (current ops v k).any fun x => !omitted x) →
      (∀ k j, (k, j) ∈ ms → PlainKey k k ∧ k.length < 2 ^ 31) →
      (∀ k j x, (k, j) ∈ ms → current ops v k = some x → Denotes numText ops st x j) →
      Denotes numText ops st v (.obj ms)

end Mjs.Spec.Json
