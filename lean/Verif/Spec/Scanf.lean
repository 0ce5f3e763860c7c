import Verif.Spec.JsonDoc

/-!
# Formats that name values of a JSON text

`{a: %T, b: {c: %B}}` asks for the values at `.a` and `.b.c`.
-/

namespace Mjs.Spec.Json

mutual
/-- A format: `%` and what says how a value is read, or `{`, blanks and fields. -/
inductive Fmt where
  | conv (t : List UInt8)
  | obj (w : List UInt8) (l : Fields)
/-- Fields: a key, the blanks before and behind the colon, a format, the blanks behind it, the blanks behind the comma. -/
inductive Fields where
  | nil
  | cons (k : Key) (u u' : List UInt8) (f : Fmt) (w w' : List UInt8) (l : Fields)
end

/-- A comma and the blanks behind it, if something follows. -/
def Fields.comma (w : List UInt8) : Fields → List UInt8
  | .nil => []
  | .cons .. => 44 :: w

mutual
/-- The bytes of a format. -/
def Fmt.text : Fmt → List UInt8
  | .conv t => 37 :: t
  | .obj w l => 123 :: (w ++ (l.text ++ [125]))
def Fields.text : Fields → List UInt8
  | .nil => []
  | .cons k u u' f w w' l => k ++ (u ++ 58 :: (u' ++ (f.text ++ (w ++ (l.comma w' ++ l.text)))))
end

mutual
/-- What a format at the path `p` asks for: how values are read, and their paths. -/
def Fmt.wants (p : List UInt8) : Fmt → List (List UInt8 × List UInt8)
  | .conv t => [(t, p)]
  | .obj _ l => l.wants p
def Fields.wants (p : List UInt8) : Fields → List (List UInt8 × List UInt8)
  | .nil => []
  | .cons k _ _ f _ _ l => f.wants (p ++ 46 :: k) ++ l.wants p
end

/-- One of the letters `M`, `V`, `H`, `B`, `Q`, `T`. -/
def Letter (t : List UInt8) : Prop := t = [77] ∨ t = [86] ∨ t = [72] ∨ t = [66] ∨ t = [81] ∨ t = [84]

/-- Another conversion: short, without commas, blanks and closing brackets, and not beginning with one of these letters. -/
def Number (t : List UInt8) : Prop := t ≠ [] ∧ t.length ≤ 18 ∧ (∀ c ∈ t, c ∉ ([44, 32, 9, 13, 10, 93, 125] : List UInt8)) ∧ ∀ c, t.head? = some c → ¬ Letter [c]

/-- A key of a format: it begins with a letter or a byte above 127, and has no colon, blank or dot. -/
def FmtKey (k : Key) : Prop :=
  (∀ c ∈ k, c ∉ ([58, 32, 13, 10, 9, 46, 0] : List UInt8)) ∧ ∃ c t, k = c :: t ∧ ((97 ≤ c.toNat ∧ c.toNat ≤ 122) ∨ (65 ≤ c.toNat ∧ c.toNat ≤ 90) ∨ 128 ≤ c.toNat)

mutual
/-- The format is well formed, and all paths fit into 255 bytes; `n` is the length of its path.  A number is not the last field of an object, except if nothing but
blanks and closing brackets follows (`e` is true). -/
def Fmt.Fine (n : Nat) (e : Bool) : Fmt → Prop
  | .conv t => Letter t ∨ (e = true ∧ Number t)
  | .obj w l => n + 1 ≤ 255 ∧ Blank w ∧ l.Fine n e
def Fields.Fine (n : Nat) (e : Bool) : Fields → Prop
  | .nil => True
  | .cons k u u' f w w' l => FmtKey k ∧ Blank u ∧ Blank u' ∧ Blank w ∧ Blank w' ∧ n + 1 + k.length ≤ 255 ∧ l.Fine n e ∧
      ((l = .nil ∧ f.Fine (n + 1 + k.length) e) ∨ (l ≠ .nil ∧ (f.Fine (n + 1 + k.length) false ∨ ∃ t, f = .conv t ∧ Number t)))
end

end Mjs.Spec.Json
