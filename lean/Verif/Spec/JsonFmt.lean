import Verif.Model.JPrintf
import Verif.Spec.Json

/-!
# Formats that print JSON

`{a: %d, %Q: [%Q, %B]}` with arguments describes a value: `Describes E S U j fmt args` says that the format with these arguments describes `j`.  From the model only the
types of arguments and of what is outside are used.
-/

namespace Mjs.Spec.JsonFmt
open Mjs.Spec Mjs.Spec.Json Mjs.JPrintf

/-- A small hexadecimal digit. -/
def hexDigit (n : Nat) : UInt8 := UInt8.ofNat (if n < 10 then 48 + n else 87 + n)

/-- Two hexadecimal digits for each byte. -/
def hexText (bs : List UInt8) : List UInt8 := bs.flatMap fun b => [hexDigit (b.toNat / 16), hexDigit (b.toNat % 16)]

/-- Conversions of the C library: at most 18 of the bytes `sdfFeEgGlhuIcx.*-0123456789`, not beginning with `lld` or `llu`. -/
def Spec (s : List UInt8) : Prop :=
  s ≠ [] ∧ s.length ≤ 18 ∧ (∀ c ∈ s, c ∈ specChars) ∧ s.take 3 ≠ [108, 108, 100] ∧ s.take 3 ≠ [108, 108, 117]

/-- An argument that is no `double`. -/
def Word : Arg → Prop
  | .dbl _ => False
  | _ => True

/-- The arguments of such a conversion: a `double` for those that end in `f` or `g`, two for `.*s`, one for all others. -/
def Uses (s : List UInt8) (a : List Arg) : Prop :=
  (s = [46, 42, 115] ∧ ∃ x y, a = [x, y] ∧ Word x ∧ Word y) ∨
  ((s.getLast? = some 102 ∨ s.getLast? = some 103) ∧ ∃ b, a = [.dbl b]) ∨
  (s ≠ [46, 42, 115] ∧ s.getLast? ≠ some 102 ∧ s.getLast? ≠ some 103 ∧ ∃ x, a = [x] ∧ Word x)

/-- `Item E S j f args`: the conversion `%f` with these arguments describes `j`; `S bs t` says that `t` is the Base64 text of `bs`, `U` which strings can be written. -/
inductive Item (E : Env) (S : List UInt8 → List UInt8 → Prop) (U : List UInt8 → Prop) : J → List UInt8 → List Arg → Prop
  | lld {n : Int} {t} : -2 ^ 63 ≤ n → n < 2 ^ 63 → Numeral.Nat 10 n.natAbs t → Item E S U (.num (decide (n < 0)) t) [108, 108, 100] [.long n]
  | llu {n : Int} {t} : 0 ≤ n → n < 2 ^ 64 → Numeral.Nat 10 n.toNat t → Item E S U (.num false t) [108, 108, 117] [.long n]
  | zu {n : Int} {t} : 0 ≤ n → n < 2 ^ 64 → Numeral.Nat 10 n.toNat t → Item E S U (.num false t) [122, 117] [.long n]
  | bool {n : Int} : Item E S U (.bool (decide (n ≠ 0))) [66] [.int n]
  | hex {bs x} : Item E S U (.str (hexText bs)) [72] [.int bs.length, .ptr (some (bs ++ x))]
  | base64 {bs t x} : S bs t → Item E S U (.str t) [86] [.ptr (some (bs ++ x)), .int bs.length]
  | nullptr : Item E S U .null [81] [.ptr none]
  | str {s x} : U s → (0 : UInt8) ∉ s → Item E S U (.str s) [81] [.ptr (some (s ++ 0 :: x))]
  | nullcount {n} : Item E S U .null [46, 42, 81] [.int n, .ptr none]
  | count {s x} : U s → s.length < 2 ^ 31 → Item E S U (.str s) [46, 42, 81] [.int s.length, .ptr (some (s ++ x))]
  | call {j t i a} : JsonText j t → (0 : UInt8) ∉ t → (∀ r, E.call i (a ++ r) = some (t, r)) → Item E S U j [77] (.fn i :: a)
  | sys {j t s a} : Spec s → Uses s a → JsonText j t → (0 : UInt8) ∉ t → (∀ r, E.sys (37 :: s) (a ++ r) = some t) → Item E S U j s a

/-- A key: letters, digits and underscores, not beginning with a digit. -/
def Ident (k : Key) : Prop :=
  (∀ c ∈ k, c = 95 ∨ (97 ≤ c.toNat ∧ c.toNat ≤ 122) ∨ (65 ≤ c.toNat ∧ c.toNat ≤ 90) ∨ (48 ≤ c.toNat ∧ c.toNat ≤ 57)) ∧
    ∃ c t, k = c :: t ∧ ¬ (48 ≤ c.toNat ∧ c.toNat ≤ 57)

/-- A key in the format: as it is, or from an argument. -/
inductive KeyFmt (U : List UInt8 → Prop) : Key → List UInt8 → List Arg → Prop
  | ident {k} : Ident k → KeyFmt U k k []
  | quoted {k x} : U k → (0 : UInt8) ∉ k → KeyFmt U k [37, 81] [.ptr (some (k ++ 0 :: x))]

mutual
/-- The format with the arguments describes the value. -/
inductive Describes (E : Env) (S : List UInt8 → List UInt8 → Prop) (U : List UInt8 → Prop) : J → List UInt8 → List Arg → Prop
  | item {j f a} : Item E S U j f a → Describes E S U j (37 :: f) a
  | num {neg t} : IsNumeral t → (∀ c ∈ t, c ≠ 101 ∧ c ≠ 69) → Describes E S U (.num neg t) ((if neg then [45] else []) ++ t) []
  | arr {l w t a} : Blank w → Elements E S U l t a → Describes E S U (.arr l) (91 :: (w ++ (t ++ [93]))) a
  | obj {ms w t a} : Blank w → Fields E S U ms t a → Describes E S U (.obj ms) (123 :: (w ++ (t ++ [125]))) a
/-- Elements with commas between them. -/
inductive Elements (E : Env) (S : List UInt8 → List UInt8 → Prop) (U : List UInt8 → Prop) : List J → List UInt8 → List Arg → Prop
  | none : Elements E S U [] [] []
  | last {j t a w} : Describes E S U j t a → Blank w → Elements E S U [j] (t ++ w) a
  | more {j j' l t a w w' t' a'} : Describes E S U j t a → Blank w → Blank w' → Elements E S U (j' :: l) t' a' →
      Elements E S U (j :: j' :: l) (t ++ (w ++ 44 :: (w' ++ t'))) (a ++ a')
/-- Members with commas between them. -/
inductive Fields (E : Env) (S : List UInt8 → List UInt8 → Prop) (U : List UInt8 → Prop) : List (Key × J) → List UInt8 → List Arg → Prop
  | none : Fields E S U [] [] []
  | last {k kf ka u u' j t a w} : KeyFmt U k kf ka → Blank u → Blank u' → Describes E S U j t a → Blank w →
      Fields E S U [(k, j)] (kf ++ (u ++ 58 :: (u' ++ (t ++ w)))) (ka ++ a)
  | more {k kf ka u u' j m l t a w w' t' a'} : KeyFmt U k kf ka → Blank u → Blank u' → Describes E S U j t a → Blank w → Blank w' → Fields E S U (m :: l) t' a' →
      Fields E S U ((k, j) :: m :: l) (kf ++ (u ++ 58 :: (u' ++ (t ++ (w ++ 44 :: (w' ++ t')))))) (ka ++ (a ++ a'))
end

end Mjs.Spec.JsonFmt
