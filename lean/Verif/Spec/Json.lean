import Verif.Spec.ObjMap
import Verif.Spec.Numeral

/-!
# JSON texts and the values they describe

The grammar of RFC 8259, on bytes.  Unicode escapes are those of ASCII characters only; that other characters are encoded in
UTF-8 is required only as far as the lead byte says how many bytes follow.
-/

namespace Mjs.Spec.Json
open Mjs.Spec

/-- A described value; numbers are given by their sign and numeral. -/
inductive J where
  | null
  | bool (b : Bool)
  | num (neg : Bool) (t : List UInt8)
  | str (bs : List UInt8)
  | arr (l : List J)
  | obj (ms : List (Key × J))

/-- Blank, tab, line feed, carriage return. -/
def Blank (w : List UInt8) : Prop := ∀ c ∈ w, c = 32 ∨ c = 9 ∨ c = 10 ∨ c = 13

/-- A character that stands for itself: an ASCII character that is not a control character, quote or backslash. -/
def Plain (c : UInt8) : Prop := 32 ≤ c.toNat ∧ c.toNat < 128 ∧ c ≠ 34 ∧ c ≠ 92

/-- A continuation byte of UTF-8. -/
def Cont (c : UInt8) : Prop := 128 ≤ c.toNat ∧ c.toNat < 192

/-- `\" \\ \/ \b \f \n \r \t`. -/
inductive Esc : UInt8 → UInt8 → Prop
  | quote : Esc 34 34
  | backslash : Esc 92 92
  | slash : Esc 47 47
  | b : Esc 98 8
  | f : Esc 102 12
  | n : Esc 110 10
  | r : Esc 114 13
  | t : Esc 116 9

/-- Hexadecimal digits, small and capital. -/
inductive Hex : UInt8 → Nat → Prop
  | dec {c : UInt8} : 48 ≤ c.toNat → c.toNat ≤ 57 → Hex c (c.toNat - 48)
  | small {c : UInt8} : 97 ≤ c.toNat → c.toNat ≤ 102 → Hex c (c.toNat - 87)
  | capital {c : UInt8} : 65 ≤ c.toNat → c.toNat ≤ 70 → Hex c (c.toNat - 55)

/-- The text between the quotes of a string, and the bytes of the string. -/
inductive Chars : List UInt8 → List UInt8 → Prop
  | nil : Chars [] []
  | plain {c t b} : Plain c → Chars t b → Chars (c :: t) (c :: b)
  | two {c x t b} : 192 ≤ c.toNat → c.toNat < 224 → Cont x → Chars t b → Chars (c :: x :: t) (c :: x :: b)
  | three {c x y t b} : 224 ≤ c.toNat → c.toNat < 240 → Cont x → Cont y → Chars t b → Chars (c :: x :: y :: t) (c :: x :: y :: b)
  | four {c x y z t b} : 240 ≤ c.toNat → Cont x → Cont y → Cont z → Chars t b →
      Chars (c :: x :: y :: z :: t) (c :: x :: y :: z :: b)
  | esc {c e t b} : Esc c e → Chars t b → Chars (92 :: c :: t) (e :: b)
  | ascii {x y n m t b} : Hex x n → Hex y m → n < 8 → Chars t b →
      Chars (92 :: 117 :: 48 :: 48 :: x :: y :: t) (UInt8.ofNat (n * 16 + m) :: b)

/-- A decimal digit. -/
def Digit (c : UInt8) : Prop := 48 ≤ c.toNat ∧ c.toNat ≤ 57

/-- One or more digits. -/
def Digits (t : List UInt8) : Prop := t ≠ [] ∧ ∀ c ∈ t, Digit c

/-- A numeral without sign: digits without superfluous zero, a fraction, an exponent. -/
def IsNumeral (t : List UInt8) : Prop :=
  ∃ i f e, t = i ++ (f ++ e) ∧ Digits i ∧ (i.head? = some 48 → i = [48]) ∧
    (f = [] ∨ ∃ ds, f = 46 :: ds ∧ Digits ds) ∧
    (e = [] ∨ ∃ c s ds, e = c :: (s ++ ds) ∧ (c = 101 ∨ c = 69) ∧ (s = [] ∨ s = [43] ∨ s = [45]) ∧ Digits ds)

/-- Items with commas between them and blanks behind them. -/
inductive Sep {α : Type} (W : α → List UInt8 → Prop) : List α → List UInt8 → Prop
  | none : Sep W [] []
  | last {a t w} : W a t → Blank w → Sep W [a] (t ++ w)
  | more {a b l t w w' t'} : W a t → Blank w → Blank w' → Sep W (b :: l) t' → Sep W (a :: b :: l) (t ++ (w ++ 44 :: (w' ++ t')))

/-- A member of an object; `K` says how keys are written. -/
inductive Member (K : List UInt8 → Key → Prop) (W : J → List UInt8 → Prop) : Key × J → List UInt8 → Prop
  | mk {body k j w w' t} : K body k → Blank w → Blank w' → W j t →
      Member K W (k, j) (34 :: (body ++ 34 :: (w ++ 58 :: (w' ++ t))))

/-- The texts of a value; `K` says how keys are written. -/
inductive Writes (K : List UInt8 → Key → Prop) : J → List UInt8 → Prop
  | null : Writes K .null [110, 117, 108, 108]
  | true : Writes K (.bool true) [116, 114, 117, 101]
  | false : Writes K (.bool false) [102, 97, 108, 115, 101]
  | num {neg t} : IsNumeral t → Writes K (.num neg t) ((if neg then [45] else []) ++ t)
  | str {body bs} : Chars body bs → Writes K (.str bs) (34 :: (body ++ [34]))
  | arr {l w t} : Blank w → Sep (Writes K) l t → Writes K (.arr l) (91 :: (w ++ (t ++ [93])))
  | obj {ms w t} : Blank w → Sep (Member K (Writes K)) ms t → Writes K (.obj ms) (123 :: (w ++ (t ++ [125])))

/-- JSON: keys are written like strings. -/
abbrev JsonText : J → List UInt8 → Prop := Writes Chars

/-- Keys without escapes that are not empty and do not end in a dot. -/
def PlainKey (body : List UInt8) (k : Key) : Prop := body = k ∧ Chars k k ∧ (92 : UInt8) ∉ k ∧ k ≠ [] ∧ k.getLast? ≠ some 46

/-- What an object has under a key: the value of the last member with this key. -/
def lastOf {α : Type} (ms : List (Key × α)) (k : Key) : Option α := (ms.reverse.find? fun m => m.1 == k).map (·.2)

/-- `Fits n j`: at a place whose path is `n` bytes long, the paths of all parts of `j` have at most 255 bytes.  The path of
an element adds its index in brackets to that of the array, the path of a member a dot and the key. -/
inductive Fits : Nat → J → Prop
  | null {n} : Fits n .null
  | bool {n b} : Fits n (.bool b)
  | num {n neg t} : Fits n (.num neg t)
  | str {n bs} : Fits n (.str bs)
  | arr {n : Nat} {l : List J} : (∀ (i : Nat) (j : J) (t : List UInt8), l[i]? = some j → Numeral.Nat 10 i t → n + t.length + 2 ≤ 255) →
      (∀ (i : Nat) (j : J) (t : List UInt8), l[i]? = some j → Numeral.Nat 10 i t → Fits (n + t.length + 2) j) → Fits n (.arr l)
  | obj {n : Nat} {ms : List (Key × J)} : n + 1 ≤ 255 → (∀ k j, (k, j) ∈ ms → n + 1 + k.length ≤ 255) →
      (∀ k j, (k, j) ∈ ms → Fits (n + 1 + k.length) j) → Fits n (.obj ms)

end Mjs.Spec.Json
