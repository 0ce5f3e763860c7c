import Verif.Spec.Json

/-!
# JSON texts as trees, and how they are laid out

A tree has all the bytes of a text: words, numbers and strings as they are written, keys, and the blanks between them.
-/

namespace Mjs.Spec.Json
open Mjs.Spec

mutual
/-- A text: `raw`, or `[` or `{`, blanks, and what is inside. -/
inductive Doc where
  | atom (raw : List UInt8)
  | list (w : List UInt8) (l : Elems)
  | record (w : List UInt8) (l : Members)
/-- Elements: a text, the blanks behind it, the blanks behind the comma. -/
inductive Elems where
  | nil
  | cons (d : Doc) (w w' : List UInt8) (l : Elems)
/-- Members: a key, the blanks before and behind the colon, a text, the blanks behind it, the blanks behind the comma. -/
inductive Members where
  | nil
  | cons (k : Key) (u u' : List UInt8) (d : Doc) (w w' : List UInt8) (l : Members)
end

/-- `"key"`. -/
def quoted (k : Key) : List UInt8 := 34 :: (k ++ [34])

/-- A comma and the blanks behind it, if something follows. -/
def Elems.comma (w : List UInt8) : Elems → List UInt8
  | .nil => []
  | .cons .. => 44 :: w

/-- The same for members. -/
def Members.comma (w : List UInt8) : Members → List UInt8
  | .nil => []
  | .cons .. => 44 :: w

mutual
/-- The bytes of a tree. -/
def Doc.text : Doc → List UInt8
  | .atom raw => raw
  | .list w l => 91 :: (w ++ (l.text ++ [93]))
  | .record w l => 123 :: (w ++ (l.text ++ [125]))
def Elems.text : Elems → List UInt8
  | .nil => []
  | .cons d w w' l => d.text ++ (w ++ (l.comma w' ++ l.text))
def Members.text : Members → List UInt8
  | .nil => []
  | .cons k u u' d w w' l => quoted k ++ (u ++ 58 :: (u' ++ (d.text ++ (w ++ (l.comma w' ++ l.text)))))
end

mutual
/-- The tree is a JSON text, and `j` is what it describes; keys have no escapes. -/
def Doc.Says : Doc → J → Prop
  | .atom raw, j => Writes PlainKey j raw ∧ (∀ l, j ≠ .arr l) ∧ ∀ ms, j ≠ .obj ms
  | .list w l, j => ∃ js, j = .arr js ∧ Blank w ∧ l.Says js
  | .record w l, j => ∃ ms, j = .obj ms ∧ Blank w ∧ l.Says ms
def Elems.Says : Elems → List J → Prop
  | .nil, js => js = []
  | .cons d w w' l, js => ∃ j js', js = j :: js' ∧ d.Says j ∧ Blank w ∧ Blank w' ∧ l.Says js'
def Members.Says : Members → List (Key × J) → Prop
  | .nil, ms => ms = []
  | .cons k u u' d w w' l, ms => ∃ j ms', ms = (k, j) :: ms' ∧ PlainKey k k ∧ d.Says j ∧ Blank u ∧ Blank u' ∧ Blank w ∧ Blank w' ∧ l.Says ms'
end

/-- A new line and two blanks for each level. -/
def newline (level : Nat) : List UInt8 := 10 :: (List.replicate level [32, 32]).flatten

/-- The blanks before a closing bracket: none if nothing is inside. -/
def Elems.close (level : Nat) : Elems → List UInt8
  | .nil => []
  | .cons .. => newline level

/-- The same for members. -/
def Members.close (level : Nat) : Members → List UInt8
  | .nil => []
  | .cons .. => newline level

/-- The blanks behind an element: a new line behind the last one. -/
def Elems.ending (level : Nat) : Elems → List UInt8
  | .nil => newline level
  | .cons .. => []

/-- The same for members. -/
def Members.ending (level : Nat) : Members → List UInt8
  | .nil => newline level
  | .cons .. => []

mutual
/-- The same tree with other blanks: every element and every member begins a line, indented by its depth; one blank follows
every colon; a closing bracket has its own line unless nothing is inside. -/
def Doc.lay (level : Nat) : Doc → Doc
  | .atom raw => .atom raw
  | .list _ l => .list (l.close (level + 1)) (l.lay level)
  | .record _ l => .record (l.close (level + 1)) (l.lay level)
def Elems.lay (level : Nat) : Elems → Elems
  | .nil => .nil
  | .cons d _ _ l => .cons (d.lay (level + 1)) (l.ending level) (newline (level + 1)) (l.lay level)
def Members.lay (level : Nat) : Members → Members
  | .nil => .nil
  | .cons k _ _ d _ _ l =>
    .cons k [] [32] (d.lay (level + 1)) (l.ending level) (newline (level + 1)) (l.lay level)
end

mutual
/-- All keys have the property. -/
def Doc.Keys (P : Key → Prop) : Doc → Prop
  | .atom _ => True
  | .list _ l => l.Keys P
  | .record _ l => l.Keys P
def Elems.Keys (P : Key → Prop) : Elems → Prop
  | .nil => True
  | .cons d _ _ l => d.Keys P ∧ l.Keys P
def Members.Keys (P : Key → Prop) : Members → Prop
  | .nil => True
  | .cons k _ _ d _ _ l => P k ∧ d.Keys P ∧ l.Keys P
end

mutual
/-- How deep a tree is nested. -/
def Doc.depth : Doc → Nat
  | .atom _ => 1
  | .list _ l => l.depth + 1
  | .record _ l => l.depth + 1
def Elems.depth : Elems → Nat
  | .nil => 0
  | .cons d _ _ l => max d.depth l.depth
def Members.depth : Members → Nat
  | .nil => 0
  | .cons _ _ _ d _ _ l => max d.depth l.depth
end

/-- `[i]`. -/
def index (i : Nat) : List UInt8 := 91 :: ((Nat.toDigits 10 i).map (fun c => UInt8.ofNat c.toNat) ++ [93])

/-- How a part is reached from the one it belongs to. -/
inductive Step where
  | root
  | index (i : Nat)
  | key (k : Key)
  deriving DecidableEq

/-- What a step adds to the path: the index in brackets, or a dot and the key. -/
def Step.text : Step → List UInt8
  | .root => []
  | .index i => Json.index i
  | .key k => 46 :: k

/-- A part of a text: the path of the array or object it belongs to, the step, its tree, what follows it. -/
structure Part where
  parent : List UInt8
  step : Step
  doc : Doc
  post : List UInt8

/-- The path of a part. -/
def Part.path (x : Part) : List UInt8 := x.parent ++ x.step.text

mutual
/-- All parts of a text reached from `p` by the step `st` and followed by `r`, in the order in which they begin. -/
def Doc.parts (p : List UInt8) (st : Step) (r : List UInt8) : Doc → List Part
  | .atom raw => [⟨p, st, .atom raw, r⟩]
  | .list w l => ⟨p, st, .list w l, r⟩ :: l.parts (p ++ st.text) 0 (93 :: r)
  | .record w l => ⟨p, st, .record w l, r⟩ :: l.parts (p ++ st.text) (125 :: r)
def Elems.parts (p : List UInt8) (i : Nat) (r : List UInt8) : Elems → List Part
  | .nil => []
  | .cons d w w' l => d.parts p (.index i) (w ++ (l.comma w' ++ (l.text ++ r))) ++ l.parts p (i + 1) r
def Members.parts (p r : List UInt8) : Members → List Part
  | .nil => []
  | .cons k _ _ d w w' l => d.parts p (.key k) (w ++ (l.comma w' ++ (l.text ++ r))) ++ l.parts p r
end

/-- The elements of an array. -/
def Elems.docs : Elems → List Doc
  | .nil => []
  | .cons d _ _ l => d :: l.docs

/-- The members of an object. -/
def Members.pairs : Members → List (Key × Doc)
  | .nil => []
  | .cons k _ _ d _ _ l => (k, d) :: l.pairs

/-- One more member at the end, before the blanks that stood there. -/
def Members.add (k : Key) (v : Doc) : Members → Members
  | .nil => .cons k [] [] v [] [] .nil
  | .cons k' u u' d w _ .nil => .cons k' u u' d [] [] (.cons k [] [] v w [] .nil)
  | .cons k' u u' d w w' l => .cons k' u u' d w w' (l.add k v)

/-- The path with these keys. -/
def keyPath (ks : List Key) : List UInt8 := ks.flatMap (46 :: ·)

/-- Objects inside each other, with one member each: `{"k":{"k'":v}}`. -/
def nest (v : Doc) : List Key → Doc
  | [] => v
  | k :: ks => .record [] (.cons k [] [] (nest v ks) [] [] .nil)

/-- The same as a value. -/
def nestValue (j : J) : List Key → J
  | [] => j
  | k :: ks => .obj [(k, nestValue j ks)]

/-- Strings, which begin with a quote. -/
def Doc.isString (D : Doc) : Bool := D.text.head? = some 34

/-- What a token shows of a value: a string without its quotes, everything else as it is written. -/
def Doc.shown (D : Doc) : List UInt8 := if D.isString then (D.text.drop 1).dropLast else D.text

/-- The text from there on. -/
def Doc.from (D : Doc) (post : List UInt8) : List UInt8 := (if D.isString then D.text.drop 1 else D.text) ++ post

end Mjs.Spec.Json
