import Verif.Model.Gc
import Verif.Lemmas.Arena
import Verif.Lemmas.StrStore

/-!
# What a collection has to keep

`Reach` says what the program can get at from a list of variables.  `Sound` describes the states a collection starts from.
-/

namespace Mjs.Spec.Gc
open Mjs Mjs.Mbuf Mjs.Varint Mjs.Str Mjs.Arena Mjs.Obj Mjs.Gc

variable {σ : Type}

/-- A thing in memory: a variable, an object, a property, an FFI signature, each with its address. -/
inductive Node where
  | slot (a : Nat)
  | obj (o : Nat)
  | prop (p : Nat)
  | sig (s : Nat)

/-- What can be reached from the variables `roots`: a variable leads to the object or signature it holds, an object to its
first property, a property to the next one and to its name and value. -/
inductive Reach (m : Mem σ) (roots : List Nat) : Node → Prop
  | root {a} : a ∈ roots → Reach m roots (.slot a)
  | obj {a v} : Reach m roots (.slot a) → readSlot m a = some v → isObject v = true →
      Reach m roots (.obj (getPtrRaw v).toNat)
  | sig {a v} : Reach m roots (.slot a) → readSlot m a = some v → isFfiSig v = true →
      Reach m roots (.sig (getPtrRaw v).toNat)
  | first {o c} : Reach m roots (.obj o) → m.heap.objs.mem o = some c → c.head ≠ 0 → Reach m roots (.prop c.head)
  | next {p c} : Reach m roots (.prop p) → m.heap.props.mem p = some c → c.head ≠ 0 → Reach m roots (.prop c.head)
  | name {p} : Reach m roots (.prop p) → Reach m roots (.slot (p + 8))
  | value {p} : Reach m roots (.prop p) → Reach m roots (.slot (p + 16))

/-- The content of `owned_strings` when it holds the strings `L`: a NUL, then for each string its length, its bytes and a
NUL (mjs_string.c:45-131). -/
def stringBytes (L : List (List UInt8)) : List UInt8 :=
  0 :: L.flatMap fun bs => encodeBytes bs.length ++ bs ++ [0]

/-- The value `v` refers to the string `bs` of the list, which lies behind the strings `pre`. -/
def refersTo (L : List (List UInt8)) (v : Val) (pre : List (List UInt8)) (bs : List UInt8) : Prop :=
  (∃ post, L = pre ++ bs :: post) ∧ v &&& tagMask = tagStringO ∧ valToOffset v = (stringBytes pre).length

/-- The states from which a collection starts: what can be reached is in use, unmarked, and well-formed; every object has
a property list of its own; strings refer to whole strings of the buffer, which holds the strings `L`. -/
structure Sound (m : Mem σ) (roots : List Nat) (L : List (List UInt8)) (fo fp fs : List Nat) : Prop where
  /-- the string buffers are well-formed, and small enough for the `int` arithmetic of the collector -/
  str : InvS m.heap.str
  content : m.heap.str.owned.content = stringBytes L
  long : ∀ bs ∈ L, 5 < bs.length
  small : m.heap.str.owned.len < 2 ^ 31
  /-- the arenas are well-formed, with free lists `fo`, `fp`, `fs` -/
  objs : Ok m.heap.objs fo
  props : Ok m.heap.props fp
  sigs : Ok m.sigs fs
  propSize : m.heap.props.cellSize = 24
  /-- variables outside property cells are neither NULL nor inside a property cell, and addresses have 48 bits -/
  vars : ∀ a, m.vars a ≠ none → 0 < a ∧ a < 2 ^ 48 ∧ m.heap.props.mem (a - 8) = none ∧ m.heap.props.mem (a - 16) = none
  /-- the roots are such variables -/
  rootVars : ∀ a ∈ roots, m.vars a ≠ none
  /-- every variable that can be reached exists and refers to something that exists -/
  slot : ∀ a, Reach m roots (.slot a) → ∃ v, readSlot m a = some v ∧
    (isObject v = true → Used m.heap.objs fo (getPtrRaw v).toNat) ∧
    (isFfiSig v = true → Used m.sigs fs (getPtrRaw v).toNat) ∧
    (v &&& tagMask = tagStringO → ∃ pre bs, refersTo L v pre bs)
  /-- no cell carries a mark -/
  cleanObj : ∀ o c, m.heap.objs.mem o = some c → c.head % 2 = 0
  cleanProp : ∀ p c, m.heap.props.mem p = some c → c.head % 2 = 0
  cleanSig : ∀ s c, m.sigs.mem s = some c → c.head % 2 = 0
  /-- every object has a finite list of properties that belong to it alone -/
  list : ∀ o c, Reach m roots (.obj o) → m.heap.objs.mem o = some c →
    ∃ l, FreeList m.heap.props.mem c.head l ∧ l.Nodup ∧ ∀ p ∈ l, p ∉ fp
  apart : ∀ o c l o' c' l', Reach m roots (.obj o) → Reach m roots (.obj o') → m.heap.objs.mem o = some c →
    m.heap.objs.mem o' = some c' → FreeList m.heap.props.mem c.head l → FreeList m.heap.props.mem c'.head l' →
    ∀ p ∈ l, p ∈ l' → o = o'

/-- Blocks without a cell in use are given back, except for the last one of the list. -/
def Released {α : Type} (a a' : Arena α) (fl' : List Nat) : Prop :=
  a'.blocks.Sublist a.blocks ∧ ∀ b pre post, a'.blocks = pre ++ b :: post → post ≠ [] → 0 < b.2 →
    ∃ x ∈ cells a.cellSize b.1 b.2, Used a' fl' x

/-- What a collection makes of the state `m`: the state `m'` with the strings `L'` and the free lists `fo'`, `fp'`, `fs'`. -/
structure Collected (m m' : Mem σ) (roots : List Nat) (L L' : List (List UInt8)) (fo' fp' fs' : List Nat) : Prop where
  /-- objects that can be reached have the same cell, with the same content -/
  objs : ∀ o, Reach m roots (.obj o) → m'.heap.objs.mem o = m.heap.objs.mem o
  sigs : ∀ s, Reach m roots (.sig s) → m'.sigs.mem s = m.sigs.mem s
  /-- properties that can be reached have the same cell and the same successor -/
  links : ∀ p, Reach m roots (.prop p) → ∃ c c', m.heap.props.mem p = some c ∧ m'.heap.props.mem p = some c' ∧ c'.head = c.head
  /-- variables that can be reached have the same value, or refer to the same string at its new place -/
  vals : ∀ a v, Reach m roots (.slot a) → readSlot m a = some v → ∃ v', readSlot m' a = some v' ∧
    (v &&& tagMask ≠ tagStringO → v' = v) ∧ ∀ pre bs, refersTo L v pre bs → ∃ pre', refersTo L' v' pre' bs
  /-- values that were equal are equal, and no others -/
  share : ∀ a b v w v' w', Reach m roots (.slot a) → Reach m roots (.slot b) → readSlot m a = some v → readSlot m b = some w →
    readSlot m' a = some v' → readSlot m' b = some w' → (v' = w' ↔ v = w)
  /-- cells in use are those that could be reached -/
  liveObj : ∀ o, Used m'.heap.objs fo' o ↔ Reach m roots (.obj o)
  liveProp : ∀ p, Used m'.heap.props fp' p ↔ Reach m roots (.prop p)
  liveSig : ∀ s, Used m'.sigs fs' s ↔ Reach m roots (.sig s)
  blockObj : Released m.heap.objs m'.heap.objs fo'
  blockProp : Released m.heap.props m'.heap.props fp'
  blockSig : Released m.sigs m'.sigs fs'
  /-- the strings are some of those before, in the same order, and each is referred to -/
  sub : L'.Sublist L
  strings : ∀ pre bs post, L' = pre ++ bs :: post → ∃ a v', Reach m roots (.slot a) ∧ readSlot m' a = some v' ∧ refersTo L' v' pre bs
  /-- other buffers and variables that cannot be reached are untouched -/
  foreign : m'.heap.str.foreign = m.heap.str.foreign ∧ m'.heap.str.cmem = m.heap.str.cmem
  others : ∀ a, ¬ Reach m roots (.slot a) → m'.vars a = m.vars a
  /-- the same can be reached, and the next collection can start -/
  reach : ∀ n, Reach m' roots n ↔ Reach m roots n
  sound : Sound m' roots L' fo' fp' fs'

end Mjs.Spec.Gc
