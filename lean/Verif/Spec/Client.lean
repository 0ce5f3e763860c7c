import Verif.Model.Value

/-!
# What a C program that uses the engine's values may rely on

The program has variables of type `mjs_val_t`; it puts primitive values, strings and objects into them, reads and writes
properties, registers variables with `mjs_own`, and collections happen.  In this description there is no heap, no string
buffer and no address of an object: a collection changes nothing at all, except that variables that are not registered
lose strings and objects.
-/

namespace Mjs.Spec.Client
open Mjs

/-- A value: a primitive value, a string of bytes, an object with its identity. -/
inductive AVal where
  | prim (v : Val)
  | str (bs : List UInt8)
  | obj (i : Nat)

/-- The variables that exist, by address, the objects with their properties, newest first, how many objects were made,
and the registrations. -/
structure World where
  vars : Nat → Option AVal
  objs : Nat → List (List UInt8 × AVal)
  next : Nat
  /-- the variables of the engine itself, always registered -/
  fixed : List Nat
  /-- those registered by `mjs_own`, with multiplicity -/
  owned : List Nat

/-- What the program does. -/
inductive Op where
  /-- a variable comes into existence, with the value undefined -/
  | declare (a : Nat)
  /-- `mjs_own(mjs, a)` -/
  | own (a : Nat)
  /-- `mjs_disown(mjs, a)` -/
  | disown (a : Nat)
  /-- `*a = v` for a primitive value -/
  | put (a : Nat) (v : Val)
  /-- `*a = *b` -/
  | copy (a b : Nat)
  /-- `*a = mjs_mk_object(mjs)` -/
  | newObj (a : Nat)
  /-- `*a = mjs_mk_string(mjs, bs, len, 1)` -/
  | newStr (a : Nat) (bs : List UInt8)
  /-- `mjs_set(mjs, *a, k, len, *b)` -/
  | set (a : Nat) (k : List UInt8) (b : Nat)
  /-- `*c = mjs_get(mjs, *a, k, len)` -/
  | get (c a : Nat) (k : List UInt8)
  /-- `mjs_del(mjs, *a, k, len)` -/
  | del (a : Nat) (k : List UInt8)
  /-- `mjs_gc(mjs, full)` -/
  | gc

/-- The value of a property, undefined if there is none. -/
def valueOf (l : List (List UInt8 × AVal)) (k : List UInt8) : AVal :=
  ((l.find? fun q => q.1 == k).map (·.2)).getD (.prim mkUndefined)

/-- The properties after an assignment. -/
def assignTo (l : List (List UInt8 × AVal)) (k : List UInt8) (x : AVal) : List (List UInt8 × AVal) :=
  if l.any fun q => q.1 == k then l.map fun q => if q.1 == k then (k, x) else q else (k, x) :: l

/-- Primitive values: no string, no object, no FFI signature. -/
def IsPrim (v : Val) : Prop := isObject v = false ∧ isString v = false ∧ isFfiSig v = false

def World.assign (w : World) (a : Nat) (x : AVal) : World := { w with vars := fun b => if b = a then some x else w.vars b }

def World.setObj (w : World) (i : Nat) (l : List (List UInt8 × AVal)) : World :=
  { w with objs := fun j => if j = i then l else w.objs j }

/-- What one operation does. -/
inductive Means : World → Op → World → Prop
  | declare {w a} : Means w (.declare a) (w.assign a (.prim mkUndefined))
  | own {w a} : w.vars a ≠ none → Means w (.own a) { w with owned := a :: w.owned }
  | disown {w a} : Means w (.disown a) { w with owned := w.owned.erase a }
  | put {w a v} : w.vars a ≠ none → IsPrim v → Means w (.put a v) (w.assign a (.prim v))
  | copy {w a b x} : w.vars a ≠ none → w.vars b = some x → Means w (.copy a b) (w.assign a x)
  | newObj {w a} : w.vars a ≠ none →
      Means w (.newObj a) { (w.setObj w.next []).assign a (.obj w.next) with next := w.next + 1 }
  | newStr {w a bs} : w.vars a ≠ none → Means w (.newStr a bs) (w.assign a (.str bs))
  | set {w a k b i x} : w.vars a = some (.obj i) → w.vars b = some x →
      Means w (.set a k b) (w.setObj i (assignTo (w.objs i) k x))
  | get {w c a k i} : w.vars c ≠ none → w.vars a = some (.obj i) → Means w (.get c a k) (w.assign c (valueOf (w.objs i) k))
  | del {w a k i} : w.vars a = some (.obj i) →
      Means w (.del a k) (w.setObj i ((w.objs i).filter fun q => !(q.1 == k)))
  | gc {w} : Means w .gc { w with vars := fun a => match w.vars a with
      | some (.prim v) => some (.prim v)
      | x => if a ∈ w.fixed ∨ a ∈ w.owned then x else none }

end Mjs.Spec.Client
