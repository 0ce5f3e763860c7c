import Verif.Model.Arena

/-!
# Model of what the cell allocator gives back: destructors and blocks (`src/mjs_gc.c`)

`Model/Arena.lean` has the sweep itself; here is what it does outside of the arena: the cells on which it calls the destructor, and the
blocks it returns to the C allocator, in order.
-/

namespace Mjs.Arena

variable {α : Type} [Inhabited α]

/-- The cells of one block on which the destructor is called, mjs_gc.c:201-239 (line 226). -/
def sweepCellsLog (cellSize : Nat) (mem : Nat → Option (Cell α)) (free cur : Nat) : Nat → Option (List Nat)
  | 0 => some []
  | n + 1 => (mem cur).bind fun c => (sweepCell mem free cur).bind fun r =>
      (sweepCellsLog cellSize r.1 r.2.1 (cur + cellSize) n).map fun l =>
        if marked c.head then l else if markedFree c.head then l else cur :: l

/-- The loop over the blocks, mjs_gc.c:192-255: the cells destroyed, and the blocks released (line 248). -/
def sweepBlocksLog (cellSize : Nat) (mem : Nat → Option (Cell α)) (free : Nat) :
    List (Nat × Nat) → Option (List Nat × List (Nat × Nat))
  | [] => some ([], [])
  | (base, size) :: rest => (sweepCells cellSize mem free base 0 size).bind fun r =>
      (sweepCellsLog cellSize mem free base size).bind fun d =>
        if rest ≠ [] ∧ r.2.2 = size then
          (sweepBlocksLog cellSize (dropCells cellSize r.1 base size) free rest).map fun q => (d ++ q.1, (base, size) :: q.2)
        else (sweepBlocksLog cellSize r.1 r.2.1 rest).map fun q => (d ++ q.1, q.2)

/-- `gc_sweep`, mjs_gc.c:167-256: the cells destroyed, and the blocks released. -/
def sweepLog (a : Arena α) : Option (List Nat × List (Nat × Nat)) :=
  (markFreeList a.mem a.free).bind fun mem => sweepBlocksLog a.cellSize mem 0 a.blocks

/-- `gc_arena_destroy`, mjs_gc.c:67-79: the cells destroyed, and the blocks released. -/
def destroy (a : Arena α) : Option (List Nat × List (Nat × Nat)) :=
  if a.blocks ≠ [] then do
    let a' ← sweep a
    let l ← sweepLog a
    some (l.1, l.2 ++ a'.blocks)
  else some ([], [])

end Mjs.Arena
