/-!
# Model of the cell allocator: `src/mjs_gc.c` (arenas, allocation, sweep), `src/mjs_mm.h`

An arena hands out cells of one size.  A cell is its first machine word `head` and the rest `body`: a free cell keeps the
link of the free list in `head`; a used cell keeps there its first field (the property list of an object, the next
property of a property) with bit 0 as the collector's mark.  `mem` maps the addresses of the cells of all blocks to
their contents; any other address is `none`, so reading a cell of a released block is an error.
-/

namespace Mjs.Arena

/-- A cell: `struct gc_cell` (mjs_gc.h:27-32) is the first word. -/
structure Cell (α : Type) where
  head : Nat
  body : α

/-- `struct gc_arena`, mjs_mm.h:26-40 (without the statistics); `blocks` is the list of `struct gc_block`
(mjs_mm.h:20-24) as base address and number of cells.  NULL is 0. -/
structure Arena (α : Type) where
  cellSize : Nat
  inc : Nat
  blocks : List (Nat × Nat)
  free : Nat
  mem : Nat → Option (Cell α)

/-- Change the contents at one address. -/
def upd {α : Type} (f : Nat → Option α) (a : Nat) (x : Option α) : Nat → Option α := fun b => if b = a then x else f b

/-- `MARK`, `UNMARK`, `MARKED`, mjs_gc.c:22-24, on the head word: bit 0. -/
def mark (w : Nat) : Nat := w - w % 2 + 1
@[inherit_doc mark] def unmark (w : Nat) : Nat := w - w % 2
@[inherit_doc mark] def marked (w : Nat) : Bool := w % 2 == 1
/-- `MARK_FREE`, `UNMARK_FREE`, `MARKED_FREE`, mjs_gc.c:31-33: bit 1. -/
def markFree (w : Nat) : Nat := w - w / 2 % 2 * 2 + 2
@[inherit_doc markFree] def unmarkFree (w : Nat) : Nat := w - w / 2 % 2 * 2
@[inherit_doc markFree] def markedFree (w : Nat) : Bool := w / 2 % 2 == 1

variable {α : Type} [Inhabited α]

/-- The loop of `gc_new_block`, mjs_gc.c:97-102: `n` cells from address `cur` on, zeroed by `calloc`, are put on the
free list.  `default` is the zeroed rest of a cell. -/
def addCells (a : Arena α) (cur : Nat) : Nat → Arena α
  | 0 => a
  | n + 1 => addCells { a with free := cur, mem := upd a.mem cur (some ⟨a.free, default⟩) } (cur + a.cellSize) n

/-- `gc_new_block` and linking the block, mjs_gc.c:86-105, 133-135; `base` is the address `calloc` returns, `none` is
the `abort()` of lines 91 and 95.  Simplification: the allocation of the block header is not modelled. -/
def newBlock (a : Arena α) (size : Nat) (base : Option Nat) : Option (Arena α) :=
  base.map fun b => { addCells a b size with blocks := (b, size) :: a.blocks }

/-- `gc_arena_init`, mjs_gc.c:57-65. -/
def init (cellSize initial inc : Nat) (base : Option Nat) : Option (Arena α) :=
  newBlock { cellSize := cellSize, inc := inc, blocks := [], free := 0, mem := fun _ => none } initial base

/-- The loop of `gc_arena_is_gc_needed`, mjs_gc.c:111-122, with `n` rounds to go. -/
def gcNeeded (a : Arena α) : Nat → Nat → Option Bool
  | 0, _ => some false
  | n + 1, r => if r = 0 then some true else (a.mem r).bind fun c => gcNeeded a n c.head

/-- Make room if the free list is empty, mjs_gc.c:132-136. -/
def refill (a : Arena α) (base : Option Nat) : Option (Arena α) :=
  if a.free = 0 then newBlock a a.inc base else some a

/-- Take the first cell `r` off the free list, zero it, and see whether collection is due, mjs_gc.c:137-158. -/
def takeCell (a : Arena α) : Option (Arena α × Nat × Bool) :=
  (a.mem a.free).bind fun c =>
    let a1 := { a with free := unmark c.head, mem := upd a.mem a.free (some ⟨unmark c.head, c.body⟩) }
    (gcNeeded a1 3 a1.free).map fun g =>
      ({ a1 with mem := upd a1.mem a.free (some ⟨0, default⟩) }, a.free, g)

/-- `gc_alloc_cell`, mjs_gc.c:129-159: the new arena, the cell, and whether `need_gc` is set. -/
def allocCell (a : Arena α) (base : Option Nat) : Option (Arena α × Nat × Bool) :=
  (refill a base).bind takeCell

/-- Marking the free cells, mjs_gc.c:179-185, from cell `cur` on. -/
def markFreeList (mem : Nat → Option (Cell α)) (cur : Nat) : Option (Nat → Option (Cell α)) :=
  if cur = 0 then some mem
  else do
    let c ← mem cur
    markFreeList (upd mem cur (some ⟨markFree c.head, c.body⟩)) c.head
partial_fixpoint

/-- One cell of the sweep, mjs_gc.c:204-238: the memory, the free list and whether the cell was freed.  The destructor
(line 226) does not touch the arena and is left out. -/
def sweepCell (mem : Nat → Option (Cell α)) (free cur : Nat) : Option ((Nat → Option (Cell α)) × Nat × Bool) :=
  (mem cur).map fun c =>
    if marked c.head then (upd mem cur (some ⟨unmark c.head, c.body⟩), free, false)
    else
      let body := if markedFree c.head then c.body else default          -- lines 217-229
      (upd mem cur (some ⟨free, body⟩), cur, true)                       -- lines 232-233

/-- The cells of one block, mjs_gc.c:201-239: `n` cells from `cur` on, `freed` were freed before. -/
def sweepCells (cellSize : Nat) (mem : Nat → Option (Cell α)) (free cur freed : Nat) :
    Nat → Option ((Nat → Option (Cell α)) × Nat × Nat)
  | 0 => some (mem, free, freed)
  | n + 1 => (sweepCell mem free cur).bind fun r =>
      sweepCells cellSize r.1 r.2.1 (cur + cellSize) (if r.2.2 then freed + 1 else freed) n

/-- `gc_free_block`: the cells of the block are no longer there, mjs_gc.c:81-84. -/
def dropCells (cellSize : Nat) (mem : Nat → Option (Cell α)) (cur : Nat) : Nat → (Nat → Option (Cell α))
  | 0 => mem
  | n + 1 => dropCells cellSize (upd mem cur none) (cur + cellSize) n

/-- The loop over the blocks, mjs_gc.c:192-255, with `start` 0 (as all callers pass). -/
def sweepBlocks (cellSize : Nat) (mem : Nat → Option (Cell α)) (free : Nat) :
    List (Nat × Nat) → Option ((Nat → Option (Cell α)) × Nat × List (Nat × Nat))
  | [] => some (mem, free, [])
  | (base, size) :: rest => (sweepCells cellSize mem free base 0 size).bind fun r =>
      if rest ≠ [] ∧ r.2.2 = size then                                     -- line 246
        sweepBlocks cellSize (dropCells cellSize r.1 base size) free rest  -- lines 247-250
      else (sweepBlocks cellSize r.1 r.2.1 rest).map fun q => (q.1, q.2.1, (base, size) :: q.2.2)

/-- `gc_sweep`, mjs_gc.c:167-256. -/
def sweep (a : Arena α) : Option (Arena α) :=
  (markFreeList a.mem a.free).bind fun mem =>
    (sweepBlocks a.cellSize mem 0 a.blocks).map fun r => { a with mem := r.1, free := r.2.1, blocks := r.2.2 }

/-- `gc_check_ptr`, mjs_gc.c:529-538: is the address inside a block. -/
def checkPtr (a : Arena α) (p : Nat) : Bool := a.blocks.any fun b => b.1 ≤ p && p < b.1 + b.2 * a.cellSize

end Mjs.Arena
