import Verif.Base.Str

/-! Memory arena and the list that lives in it: bant/util/arena.h, arena-container.h. -/
namespace Bant
namespace Arena

/-- Members of `Arena` (bant/util/arena.h:31-85): sizes of the blocks allocated so far, and
`pos_` as (number of the block, offset), where `none` is `nullptr`. `end_` is the end of that
block. Statistics are left out. -/
structure State where
  blocks : List Nat := []
  pos : Option (Nat × Nat) := none
deriving DecidableEq, Repr

/-- A piece of memory: block, offset in the block, size. -/
structure Piece where
  block : Nat
  start : Nat
  size : Nat
deriving DecidableEq, Repr

/-- bant/util/arena.h:66-70, `NewBlock`. -/
def newBlock (s : State) (request : Nat) : State :=
  { blocks := s.blocks ++ [request], pos := some (s.blocks.length, 0) }

/-- `size > (size_t)(end_ - pos_)` or no block yet (bant/util/arena.h:38). -/
def needsBlock (s : State) (size : Nat) : Bool :=
  match s.pos with
  | none => true
  | some (b, off) => size > s.blocks.getD b 0 - off

/-- bant/util/arena.h:37-46, `Alloc`. `none`: not possible (`pos_` is set after `NewBlock`). -/
def alloc (blockSize : Nat) (s : State) (size : Nat) : Option (Piece × State) :=
  let s := if needsBlock s size then newBlock s (max size blockSize) else s
  match s.pos with
  | none => none
  | some (b, off) => some (⟨b, off, size⟩, { s with pos := some (b, off + size) })

/-- A sequence of requests. -/
def allocs (blockSize : Nat) (s : State) : List Nat → Option (List Piece × State)
  | [] => some ([], s)
  | r :: rs =>
    match alloc blockSize s r with
    | none => none
    | some (p, s) =>
      match allocs blockSize s rs with
      | none => none
      | some (ps, s) => some (p :: ps, s)

end Arena

namespace ArenaDeque

variable {α : Type}

/-- bant/util/arena-container.h:40-46, 121-125: members of `ArenaDeque`. A block is an array with its
capacity as length, elements that have not been written are `none`. The blocks are linked in the
order of the list; `current_` is the last one. -/
structure Deque (α : Type) where
  blocks : List (List (Option α))
  pos : Nat
  shift : Nat
  size : Nat

/-- arena-container.h:40: the template parameters `MIN_BLOCK_SIZE`, `MAX_BLOCK_SIZE`. -/
structure Params where
  min : Nat
  max : Nat

/-- arena-container.h:129, `BlockSizeTracker::current`. The result is a `uint16_t`: for `min` and `max` in that range
there is no overflow. -/
def Params.current (P : Params) (shift : Nat) : Nat := P.min * 2 ^ shift

/-- arena-container.h:130-135, `BlockSizeTracker::AdvanceNextBounded`, the new `size_shift`. -/
def Params.advance (P : Params) (shift : Nat) : Nat :=
  if P.min * 2 ^ (shift + 1) ≤ P.max then shift + 1 else shift

/-- arena-container.h:52, constructor; `top_` has the minimal size. -/
def empty (P : Params) : Deque α := ⟨[List.replicate P.min none], 0, 0, 0⟩

/-- arena-container.h:54-69, `Append`. Result: the reference returned (block, index) and the new state; `none` is a write
beyond the end of a block. -/
def append (P : Params) (d : Deque α) (v : α) : Option ((Nat × Nat) × Deque α) :=
  let d := if d.pos ≥ P.current d.shift then
      let sh := P.advance d.shift
      { d with blocks := d.blocks ++ [List.replicate (P.current sh) none], pos := 0, shift := sh }
    else d
  let bi := d.blocks.length - 1
  match d.blocks[bi]? with
  | none => none
  | some b =>
    if d.pos < b.length then
      some ((bi, d.pos), { d with
        blocks := d.blocks.set bi (b.set d.pos (some v)), pos := d.pos + 1, size := d.size + 1 })
    else none

/-- Reading through a reference; `none`: not initialised or out of bounds. -/
def read (d : Deque α) (r : Nat × Nat) : Option α :=
  match d.blocks[r.1]? with
  | none => none
  | some b => b[r.2]?.join

/-- arena-container.h:75-79, the loop of `operator[]`, from a block on. -/
def getFrom (P : Params) : List (List (Option α)) → Nat → Nat → Option α
  | [], _, _ => none
  | b :: bs, shift, pos =>
    if pos ≥ P.current shift then getFrom P bs (P.advance shift) (pos - P.current shift)
    else b[pos]?.join

/-- arena-container.h:72-81, `operator[]`. -/
def get (P : Params) (d : Deque α) (pos : Nat) : Option α := getFrom P d.blocks 0 pos

/-- arena-container.h:85-112, `iterator`: block (`none`: `nullptr`), position, tracker. -/
structure Iter where
  block : Option Nat
  pos : Nat
  shift : Nat

/-- arena-container.h:114 -/
def begin : Iter := ⟨some 0, 0, 0⟩

/-- arena-container.h:115-119, `end()`; the tracker is not compared. -/
def theEnd (P : Params) (d : Deque α) : Option Nat × Nat :=
  if d.pos = P.current d.shift then (none, 0) else (some (d.blocks.length - 1), d.pos)

/-- arena-container.h:101-103, `operator==` with `end()`. -/
def Iter.atEnd (P : Params) (d : Deque α) (it : Iter) : Bool := (it.block, it.pos) = theEnd P d

/-- arena-container.h:87-90, `operator*`; `none`: null pointer or not initialised. -/
def Iter.deref (d : Deque α) (it : Iter) : Option α :=
  match it.block with
  | none => none
  | some b => read d (b, it.pos)

/-- arena-container.h:92-100, `operator++`; `none`: null pointer. -/
def Iter.next (P : Params) (d : Deque α) (it : Iter) : Option Iter :=
  if it.pos + 1 ≥ P.current it.shift then
    match it.block with
    | none => none
    | some b => some ⟨if b + 1 < d.blocks.length then some (b + 1) else none, 0, P.advance it.shift⟩
  else some { it with pos := it.pos + 1 }

/-- `begin()` after `k` increments. -/
def Iter.after (P : Params) (d : Deque α) : Nat → Option Iter
  | 0 => some begin
  | k + 1 =>
    match Iter.after P d k with
    | none => none
    | some it => it.next P d

/-- Appending several values, collecting the references. -/
def appends (P : Params) (d : Deque α) : List α → Option (List (Nat × Nat) × Deque α)
  | [] => some ([], d)
  | v :: vs =>
    match append P d v with
    | none => none
    | some (r, d) =>
      match appends P d vs with
      | none => none
      | some (rs, d) => some (r :: rs, d)

end ArenaDeque
end Bant
