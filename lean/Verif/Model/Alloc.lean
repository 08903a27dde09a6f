import Verif.Model.Base

/-!
# The provided allocators

Models `core/src/parser/premade/slice_alloc.rs`, `src/parser/box_alloc.rs`,
`src/parser/rc_alloc.rs`, `src/parser/arc_alloc.rs`, with `DerefTryMut` of their
references (`core/src/datum/premade/mutref.rs` 39-43, `src/datum.rs` 48-52, 80-84,
112-116).
-/

namespace Kul

/-! ## Heap allocators -/

/-- `BoxDatumAllocator`: `src/parser/box_alloc.rs` 28-40 (`new_datum` at 35-39 always
succeeds), with `DatumBox::get_mut` of `src/datum.rs` 48-52, which always succeeds. The
allocator has no state of its own; `α` stands for whatever the combiners can reach. -/
def boxAlloc (τ ε α : Type) : AllocOps τ ε α where
  newDatum _ a := (.ok (), a)
  getMutFresh _ := true

/-- The counts of an `Rc` or `Arc` (standard library). -/
structure Counts where
  strong : Nat
  weak : Nat
deriving DecidableEq, Repr

/-- `Rc::new`, `Arc::new`: one strong reference, no weak one. -/
def Counts.new : Counts := ⟨1, 0⟩

/-- `Rc::get_mut`, `Arc::get_mut`: succeeds iff there is no other strong and no weak
reference to the same allocation. -/
def Counts.getMut (c : Counts) : Bool := c.strong == 1 && c.weak == 0

/-- `RcDatumAllocator` and `ArcDatumAllocator`: `src/parser/rc_alloc.rs` and
`src/parser/arc_alloc.rs` 28-40 (`new_datum` at 35-39 is `Ok(DatumRc::new(from))`), with
`get_mut` of `src/datum.rs` 80-84, 112-116, on the reference last made. The state holds the
counts of all allocations made, the newest first; combiners may change all of it (clone and
drop references), as well as what else they can reach (`α`). -/
def rcAlloc (τ ε α : Type) : AllocOps τ ε (List Counts × α) where
  newDatum _ s := (.ok (), (Counts.new :: s.1, s.2))
  getMutFresh s := match s.1 with
    | c :: _ => c.getMut
    | [] => false

/-! ## The slice allocator -/

/-- `core/src/parser/premade/slice_alloc.rs` 35-37 `SliceDatumAllocator { free }`.
`mem` is the whole slice given at construction; `free = some i` says that `free` is
`Some` of the part of it from slot `i` on. -/
structure SliceAlloc (D : Type) where
  mem : List D
  free : Option Nat
deriving DecidableEq, Repr

namespace SliceAlloc

variable {D : Type}

/-- `slice_alloc.rs` 43-45 `new`. -/
def new (mem : List D) : SliceAlloc D := ⟨mem, if mem.isEmpty then none else some 0⟩

/-- `slice_alloc.rs` 49-51 `unused`. -/
def unused (s : SliceAlloc D) : Option (List D) := s.free.map fun i => s.mem.drop i

/-- `slice_alloc.rs` 61-72 `new_datum`; gives the slot of the returned reference. -/
def newDatum (d : D) (s : SliceAlloc D) : Except AllocErr Nat × SliceAlloc D :=
  match s.free with
  | none => (.error .allocExhausted, s)
  | some i =>
    if i < s.mem.length then (.ok i, ⟨s.mem.set i d, some (i + 1)⟩)
    else (.error .allocExhausted, ⟨s.mem, none⟩)

end SliceAlloc

/-- `SliceDatumAllocator` as an allocator: `slice_alloc.rs` 54-73, with
`DatumMutRef::get_mut` (`core/src/datum/premade/mutref.rs` 39-43), which always
succeeds. The contents of the slots are kept by value, as they were when requested. -/
def sliceAlloc (τ ε : Type) : AllocOps τ ε (SliceAlloc (Datum τ ε)) where
  newDatum d s := match s.newDatum d with
    | (.ok _, s) => (.ok (), s)
    | (.error e, s) => (.error e, s)
  getMutFresh _ := true

end Kul
