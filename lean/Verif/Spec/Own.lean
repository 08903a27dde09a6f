import Verif.Spec.MemUse
import Verif.Spec.RcHeap

/-! # Who owns what in memory. Specification only. -/

namespace Kul.Mem

open RcHeap (Good)

variable {τ ε : Type}

/-- The address of something owned. -/
def Res.addr : Res τ ε → Addr
  | .ref p _ => p
  | .place p _ => p

/-- The addresses of places. -/
def places (xs : List (Res τ ε)) : List Addr :=
  xs.filterMap fun | .place p _ => some p | .ref _ _ => none

/-- The shape of a datum, as in `Model/RcHeap.lean`. -/
def shape : Dat τ ε → RcHeap.Dat (Dat τ ε)
  | .combination p q | .list p q => .branch p q
  | d => .leaf (some d)

/-- The memory as a heap of `Model/RcHeap.lean`, with nothing in the places `ps`. -/
def view (h : Heap τ ε) (ps : List Addr) : RcHeap.Heap (Dat τ ε) := fun k =>
  (h.cells k).map fun c => ⟨c.strong, if k ∈ ps then .leaf none else shape c.dat⟩

/-- The memory without the places `ps`. -/
def mask (h : Heap τ ε) (ps : List Addr) : Addr → Option (Dat τ ε) := fun k =>
  if k ∈ ps then none else (h.cells k).map (·.dat)

/-- A reference to the root of a tree. -/
def At (m : Addr → Option (Dat τ ε)) (p : Addr) (D : Datum τ ε) : Prop := ∃ d, m p = some d ∧ Reads m d D

variable {β : Type}

/-- All of `xs` is owned in memory `h`, and nothing else is. -/
structure HeapOwn (box : Bool) (h : Heap τ ε) (xs : List (Res τ ε)) : Prop where
  good : Good (Finset.range h.size) (view h (places xs)) (xs.map Res.addr)
  place : ∀ p d, .place p d ∈ xs → h.cells p = some ⟨1, d⟩
  reads : ∀ p D, .ref p D ∈ xs → At (mask h (places xs)) p D
  box : box = true → ∀ k c, h.cells k = some c → c.strong = 1

/-- Ownership in a heap; the allocator by value has no state. -/
def heapOwn (box : Bool) (h : Heap τ ε) (_ : β) (xs : List (Res τ ε)) : Prop := HeapOwn box h xs

/-- Ownership in a slice: as in a heap of `Box`es, all of whose cells are in slots that are not free. What
nobody owns any more is garbage. -/
def sliceOwn (a : SliceAlloc (Dat τ ε)) (b : SliceAlloc (Datum τ ε)) (xs : List (Res τ ε)) : Prop :=
  a.free = b.free ∧ a.mem.length = b.mem.length ∧
  ∃ h : Heap τ ε, HeapOwn true h xs ∧ (∀ i, a.free = some i → h.size ≤ i) ∧
    ∀ k c, h.cells k = some c → a.mem[k]? = some c.dat

end Kul.Mem
