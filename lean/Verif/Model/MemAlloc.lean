import Verif.Model.MemParser
import Verif.Model.Premade

/-!
# The provided allocators, with memory

The same allocators as in `Model/Alloc.lean`, but with the datums in memory and references as addresses.
-/

namespace Kul.Mem

variable {τ ε : Type}

/-! ## Slices -/

/-- `SliceDatumAllocator` (`core/src/parser/premade/slice_alloc.rs` 54-73) with `DatumMutRef`
(`core/src/datum/premade/mutref.rs`): references are to slots of the slice, `get_mut` (39-43) always succeeds,
and when a reference is dropped nothing happens. They are not `Clone` (18). -/
def sliceMem (τ ε : Type) : AllocOps τ ε (SliceAlloc (Dat τ ε)) where
  newDatum d s := s.newDatum d
  read s p := s.mem[p]?
  getMut _ _ := true
  write p d s := { s with mem := s.mem.set p d }
  dropRef _ s := s
  clone _ _ _ := none

/-- The same allocator, as used by `TextDatumList` for the nodes of its linked lists of chunks, which are always
`Datum::Text`. A simplification: the list that a text refers to stays by value, though slots are used up for
its nodes. `Model/LinkText.lean` is without it. -/
def sliceText (τ ε : Type) : Kul.AllocOps τ ε (SliceAlloc (Dat τ ε)) where
  newDatum d s := match s.newDatum (match d with | .text t => .text t | _ => .emptyList) with
    | (.ok _, s) => (.ok (), s)
    | (.error e, s) => (.error e, s)
  getMutFresh _ := true

/-! ## `Box`, `Rc` and `Arc` -/

/-- An allocation: the number of references to it, and the datum. -/
structure Cell (τ ε : Type) where
  strong : Nat
  dat : Dat τ ε
deriving DecidableEq, Repr

/-- The memory: allocations are numbered in the order in which they are made (so that no address is ever used
again), `size` is their number; those that were freed are `none`. -/
structure Heap (τ ε : Type) where
  cells : Addr → Option (Cell τ ε)
  size : Nat

def Heap.empty : Heap τ ε := ⟨fun _ => none, 0⟩

def Heap.put (h : Heap τ ε) (p : Addr) (c : Option (Cell τ ε)) : Heap τ ε :=
  { h with cells := fun q => if q = p then c else h.cells q }

/-- `Box::new`, `Rc::new`, `Arc::new`, as used by `new_datum` in `src/parser/box_alloc.rs` 35-39,
`src/parser/rc_alloc.rs` 35-39, `src/parser/arc_alloc.rs` 35-39. -/
def Heap.alloc (d : Dat τ ε) (h : Heap τ ε) : Addr × Heap τ ε :=
  (h.size, { h.put h.size (some ⟨1, d⟩) with size := h.size + 1 })

/-- `Rc::clone`, `Arc::clone`. -/
def Heap.clone (p : Addr) (h : Heap τ ε) : Heap τ ε :=
  match h.cells p with
  | some c => h.put p (some { c with strong := c.strong + 1 })
  | none => h

/-- Dropping of references, one after the other: if it is the last to an allocation, that is freed and the
references in it are dropped. What really is done, in another order and without recursion, is modelled in
`Model/RcHeap.lean`; the resulting memory is the same (`C51_drop`). The first argument is a budget. -/
def Heap.release : Nat → List Addr → Heap τ ε → Heap τ ε
  | 0, _, h => h
  | _ + 1, [], h => h
  | n + 1, p :: ps, h =>
    match h.cells p with
    | some c =>
      if c.strong = 1 then Heap.release n (c.dat.refs ++ ps) (h.put p none)
      else Heap.release n ps (h.put p (some { c with strong := c.strong - 1 }))
    | none => Heap.release n ps h

/-- The number of references to an allocation. -/
def Heap.strong (h : Heap τ ε) (p : Addr) : Nat :=
  match h.cells p with
  | some c => c.strong
  | none => 0

/-- The number of all references, which bounds how many can be dropped. -/
def Heap.total (h : Heap τ ε) : Nat := ((List.range h.size).map h.strong).sum

/-- Cloning of a `Box`: the datum in it is cloned, by `k`, to a new `Box`. (Whether that is allocated before or after
makes no difference but to its address.) -/
def Heap.cloneBox (k : Dat τ ε → Heap τ ε → Option (Dat τ ε × Heap τ ε)) (p : Addr) (h : Heap τ ε) :
    Option (Addr × Heap τ ε) :=
  match h.cells p with
  | some c =>
    match k c.dat h with
    | some (d, h) => some (h.alloc d)
    | none => none
  | none => none

/-- `core/src/datum.rs` 17 derived `Clone::clone` of a datum with `DatumBox`es (`src/datum.rs` 21, derived): clones the
fields in order; each is a call inside a call. Texts and extras are copied as values. The number says how deep calls
of it can be nested. -/
def Dat.cloneBoxed : Nat → Dat τ ε → Heap τ ε → Option (Dat τ ε × Heap τ ε)
  | 0, _, _ => none
  | _ + 1, .text t, h => some (.text t, h)
  | n + 1, .combination p q, h =>
    match h.cloneBox (cloneBoxed n) p with
    | some (p', h) =>
      match h.cloneBox (cloneBoxed n) q with
      | some (q', h) => some (.combination p' q', h)
      | none => none
    | none => none
  | _ + 1, .emptyNest, h => some (.emptyNest, h)
  | n + 1, .list p q, h =>
    match h.cloneBox (cloneBoxed n) p with
    | some (p', h) =>
      match h.cloneBox (cloneBoxed n) q with
      | some (q', h) => some (.list p' q', h)
      | none => none
    | none => none
  | _ + 1, .emptyList, h => some (.emptyList, h)
  | _ + 1, .extra e, h => some (.extra e, h)

/-- `core/src/datum.rs` 17 derived `Clone::clone` of a datum with `DatumRc`s or `DatumArc`s (`src/datum.rs` 60, 92,
derived): the references in it are cloned, in order, to references to the same. -/
def Dat.cloneCounted : Nat → Dat τ ε → Heap τ ε → Option (Dat τ ε × Heap τ ε)
  | 0, _, _ => none
  | _ + 1, d, h => some (d, d.refs.foldl (fun h p => h.clone p) h)

/-- `BoxDatumAllocator` with `DatumBox` (`box`), `RcDatumAllocator` with `DatumRc`, `ArcDatumAllocator` with
`DatumArc`. `get_mut` (`src/datum.rs` 48-52, 80-84, 112-116) always succeeds for a `Box`; for the others it
succeeds if there is no other reference (weak references are left out). -/
def heapMem (τ ε : Type) (box : Bool) : AllocOps τ ε (Heap τ ε) where
  newDatum d h := match h.alloc d with | (p, h) => (.ok p, h)
  read h p := (h.cells p).map (·.dat)
  getMut p h := box || h.strong p == 1
  write p d h := match h.cells p with
    | some c => h.put p (some { c with dat := d })
    | none => h
  dropRef p h := h.release h.total [p]
  clone n d h := if box then d.cloneBoxed n h else d.cloneCounted n h

/-! ## Parsers -/

/-- A parser with the stream `text::Iter` of a text type. -/
def textEnv {C CS P τ ε α CE : Type} (O : ChunkOps C CS P) (T : TextType C τ α) (cc : Classifier)
    (al : AllocOps τ ε α) (lookup : Dat τ ε → α → Option (Combiner τ ε α P CE)) :
    Env (TextIter C CS P τ) P τ ε α CE where
  cc := cc
  strm := textIterOps O T
  text := T.ops
  alloc := al
  lookup := lookup

/-- A parser with the stream `StrishIterSourceStream`. -/
def strishEnv {τ ε α CE : Type} (T : TextType PosStrish τ α) (cc : Classifier) (al : AllocOps τ ε α)
    (lookup : Dat τ ε → α → Option (Combiner τ ε α CharPos CE)) : Env (StrishIter τ) CharPos τ ε α CE where
  cc := cc
  strm := strishIterOps T
  text := T.ops
  alloc := al
  lookup := lookup

/-- `src/common/inmem.rs` 113-127 `parser`: `TextVec` of `PosStr`, `Box`es; or with `Rc`s or `Arc`s. -/
def inmemEnv {ε CE : Type} (box : Bool) (lookup : Dat (TextVec PosStr) ε → Heap (TextVec PosStr) ε →
      Option (Combiner (TextVec PosStr) ε (Heap (TextVec PosStr) ε) StrPos CE)) :
    Env (TextIter PosStr PosStrIter StrPos (TextVec PosStr)) StrPos (TextVec PosStr) ε (Heap (TextVec PosStr) ε) CE :=
  textEnv posStrOps (textVec _ posStrOps) defaultClassifier (heapMem _ _ box) lookup

/-- `src/common/stream.rs` 117-131 `parser`: `TextVec` of `PosStrish`, `Box`es; or with `Rc`s or `Arc`s. -/
def streamEnv {ε CE : Type} (box : Bool) (lookup : Dat (TextVec PosStrish) ε → Heap (TextVec PosStrish) ε →
      Option (Combiner (TextVec PosStrish) ε (Heap (TextVec PosStrish) ε) CharPos CE)) :
    Env (StrishIter (TextVec PosStrish)) CharPos (TextVec PosStrish) ε (Heap (TextVec PosStrish) ε) CE :=
  strishEnv (textVec _ posStrishOps) defaultClassifier (heapMem _ _ box) lookup

/-- `core/src/premade/inmem.rs` 187-200 `parser`: `TextDatumList` of `PosStr`, a slice allocator. -/
def coreEnv {ε CE : Type} (lookup : Dat (CoreText ε) ε → SliceAlloc (Dat (CoreText ε) ε) →
      Option (Combiner (CoreText ε) ε (SliceAlloc (Dat (CoreText ε) ε)) StrPos CE)) :
    Env (TextIter PosStr PosStrIter StrPos (CoreText ε)) StrPos (CoreText ε) ε (SliceAlloc (Dat (CoreText ε) ε)) CE :=
  textEnv posStrOps (textDatumList posStrOps (sliceText _ _)) defaultClassifier (sliceMem _ _) lookup

end Kul.Mem
