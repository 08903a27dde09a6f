import Verif.Model.RcHeap
import Verif.Model.TreeShapes

/-!
# Lists with additional strong references to their tails

Models `make_rc_multi_strong_list` of `shared_tests/src/utils/tree_shapes.rs`, and the test `deep_rc_multi_strong_list` of
`src/drop.rs`, which drops such a list and then the additional references. Cells are numbered in the order in which they are allocated.
-/

namespace Kul.Shapes

/-- `shared_tests/src/utils/tree_shapes.rs` 41-45, the loop of `make_list`, with a `new` and an `e` that change a state. -/
def makeListLoopMut {R S : Type} (new : Dat R → S → R × S) (e : Nat → S → R × S) : Nat → Nat → R → S → R × S
  | 0, _, d, s => (d, s)
  | turns + 1, cnt, d, s =>
    let (elem, s) := e cnt s
    let (d, s) := new (.list elem d) s
    makeListLoopMut new e turns (cnt + 1) d s

/-- `tree_shapes.rs` 34-47 `make_list`, likewise. -/
def makeListMut {R S : Type} (len : Nat) (new : Dat R → S → R × S) (e : Nat → S → R × S) (s : S) : R × S :=
  let (d, s) := new .emptyList s
  makeListLoopMut new e len 1 d s

/-- `tree_shapes.rs` 53-58 `make_basic_list`, likewise. -/
def makeBasicListMut {R S : Type} (len : Nat) (new : Dat R → S → R × S) (s : S) : R × S :=
  makeListMut len new (fun cnt => new (.extra cnt)) s

/-- The heap, how many cells have been allocated, and the variables `counter` and `v` (`tree_shapes.rs` 285-286). -/
structure Multi where
  heap : RcHeap.Heap (Dat Empty)
  cells : Nat
  counter : Nat
  v : List Nat

/-- A datum in a cell. -/
def Dat.inCell : Dat Nat → RcHeap.Dat (Dat Empty)
  | .combination operator operands => .branch operator operands
  | .list elem next => .branch elem next
  | .emptyNest => .leaf (some .emptyNest)
  | .emptyList => .leaf (some .emptyList)
  | .extra n => .leaf (some (.extra n))

/-- `src/datum.rs` 65-67 `DatumRc::new`. -/
def newRc (d : Dat Nat) (s : Multi) : Nat × Multi :=
  (s.cells, { s with heap := s.heap.put s.cells (some ⟨1, d.inCell⟩), cells := s.cells + 1 })

/-- The standard `Rc::clone`: the strong count goes up. -/
def cloneRc (k : Nat) (s : Multi) : Multi :=
  match s.heap k with
  | some c => { s with heap := s.heap.put k (some { c with strong := c.strong + 1 }) }
  | none => s

/-- `tree_shapes.rs` 288-299, the closure given to `make_basic_list`. -/
def newMulti (len step : Nat) (d : Dat Nat) (s : Multi) : Nat × Multi :=
  let (drc, s) := newRc d s
  match d with
  | .list .. =>
    let s := { s with counter := s.counter + 1 }
    if s.counter ≠ len ∧ s.counter % step = 0 then
      let s := cloneRc drc s
      (drc, { s with v := s.v ++ [drc] })
    else (drc, s)
  | _ => (drc, s)

/-- `tree_shapes.rs` 282-301 `make_rc_multi_strong_list`: the list, `v` and the heap. The division in line 285 panics when `strong_step`
is zero. -/
def makeRcMultiStrongList (len step : Nat) : Option (Nat × List Nat × RcHeap.Heap (Dat Empty)) :=
  if step = 0 then none else
    let (l, s) := makeBasicListMut len (newMulti len step) ⟨fun _ => none, 0, 0, []⟩
    some (l, s.v, s.heap)

/-- Dropping of a `Vec` of `Rc`s, such as `_strong_refs` at the end of `deep_rc_multi_strong_list` (`src/drop.rs` 711-722): its
elements are dropped in order. They are of type `Rc`, not `DatumRc`. `n` bounds recursion. -/
def dropVec (n : Nat) : List Nat → RcHeap.Heap (Dat Empty) → RcHeap.Res (Dat Empty)
  | [], h => .ev h []
  | k :: ks, h => (RcHeap.release n k h).andThen (dropVec n ks)

end Kul.Shapes
