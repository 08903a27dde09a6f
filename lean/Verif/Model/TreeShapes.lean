import Verif.Model.Drop

/-!
# The trees that dropping is tested with

Models `shared_tests/src/utils/tree_shapes.rs`, the functions that make the trees for the tests of `src/drop.rs`, and the sizes
chosen there. `none` is a panic. The lists with weak references are in
`Model/WeakDrop.lean`, those with additional strong references in `Model/MultiStrong.lean`.
-/

namespace Kul.Shapes

/-- `core/src/datum.rs` 18-46 `Datum`, the variants that are made, with the references `R`. -/
inductive Dat (R : Type) where
  | combination (operator operands : R)
  | emptyNest
  | list (elem next : R)
  | emptyList
  | extra (n : Nat)
deriving DecidableEq, Repr

variable {R : Type} (new : Dat R → R)

/-- `shared_tests/src/utils/tree_shapes.rs` 41-45, the loop of `make_list`: `cnt` goes up to `len`, so that many turns remain. -/
def makeListLoop (e : Nat → Option R) : Nat → Nat → R → Option R
  | 0, _, d => some d
  | turns + 1, cnt, d => do
    let elem ← e cnt
    makeListLoop e turns (cnt + 1) (new (.list elem d))

/-- `tree_shapes.rs` 34-47 `make_list`. -/
def makeList (len : Nat) (e : Nat → Option R) : Option R := makeListLoop new e len 1 (new .emptyList)

/-- `tree_shapes.rs` 49-51 `list_len`. -/
def listLen (size : Nat) : Option Nat := if size = 0 then none else some ((size - 1) / 2)

/-- `tree_shapes.rs` 53-58 `make_basic_list`. -/
def makeBasicList (len : Nat) : Option R := makeList new len fun cnt => some (new (.extra cnt))

/-- `tree_shapes.rs` 80-84, the loop of `make_nest`. -/
def makeNestLoop (o : Nat → Option R) : Nat → Nat → R → Option R
  | 0, _, d => some d
  | turns + 1, cnt, d => do
    let operands ← o cnt
    makeNestLoop o turns (cnt + 1) (new (.combination d operands))

/-- `tree_shapes.rs` 73-86 `make_nest`. -/
def makeNest (depth : Nat) (o : Nat → Option R) : Option R := makeNestLoop new o depth 1 (new .emptyNest)

/-- `tree_shapes.rs` 88-90 `nest_depth`. -/
def nestDepth (size : Nat) : Option Nat := listLen size

/-- `tree_shapes.rs` 92-97 `make_basic_nest`. -/
def makeBasicNest (depth : Nat) : Option R := makeNest new depth fun _ => some (new .emptyList)

/-- `tree_shapes.rs` 125-132, the loop of `make_zigzag`. `turns` are the increments of `cnt` that remain; two are in one turn of the
code, and `isOdd` says which is next. -/
def makeZigzagLoop (odd even : R → R → Dat R) (left right : Nat → R) : Nat → Nat → Bool → R → R
  | 0, _, _, d => d
  | turns + 1, cnt, true, d => makeZigzagLoop odd even left right turns (cnt + 1) false (new (odd d (right cnt)))
  | turns + 1, cnt, false, d => makeZigzagLoop odd even left right turns (cnt + 1) true (new (even (left cnt) d))

/-- `tree_shapes.rs` 112-134 `make_zigzag`. -/
def makeZigzag (depth : Nat) (empty : Dat R) (odd even : R → R → Dat R) (left right : Nat → R) : R :=
  makeZigzagLoop new odd even left right depth 1 true (new empty)

/-- `tree_shapes.rs` 136-138 `zigzag_depth`. -/
def zigzagDepth (size : Nat) : Option Nat := listLen size

/-- `tree_shapes.rs` 140-150 `make_basic_zigzag`. -/
def makeBasicZigzag (depth : Nat) : R :=
  makeZigzag new depth .emptyList .combination .list (fun cnt => new (.extra cnt)) fun _ => new .emptyList

/-- `tree_shapes.rs` 165-173 `make_fan`, with a bound on its own recursion (`none` beyond). -/
def makeFanIn : Nat → Nat → Option R
  | 0, _ => none
  | n + 1, depth => makeNest new depth fun cnt => makeList new (cnt - 1) fun cnt => makeFanIn n (cnt - 1)

/-- `tree_shapes.rs` 165-173 `make_fan`. -/
def makeFan (depth : Nat) : Option R := makeFanIn new (depth + 1) depth

/-- The standard `leading_zeros` of a `usize` of `w` bits. -/
def leadingZeros (w n : Nat) : Nat := if n = 0 then w else w - 1 - Nat.log2 n

/-- `tree_shapes.rs` 175-182 `fan_depth`, with `usize` of `w` bits. -/
def fanDepth (w size : Nat) : Option Nat :=
  if 0 < size ∧ size < 2 ^ w - 1 then some ((w - 1) - leadingZeros w (size + 1) - 1) else none

/-- `tree_shapes.rs` 197-217 `make_vee`. -/
def makeVee (leftDepth rightDepth : Nat) : Option R := do
  let left ← if leftDepth > 0 then (makeBasicNest new (leftDepth - 1)).map some else some none
  let right ← if rightDepth > 0 then (makeBasicList new (rightDepth - 1)).map some else some none
  if left.isSome ∨ right.isSome then
    return new (.combination (left.getD (new .emptyNest)) (right.getD (new .emptyList)))
  else return new .emptyNest

/-- `tree_shapes.rs` 219-221 `vee_depths`. -/
def veeDepths (leftSize rightSize : Nat) : Option (Nat × Nat) := do
  let l ← nestDepth leftSize
  let r ← listLen rightSize
  return (l + 1, r + 1)

/-- `src/drop.rs` 661-665 `vee2r_depths`. -/
def vee2rDepths (size : Nat) : Option (Nat × Nat) :=
  let rightSize := 2 + 1
  if size < 1 + rightSize then none else veeDepths (size - (1 + rightSize)) rightSize

/-- `DatumBox::new`, `DatumRc::new` and `DatumArc::new` (`src/datum.rs` 26-28, 65-67, 97-99): a new cell, to which there is no other
reference. Here cells need not be told apart. -/
def fresh : Dat (Drop.Ref Unit (Dat Empty)) → Drop.Ref Unit (Dat Empty)
  | .combination operator operands => .branch () operator operands
  | .list elem next => .branch () elem next
  | .emptyNest => .leaf () (some .emptyNest)
  | .emptyList => .leaf () (some .emptyList)
  | .extra n => .leaf () (some (.extra n))

end Kul.Shapes
