import Verif.Model.WeakDrop

/-!
# Lists whose elements have weak references to their nodes, seen from outside
-/

namespace Kul.WeakDrop

/-- The heap with such a list of `len` elements: cell `0` has the empty list, and for `c` from `1` to `len`, cell `2 * c - 1` has the
element, which has a weak reference to cell `2 * c`, and cell `2 * c` the list node, to which there are `w c` more weak references. -/
def weakCells (w : Nat → Nat) (len k : Nat) : Option (RcCell.Cell Dat) :=
  if k = 0 then some ⟨some .plain, 1, 0⟩
  else if 2 * len < k then none
  else if k % 2 = 1 then some ⟨some (.extra (some (k + 1))), 1, 0⟩
  else some ⟨some (.branch (k - 1) (k - 2)), 1, w (k / 2) + 1⟩

/-- What remains of a cell without datum that has so many weak references. -/
def husk (w : Nat) : Option (RcCell.Cell Dat) := if w = 0 then none else some ⟨none, 0, w⟩

/-- What remains of such a list: for the nodes to which there are more weak references, cells without datum. -/
def husks (w : Nat → Nat) (k : Nat) : Option (RcCell.Cell Dat) := if k = 0 ∨ k % 2 = 1 then none else husk (w (k / 2))

/-- The heap with a list of `len` elements, without weak references. -/
def plainCells (len k : Nat) : Option (RcCell.Cell Dat) :=
  if k = 0 then some ⟨some .plain, 1, 0⟩
  else if 2 * len < k then none
  else if k % 2 = 1 then some ⟨some (.extra none), 1, 0⟩
  else some ⟨some (.branch (k - 1) (k - 2)), 1, 0⟩

/-- How many cells are allocated to take a datum out of a cell to which there is no other reference. -/
def perTake (arc : Bool) : Nat := if arc then 1 else 0

end Kul.WeakDrop
