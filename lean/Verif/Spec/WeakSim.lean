import Verif.Model.WeakDrop
import Verif.Model.RcHeap

/-!
# When a heap with weak references stands for one without

Each live cell, one with a datum, has an address in the other heap.
-/

namespace Kul.WeakDrop

/-- The datum with other addresses; weak references are left out. -/
def Dat.at (f : Nat → Nat) : Dat → RcHeap.Dat Unit
  | .temp => .leaf none
  | .plain => .leaf (some ())
  | .extra _ => .leaf (some ())
  | .branch l r => .branch (f l) (f r)

/-- The references in a datum are below. -/
def Dat.Below (n : Nat) : Dat → Prop
  | .branch l r => l < n ∧ r < n
  | _ => True

/-- The live cells of `g`, at the addresses that `f` gives them, are the cells of `h`. -/
structure Stands (f : Nat → Nat) (g : RcCell.Heap Dat) (h : RcHeap.Heap Unit) : Prop where
  live : ∀ k d s w, g.cell k = some ⟨some d, s, w⟩ → h (f k) = some ⟨s, d.at f⟩ ∧ d.Below g.next ∧ 1 ≤ s
  inj : ∀ k k', RcCell.get k g ≠ none → RcCell.get k' g ≠ none → f k = f k' → k = k'
  onto : ∀ j, h j ≠ none → ∃ k, RcCell.get k g ≠ none ∧ f k = j
  free : ∀ k, g.next ≤ k → g.cell k = none

/-- The two results agree, or something was accessed that is not there. -/
def Agree (f : Nat → Nat) (g : RcCell.Heap Dat) (a : Res) (b : RcHeap.Res Unit) : Prop :=
  a = .bad ∨ (a = .fuel ∧ b = .fuel) ∨ (a = .panic ∧ b = .panic) ∨
  ∃ g' h' f' evs s d, a = .done g' s d ∧ b = .done h' evs s d ∧ Stands f' g' h' ∧ (∀ j, j < g.next → f' j = f j) ∧ g.next ≤ g'.next

/-- A heap whose data are strongly referred to, whose references are to what was allocated, and that is unused from `next` on. -/
structure Formed (g : RcCell.Heap Dat) : Prop where
  live : ∀ k d s w, g.cell k = some ⟨some d, s, w⟩ → d.Below g.next ∧ 1 ≤ s
  free : ∀ k, g.next ≤ k → g.cell k = none

/-- The heap without its weak references and without the cells that only these keep. -/
def forget (g : RcCell.Heap Dat) : RcHeap.Heap Unit := fun k =>
  match g.cell k with
  | some ⟨some d, s, _⟩ => some ⟨s, d.at id⟩
  | _ => none

end Kul.WeakDrop
