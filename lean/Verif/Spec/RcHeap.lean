import Verif.Model.RcHeap
import Mathlib.Algebra.BigOperators.Group.Finset.Basic

/-! # Heaps of counted cells, and what dropping a reference must do to them -/

namespace Kul.RcHeap

variable {L : Type}

/-- The references in a datum. -/
def Dat.kids : Dat L → List Nat
  | .leaf _ => []
  | .branch l r => [l, r]

/-- The references in a cell. -/
def Heap.kids (h : Heap L) (k : Nat) : List Nat :=
  match h k with
  | some c => c.dat.kids
  | none => []

/-- The datum in a cell. -/
def Heap.dat (h : Heap L) (k : Nat) : Option (Dat L) := (h k).map (·.dat)

/-- The leaf in a cell. -/
def Heap.leaf (h : Heap L) (k : Nat) : Option L :=
  match h k with
  | some ⟨_, .leaf x⟩ => x
  | _ => none

/-- A cell that can be reached from the references `outs`. -/
inductive Reach (h : Heap L) (outs : List Nat) : Nat → Prop where
  | out {k} : k ∈ outs → Reach h outs k
  | kid {k j} : Reach h outs k → j ∈ h.kids k → Reach h outs j

/-- From a cell a finite tree is reached: there are no cycles. -/
inductive Finite (h : Heap L) : Nat → Prop where
  | mk {k} : (∀ j ∈ h.kids k, Finite h j) → Finite h k

/-- A heap in order, whose cells are all in `D`, when `outs` are the references from outside of it:
each strong count is the number of references, from outside and in cells; no cell is without
references; no reference is to where there is no cell; and there are no cycles. -/
structure Good (D : Finset Nat) (h : Heap L) (outs : List Nat) : Prop where
  dom : ∀ k, h k ≠ none → k ∈ D
  count : ∀ k c, h k = some c → c.strong = outs.count k + ∑ j ∈ D, (h.kids j).count k
  pos : ∀ k c, h k = some c → 0 < c.strong
  valid : ∀ k, (k ∈ outs ∨ ∃ j, k ∈ h.kids j) → h k ≠ none
  finite : ∀ k, Finite h k

/-- The cells that were freed. -/
def freed : List (Ev L) → List Nat :=
  List.filterMap fun | .free k => some k | _ => none

/-- The leaves that were disposed of (`TempLeaf`s are not counted). -/
def disposed : List (Ev L) → List L :=
  List.filterMap fun | .leaf x => x | _ => none

/-- Is there a branch datum in a cell? -/
def Heap.isBranch (h : Heap L) (k : Nat) : Bool :=
  match h k with
  | some ⟨_, .branch ..⟩ => true
  | _ => false

/-- The references given up because others to the same cell are left. -/
def givenUp : List (Ev L) → List Nat :=
  List.filterMap fun | .giveUp k => some k | _ => none

/-- The ones of these that are to branch datums of `h`. -/
def branchesGivenUp (h : Heap L) (evs : List (Ev L)) : List Nat := (givenUp evs).filter h.isBranch

/-- Reference counts as answers to the questions of `Model/Drop.lean`: a datum can be taken out of its cell, and a
reference is the last one, exactly when the count is one; giving up a reference decrements the count. -/
def counts : Drop.Oracle (Nat → Nat) Nat where
  take ω k := (ω k == 1, ω)
  last ω k := if ω k = 1 then (true, ω) else (false, fun j => if j = k then ω k - 1 else ω j)

/-- The counts of the cells that there are. -/
def Agree (ω : Nat → Nat) (h : Heap L) : Prop := ∀ k c, h k = some c → ω k = c.strong

/-- The strong counts in a heap. -/
def Heap.strong (h : Heap L) (k : Nat) : Nat :=
  match h k with
  | some c => c.strong
  | none => 0

/-- What happens, without what is reached through the references that are given up. -/
def plain : Drop.Ev Nat L → Ev L
  | .leaf x => .leaf x
  | .free k => .free k
  | .giveUp r => .giveUp r.cell

/-- What can be reached from a cell, as a tree. -/
def Rep (h : Heap L) : Drop.Ref Nat L → Prop
  | .leaf k x => h.dat k = some (.leaf x)
  | .branch k l r => h.dat k = some (.branch l.cell r.cell) ∧ Rep h l ∧ Rep h r

/-- The shared branch datums that are met first on the ways from a reference, one for each way. -/
def sharedMet (shared : Nat → Bool) : Drop.Ref Nat L → List Nat
  | .leaf .. => []
  | .branch k l r => if shared k then [k] else sharedMet shared l ++ sharedMet shared r

/-- Is there more than one reference to a cell? -/
def Heap.shared (h : Heap L) (k : Nat) : Bool := h.strong k != 1

end Kul.RcHeap
