import Verif.Model.Drop

/-!
# What dropping must do

Words for the statements of `Props/Drop.lean`. They are about references (with all that can be
reached through them), about events, and about the oracle that says which references are shared;
not about how the algorithm works.
-/

namespace Kul.Drop

variable {K L Ω : Type}

/-- The number of branch datums (`Combination`, `List`), one for each way to reach it. -/
def Ref.branches : Ref K L → Nat
  | .leaf .. => 0
  | .branch _ l r => l.branches + r.branches + 1

/-- All cells that can be reached. -/
def Ref.cells : Ref K L → List K
  | .leaf k _ => [k]
  | .branch k l r => k :: (l.cells ++ r.cells)

/-- All leaves that can be reached. -/
def Ref.leaves : Ref K L → List L
  | .leaf _ x => x.toList
  | .branch _ l r => l.leaves ++ r.leaves

/-- The references to cells that are shared, the ones inside shared cells not included. -/
def Ref.sharedRefs (shared : K → Bool) : Ref K L → List (Ref K L)
  | .leaf k x => if shared k then [.leaf k x] else []
  | .branch k l r => if shared k then [.branch k l r] else l.sharedRefs shared ++ r.sharedRefs shared

/-- The cells that are reached through references that are not shared. -/
def Ref.ownCells (shared : K → Bool) : Ref K L → List K
  | .leaf k _ => if shared k then [] else [k]
  | .branch k l r => if shared k then [] else k :: (l.ownCells shared ++ r.ownCells shared)

/-- The leaves in these cells. -/
def Ref.ownLeaves (shared : K → Bool) : Ref K L → List L
  | .leaf k x => if shared k then [] else x.toList
  | .branch k l r => if shared k then [] else l.ownLeaves shared ++ r.ownLeaves shared

/-- The number of references to shared branch datums, the ones inside shared cells not included. -/
def Ref.sharedBranches (shared : K → Bool) : Ref K L → Nat
  | .leaf .. => 0
  | .branch k l r => if shared k then 1 else l.sharedBranches shared + r.sharedBranches shared

/-- The number of branch datums that are reached through references that are not shared. -/
def Ref.ownBranches (shared : K → Bool) : Ref K L → Nat
  | .leaf .. => 0
  | .branch k l r => if shared k then 0 else l.ownBranches shared + r.ownBranches shared + 1

/-- The cells that were freed. -/
def freed : List (Ev K L) → List K :=
  List.filterMap fun | .free k => some k | _ => none

/-- The leaves that were disposed of (`TempLeaf`s are not counted). -/
def disposed : List (Ev K L) → List L :=
  List.filterMap fun | .leaf x => x | _ => none

/-- The references given up because others to the same cell are left. -/
def givenUp : List (Ev K L) → List (Ref K L) :=
  List.filterMap fun | .giveUp r => some r | _ => none

/-- Dropping `t` ends, without panic, after `steps` loop iterations of the algorithm and with at
most `depth` nested calls. -/
def Drops (O : Oracle Ω K) (t : Ref K L) (ω : Ω) (evs : List (Ev K L)) (steps depth : Nat) : Prop :=
  ∃ ω' n, ∀ m ≥ n, drop O m t ω = .done evs steps depth ω'

/-- What is shared stays shared and what is not does not become shared: other references to the
shared cells exist for the whole time. -/
def Oracle.Steady (O : Oracle Ω K) (shared : K → Bool) : Prop :=
  ∀ ω k, (O.take ω k).1 = !shared k ∧ (O.last ω k).1 = !shared k

/-- The oracle for references which are the only ones, like all `DatumBox`es. -/
def Oracle.sole : Oracle Unit K := ⟨fun ω _ => (true, ω), fun ω _ => (true, ω)⟩

/-- The oracle for steady sharing. -/
def Oracle.steady (shared : K → Bool) : Oracle Unit K :=
  ⟨fun ω k => (!shared k, ω), fun ω k => (!shared k, ω)⟩

end Kul.Drop
