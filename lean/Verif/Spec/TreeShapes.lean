import Verif.Spec.Drop

/-!
# How long dropping takes, and shapes of trees

Specification only.
-/

namespace Kul.Drop

variable {K L : Type}

/-- A count of a tree: where the right reference of a branch datum is to a leaf, that of the left; else all branch datums of the
left, and that of the right. -/
def Ref.extraTurns : Ref K L → Nat
  | .leaf .. => 0
  | .branch _ l r => match r with
    | .leaf .. => l.extraTurns
    | .branch .. => l.branches + r.extraTurns

/-- A tree without forks: no branch datum refers to two branch datums. -/
def Ref.Thread : Ref K L → Prop
  | .leaf .. => True
  | .branch _ l r => (l.branches = 0 ∧ r.Thread) ∨ (r.branches = 0 ∧ l.Thread)

/-- All leaves are `d` deep. -/
def Ref.Perfect : Nat → Ref K L → Prop
  | d, .leaf .. => d = 0
  | d, .branch _ l r => ∃ d', d = d' + 1 ∧ l.Perfect d' ∧ r.Perfect d'

end Kul.Drop
