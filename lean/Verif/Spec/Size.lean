import Verif.Spec.History

/-! # How large datums are -/

namespace Kul

variable {P τ ε α CE : Type}

/-- The number of datums that a datum consists of, itself included. -/
def Datum.nodes : Datum τ ε → Nat
  | .combination a b | .list a b => a.nodes + b.nodes + 1
  | _ => 1

/-- The number of datums that the results of calls consist of, and one more for each. -/
def nodesOf : List (Outcome (Err P CE) (Option (Datum τ ε))) → Nat
  | [] => 0
  | .ok (some d) :: os => d.nodes + 1 + nodesOf os
  | _ :: os => nodesOf os

/-- Combiners that give no more datums than they are given: not more than a combination of the operator with
the operands, or with a text, has. -/
structure Modest (lookup : Datum τ ε → Option (Combiner τ ε α P CE)) : Prop where
  operative : ∀ d f, lookup d = some (.operative f) → ∀ t a x, (f d t a).1 = .ok (some x) → x.nodes ≤ d.nodes + 2
  applicative : ∀ d f, lookup d = some (.applicative f) → ∀ l a x, (f d l a).1 = .ok (some x) →
    x.nodes ≤ d.nodes + l.nodes + 1

end Kul
