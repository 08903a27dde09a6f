import Verif.Spec.Contract
import Verif.Spec.Balance

/-! # Properties of datums that combiners keep -/

namespace Kul

variable {P τ ε α CE : Type}

/-- All texts in the datum have property `QT`, and all extras property `QX`. -/
inductive Datum.All (QT : τ → Prop) (QX : ε → Prop) : Datum τ ε → Prop where
  | text {t} : QT t → All QT QX (.text t)
  | combination {d l} : All QT QX d → All QT QX l → All QT QX (.combination d l)
  | emptyNest : All QT QX .emptyNest
  | list {d l} : All QT QX d → All QT QX l → All QT QX (.list d l)
  | emptyList : All QT QX .emptyList
  | extra {x} : QX x → All QT QX (.extra x)

/-- What a combiner gives is in order: a datum has property `Q`, an error has property `QE`, and the state
it leaves has property `I`. -/
def InOrder (Q : Datum τ ε → Prop) (QE : Err P CE → Prop) (I : α → Prop)
    (x : Except (Err P CE) (Option (Datum τ ε)) × α) : Prop :=
  (∀ d, x.1 = .ok (some d) → Q d) ∧ (∀ e, x.1 = .error e → QE e) ∧ I x.2

/-- Combiners that are given only datums and texts in order, in a state in order, return what is in order; and
neither texts nor allocation of datums bring the state out of order. -/
structure Keeps (X : TextSem P τ α) (al : AllocOps τ ε α) (lookup : Datum τ ε → Option (Combiner τ ε α P CE))
    (QT : τ → Prop) (QX : ε → Prop) (QE : Err P CE → Prop) (I : α → Prop) : Prop where
  operative : ∀ d f t a, lookup d = some (.operative f) → d.All QT QX → QT t → I a →
    InOrder (Datum.All QT QX) QE I (f d t a)
  applicative : ∀ d f l a, lookup d = some (.applicative f) → d.All QT QX → l.All QT QX → I a →
    InOrder (Datum.All QT QX) QE I (f d l a)
  text : ∀ a b, X.RA a b → I a → I b
  alloc : ∀ d a, d.All QT QX → I a → I (al.newDatum d a).2

/-- An error of the parser itself about the items `r`. -/
def ParserError (cc : Classifier) (F : Prop) (al : AllocOps τ ε α) (r : List (Item P)) (e : Err P CE) : Prop :=
  e = .missingEndChar ∨ (∃ it ∈ r, cc.isNestEnd it.ch = true ∧ e = .unbalancedEndChar it.pos) ∨
  MemoryError F al e

/-- `n` counts at most one per call of a combiner, and nothing else. -/
structure CountsCalls (X : TextSem P τ α) (al : AllocOps τ ε α)
    (lookup : Datum τ ε → Option (Combiner τ ε α P CE)) (n : α → Nat) : Prop where
  operative : ∀ d f, lookup d = some (.operative f) → ∀ t a, n (f d t a).2 ≤ n a + 1
  applicative : ∀ d f, lookup d = some (.applicative f) → ∀ l a, n (f d l a).2 ≤ n a + 1
  text : ∀ a b, X.RA a b → n b ≤ n a
  alloc : ∀ d a, n (al.newDatum d a).2 ≤ n a

end Kul
