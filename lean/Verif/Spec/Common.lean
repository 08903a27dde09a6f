import Verif.Model.Common
/-!
# Results up to and including the first error

Specification only.
-/

namespace Kul

variable {E A : Type}

/-- `v` is the part of `l` up to and including its first error: a prefix of it in which
nothing but the last is an error, and which is either all of `l` or ends with an error. -/
structure UpToFirstError (l v : List (Except E A)) : Prop where
  isPrefix : v <+: l
  onlyLast : ∀ v' x, v = v' ++ [x] → ∀ y ∈ v', ∃ a, y = .ok a
  complete : v = l ∨ ∃ v' e, v = v' ++ [.error e]

variable {σ P τ ε α CE : Type}

/-- A call of `next` of the iterator that stops after an error; the budget is hidden as in
`Env.Call`. -/
def Env.TakeCall (E : Env σ P τ ε α CE) (t : TakeIter σ α)
    (o : Outcome Empty (Option (Except (Err P CE) (Datum τ ε)))) (t' : TakeIter σ α) : Prop :=
  ∃ n, E.takeNext n t = (o, t') ∧ o ≠ .fuel

/-- A history of such calls. -/
inductive Env.TakeCalls (E : Env σ P τ ε α CE) : TakeIter σ α →
    List (Outcome Empty (Option (Except (Err P CE) (Datum τ ε)))) → TakeIter σ α → Prop where
  | nil {t} : TakeCalls E t [] t
  | cons {t o t' os t''} : E.TakeCall t o t' → TakeCalls E t' os t'' → TakeCalls E t (o :: os) t''

/-- `collect_up_to_first_err` returns the vector `v`, and then the parse is in state `s'`. -/
def Env.Collects (E : Env σ P τ ε α CE) (s : St σ α) (v : List (Except (Err P CE) (Datum τ ε)))
    (s' : St σ α) : Prop :=
  ∃ n k t, E.collectUpToFirstErr n k s = (.ok v, t) ∧ t.iter = s'

end Kul
