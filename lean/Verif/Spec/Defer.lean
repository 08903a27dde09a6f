import Verif.Spec.Bound

/-!
# Operatives that parse their operands themselves

Specification only: what it is for an operative to do by itself what the parser does for an
applicative, and for bindings to have such operatives in place of applicatives.
-/

namespace Kul

variable {P τ ε α CE : Type}

/-- None of the characters is an escape character. -/
def NoEscape (cc : Classifier) (r : List (Item P)) : Prop := ∀ it ∈ r, cc.isNestEscape it.ch = false

/-- When the operative `f` returns without error for an operands text `r` without escape characters, it has got a
meaning of `r` as a source of its own (under the bindings `inner`), and its result is what the applicative
`g` returns for the list of those datums. -/
def Defers (cc : Classifier) (RT : τ → List (Item P) → Prop)
    (inner : Datum τ ε → Option (Combiner τ ε α P CE))
    (f : Datum τ ε → τ → α → Except (Err P CE) (Option (Datum τ ε)) × α)
    (g : Datum τ ε → Datum τ ε → α → Except (Err P CE) (Option (Datum τ ε)) × α) : Prop :=
  ∀ d t r a o a', RT t r → NoEscape cc r → f d t a = (.ok o, a') →
    ∃ ds a₁, Means cc RT Eq inner r a ds a₁ ∧ g d (listOf ds) a₁ = (.ok o, a')

/-- The operative `f` returns what the applicative `g` does, if its operands text, without escape characters, has a
meaning as a source of its own. -/
def DefersAll (cc : Classifier) (inner : Datum (List (Item P)) ε → Option (Combiner (List (Item P)) ε α P CE))
    (f : Datum (List (Item P)) ε → List (Item P) → α → Except (Err P CE) (Option (Datum (List (Item P)) ε)) × α)
    (g : Datum (List (Item P)) ε → Datum (List (Item P)) ε → α → Except (Err P CE) (Option (Datum (List (Item P)) ε)) × α) :
    Prop :=
  ∀ d r a ds a₁, NoEscape cc r → Means cc Eq Eq inner r a ds a₁ → f d r a = g d (listOf ds) a₁

/-- The bindings `late` are those of `early`, but some of the applicatives are replaced by operatives, related to
them by `R`. -/
inductive Replaced (R : (Datum τ ε → τ → α → Except (Err P CE) (Option (Datum τ ε)) × α) →
      (Datum τ ε → Datum τ ε → α → Except (Err P CE) (Option (Datum τ ε)) × α) → Prop) :
    Option (Combiner τ ε α P CE) → Option (Combiner τ ε α P CE) → Prop where
  | same (b : Option (Combiner τ ε α P CE)) : Replaced R b b
  | deferred {f g} : R f g → Replaced R (some (.applicative g)) (some (.operative f))

end Kul
