import Verif.Model.Parser

/-!
# Using a parser: calls of `Iterator::next`

Models `core/src/lib.rs` 244-259: `ParseIter` is an `Iterator` whose items are
`Result`s; its user calls `next` again and again, also after an `Err`.
-/

namespace Kul

variable {σ P τ ε α CE : Type}

/-- A call of `ParseIter::next` (`core/src/lib.rs` 244-259) in state `s` gives `o`
and leaves state `s'`: `.ok none` is Rust's `None`, `.ok (some d)` is
`Some(Ok(d))`, `.err e` is `Some(Err(e))`. The budget of the model is hidden: the
call ends when some budget suffices (the result does not depend on which,
`Env.Call.unique`). -/
def Env.Call (E : Env σ P τ ε α CE) (s : St σ α)
    (o : Outcome (Err P CE) (Option (Datum τ ε))) (s' : St σ α) : Prop :=
  ∃ n, E.doNext n s = (o, s') ∧ o ≠ .fuel

/-- A history of calls of `next`, with their results in order. -/
inductive Env.Calls (E : Env σ P τ ε α CE) :
    St σ α → List (Outcome (Err P CE) (Option (Datum τ ε))) → St σ α → Prop where
  | nil {s} : Calls E s [] s
  | cons {s o s' os s''} : E.Call s o s' → Calls E s' os s'' → Calls E s (o :: os) s''

/-- What a `for` loop over the parser sees: the items up to the first `None`. -/
inductive Env.Yields (E : Env σ P τ ε α CE) :
    St σ α → List (Except (Err P CE) (Datum τ ε)) → St σ α → Prop where
  | done {s s'} : E.Call s (.ok none) s' → Yields E s [] s'
  | datum {s d s' l s''} : E.Call s (.ok (some d)) s' → Yields E s' l s'' →
      Yields E s (.ok d :: l) s''
  | error {s e s' l s''} : E.Call s (.err e) s' → Yields E s' l s'' →
      Yields E s (.error e :: l) s''

end Kul
