import Verif.Model.Unwind

/-!
# Panicking combiners, in terms of those that return

The parser of `Model/Parser.lean`, about which everything else is proved, has combiners
that return. Here it is said what a parser whose combiners panic is compared with.
-/

namespace Kul

variable {σ P τ ε α CE : Type}

/-- The same function, returning the error `e` where it panicked. -/
def orErr {A : Type} (e : Err P CE) : Option (Except (Err P CE) A) × α → Except (Err P CE) A × α
  | (some o, a) => (o, a)
  | (none, a) => (.error e, a)

/-- The same combiner, returning the error `e` where it panicked. -/
def UCombiner.orErr (e : Err P CE) : UCombiner τ ε α P CE → Combiner τ ε α P CE
  | .operative f => .operative fun h t a => Kul.orErr e (f h t a)
  | .applicative f => .applicative fun h l a => Kul.orErr e (f h l a)

/-- The same parser with combiners that return the error `e` where those of `U` panic. -/
def UEnv.orErr (U : UEnv σ P τ ε α CE) (e : Err P CE) : Env σ P τ ε α CE :=
  { U.env with lookup := fun d => (U.lookup d).map (UCombiner.orErr e) }

/-- A combiner that returns, as one that may panic. -/
def Combiner.returning : Combiner τ ε α P CE → UCombiner τ ε α P CE
  | .operative f => .operative fun h t a => (some (f h t a).1, (f h t a).2)
  | .applicative f => .applicative fun h l a => (some (f h l a).1, (f h l a).2)

/-- A parser whose combiners return, as one whose combiners may panic. -/
def Env.returning (E : Env σ P τ ε α CE) : UEnv σ P τ ε α CE :=
  ⟨E, fun d => (E.lookup d).map Combiner.returning⟩

/-- `Renewed U s a os s' a'`: calls of `next` on the stream `s` with the allocator `a`, where
after every call the iterator is dropped and a new one is made over the rest of the stream
(`Parser::parse`, `core/src/lib.rs` 219-227), have the results `os` and leave `s'`, `a'`. -/
inductive UEnv.Renewed (U : UEnv σ P τ ε α CE) :
    σ → α → List (Outcome (Err P CE) (Option (Datum τ ε))) → σ → α → Prop where
  | nil {s a} : Renewed U s a [] s a
  | cons {s a o s₁ a₁ d os s' a'} : U.Call (St.init s a) o ⟨s₁, a₁, d⟩ → Renewed U s₁ a₁ os s' a' →
      Renewed U s a (o :: os) s' a'

/-- A panic, seen as the error `e`. -/
def panicAs {A : Type} (e : Err P CE) : Outcome (Err P CE) A → Outcome (Err P CE) A
  | .panic => .err e
  | o => o

/-- `None` replaced by `Err(MissingEndChar)`. -/
def neverDone {A : Type} : Outcome (Err P CE) (Option A) → Outcome (Err P CE) (Option A)
  | .ok none => .err .missingEndChar
  | o => o

end Kul
