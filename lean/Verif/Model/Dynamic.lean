import Verif.Model.Api

/-!
# A parser whose bindings may change

`core/src/parser.rs` 104-127 `OperatorBindings::lookup` takes `&self`, and any type may
implement the trait. With interior mutability (`Cell`, `RefCell`, `Mutex`, atomics) what
`lookup` answers may depend on what combiners and earlier lookups have done, and `lookup`
may itself leave something changed: a parser whose notation defines new operators while
it is read.

Here the functions of `Model/Parser.lean` that look heads up, directly or not, are
written again with bindings that have a state. The state is part of `α`, with the
allocator and whatever else combiners can reach. The functions that do not look heads up
(`peek`, `parse_text`, `skip_whitespace`, `check_end_char`, ...) are used from there.
-/

namespace Kul

/-- `core/src/lib.rs` 202-228 `Parser { classifier, allocator, bindings }` with the
type parameters `S` and `TT`. `lookup` is `core/src/parser.rs` 104-127
`OperatorBindings::lookup`, which may see and change the state; the bindings of `env` are
not used. -/
structure DynEnv (σ P τ ε α CE : Type) where
  env : Env σ P τ ε α CE
  lookup : Datum τ ε → α → Option (Combiner τ ε α P CE) × α

variable {σ P τ ε α CE : Type} (U : DynEnv σ P τ ε α CE)

namespace DynEnv

/-- `core/src/lib.rs` 483 `self.bindings.lookup(&operator)`. -/
def find (operator : Datum τ ε) : Act (St σ α) (Err P CE) (Option (Combiner τ ε α P CE)) := fun s =>
  (.ok (U.lookup operator s.alloc).1, { s with alloc := (U.lookup operator s.alloc).2 })

mutual

/-- `core/src/lib.rs` 308-358 `parse_next`, as `Env.parseNext`. -/
def parseNext : Nat → Mode → Act (St σ α) (Err P CE) (Option (Datum τ ε))
  | 0, _ => Act.fuel
  | n + 1, mode => do
    U.env.skipLeading n mode
    match ← U.env.peek with
    | none => do
      let d ← Env.getDepth
      if d = 0 then pure none else Act.throw .missingEndChar
    | some it =>
      if U.env.cc.isNestStart it.ch then do
        match ← Env.nestedInDepth (parseNested n) with
        | none => parseNext n mode
        | some d => pure (some d)
      else if U.env.cc.isNestEnd it.ch then do
        U.env.checkEndChar
        pure none
      else do
        let t ← U.env.parseText n mode
        pure (some (.text t))

/-- `core/src/lib.rs` 448-522 `parse_nested`, as `Env.parseNested`. -/
def parseNested : Nat → Act (St σ α) (Err P CE) (Option (Datum τ ε))
  | 0 => Act.fuel
  | n + 1 => do
    let start ← U.env.next
    Act.debugAssert (start.map (fun it => U.env.cc.isNestStart it.ch) == some true)
    let operator ← parseNext n .operator
    U.env.skipSeparator
    match operator with
    | some operator =>
      match ← U.find operator with
      | some (.operative opr) => do
        let operands ← U.env.parseText n .operands
        U.env.nestEnd
        liftCombiner (opr operator operands)
      | some (.applicative apl) => do
        let arguments ← parseAll n .base []
        U.env.nestEnd
        liftCombiner (apl operator arguments)
      | none => do
        let operands ← parseAll n .base []
        U.env.nestEnd
        U.env.newDatum operator
        U.env.newDatum operands
        pure (some (.combination operator operands))
    | none => do
      U.env.nestEnd
      pure (some .emptyNest)

/-- `core/src/lib.rs` 524-557 `parse_all`, as `Env.parseAll`. -/
def parseAll : Nat → Mode → List (Datum τ ε) → Act (St σ α) (Err P CE) (Datum τ ε)
  | 0, _, _ => Act.fuel
  | n + 1, mode, acc => do
    match ← parseNext n mode with
    | some it => do
      U.env.newDatum it
      U.env.newDatum .emptyList
      let m ← U.env.getMutFresh
      if m then parseAll n mode (acc ++ [it]) else Act.throw .failedDerefTryMut
    | none => pure (mkList acc)

end

/-- A call of `ParseIter::next` (`core/src/lib.rs` 244-259) in state `s` gives `o` and
leaves state `s'`, as `Env.Call`. -/
def Call (s : St σ α) (o : Outcome (Err P CE) (Option (Datum τ ε))) (s' : St σ α) : Prop :=
  ∃ n, U.parseNext n .base s = (o, s') ∧ o ≠ .fuel

/-- A history of calls of `next`, with their results in order, as `Env.Calls`. -/
inductive Calls : St σ α → List (Outcome (Err P CE) (Option (Datum τ ε))) → St σ α → Prop where
  | nil {s} : Calls s [] s
  | cons {s o s' os s''} : U.Call s o s' → Calls s' os s'' → Calls s (o :: os) s''

/-- What a `for` loop over the parser sees: the items up to the first `None`, as
`Env.Yields`. -/
inductive Yields : St σ α → List (Except (Err P CE) (Datum τ ε)) → St σ α → Prop where
  | done {s s'} : U.Call s (.ok none) s' → Yields s [] s'
  | datum {s d s' l s''} : U.Call s (.ok (some d)) s' → Yields s' l s'' → Yields s (.ok d :: l) s''
  | error {s e s' l s''} : U.Call s (.err e) s' → Yields s' l s'' → Yields s (.error e :: l) s''

end DynEnv

end Kul
