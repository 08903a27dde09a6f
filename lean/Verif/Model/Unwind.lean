import Verif.Model.Api

/-!
# A parser whose combiners may panic

`core/src/combiner.rs` 21-52 takes any closures as combiners, and a closure can
panic. Where the program is compiled with unwinding, the panic passes through
`parse_nested`, `parse_next` and `Iterator::next` to the user, who may catch it
(`std::panic::catch_unwind`) and go on with the same iterator. None of the frames in
between restores anything: `parse_next` (`core/src/lib.rs` 334-337) decrements
`*ndepth` by an ordinary statement after the call of `parse_nested`, which unwinding
skips.

Here the functions of `Model/Parser.lean` that call combiners, directly or not, are
written again with combiners that may panic. Those that do not (`peek`, `parse_text`,
`skip_whitespace`, `check_end_char`, ...) are used from there.
-/

namespace Kul

/-- `core/src/combiner.rs` 21-26 `Combiner`, with 34 `OpFn`, 44 `ApFn`, 52 `Result`, as
`Combiner` in `Model/Base.lean` but the closures may also panic: the result `none`.
What a closure did to the allocator before it panicked stays done. -/
inductive UCombiner (τ ε α P CE : Type) where
  | operative (f : Datum τ ε → τ → α → Option (Except (Err P CE) (Option (Datum τ ε))) × α)
  | applicative
      (f : Datum τ ε → Datum τ ε → α → Option (Except (Err P CE) (Option (Datum τ ε))) × α)

/-- `core/src/lib.rs` 202-228 `Parser { classifier, allocator, bindings }` with the
type parameters `S` and `TT`, the bindings giving combiners that may panic. `lookup` is
`core/src/parser.rs` 104-127 `OperatorBindings::lookup`; the bindings of `env` are not
used. -/
structure UEnv (σ P τ ε α CE : Type) where
  env : Env σ P τ ε α CE
  lookup : Datum τ ε → Option (UCombiner τ ε α P CE)

/-- Calls a combiner that may panic (`core/src/lib.rs` 493, 502). -/
def callUnwind {σ α P CE A : Type} (f : α → Option (Except (Err P CE) A) × α) :
    Act (St σ α) (Err P CE) A := fun s =>
  match f s.alloc with
  | (some o, a') => (Outcome.ofExcept o, { s with alloc := a' })
  | (none, a') => (.panic, { s with alloc := a' })

/-- `core/src/lib.rs` 334-337: `*ndepth += 1; parse_nested(..); *ndepth -= 1`. The
decrement is done when `parse_nested` returns, with `Ok` or with `Err`, and not when it
unwinds. The subtraction would panic on underflow. -/
def nestedUnwind {σ α P CE A : Type} (nested : Act (St σ α) (Err P CE) A) :
    Act (St σ α) (Err P CE) A := fun s =>
  match nested { s with ndepth := s.ndepth + 1 } with
  | (.panic, s') => (.panic, s')
  | (r, s') =>
    if s'.ndepth = 0 then (.panic, s')
    else (r, { s' with ndepth := s'.ndepth - 1 })

variable {σ P τ ε α CE : Type} (U : UEnv σ P τ ε α CE)

namespace UEnv

mutual

/-- `core/src/lib.rs` 308-358 `parse_next`, as `Env.parseNext`. -/
def parseNext : Nat → Mode → Act (St σ α) (Err P CE) (Option (Datum τ ε))
  | 0, _ => Act.fuel
  | n + 1, mode => do
    U.env.skipLeading n mode
    match ← U.env.peek with
    | none => do
      let d ← Env.getDepth
      if d = 0 then pure none else Act.throw .missingEndChar
    | some it =>
      if U.env.cc.isNestStart it.ch then do
        match ← nestedUnwind (parseNested n) with
        | none => parseNext n mode
        | some d => pure (some d)
      else if U.env.cc.isNestEnd it.ch then do
        U.env.checkEndChar
        pure none
      else do
        let t ← U.env.parseText n mode
        pure (some (.text t))

/-- `core/src/lib.rs` 448-522 `parse_nested`, as `Env.parseNested`. -/
def parseNested : Nat → Act (St σ α) (Err P CE) (Option (Datum τ ε))
  | 0 => Act.fuel
  | n + 1 => do
    let start ← U.env.next
    Act.debugAssert (start.map (fun it => U.env.cc.isNestStart it.ch) == some true)
    let operator ← parseNext n .operator
    U.env.skipSeparator
    match operator with
    | some operator =>
      match U.lookup operator with
      | some (.operative opr) => do
        let operands ← U.env.parseText n .operands
        U.env.nestEnd
        callUnwind (opr operator operands)
      | some (.applicative apl) => do
        let arguments ← parseAll n .base []
        U.env.nestEnd
        callUnwind (apl operator arguments)
      | none => do
        let operands ← parseAll n .base []
        U.env.nestEnd
        U.env.newDatum operator
        U.env.newDatum operands
        pure (some (.combination operator operands))
    | none => do
      U.env.nestEnd
      pure (some .emptyNest)

/-- `core/src/lib.rs` 524-557 `parse_all`, as `Env.parseAll`. -/
def parseAll : Nat → Mode → List (Datum τ ε) → Act (St σ α) (Err P CE) (Datum τ ε)
  | 0, _, _ => Act.fuel
  | n + 1, mode, acc => do
    match ← parseNext n mode with
    | some it => do
      U.env.newDatum it
      U.env.newDatum .emptyList
      let m ← U.env.getMutFresh
      if m then parseAll n mode (acc ++ [it]) else Act.throw .failedDerefTryMut
    | none => pure (mkList acc)

end

/-- A call of `ParseIter::next` (`core/src/lib.rs` 244-259) in state `s` gives `o` and
leaves state `s'`, as `Env.Call`; the outcome `.panic` is a panic that reaches the
caller of `next`, and `s'` is then what the iterator, if the panic is caught, is left
as. -/
def Call (s : St σ α) (o : Outcome (Err P CE) (Option (Datum τ ε))) (s' : St σ α) : Prop :=
  ∃ n, U.parseNext n .base s = (o, s') ∧ o ≠ .fuel

/-- A history of calls of `next`, also after panics, with their results in order. -/
inductive Calls : St σ α → List (Outcome (Err P CE) (Option (Datum τ ε))) → St σ α → Prop where
  | nil {s} : Calls s [] s
  | cons {s o s' os s''} : U.Call s o s' → Calls s' os s'' → Calls s (o :: os) s''

end UEnv

end Kul
