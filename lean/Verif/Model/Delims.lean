import Verif.Model.Dynamic

/-!
# A parser whose delimiters may change

`core/src/parser.rs` 40-64 `CharClassifier`: its methods take `&self`, and any type may implement the
trait. With interior mutability what they answer may depend on what combiners (or lookups) have done:
a source that changes its own delimiters while it is read.

Here the functions of `Model/Parser.lean` are written again with a classifier that is asked in a state.
The state is part of `α`, with the allocator, the bindings of `Model/Dynamic.lean` and whatever else
combiners can reach. Every use of the classifier asks it in the state of that moment. Simplification:
asking the classifier does not itself change the state.
-/

namespace Kul

/-- `core/src/lib.rs` 202-228 `Parser { classifier, allocator, bindings }` with the type parameters `S` and
`TT`. `cc` is `core/src/parser.rs` 40-64 `CharClassifier`, `lookup` is 104-127 `OperatorBindings::lookup`; the
classifier and the bindings of `env` are not used. -/
structure ClsEnv (σ P τ ε α CE : Type) where
  env : Env σ P τ ε α CE
  cc : α → Classifier
  lookup : Datum τ ε → α → Option (Combiner τ ε α P CE) × α

variable {σ P τ ε α CE : Type} (U : ClsEnv σ P τ ε α CE)

namespace ClsEnv

/-- What the classifier answers now. -/
def here : Act (St σ α) (Err P CE) Classifier := fun s => (.ok (U.cc s.alloc), s)

/-- `core/src/lib.rs` 483 `self.bindings.lookup(&operator)`. -/
def find (operator : Datum τ ε) : Act (St σ α) (Err P CE) (Option (Combiner τ ε α P CE)) := fun s =>
  (.ok (U.lookup operator s.alloc).1, { s with alloc := (U.lookup operator s.alloc).2 })

/-- `core/src/lib.rs` 560-567 `skip_whitespace`. -/
def skipWhitespace : Nat → Act (St σ α) (Err P CE) Unit
  | 0 => Act.fuel
  | n + 1 => do
    match ← U.env.peek with
    | none => pure ()
    | some it => do
      let cc ← U.here
      if cc.isWhitespace it.ch then do
        let _ ← U.env.next
        skipWhitespace n
      else pure ()

/-- `core/src/lib.rs` 569-589 `check_end_char`. -/
def checkEndChar : Act (St σ α) (Err P CE) Unit := do
  let o ← U.env.peek
  let cc ← U.here
  Act.debugAssert (o.map (fun it => cc.isNestEnd it.ch) == some true)
  let d ← Env.getDepth
  if d > 0 then pure ()
  else
    match ← U.env.next with
    | none => Act.panic
    | some n => Act.throw (.unbalancedEndChar n.pos)

/-- `core/src/lib.rs` 404-437, the `while let` loop of `parse_text`, followed by
`finishText`, as `Env.parseTextLoop`. Between `peek` and the tests of the character
nothing else is done, so that one state is asked. -/
def parseTextLoop (mode : Mode) : Nat → τ → Nat → Act (St σ α) (Err P CE) τ
  | 0, _, _ => Act.fuel
  | n + 1, text, nestLevel => do
    match ← U.env.peek with
    | none => U.env.finishText text nestLevel
    | some it => do
      let cc ← U.here
      if nestLevel = 0 ∧ isEndChar cc mode it.ch then
        U.env.finishText text nestLevel
      else if cc.isNestEscape it.ch then do
        let text ← U.env.concatAccum text
        let _ ← U.env.next
        let _ ← U.env.nextAccum
        parseTextLoop mode n text nestLevel
      else if cc.isNestStart it.ch then do
        let _ ← U.env.nextAccum
        parseTextLoop mode n text (nestLevel + 1)
      else if cc.isNestEnd it.ch then
        if nestLevel > 0 then do
          let _ ← U.env.nextAccum
          parseTextLoop mode n text (nestLevel - 1)
        else do
          U.checkEndChar
          U.env.finishText text nestLevel
      else do
        let _ ← U.env.nextAccum
        parseTextLoop mode n text nestLevel

/-- `core/src/lib.rs` 361-445 `parse_text`. -/
def parseText (n : Nat) (mode : Mode) : Act (St σ α) (Err P CE) τ :=
  U.parseTextLoop mode n U.env.text.empty 0

/-- `core/src/lib.rs` 457-466, the closure `end` of `parse_nested`. -/
def nestEnd : Act (St σ α) (Err P CE) Unit := do
  match ← U.env.next with
  | some it => do
    let cc ← U.here
    Act.debugAssert (cc.isNestEnd it.ch)
  | none => Act.throw .missingEndChar

/-- `core/src/lib.rs` 477-479: if the head is followed by whitespace, advance past
one whitespace character. -/
def skipSeparator : Act (St σ α) (Err P CE) Unit := do
  match ← U.env.peek with
  | none => pure ()
  | some it => do
    let cc ← U.here
    if cc.isWhitespace it.ch then do
      let _ ← U.env.next
      pure ()
    else pure ()

/-- `core/src/lib.rs` 319-322: in operator position, skip leading whitespace. -/
def skipLeading (n : Nat) (mode : Mode) : Act (St σ α) (Err P CE) Unit :=
  if mode = .operator then U.skipWhitespace n else pure ()

mutual

/-- `core/src/lib.rs` 308-358 `parse_next`, as `Env.parseNext`. -/
def parseNext : Nat → Mode → Act (St σ α) (Err P CE) (Option (Datum τ ε))
  | 0, _ => Act.fuel
  | n + 1, mode => do
    U.skipLeading n mode
    match ← U.env.peek with
    | none => do
      let d ← Env.getDepth
      if d = 0 then pure none else Act.throw .missingEndChar
    | some it => do
      let cc ← U.here
      if cc.isNestStart it.ch then do
        match ← Env.nestedInDepth (parseNested n) with
        | none => parseNext n mode
        | some d => pure (some d)
      else if cc.isNestEnd it.ch then do
        U.checkEndChar
        pure none
      else do
        let t ← U.parseText n mode
        pure (some (.text t))

/-- `core/src/lib.rs` 448-522 `parse_nested`, as `Env.parseNested`. -/
def parseNested : Nat → Act (St σ α) (Err P CE) (Option (Datum τ ε))
  | 0 => Act.fuel
  | n + 1 => do
    let start ← U.env.next
    let cc ← U.here
    Act.debugAssert (start.map (fun it => cc.isNestStart it.ch) == some true)
    let operator ← parseNext n .operator
    U.skipSeparator
    match operator with
    | some operator =>
      match ← U.find operator with
      | some (.operative opr) => do
        let operands ← U.parseText n .operands
        U.nestEnd
        liftCombiner (opr operator operands)
      | some (.applicative apl) => do
        let arguments ← parseAll n .base []
        U.nestEnd
        liftCombiner (apl operator arguments)
      | none => do
        let operands ← parseAll n .base []
        U.nestEnd
        U.env.newDatum operator
        U.env.newDatum operands
        pure (some (.combination operator operands))
    | none => do
      U.nestEnd
      pure (some .emptyNest)

/-- `core/src/lib.rs` 524-557 `parse_all`, as `Env.parseAll`. -/
def parseAll : Nat → Mode → List (Datum τ ε) → Act (St σ α) (Err P CE) (Datum τ ε)
  | 0, _, _ => Act.fuel
  | n + 1, mode, acc => do
    match ← parseNext n mode with
    | some it => do
      U.env.newDatum it
      U.env.newDatum .emptyList
      let m ← U.env.getMutFresh
      if m then parseAll n mode (acc ++ [it]) else Act.throw .failedDerefTryMut
    | none => pure (mkList acc)

end

/-- A call of `ParseIter::next` (`core/src/lib.rs` 244-259) in state `s` gives `o` and
leaves state `s'`, as `Env.Call`. -/
def Call (s : St σ α) (o : Outcome (Err P CE) (Option (Datum τ ε))) (s' : St σ α) : Prop :=
  ∃ n, U.parseNext n .base s = (o, s') ∧ o ≠ .fuel

/-- A history of calls of `next`, with their results in order, as `Env.Calls`. -/
inductive Calls : St σ α → List (Outcome (Err P CE) (Option (Datum τ ε))) → St σ α → Prop where
  | nil {s} : Calls s [] s
  | cons {s o s' os s''} : U.Call s o s' → Calls s' os s'' → Calls s (o :: os) s''

/-- What a `for` loop over the parser sees: the items up to the first `None`, as
`Env.Yields`. -/
inductive Yields : St σ α → List (Except (Err P CE) (Datum τ ε)) → St σ α → Prop where
  | done {s s'} : U.Call s (.ok none) s' → Yields s [] s'
  | datum {s d s' l s''} : U.Call s (.ok (some d)) s' → Yields s' l s'' → Yields s (.ok d :: l) s''
  | error {s e s' l s''} : U.Call s (.err e) s' → Yields s' l s'' → Yields s (.error e :: l) s''

end ClsEnv

end Kul
