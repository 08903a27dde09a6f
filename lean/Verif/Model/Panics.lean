import Verif.Model.Unwind

/-!
# A parser that panics wherever its user's code does

Everything that `core/src/lib.rs` 308-589 calls is a method of a type chosen by the user of
the crate, the classifier, the bindings, the allocator, the text type and the source stream,
or a combiner. Any of these calls may panic. `Model/Unwind.lean` has the panics of combiners
only; here every call may panic. As there, the panic passes through all frames of the parser
to the caller of `Iterator::next`, and none of them restores anything.

Whether a call panics may depend on its arguments and on the state of the stream and of the
allocator. (A classifier or bindings with state of their own: count that state as part of
the allocator's.) The answers of the calls that return are those of the parser of
`Model/Parser.lean`.
-/

namespace Kul

/-- The methods of `core/src/lib.rs` 145-195 `SourceStream` that the parser calls. -/
inductive StreamCall where
  | peek
  | next
  | nextAccum
  | accumDone
deriving DecidableEq, Repr

/-- The methods of `core/src/parser.rs` 49-66 `CharClassifier`. -/
inductive Ask where
  | whitespace
  | nestStart
  | nestEnd
  | nestEscape
deriving DecidableEq, Repr

/-- The answer of the method (`core/src/parser.rs` 49-66). -/
def Ask.of (cc : Classifier) : Ask → Char → Bool
  | .whitespace => cc.isWhitespace
  | .nestStart => cc.isNestStart
  | .nestEnd => cc.isNestEnd
  | .nestEscape => cc.isNestEscape

/-- A call by the parser of a method that is not of the stream, or of a combiner, with its
arguments: `TextBase::empty`, `TextConcat::concat` (`core/src/text.rs` 34, 286-307), the methods
of the classifier, `DatumAllocator::new_datum`, `DerefTryMut::get_mut`,
`OperatorBindings::lookup` (`core/src/parser.rs` 69-127), and the combiner bound to the
operator given first. -/
inductive UserCall (τ ε : Type) where
  | emptyText
  | concat (t u : τ)
  | ask (q : Ask) (ch : Char)
  | newDatum (d : Datum τ ε)
  | getMut
  | lookup (d : Datum τ ε)
  | operative (d : Datum τ ε) (t : τ)
  | applicative (d : Datum τ ε) (l : Datum τ ε)

/-- `core/src/lib.rs` 202-228 `Parser { classifier, allocator, bindings }` with the type
parameters `S` and `TT`, any of whose functions may panic: `strmPanics` and `panics` say
that a call panics and what it has then made of the stream and of the allocator. A call
that does not panic does what `env` says. -/
structure PEnv (σ P τ ε α CE : Type) where
  env : Env σ P τ ε α CE
  strmPanics : StreamCall → σ → α → Option (σ × α)
  panics : UserCall τ ε → α → Option α

variable {σ P τ ε α CE : Type} (U : PEnv σ P τ ε α CE)

namespace PEnv

/-- The panic, if any, of a method of the stream, called by `core/src/lib.rs` 308-589. -/
def ofStream (c : StreamCall) : Act (St σ α) (Err P CE) Unit := fun s =>
  match U.strmPanics c s.strm s.alloc with
  | some (s', a') => (.panic, { s with strm := s', alloc := a' })
  | none => (.ok (), s)

/-- The panic, if any, of any other function called by `core/src/lib.rs` 308-589. -/
def ofUser (c : UserCall τ ε) : Act (St σ α) (Err P CE) Unit := fun s =>
  match U.panics c s.alloc with
  | some a' => (.panic, { s with alloc := a' })
  | none => (.ok (), s)

/-- `SourceStream::peek` on the stream of the parse (`core/src/lib.rs` 324, 404, 477, 561, 574). -/
def peek : Act (St σ α) (Err P CE) (Option (Item P)) := do
  U.ofStream .peek
  U.env.peek

/-- `Iterator::next` on the stream of the parse (`core/src/lib.rs` 413, 460, 469, 478, 565, 586). -/
def next : Act (St σ α) (Err P CE) (Option (Item P)) := do
  U.ofStream .next
  U.env.next

/-- `SourceStream::next_accum` on the stream of the parse (`core/src/lib.rs` 414, 419, 426, 435). -/
def nextAccum : Act (St σ α) (Err P CE) (Option (Item P)) := do
  U.ofStream .nextAccum
  U.env.nextAccum

/-- A question to the classifier. -/
def ask (q : Ask) (ch : Char) : Act (St σ α) (Err P CE) Bool := do
  U.ofUser (.ask q ch)
  pure (q.of U.env.cc ch)

/-- `core/src/lib.rs` 370-383, the local function `is_end_char` of `parse_text`: the
questions in the order of its `||`. -/
def isEnd (mode : Mode) (ch : Char) : Act (St σ α) (Err P CE) Bool :=
  match mode with
  | .base => U.ask .nestStart ch
  | .operator => do
    if ← U.ask .whitespace ch then pure true
    else if ← U.ask .nestStart ch then pure true
    else U.ask .nestEnd ch
  | .operands => U.ask .nestEnd ch

/-- `core/src/lib.rs` 406, the condition `nest_level == 0 && is_end_char(..)`. -/
def stops (mode : Mode) (nestLevel : Nat) (ch : Char) : Act (St σ α) (Err P CE) Bool :=
  if nestLevel = 0 then U.isEnd mode ch else pure false

/-- `core/src/lib.rs` 395-400 macro `concat_accum!`, as `Env.concatAccum`. -/
def concatAccum (text : τ) : Act (St σ α) (Err P CE) τ := do
  U.ofStream .accumDone
  let accum ← liftAccum U.env.strm.accumDone
  U.ofUser (.concat text accum)
  liftAlloc (U.env.text.concat text accum)

/-- `core/src/lib.rs` 560-567 `skip_whitespace`, as `Env.skipWhitespace`. -/
def skipWhitespace : Nat → Act (St σ α) (Err P CE) Unit
  | 0 => Act.fuel
  | n + 1 => do
    match ← U.peek with
    | none => pure ()
    | some it =>
      if ← U.ask .whitespace it.ch then do
        let _ ← U.next
        skipWhitespace n
      else pure ()

/-- The question of a debug assertion about an item of the source, if there is one
(`core/src/lib.rs` 470-471, 574-576). -/
def askItem (q : Ask) : Option (Item P) → Act (St σ α) (Err P CE) (Option Bool)
  | none => pure none
  | some it => do
    let b ← U.ask q it.ch
    pure (some b)

/-- `core/src/lib.rs` 569-589 `check_end_char`, as `Env.checkEndChar`. -/
def checkEndChar : Act (St σ α) (Err P CE) Unit := do
  let o ← U.peek
  let b ← U.askItem .nestEnd o
  Act.debugAssert (b == some true)
  let d ← Env.getDepth
  if d > 0 then pure ()
  else
    match ← U.next with
    | none => Act.panic
    | some n => Act.throw (.unbalancedEndChar n.pos)

/-- `core/src/lib.rs` 438-444, the end of `parse_text`, as `Env.finishText`. -/
def finishText (text : τ) (nestLevel : Nat) : Act (St σ α) (Err P CE) τ :=
  if nestLevel = 0 then U.concatAccum text
  else Act.throw .missingEndChar

/-- `core/src/lib.rs` 404-437, the loop of `parse_text`, as `Env.parseTextLoop`: the
questions to the classifier in the order of the `else if`s. -/
def parseTextLoop (mode : Mode) : Nat → τ → Nat → Act (St σ α) (Err P CE) τ
  | 0, _, _ => Act.fuel
  | n + 1, text, nestLevel => do
    match ← U.peek with
    | none => U.finishText text nestLevel
    | some it =>
      if ← U.stops mode nestLevel it.ch then U.finishText text nestLevel
      else if ← U.ask .nestEscape it.ch then do
        let text ← U.concatAccum text
        let _ ← U.next
        let _ ← U.nextAccum
        parseTextLoop mode n text nestLevel
      else if ← U.ask .nestStart it.ch then do
        let _ ← U.nextAccum
        parseTextLoop mode n text (nestLevel + 1)
      else if ← U.ask .nestEnd it.ch then
        if nestLevel > 0 then do
          let _ ← U.nextAccum
          parseTextLoop mode n text (nestLevel - 1)
        else do
          U.checkEndChar
          U.finishText text nestLevel
      else do
        let _ ← U.nextAccum
        parseTextLoop mode n text nestLevel

/-- `core/src/lib.rs` 361-445 `parse_text`, as `Env.parseText`. -/
def parseText (n : Nat) (mode : Mode) : Act (St σ α) (Err P CE) τ := do
  U.ofUser .emptyText
  U.parseTextLoop mode n U.env.text.empty 0

/-- `core/src/lib.rs` 457-466, the closure `end` of `parse_nested`, as `Env.nestEnd`. -/
def nestEnd : Act (St σ α) (Err P CE) Unit := do
  match ← U.next with
  | some it => do
    let b ← U.ask .nestEnd it.ch
    Act.debugAssert b
  | none => Act.throw .missingEndChar

/-- `core/src/lib.rs` 477-479, as `Env.skipSeparator`. -/
def skipSeparator : Act (St σ α) (Err P CE) Unit := do
  match ← U.peek with
  | none => pure ()
  | some it =>
    if ← U.ask .whitespace it.ch then do
      let _ ← U.next
      pure ()
    else pure ()

/-- `core/src/lib.rs` 319-322, as `Env.skipLeading`. -/
def skipLeading (n : Nat) (mode : Mode) : Act (St σ α) (Err P CE) Unit :=
  if mode = .operator then U.skipWhitespace n else pure ()

/-- `DatumAllocator::new_datum` (`core/src/lib.rs` 513-514, 540-541). -/
def newDatum (d : Datum τ ε) : Act (St σ α) (Err P CE) Unit := do
  U.ofUser (.newDatum d)
  U.env.newDatum d

/-- `DerefTryMut::get_mut` (`core/src/lib.rs` 544). -/
def getMutFresh : Act (St σ α) (Err P CE) Bool := do
  U.ofUser .getMut
  U.env.getMutFresh

mutual

/-- `core/src/lib.rs` 308-358 `parse_next`, as `Env.parseNext`. A panic in
`parse_nested` skips the statement that decrements the depth (`nestedUnwind`). -/
def parseNext : Nat → Mode → Act (St σ α) (Err P CE) (Option (Datum τ ε))
  | 0, _ => Act.fuel
  | n + 1, mode => do
    U.skipLeading n mode
    match ← U.peek with
    | none => do
      let d ← Env.getDepth
      if d = 0 then pure none else Act.throw .missingEndChar
    | some it =>
      if ← U.ask .nestStart it.ch then do
        match ← nestedUnwind (parseNested n) with
        | none => parseNext n mode
        | some d => pure (some d)
      else if ← U.ask .nestEnd it.ch then do
        U.checkEndChar
        pure none
      else do
        let t ← U.parseText n mode
        pure (some (.text t))

/-- `core/src/lib.rs` 448-522 `parse_nested`, as `Env.parseNested`. -/
def parseNested : Nat → Act (St σ α) (Err P CE) (Option (Datum τ ε))
  | 0 => Act.fuel
  | n + 1 => do
    let start ← U.next
    let b ← U.askItem .nestStart start
    Act.debugAssert (b == some true)
    let operator ← parseNext n .operator
    U.skipSeparator
    match operator with
    | some operator => do
      U.ofUser (.lookup operator)
      match U.env.lookup operator with
      | some (.operative opr) => do
        let operands ← U.parseText n .operands
        U.nestEnd
        U.ofUser (.operative operator operands)
        liftCombiner (opr operator operands)
      | some (.applicative apl) => do
        let arguments ← parseAll n .base []
        U.nestEnd
        U.ofUser (.applicative operator arguments)
        liftCombiner (apl operator arguments)
      | none => do
        let operands ← parseAll n .base []
        U.nestEnd
        U.newDatum operator
        U.newDatum operands
        pure (some (.combination operator operands))
    | none => do
      U.nestEnd
      pure (some .emptyNest)

/-- `core/src/lib.rs` 524-557 `parse_all`, as `Env.parseAll`. -/
def parseAll : Nat → Mode → List (Datum τ ε) → Act (St σ α) (Err P CE) (Datum τ ε)
  | 0, _, _ => Act.fuel
  | n + 1, mode, acc => do
    match ← parseNext n mode with
    | some it => do
      U.newDatum it
      U.newDatum .emptyList
      let m ← U.getMutFresh
      if m then parseAll n mode (acc ++ [it]) else Act.throw .failedDerefTryMut
    | none => pure (mkList acc)

end

/-- A call of `ParseIter::next` (`core/src/lib.rs` 244-259) in state `s` gives `o` and
leaves state `s'`, as `Env.Call`; the outcome `.panic` is a panic that reaches the caller of
`next`, and `s'` is then what the iterator, if the panic is caught, is left as. -/
def Call (s : St σ α) (o : Outcome (Err P CE) (Option (Datum τ ε))) (s' : St σ α) : Prop :=
  ∃ n, U.parseNext n .base s = (o, s') ∧ o ≠ .fuel

/-- A history of uses of one stream and allocator, panics included: calls of `next` on an
iterator (`core/src/lib.rs` 244-259), and at any time a new iterator in place of the old
one (`Parser::parse`, 219-227), which starts at depth 0. The results of the calls in order. -/
inductive Uses : St σ α → List (Outcome (Err P CE) (Option (Datum τ ε))) → St σ α → Prop where
  | nil {s} : Uses s [] s
  | call {s o s' os s''} : U.Call s o s' → Uses s' os s'' → Uses s (o :: os) s''
  | renew {s os s'} : Uses (St.init s.strm s.alloc) os s' → Uses s os s'

/-- What a `for` loop over the parser sees if nothing panics in it, as `Env.Yields`. -/
inductive Yields : St σ α → List (Except (Err P CE) (Datum τ ε)) → St σ α → Prop where
  | done {s s'} : U.Call s (.ok none) s' → Yields s [] s'
  | datum {s d s' l s''} : U.Call s (.ok (some d)) s' → Yields s' l s'' → Yields s (.ok d :: l) s''
  | error {s e s' l s''} : U.Call s (.err e) s' → Yields s' l s'' → Yields s (.error e :: l) s''

end PEnv

end Kul
