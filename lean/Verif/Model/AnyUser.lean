import Verif.Model.Panics

/-!
# A parser with any user code whatsoever

Everything that `core/src/lib.rs` 308-589 calls is a method of a type chosen by the user of
the crate: the source stream, the classifier, the bindings, the allocator and the text type;
or a combiner. The other modules say of each what it may do and what not. Here nothing is
said: each function gets the state of everything outside of the parser, a `W`, may change
all of it, and returns anything, or panics. The stream, the classifier and the bindings may
answer differently each time, share state (by interior mutability) and act on each other.

The outcome `.fuel` of such a function is that it never returns.

Simplifications: references (`DatumRef`) are by value, as in `Model/Parser.lean`; but an
allocator may give a reference to another datum than the one it was given. Dropping a value
has no effect.
-/

namespace Kul

variable {W P τ ε CE A E : Type}

/-- `core/src/combiner.rs` 21-52 `Combiner`. -/
inductive AnyCombiner (W P τ ε CE : Type) where
  | operative (f : Datum τ ε → τ → W → Outcome (Err P CE) (Option (Datum τ ε)) × W)
  | applicative (f : Datum τ ε → Datum τ ε → W → Outcome (Err P CE) (Option (Datum τ ε)) × W)

/-- `core/src/lib.rs` 202-228 `Parser { classifier, allocator, bindings }` with the type
parameters `S` and `TT`: the methods of `SourceStream` (`core/src/lib.rs` 145-195), `CharClassifier`,
`DatumAllocator`, `OperatorBindings` (`core/src/parser.rs` 49-127), `DerefTryMut`
(`core/src/datum.rs`), `TextBase::empty` and `TextConcat::concat` (`core/src/text.rs` 34, 286-307). -/
structure AnyUser (W P τ ε CE : Type) where
  peek : W → Outcome Empty (Option (Item P)) × W
  next : W → Outcome Empty (Option (Item P)) × W
  nextAccum : W → Outcome AllocErr (Option (Item P)) × W
  accumDone : W → Outcome AllocErr τ × W
  emptyText : W → Outcome Empty τ × W
  concat : τ → τ → W → Outcome AllocErr τ × W
  ask : Ask → Char → W → Outcome Empty Bool × W
  newDatum : Datum τ ε → W → Outcome AllocErr (Datum τ ε) × W
  getMut : Datum τ ε → W → Outcome Empty Bool × W
  lookup : Datum τ ε → W → Outcome Empty (Option (AnyCombiner W P τ ε CE)) × W

/-- A call by the parser of a function of the user's; its error becomes one of the parser's. -/
def ofUserCode (g : E → Err P CE) (f : W → Outcome E A × W) : Act (St W Unit) (Err P CE) A := fun s =>
  ((f s.strm).1.mapErr g, { s with strm := (f s.strm).2 })

/-- One that gives no error. -/
def ofUserFn (f : W → Outcome Empty A × W) : Act (St W Unit) (Err P CE) A := ofUserCode (fun e => nomatch e) f

/-- One whose error is `AllocError` (`core/src/parser.rs` 34-38 `From<AllocError>`). -/
def ofUserAlloc (f : W → Outcome AllocErr A × W) : Act (St W Unit) (Err P CE) A := ofUserCode .failedAlloc f

namespace AnyUser

variable (U : AnyUser W P τ ε CE)

/-- `core/src/lib.rs` 370-383, the local function `is_end_char` of `parse_text`: the
questions in the order of its `||`. -/
def isEnd (mode : Mode) (ch : Char) : Act (St W Unit) (Err P CE) Bool :=
  match mode with
  | .base => ofUserFn (U.ask .nestStart ch)
  | .operator => do
    if ← ofUserFn (U.ask .whitespace ch) then pure true
    else if ← ofUserFn (U.ask .nestStart ch) then pure true
    else ofUserFn (U.ask .nestEnd ch)
  | .operands => ofUserFn (U.ask .nestEnd ch)

/-- `core/src/lib.rs` 406, the condition `nest_level == 0 && is_end_char(..)`. -/
def stops (mode : Mode) (nestLevel : Nat) (ch : Char) : Act (St W Unit) (Err P CE) Bool :=
  if nestLevel = 0 then U.isEnd mode ch else pure false

/-- `core/src/lib.rs` 395-400 macro `concat_accum!`. -/
def concatAccum (text : τ) : Act (St W Unit) (Err P CE) τ := do
  let accum ← ofUserAlloc U.accumDone
  ofUserAlloc (U.concat text accum)

/-- `core/src/lib.rs` 560-567 `skip_whitespace`. -/
def skipWhitespace : Nat → Act (St W Unit) (Err P CE) Unit
  | 0 => Act.fuel
  | n + 1 => do
    match ← ofUserFn U.peek with
    | none => pure ()
    | some it =>
      if ← ofUserFn (U.ask .whitespace it.ch) then do
        let _ ← ofUserFn U.next
        skipWhitespace n
      else pure ()

/-- The question of a debug assertion about an item of the source, if there is one
(`core/src/lib.rs` 470-471, 574-576). -/
def askItem (q : Ask) : Option (Item P) → Act (St W Unit) (Err P CE) (Option Bool)
  | none => pure none
  | some it => do
    let b ← ofUserFn (U.ask q it.ch)
    pure (some b)

/-- `core/src/lib.rs` 569-589 `check_end_char`. -/
def checkEndChar : Act (St W Unit) (Err P CE) Unit := do
  let o ← ofUserFn U.peek
  let b ← U.askItem .nestEnd o
  Act.debugAssert (b == some true)
  let d ← Env.getDepth
  if d > 0 then pure ()
  else
    match ← ofUserFn U.next with
    | none => Act.panic
    | some n => Act.throw (.unbalancedEndChar n.pos)

/-- `core/src/lib.rs` 438-444, the end of `parse_text`. -/
def finishText (text : τ) (nestLevel : Nat) : Act (St W Unit) (Err P CE) τ :=
  if nestLevel = 0 then U.concatAccum text
  else Act.throw .missingEndChar

/-- `core/src/lib.rs` 404-437, the loop of `parse_text`: the questions to the classifier in
the order of the `else if`s. -/
def parseTextLoop (mode : Mode) : Nat → τ → Nat → Act (St W Unit) (Err P CE) τ
  | 0, _, _ => Act.fuel
  | n + 1, text, nestLevel => do
    match ← ofUserFn U.peek with
    | none => U.finishText text nestLevel
    | some it =>
      if ← U.stops mode nestLevel it.ch then U.finishText text nestLevel
      else if ← ofUserFn (U.ask .nestEscape it.ch) then do
        let text ← U.concatAccum text
        let _ ← ofUserFn U.next
        let _ ← ofUserAlloc U.nextAccum
        parseTextLoop mode n text nestLevel
      else if ← ofUserFn (U.ask .nestStart it.ch) then do
        let _ ← ofUserAlloc U.nextAccum
        parseTextLoop mode n text (nestLevel + 1)
      else if ← ofUserFn (U.ask .nestEnd it.ch) then
        if nestLevel > 0 then do
          let _ ← ofUserAlloc U.nextAccum
          parseTextLoop mode n text (nestLevel - 1)
        else do
          U.checkEndChar
          U.finishText text nestLevel
      else do
        let _ ← ofUserAlloc U.nextAccum
        parseTextLoop mode n text nestLevel

/-- `core/src/lib.rs` 361-445 `parse_text`. -/
def parseText (n : Nat) (mode : Mode) : Act (St W Unit) (Err P CE) τ := do
  let text ← ofUserFn U.emptyText
  U.parseTextLoop mode n text 0

/-- `core/src/lib.rs` 457-466, the closure `end` of `parse_nested`. -/
def nestEnd : Act (St W Unit) (Err P CE) Unit := do
  match ← ofUserFn U.next with
  | some it => do
    let b ← ofUserFn (U.ask .nestEnd it.ch)
    Act.debugAssert b
  | none => Act.throw .missingEndChar

/-- `core/src/lib.rs` 477-479. -/
def skipSeparator : Act (St W Unit) (Err P CE) Unit := do
  match ← ofUserFn U.peek with
  | none => pure ()
  | some it =>
    if ← ofUserFn (U.ask .whitespace it.ch) then do
      let _ ← ofUserFn U.next
      pure ()
    else pure ()

/-- `core/src/lib.rs` 319-322. -/
def skipLeading (n : Nat) (mode : Mode) : Act (St W Unit) (Err P CE) Unit :=
  if mode = .operator then U.skipWhitespace n else pure ()

/-- `core/src/lib.rs` 534-556, what `head` of `parse_all` is: the elements, with the rest that
the allocator has given last for an empty list. -/
def listOf (last : Datum τ ε) : List (Datum τ ε) → Datum τ ε
  | [] => last
  | d :: ds => .list d (listOf last ds)

mutual

/-- `core/src/lib.rs` 308-358 `parse_next`. A panic in `parse_nested` skips the statement that
decrements the depth (`nestedUnwind`). -/
def parseNext : Nat → Mode → Act (St W Unit) (Err P CE) (Option (Datum τ ε))
  | 0, _ => Act.fuel
  | n + 1, mode => do
    U.skipLeading n mode
    match ← ofUserFn U.peek with
    | none => do
      let d ← Env.getDepth
      if d = 0 then pure none else Act.throw .missingEndChar
    | some it =>
      if ← ofUserFn (U.ask .nestStart it.ch) then do
        match ← nestedUnwind (parseNested n) with
        | none => parseNext n mode
        | some d => pure (some d)
      else if ← ofUserFn (U.ask .nestEnd it.ch) then do
        U.checkEndChar
        pure none
      else do
        let t ← U.parseText n mode
        pure (some (.text t))

/-- `core/src/lib.rs` 448-522 `parse_nested`. -/
def parseNested : Nat → Act (St W Unit) (Err P CE) (Option (Datum τ ε))
  | 0 => Act.fuel
  | n + 1 => do
    let start ← ofUserFn U.next
    let b ← U.askItem .nestStart start
    Act.debugAssert (b == some true)
    let operator ← parseNext n .operator
    U.skipSeparator
    match operator with
    | some operator => do
      match ← ofUserFn (U.lookup operator) with
      | some (.operative opr) => do
        let operands ← U.parseText n .operands
        U.nestEnd
        ofUserCode id (opr operator operands)
      | some (.applicative apl) => do
        let arguments ← parseAll n .base [] .emptyList
        U.nestEnd
        ofUserCode id (apl operator arguments)
      | none => do
        let operands ← parseAll n .base [] .emptyList
        U.nestEnd
        let operator ← ofUserAlloc (U.newDatum operator)
        let operands ← ofUserAlloc (U.newDatum operands)
        pure (some (.combination operator operands))
    | none => do
      U.nestEnd
      pure (some .emptyNest)

/-- `core/src/lib.rs` 524-557 `parse_all`: `acc` are the elements so far, `last` is what `tail` refers to. -/
def parseAll : Nat → Mode → List (Datum τ ε) → Datum τ ε → Act (St W Unit) (Err P CE) (Datum τ ε)
  | 0, _, _, _ => Act.fuel
  | n + 1, mode, acc, last => do
    match ← parseNext n mode with
    | some it => do
      let elem ← ofUserAlloc (U.newDatum it)
      let next ← ofUserAlloc (U.newDatum .emptyList)
      let m ← ofUserFn (U.getMut next)
      if m then parseAll n mode (acc ++ [elem]) next else Act.throw .failedDerefTryMut
    | none => pure (listOf last acc)

end

/-- A call of `ParseIter::next` (`core/src/lib.rs` 244-259) in state `s` gives `o` and leaves
state `s'`; the outcome `.panic` is a panic that reaches the caller. -/
def Call (s : St W Unit) (o : Outcome (Err P CE) (Option (Datum τ ε))) (s' : St W Unit) : Prop :=
  ∃ n, U.parseNext n .base s = (o, s') ∧ o ≠ .fuel

/-- A history of uses, panics included: calls of `next` on an iterator (`core/src/lib.rs`
244-259), and at any time a new iterator in place of the old one (`Parser::parse`, 219-227),
which starts at depth 0. -/
inductive Uses : St W Unit → List (Outcome (Err P CE) (Option (Datum τ ε))) → St W Unit → Prop where
  | nil {s} : Uses s [] s
  | call {s o s' os s''} : U.Call s o s' → Uses s' os s'' → Uses s (o :: os) s''
  | renew {s os s'} : Uses (St.init s.strm ()) os s' → Uses s os s'

end AnyUser

end Kul
