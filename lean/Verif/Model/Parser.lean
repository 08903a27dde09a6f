import Verif.Model.Base

/-!
# The parser

Models `core/src/lib.rs` 276-590: `ParseTextMode` and `ParseIter`'s `do_next`,
`parse_next`, `parse_text`, `parse_nested`, `parse_all`, `skip_whitespace`,
`check_end_char`, and `Iterator::next` of `ParseIter` (238-259).
-/

namespace Kul

/-- `core/src/lib.rs` 276-280 `ParseTextMode`. -/
inductive Mode where
  | base
  | operator
  | operands
deriving DecidableEq, Repr

/-- `core/src/lib.rs` 370-383, the local function `is_end_char` of `parse_text`. -/
def isEndChar (cc : Classifier) (mode : Mode) (ch : Char) : Bool :=
  match mode with
  | .base => cc.isNestStart ch
  | .operator => cc.isWhitespace ch || cc.isNestStart ch || cc.isNestEnd ch
  | .operands => cc.isNestEnd ch

/-- The datum list that `parse_all` (`core/src/lib.rs` 524-557) has built in place
through its `tail` pointer, given the elements so far. -/
def mkList {τ ε : Type} : List (Datum τ ε) → Datum τ ε
  | [] => .emptyList
  | d :: ds => .list d (mkList ds)

/-- Rust's `Result::map(|()| None)`, `.map(|text| Some(..))` etc. are written with
the monad operations; this lifts a `peek`/`next` of the stream. -/
def liftEmpty {σ α E A : Type} (f : σ → Outcome Empty A × σ) : Act (St σ α) E A := fun s =>
  match f s.strm with
  | (o, s') => (o.mapErr (fun e => nomatch e), { s with strm := s' })

/-- Lifts a stream operation that also gets the allocator; its `AllocError` becomes
`Error::FailedAlloc` by `From` (`core/src/parser.rs` 34). -/
def liftAccum {σ α P CE A : Type} (f : σ → α → Outcome AllocErr A × σ × α) :
    Act (St σ α) (Err P CE) A := fun s =>
  match f s.strm s.alloc with
  | (o, s', a') => (o.mapErr .failedAlloc, { s with strm := s', alloc := a' })

/-- Lifts an operation on the allocator that can fail with `AllocError`. -/
def liftAlloc {σ α P CE A : Type} (f : α → Outcome AllocErr A × α) :
    Act (St σ α) (Err P CE) A := fun s =>
  match f s.alloc with
  | (o, a') => (o.mapErr .failedAlloc, { s with alloc := a' })

/-- Calls a combiner: it gets the allocator, and its error is returned as is. -/
def liftCombiner {σ α P CE A : Type} (f : α → Except (Err P CE) A × α) :
    Act (St σ α) (Err P CE) A := fun s =>
  match f s.alloc with
  | (o, a') => (Outcome.ofExcept o, { s with alloc := a' })

variable {σ P τ ε α CE : Type} (E : Env σ P τ ε α CE)

namespace Env

/-- `SourceStream::peek` on the stream of the parse. -/
def peek : Act (St σ α) (Err P CE) (Option (Item P)) := liftEmpty E.strm.peek

/-- `Iterator::next` on the stream of the parse. -/
def next : Act (St σ α) (Err P CE) (Option (Item P)) := liftEmpty E.strm.next

/-- `SourceStream::next_accum` on the stream of the parse. -/
def nextAccum : Act (St σ α) (Err P CE) (Option (Item P)) := liftAccum E.strm.nextAccum

/-- `DatumAllocator::new_datum`. -/
def newDatum (d : Datum τ ε) : Act (St σ α) (Err P CE) Unit :=
  liftAlloc fun a => match E.alloc.newDatum d a with
    | (r, a') => (Outcome.ofExcept r, a')

/-- `DerefTryMut::get_mut` on the newest reference: is it `Some`? -/
def getMutFresh : Act (St σ α) (Err P CE) Bool := fun s => (.ok (E.alloc.getMutFresh s.alloc), s)

/-- Reads `*ndepth`. -/
def getDepth : Act (St σ α) (Err P CE) Nat := fun s => (.ok s.ndepth, s)

/-- `core/src/lib.rs` 395-400 macro `concat_accum!` of `parse_text`. -/
def concatAccum (text : τ) : Act (St σ α) (Err P CE) τ := do
  let accum ← liftAccum E.strm.accumDone
  liftAlloc (E.text.concat text accum)

/-- `core/src/lib.rs` 560-567 `skip_whitespace`. -/
def skipWhitespace : Nat → Act (St σ α) (Err P CE) Unit
  | 0 => Act.fuel
  | n + 1 => do
    match ← E.peek with
    | none => pure ()
    | some it =>
      if E.cc.isWhitespace it.ch then do
        let _ ← E.next
        skipWhitespace n
      else pure ()

/-- `core/src/lib.rs` 569-589 `check_end_char`. -/
def checkEndChar : Act (St σ α) (Err P CE) Unit := do
  let o ← E.peek
  Act.debugAssert (o.map (fun it => E.cc.isNestEnd it.ch) == some true)
  let d ← getDepth
  if d > 0 then pure ()
  else
    match ← E.next with
    | none => Act.panic
    | some n => Act.throw (.unbalancedEndChar n.pos)

/-- `core/src/lib.rs` 438-444, the end of `parse_text` after its loop. -/
def finishText (text : τ) (nestLevel : Nat) : Act (St σ α) (Err P CE) τ :=
  if nestLevel = 0 then E.concatAccum text
  else Act.throw .missingEndChar

/-- `core/src/lib.rs` 404-437, the `while let` loop of `parse_text`, followed by
`finishText`. `text` and `nestLevel` are the loop's local variables. -/
def parseTextLoop (mode : Mode) : Nat → τ → Nat → Act (St σ α) (Err P CE) τ
  | 0, _, _ => Act.fuel
  | n + 1, text, nestLevel => do
    match ← E.peek with
    | none => E.finishText text nestLevel
    | some it =>
      if nestLevel = 0 ∧ isEndChar E.cc mode it.ch then
        E.finishText text nestLevel
      else if E.cc.isNestEscape it.ch then do
        let text ← E.concatAccum text
        let _ ← E.next
        let _ ← E.nextAccum
        parseTextLoop mode n text nestLevel
      else if E.cc.isNestStart it.ch then do
        let _ ← E.nextAccum
        parseTextLoop mode n text (nestLevel + 1)
      else if E.cc.isNestEnd it.ch then
        if nestLevel > 0 then do
          let _ ← E.nextAccum
          parseTextLoop mode n text (nestLevel - 1)
        else do
          E.checkEndChar
          E.finishText text nestLevel
      else do
        let _ ← E.nextAccum
        parseTextLoop mode n text nestLevel

/-- `core/src/lib.rs` 361-445 `parse_text`. -/
def parseText (n : Nat) (mode : Mode) : Act (St σ α) (Err P CE) τ :=
  E.parseTextLoop mode n E.text.empty 0

/-- `core/src/lib.rs` 457-466, the closure `end` of `parse_nested`. -/
def nestEnd : Act (St σ α) (Err P CE) Unit := do
  match ← E.next with
  | some it => Act.debugAssert (E.cc.isNestEnd it.ch)
  | none => Act.throw .missingEndChar

/-- `core/src/lib.rs` 477-479: if the head is followed by whitespace, advance past
one whitespace character. -/
def skipSeparator : Act (St σ α) (Err P CE) Unit := do
  match ← E.peek with
  | none => pure ()
  | some it =>
    if E.cc.isWhitespace it.ch then do
      let _ ← E.next
      pure ()
    else pure ()

/-- `core/src/lib.rs` 334-337: `*ndepth += 1; parse_nested(..); *ndepth -= 1`, the
decrement being done whatever the result. The subtraction would panic on
underflow. -/
def nestedInDepth {A : Type} (nested : Act (St σ α) (Err P CE) A) : Act (St σ α) (Err P CE) A := fun s =>
  match nested { s with ndepth := s.ndepth + 1 } with
  | (r, s') =>
    if s'.ndepth = 0 then (.panic, s')
    else (r, { s' with ndepth := s'.ndepth - 1 })

/-- `core/src/lib.rs` 319-322: in operator position, skip leading whitespace. -/
def skipLeading (n : Nat) (mode : Mode) : Act (St σ α) (Err P CE) Unit :=
  if mode = .operator then E.skipWhitespace n else pure ()

mutual

/-- `core/src/lib.rs` 308-358 `parse_next`. The Rust `loop` is a tail call. -/
def parseNext : Nat → Mode → Act (St σ α) (Err P CE) (Option (Datum τ ε))
  | 0, _ => Act.fuel
  | n + 1, mode => do
    E.skipLeading n mode
    match ← E.peek with
    | none => do
      let d ← getDepth
      if d = 0 then pure none else Act.throw .missingEndChar
    | some it =>
      if E.cc.isNestStart it.ch then do
        match ← nestedInDepth (parseNested n) with
        | none => parseNext n mode
        | some d => pure (some d)
      else if E.cc.isNestEnd it.ch then do
        E.checkEndChar
        pure none
      else do
        let t ← E.parseText n mode
        pure (some (.text t))

/-- `core/src/lib.rs` 448-522 `parse_nested`. -/
def parseNested : Nat → Act (St σ α) (Err P CE) (Option (Datum τ ε))
  | 0 => Act.fuel
  | n + 1 => do
    let start ← E.next
    Act.debugAssert (start.map (fun it => E.cc.isNestStart it.ch) == some true)
    let operator ← parseNext n .operator
    E.skipSeparator
    match operator with
    | some operator =>
      match E.lookup operator with
      | some (.operative opr) => do
        let operands ← E.parseText n .operands
        E.nestEnd
        liftCombiner (opr operator operands)
      | some (.applicative apl) => do
        let arguments ← parseAll n .base []
        E.nestEnd
        liftCombiner (apl operator arguments)
      | none => do
        let operands ← parseAll n .base []
        E.nestEnd
        E.newDatum operator
        E.newDatum operands
        pure (some (.combination operator operands))
    | none => do
      E.nestEnd
      pure (some .emptyNest)

/-- `core/src/lib.rs` 524-557 `parse_all`. Rust builds the list in place, writing
each new cell through the pointer `tail`; here `acc` holds the elements of that
list so far, and the list is made from them at the end. -/
def parseAll : Nat → Mode → List (Datum τ ε) → Act (St σ α) (Err P CE) (Datum τ ε)
  | 0, _, _ => Act.fuel
  | n + 1, mode, acc => do
    match ← parseNext n mode with
    | some it => do
      E.newDatum it
      E.newDatum .emptyList
      let m ← E.getMutFresh
      if m then parseAll n mode (acc ++ [it]) else Act.throw .failedDerefTryMut
    | none => pure (mkList acc)

end

/-- `core/src/lib.rs` 299-306 `do_next`. -/
def doNext (n : Nat) : Act (St σ α) (Err P CE) (Option (Datum τ ε)) := E.parseNext n .base

end Env

/-- `core/src/lib.rs` 291-297 `ParseIter::new` (and 219-227 `Parser::parse`): the
initial state of a parse. -/
def St.init {σ α : Type} (s : σ) (a : α) : St σ α := ⟨s, a, 0⟩

end Kul
