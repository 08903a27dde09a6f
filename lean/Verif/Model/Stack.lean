import Verif.Model.Parser

/-!
# The parser with a finite call stack and finite counters

The functions of `Model/Parser.lean` again, with two limits that the real program
has and that model does not:

* `k` is how many more frames of `parse_next`, `parse_nested`, `parse_all` and
  `parse_text` fit on the call stack. A call made when none fits overflows the stack,
  which aborts a Rust program.
* `M` is the largest value of the counters `ndepth` and `nest_level` (`usize::MAX`).
  An increment beyond it panics (in builds with overflow checks).

Both are the outcome `.panic` here. A Rust `loop` needs no further frame, so the tail
calls that stand for loops pass `k` on unchanged. The other functions (`skip_whitespace`,
`check_end_char`, the closures, and what the stream, text, allocator and combiners do)
call none of the four and are not counted. The step counter `n` is that of
`Model/Parser.lean`: it makes the definitions terminate, and says nothing about frames.
-/

namespace Kul.Env

variable {σ P τ ε α CE : Type} (E : Env σ P τ ε α CE) (M : Nat)

/-- `core/src/lib.rs` 404-437, the loop of `parse_text`; line 420 is `nest_level += 1`. -/
def parseTextLoopK (mode : Mode) : Nat → τ → Nat → Act (St σ α) (Err P CE) τ
  | 0, _, _ => Act.fuel
  | n + 1, text, nestLevel => do
    match ← E.peek with
    | none => E.finishText text nestLevel
    | some it =>
      if nestLevel = 0 ∧ isEndChar E.cc mode it.ch then
        E.finishText text nestLevel
      else if E.cc.isNestEscape it.ch then do
        let text ← E.concatAccum text
        let _ ← E.next
        let _ ← E.nextAccum
        parseTextLoopK mode n text nestLevel
      else if E.cc.isNestStart it.ch then do
        let _ ← E.nextAccum
        if nestLevel + 1 ≤ M then parseTextLoopK mode n text (nestLevel + 1) else Act.panic
      else if E.cc.isNestEnd it.ch then
        if nestLevel > 0 then do
          let _ ← E.nextAccum
          parseTextLoopK mode n text (nestLevel - 1)
        else do
          E.checkEndChar
          E.finishText text nestLevel
      else do
        let _ ← E.nextAccum
        parseTextLoopK mode n text nestLevel

/-- `core/src/lib.rs` 361-445 `parse_text`: one frame. -/
def parseTextK (n : Nat) : Nat → Mode → Act (St σ α) (Err P CE) τ
  | 0, _ => Act.panic
  | _ + 1, mode => E.parseTextLoopK M mode n E.text.empty 0

/-- `core/src/lib.rs` 334-337: `*ndepth += 1; parse_nested(..); *ndepth -= 1`. -/
def nestedInDepthK {A : Type} (nested : Act (St σ α) (Err P CE) A) : Act (St σ α) (Err P CE) A := fun s =>
  if s.ndepth + 1 ≤ M then nestedInDepth nested s else (.panic, s)

mutual

/-- `core/src/lib.rs` 308-358 `parse_next`: one frame. -/
def parseNextK : Nat → Nat → Mode → Act (St σ α) (Err P CE) (Option (Datum τ ε))
  | 0, _, _ => Act.fuel
  | _ + 1, 0, _ => Act.panic
  | n + 1, k + 1, mode => do
    E.skipLeading n mode
    match ← E.peek with
    | none => do
      let d ← getDepth
      if d = 0 then pure none else Act.throw .missingEndChar
    | some it =>
      if E.cc.isNestStart it.ch then do
        match ← nestedInDepthK M (parseNestedK n k) with
        | none => parseNextK n (k + 1) mode
        | some d => pure (some d)
      else if E.cc.isNestEnd it.ch then do
        E.checkEndChar
        pure none
      else do
        let t ← E.parseTextK M n k mode
        pure (some (.text t))

/-- `core/src/lib.rs` 448-522 `parse_nested`: one frame. -/
def parseNestedK : Nat → Nat → Act (St σ α) (Err P CE) (Option (Datum τ ε))
  | 0, _ => Act.fuel
  | _ + 1, 0 => Act.panic
  | n + 1, k + 1 => do
    let start ← E.next
    Act.debugAssert (start.map (fun it => E.cc.isNestStart it.ch) == some true)
    let operator ← parseNextK n k .operator
    E.skipSeparator
    match operator with
    | some operator =>
      match E.lookup operator with
      | some (.operative opr) => do
        let operands ← E.parseTextK M n k .operands
        E.nestEnd
        liftCombiner (opr operator operands)
      | some (.applicative apl) => do
        let arguments ← parseAllK n k .base []
        E.nestEnd
        liftCombiner (apl operator arguments)
      | none => do
        let operands ← parseAllK n k .base []
        E.nestEnd
        E.newDatum operator
        E.newDatum operands
        pure (some (.combination operator operands))
    | none => do
      E.nestEnd
      pure (some .emptyNest)

/-- `core/src/lib.rs` 524-557 `parse_all`: one frame. -/
def parseAllK : Nat → Nat → Mode → List (Datum τ ε) → Act (St σ α) (Err P CE) (Datum τ ε)
  | 0, _, _, _ => Act.fuel
  | _ + 1, 0, _, _ => Act.panic
  | n + 1, k + 1, mode, acc => do
    match ← parseNextK n k mode with
    | some it => do
      E.newDatum it
      E.newDatum .emptyList
      let m ← E.getMutFresh
      if m then parseAllK n (k + 1) mode (acc ++ [it]) else Act.throw .failedDerefTryMut
    | none => pure (mkList acc)

end

/-- `core/src/lib.rs` 299-306 `do_next`, when `k` frames fit on the stack and the
counters go up to `M`. -/
def doNextK (n k : Nat) : Act (St σ α) (Err P CE) (Option (Datum τ ε)) := E.parseNextK M n k .base

end Kul.Env
