import Verif.Model.Api
import Verif.Model.Streams
import Verif.Model.Shared

/-!
# Builds without debug assertions

The other modules model debug builds. In a release build (Cargo's default profile; `/repo` has no other), `debug_assert!`s
are not there, nor is what is called in their conditions; and subtractions that underflow wrap around instead of
panicking. This module has the functions that are different there, and those that call them: `core/src/lib.rs` 308-589,
`src/text/chunk/pos_strish.rs` 124-137 and 331-353, `src/source_stream/strish_iter_src_strm.rs` 80-178.

`W` is the number of values of `usize`. A simplification: additions do not overflow (but see C56).
-/

namespace Kul

/-- Subtraction of `usize`s in a release build. -/
def subWrap (W a b : Nat) : Nat := if b ≤ a then a - b else a + W - b

variable {σ P τ ε α CE : Type}

namespace Env

variable (E : Env σ P τ ε α CE) (W : Nat)

/-- `core/src/lib.rs` 569-589 `check_end_char`; 572-577 is not there. -/
def relCheckEndChar : Act (St σ α) (Err P CE) Unit := do
  let d ← getDepth
  if d > 0 then pure ()
  else
    match ← E.next with
    | none => Act.panic
    | some n => Act.throw (.unbalancedEndChar n.pos)

/-- `core/src/lib.rs` 404-437, the `while let` loop of `parse_text`, followed by 438-444 (`finishText`). -/
def relParseTextLoop (mode : Mode) : Nat → τ → Nat → Act (St σ α) (Err P CE) τ
  | 0, _, _ => Act.fuel
  | n + 1, text, nestLevel => do
    match ← E.peek with
    | none => E.finishText text nestLevel
    | some it =>
      if nestLevel = 0 ∧ isEndChar E.cc mode it.ch then
        E.finishText text nestLevel
      else if E.cc.isNestEscape it.ch then do
        let text ← E.concatAccum text
        let _ ← E.next
        let _ ← E.nextAccum
        relParseTextLoop mode n text nestLevel
      else if E.cc.isNestStart it.ch then do
        let _ ← E.nextAccum
        relParseTextLoop mode n text (nestLevel + 1)
      else if E.cc.isNestEnd it.ch then
        if nestLevel > 0 then do
          let _ ← E.nextAccum
          relParseTextLoop mode n text (nestLevel - 1)
        else do
          E.relCheckEndChar
          E.finishText text nestLevel
      else do
        let _ ← E.nextAccum
        relParseTextLoop mode n text nestLevel

/-- `core/src/lib.rs` 361-445 `parse_text`. -/
def relParseText (n : Nat) (mode : Mode) : Act (St σ α) (Err P CE) τ :=
  E.relParseTextLoop mode n E.text.empty 0

/-- `core/src/lib.rs` 457-466, the closure `end` of `parse_nested`; 461 is not there. -/
def relNestEnd : Act (St σ α) (Err P CE) Unit := do
  match ← E.next with
  | some _ => pure ()
  | none => Act.throw .missingEndChar

/-- `core/src/lib.rs` 334-337. -/
def relNestedInDepth {A : Type} (nested : Act (St σ α) (Err P CE) A) : Act (St σ α) (Err P CE) A := fun s =>
  match nested { s with ndepth := s.ndepth + 1 } with
  | (r, s') => (r, { s' with ndepth := subWrap W s'.ndepth 1 })

mutual

/-- `core/src/lib.rs` 308-358 `parse_next`. -/
def relParseNext : Nat → Mode → Act (St σ α) (Err P CE) (Option (Datum τ ε))
  | 0, _ => Act.fuel
  | n + 1, mode => do
    E.skipLeading n mode
    match ← E.peek with
    | none => do
      let d ← getDepth
      if d = 0 then pure none else Act.throw .missingEndChar
    | some it =>
      if E.cc.isNestStart it.ch then do
        match ← relNestedInDepth W (relParseNested n) with
        | none => relParseNext n mode
        | some d => pure (some d)
      else if E.cc.isNestEnd it.ch then do
        E.relCheckEndChar
        pure none
      else do
        let t ← E.relParseText n mode
        pure (some (.text t))

/-- `core/src/lib.rs` 448-522 `parse_nested`; 470-471 is not there. -/
def relParseNested : Nat → Act (St σ α) (Err P CE) (Option (Datum τ ε))
  | 0 => Act.fuel
  | n + 1 => do
    let _ ← E.next
    let operator ← relParseNext n .operator
    E.skipSeparator
    match operator with
    | some operator =>
      match E.lookup operator with
      | some (.operative opr) => do
        let operands ← E.relParseText n .operands
        E.relNestEnd
        liftCombiner (opr operator operands)
      | some (.applicative apl) => do
        let arguments ← relParseAll n .base []
        E.relNestEnd
        liftCombiner (apl operator arguments)
      | none => do
        let operands ← relParseAll n .base []
        E.relNestEnd
        E.newDatum operator
        E.newDatum operands
        pure (some (.combination operator operands))
    | none => do
      E.relNestEnd
      pure (some .emptyNest)

/-- `core/src/lib.rs` 524-557 `parse_all`. -/
def relParseAll : Nat → Mode → List (Datum τ ε) → Act (St σ α) (Err P CE) (Datum τ ε)
  | 0, _, _ => Act.fuel
  | n + 1, mode, acc => do
    match ← relParseNext n mode with
    | some it => do
      E.newDatum it
      E.newDatum .emptyList
      let m ← E.getMutFresh
      if m then relParseAll n mode (acc ++ [it]) else Act.throw .failedDerefTryMut
    | none => pure (mkList acc)

end

/-- A call of `ParseIter::next` (`core/src/lib.rs` 244-259, 299-306), as `Env.Call`. -/
def RelCall (s : St σ α) (o : Outcome (Err P CE) (Option (Datum τ ε))) (s' : St σ α) : Prop :=
  ∃ n, E.relParseNext W n .base s = (o, s') ∧ o ≠ .fuel

/-- A history of calls of `next`, as `Env.Calls`. -/
inductive RelCalls : St σ α → List (Outcome (Err P CE) (Option (Datum τ ε))) → St σ α → Prop where
  | nil {s} : RelCalls s [] s
  | cons {s o s' os s''} : E.RelCall W s o s' → RelCalls s' os s'' → RelCalls s (o :: os) s''

end Env

/-! ## Slices of reference-counted strings -/

/-- `pos_strish.rs` 124-137 `RefCntSlice::slice`; 131-132 are not there. -/
def RefCntSlice.relSlice (s : RefCntSlice) (start «end» : Nat) : RefCntSlice :=
  ⟨s.strish, s.start + start, s.start + «end»⟩

/-- `pos_strish.rs` 331-344 `next_accum`. -/
def PosStrishIter.relNextAccum (W : Nat) (it : PosStrishIter) : Outcome Empty (Option (Item CharPos)) × PosStrishIter :=
  match it.doNext with
  | (.ok (some x), it) =>
    match it.accum with
    | some (start, _, pos) =>
      (.ok (some x), { it with accum := some (start, it.byteIdx, pos) })
    | none =>
      (.ok (some x), { it with accum := some (subWrap W it.byteIdx (Str.lenUtf8 x.ch), it.byteIdx,
        ⟨it.chunk.pos.n + subWrap W it.charIdx 1⟩) })
  | (o, it) => (o, it)

/-- `pos_strish.rs` 346-353 `accum_done`. -/
def PosStrishIter.relAccumDone (it : PosStrishIter) : Outcome Empty PosStrish × PosStrishIter :=
  match it.accum with
  | none => (.ok .empty, it)
  | some (start, «end», pos) => (.ok ⟨it.chunk.val.relSlice start «end», pos⟩, { it with accum := none })

/-- `PosStrish` as a chunk type, as `posStrishOps`. (The one for `PosStr` has nothing that is different.) -/
def posStrishRel (W : Nat) : ChunkOps PosStrish PosStrishIter CharPos :=
  { posStrishOps with
    nextAccum := PosStrishIter.relNextAccum W
    accumDone := PosStrishIter.relAccumDone }

/-! ## `StrishIterSourceStream` -/

namespace StrishIter

/-- `strish_iter_src_strm.rs` 80-88 `next_posstrish`; 82-84 is not there. -/
def relNextPosstrish (it : StrishIter τ) : StrishIter τ :=
  match it.peekedStrm with
  | some p => { it with cur := some p, peekedStrm := none }
  | none =>
    match nextPosstrishOf it.charIdx it.strishIter with
    | (cur, ss) => { it with cur := cur, strishIter := ss }

/-- `strish_iter_src_strm.rs` 105-116, the loop of `Iterator::next`. -/
def relNextLoop : Nat → StrishIter τ → Outcome Empty (Option (Item CharPos)) × StrishIter τ
  | 0, it => (.fuel, it)
  | n + 1, it =>
    match it.cur with
    | none => (.ok none, it)
    | some s =>
      match s.next with
      | (.ok none, s) => relNextLoop n (relNextPosstrish { it with cur := some s })
      | (.ok (some x), s) => (.ok (some x), { it with cur := some s, charIdx := it.charIdx + 1 })
      | (o, s) => (o, { it with cur := some s })

/-- `strish_iter_src_strm.rs` 103-117 `Iterator::next`. -/
def relNext (it : StrishIter τ) : Outcome Empty (Option (Item CharPos)) × StrishIter τ :=
  relNextLoop turns { it with accum := none }

/-- `strish_iter_src_strm.rs` 153-167, the loop of `next_accum`. -/
def relNextAccumLoop (W : Nat) (T : TextType PosStrish τ α) : Nat → StrishIter τ → α →
    Outcome AllocErr (Option (Item CharPos)) × StrishIter τ × α
  | 0, it, a => (.fuel, it, a)
  | n + 1, it, a =>
    match it.cur with
    | none => (.ok none, it, a)
    | some s =>
      match s.relNextAccum W with
      | (.ok none, s) =>
        match s.relAccumDone with
        | (.ok c, s) =>
          match T.concat (it.accum.getD T.empty) (T.ofChunk c) a with
          | (.ok acc, a) => relNextAccumLoop W T n (relNextPosstrish { it with cur := some s, accum := some acc }) a
          | (.err e, a) => (.err e, { it with cur := some s, accum := none }, a)
          | (.panic, a) => (.panic, { it with cur := some s, accum := none }, a)
          | (.fuel, a) => (.fuel, { it with cur := some s, accum := none }, a)
        | (_, s) => (.panic, { it with cur := some s }, a)
      | (.ok (some x), s) => (.ok (some x), { it with cur := some s, charIdx := it.charIdx + 1 }, a)
      | (o, s) => (o.mapErr (fun e => nomatch e), { it with cur := some s }, a)

/-- `strish_iter_src_strm.rs` 170-177 `accum_done`. -/
def relAccumDone (T : TextType PosStrish τ α) (it : StrishIter τ) (a : α) : Outcome AllocErr τ × StrishIter τ × α :=
  let acc := it.accum.getD T.empty
  match it.cur with
  | none => (.ok acc, { it with accum := none }, a)
  | some s =>
    match s.relAccumDone with
    | (.ok c, s) =>
      match T.concat acc (T.ofChunk c) a with
      | (o, a) => (o, { it with cur := some s, accum := none }, a)
    | (_, s) => (.panic, { it with cur := some s, accum := none }, a)

end StrishIter

/-- `StrishIterSourceStream` as a source stream: `strish_iter_src_strm.rs` 91-178. -/
def strishIterRel (W : Nat) (T : TextType PosStrish τ α) : StreamOps (StrishIter τ) CharPos τ α where
  peek := StrishIter.peek
  next := StrishIter.relNext
  nextAccum := StrishIter.relNextAccumLoop W T StrishIter.turns
  accumDone := StrishIter.relAccumDone T

/-! ## The same with strings that are told apart, as in `Model/Shared.lean` -/

section

variable {R : Type}

/-- `pos_strish.rs` 124-137 `RefCntSlice::slice`; 131-132 are not there. -/
def SharedSlice.relSlice (s : SharedSlice R) (start «end» : Nat) : SharedSlice R :=
  ⟨s.strish, s.start + start, s.start + «end»⟩

/-- `pos_strish.rs` 331-344 `next_accum`. -/
def SharedChunkIter.relNextAccum (W : Nat) (A : StrishOps R) (it : SharedChunkIter R) :
    Outcome Empty (Option (Item CharPos)) × SharedChunkIter R :=
  match it.doNext A with
  | (.ok (some x), it) =>
    match it.accum with
    | some (start, _, pos) =>
      (.ok (some x), { it with accum := some (start, it.byteIdx, pos) })
    | none =>
      (.ok (some x), { it with accum := some (subWrap W it.byteIdx (Str.lenUtf8 x.ch), it.byteIdx,
        ⟨it.chunk.pos.n + subWrap W it.charIdx 1⟩) })
  | (o, it) => (o, it)

/-- `pos_strish.rs` 346-353 `accum_done`. -/
def SharedChunkIter.relAccumDone (A : StrishOps R) (it : SharedChunkIter R) :
    Outcome Empty (SharedChunk R) × SharedChunkIter R :=
  match it.accum with
  | none => (.ok (.empty A), it)
  | some (start, «end», pos) => (.ok ⟨it.chunk.val.relSlice start «end», pos⟩, { it with accum := none })

/-- `PosStrish` as a chunk type, as `sharedChunkOps`. -/
def sharedChunkRel (W : Nat) (A : StrishOps R) : ChunkOps (SharedChunk R) (SharedChunkIter R) CharPos :=
  { sharedChunkOps A with
    nextAccum := SharedChunkIter.relNextAccum W A
    accumDone := SharedChunkIter.relAccumDone A }

namespace SharedStream

/-- `strish_iter_src_strm.rs` 80-88 `next_posstrish`; 82-84 is not there. -/
def relNextPosstrish (A : StrishOps R) (it : SharedStream R τ) : SharedStream R τ :=
  match it.peekedStrm with
  | some p => { it with cur := some p, peekedStrm := none }
  | none =>
    match nextPosstrishOf A it.charIdx it.strishIter with
    | (cur, ss) => { it with cur := cur, strishIter := ss }

/-- `strish_iter_src_strm.rs` 105-116, the loop of `Iterator::next`. -/
def relNextLoop (A : StrishOps R) : Nat → SharedStream R τ → Outcome Empty (Option (Item CharPos)) × SharedStream R τ
  | 0, it => (.fuel, it)
  | n + 1, it =>
    match it.cur with
    | none => (.ok none, it)
    | some s =>
      match s.next A with
      | (.ok none, s) => relNextLoop A n (relNextPosstrish A { it with cur := some s })
      | (.ok (some x), s) => (.ok (some x), { it with cur := some s, charIdx := it.charIdx + 1 })
      | (o, s) => (o, { it with cur := some s })

/-- `strish_iter_src_strm.rs` 103-117 `Iterator::next`. -/
def relNext (A : StrishOps R) (it : SharedStream R τ) : Outcome Empty (Option (Item CharPos)) × SharedStream R τ :=
  relNextLoop A turns { it with accum := none }

/-- `strish_iter_src_strm.rs` 153-167, the loop of `next_accum`. -/
def relNextAccumLoop (W : Nat) (A : StrishOps R) (T : TextType (SharedChunk R) τ α) : Nat → SharedStream R τ → α →
    Outcome AllocErr (Option (Item CharPos)) × SharedStream R τ × α
  | 0, it, a => (.fuel, it, a)
  | n + 1, it, a =>
    match it.cur with
    | none => (.ok none, it, a)
    | some s =>
      match s.relNextAccum W A with
      | (.ok none, s) =>
        match s.relAccumDone A with
        | (.ok c, s) =>
          match T.concat (it.accum.getD T.empty) (T.ofChunk c) a with
          | (.ok acc, a) => relNextAccumLoop W A T n (relNextPosstrish A { it with cur := some s, accum := some acc }) a
          | (.err e, a) => (.err e, { it with cur := some s, accum := none }, a)
          | (.panic, a) => (.panic, { it with cur := some s, accum := none }, a)
          | (.fuel, a) => (.fuel, { it with cur := some s, accum := none }, a)
        | (_, s) => (.panic, { it with cur := some s }, a)
      | (.ok (some x), s) => (.ok (some x), { it with cur := some s, charIdx := it.charIdx + 1 }, a)
      | (o, s) => (o.mapErr (fun e => nomatch e), { it with cur := some s }, a)

/-- `strish_iter_src_strm.rs` 170-177 `accum_done`. -/
def relAccumDone (A : StrishOps R) (T : TextType (SharedChunk R) τ α) (it : SharedStream R τ) (a : α) :
    Outcome AllocErr τ × SharedStream R τ × α :=
  let acc := it.accum.getD T.empty
  match it.cur with
  | none => (.ok acc, { it with accum := none }, a)
  | some s =>
    match s.relAccumDone A with
    | (.ok c, s) =>
      match T.concat acc (T.ofChunk c) a with
      | (o, a) => (o, { it with cur := some s, accum := none }, a)
    | (_, s) => (.panic, { it with cur := some s, accum := none }, a)

end SharedStream

/-- `StrishIterSourceStream` as a source stream: `strish_iter_src_strm.rs` 91-178. -/
def sharedStreamRel (W : Nat) (A : StrishOps R) (T : TextType (SharedChunk R) τ α) :
    StreamOps (SharedStream R τ) CharPos τ α where
  peek := SharedStream.peek A
  next := SharedStream.relNext A
  nextAccum := SharedStream.relNextAccumLoop W A T SharedStream.turns
  accumDone := SharedStream.relAccumDone A T

end

end Kul
