import Verif.Model.Shared

/-!
# Streams of reference-counted strings with finite counters

The streams of `Model/Shared.lean` again, as `Model/Counters.lean` has those of `Model/Chunk.lean` and
`Model/Streams.lean`: no position, index or length is above `M`, and an addition with a greater sum is `.panic`.
-/

namespace Kul

variable {R τ α : Type} (M : Nat)

/-! ## `PosStrish` -/

/-- `src/text/chunk/pos_strish.rs` 124-137 `RefCntSlice::slice`; the additions are in 135. -/
def SharedSlice.sliceM (s : SharedSlice R) (start «end» : Nat) : Option (SharedSlice R) :=
  if s.start + start ≤ M ∧ s.start + «end» ≤ M then s.slice start «end» else none

namespace SharedChunkIter

/-- `pos_strish.rs` 277-285 `do_next_no_peeked`; the additions are in 280-282. -/
def doNextNoPeekedM (A : StrishOps R) (it : SharedChunkIter R) : Outcome Empty (Option (Item CharPos)) × SharedChunkIter R :=
  match (it.chunk.val.asStr A).bind (Str.sliceFrom · it.byteIdx) with
  | none => (.panic, it)
  | some [] => (.ok none, it)
  | some (ch :: _) =>
    if it.chunk.pos.n + it.charIdx ≤ M ∧ it.charIdx + 1 ≤ M ∧ it.byteIdx + Str.lenUtf8 ch ≤ M then
      (.ok (some ⟨ch, ⟨it.chunk.pos.n + it.charIdx⟩⟩),
        { it with charIdx := it.charIdx + 1, byteIdx := it.byteIdx + Str.lenUtf8 ch })
    else (.panic, it)

/-- `pos_strish.rs` 287-293 `do_next`. -/
def doNextM (A : StrishOps R) (it : SharedChunkIter R) : Outcome Empty (Option (Item CharPos)) × SharedChunkIter R :=
  match it.peeked with
  | some x => (.ok (some x), { it with peeked := none })
  | none => it.doNextNoPeekedM M A

/-- `pos_strish.rs` 306-309 `Iterator::next`. -/
def nextM (A : StrishOps R) (it : SharedChunkIter R) : Outcome Empty (Option (Item CharPos)) × SharedChunkIter R :=
  doNextM M A { it with accum := none }

/-- `pos_strish.rs` 322-329 `peek`. -/
def peekM (A : StrishOps R) (it : SharedChunkIter R) : Outcome Empty (Option (Item CharPos)) × SharedChunkIter R :=
  match it.peeked with
  | some x => (.ok (some x), it)
  | none =>
    match it.doNextNoPeekedM M A with
    | (.ok o, it) => (.ok o, { it with peeked := o })
    | (e, it) => (e, it)

/-- `pos_strish.rs` 331-344 `next_accum`; the addition is in 340. -/
def nextAccumM (A : StrishOps R) (it : SharedChunkIter R) : Outcome Empty (Option (Item CharPos)) × SharedChunkIter R :=
  match it.doNextM M A with
  | (.ok (some x), it) =>
    match it.accum with
    | some (start, _, pos) =>
      (.ok (some x), { it with accum := some (start, it.byteIdx, pos) })
    | none =>
      if Str.lenUtf8 x.ch ≤ it.byteIdx ∧ 1 ≤ it.charIdx ∧ it.chunk.pos.n + (it.charIdx - 1) ≤ M then
        (.ok (some x), { it with accum := some (it.byteIdx - Str.lenUtf8 x.ch, it.byteIdx,
          ⟨it.chunk.pos.n + (it.charIdx - 1)⟩) })
      else (.panic, it)
  | (o, it) => (o, it)

/-- `pos_strish.rs` 346-353 `accum_done`. -/
def accumDoneM (A : StrishOps R) (it : SharedChunkIter R) : Outcome Empty (SharedChunk R) × SharedChunkIter R :=
  match it.accum with
  | none => (.ok (.empty A), it)
  | some (start, «end», pos) =>
    match it.chunk.val.sliceM M start «end» with
    | some val => (.ok ⟨val, pos⟩, { it with accum := none })
    | none => (.panic, { it with accum := none })

end SharedChunkIter

/-- `PosStrish` as a chunk type, as `sharedChunkOps`. -/
def sharedChunkM (A : StrishOps R) : ChunkOps (SharedChunk R) (SharedChunkIter R) CharPos :=
  { sharedChunkOps A with
    peek := SharedChunkIter.peekM M A
    next := SharedChunkIter.nextM M A
    nextAccum := SharedChunkIter.nextAccumM M A
    accumDone := SharedChunkIter.accumDoneM M A }

/-! ## `StrishIterSourceStream` -/

namespace SharedStream

/-- `src/source_stream/strish_iter_src_strm.rs` 80-88 `next_posstrish`. -/
def nextPosstrishM (A : StrishOps R) (it : SharedStream R τ) : Option (SharedStream R τ) :=
  match it.cur with
  | none => none
  | some s =>
    match s.peekM M A with
    | (.ok none, _) =>
      match it.peekedStrm with
      | some p => some { it with cur := some p, peekedStrm := none }
      | none =>
        match nextPosstrishOf A it.charIdx it.strishIter with
        | (cur, ss) => some { it with cur := cur, strishIter := ss }
    | _ => none

/-- `strish_iter_src_strm.rs` 105-116, the loop of `Iterator::next`; the addition is in 108. -/
def nextLoopM (A : StrishOps R) : Nat → SharedStream R τ → Outcome Empty (Option (Item CharPos)) × SharedStream R τ
  | 0, it => (.fuel, it)
  | n + 1, it =>
    match it.cur with
    | none => (.ok none, it)
    | some s =>
      match s.nextM M A with
      | (.ok none, s) =>
        match nextPosstrishM M A { it with cur := some s } with
        | some it => nextLoopM A n it
        | none => (.panic, { it with cur := some s })
      | (.ok (some x), s) =>
        if it.charIdx + 1 ≤ M then (.ok (some x), { it with cur := some s, charIdx := it.charIdx + 1 })
        else (.panic, { it with cur := some s })
      | (o, s) => (o, { it with cur := some s })

/-- `strish_iter_src_strm.rs` 103-117 `Iterator::next`. -/
def nextM (A : StrishOps R) (it : SharedStream R τ) : Outcome Empty (Option (Item CharPos)) × SharedStream R τ :=
  nextLoopM M A turns { it with accum := none }

/-- `strish_iter_src_strm.rs` 130-147 `peek`. -/
def peekM (A : StrishOps R) (it : SharedStream R τ) : Outcome Empty (Option (Item CharPos)) × SharedStream R τ :=
  match it.cur with
  | none => (.ok none, it)
  | some s =>
    match s.peekM M A with
    | (.ok none, s) =>
      let it := { it with cur := some s }
      let it := match it.peekedStrm with
        | some _ => it
        | none => match nextPosstrishOf A it.charIdx it.strishIter with
          | (p, ss) => { it with peekedStrm := p, strishIter := ss }
      match it.peekedStrm with
      | none => (.ok none, it)
      | some p => match p.peekM M A with
        | (o, p) => (o, { it with peekedStrm := some p })
    | (o, s) => (o, { it with cur := some s })

/-- `strish_iter_src_strm.rs` 153-167, the loop of `next_accum`; the addition is in 156. -/
def nextAccumLoopM (A : StrishOps R) (T : TextType (SharedChunk R) τ α) : Nat → SharedStream R τ → α →
    Outcome AllocErr (Option (Item CharPos)) × SharedStream R τ × α
  | 0, it, a => (.fuel, it, a)
  | n + 1, it, a =>
    match it.cur with
    | none => (.ok none, it, a)
    | some s =>
      match s.nextAccumM M A with
      | (.ok none, s) =>
        match s.accumDoneM M A with
        | (.ok c, s) =>
          match T.concat (it.accum.getD T.empty) (T.ofChunk c) a with
          | (.ok acc, a) =>
            match nextPosstrishM M A { it with cur := some s, accum := some acc } with
            | some it => nextAccumLoopM A T n it a
            | none => (.panic, { it with cur := some s, accum := some acc }, a)
          | (.err e, a) => (.err e, { it with cur := some s, accum := none }, a)
          | (.panic, a) => (.panic, { it with cur := some s, accum := none }, a)
          | (.fuel, a) => (.fuel, { it with cur := some s, accum := none }, a)
        | (_, s) => (.panic, { it with cur := some s }, a)
      | (.ok (some x), s) =>
        if it.charIdx + 1 ≤ M then (.ok (some x), { it with cur := some s, charIdx := it.charIdx + 1 }, a)
        else (.panic, { it with cur := some s }, a)
      | (o, s) => (o.mapErr (fun e => nomatch e), { it with cur := some s }, a)

/-- `strish_iter_src_strm.rs` 170-177 `accum_done`. -/
def accumDoneM (A : StrishOps R) (T : TextType (SharedChunk R) τ α) (it : SharedStream R τ) (a : α) :
    Outcome AllocErr τ × SharedStream R τ × α :=
  let acc := it.accum.getD T.empty
  match it.cur with
  | none => (.ok acc, { it with accum := none }, a)
  | some s =>
    match s.accumDoneM M A with
    | (.ok c, s) =>
      match T.concat acc (T.ofChunk c) a with
      | (o, a) => (o, { it with cur := some s, accum := none }, a)
    | (_, s) => (.panic, { it with cur := some s, accum := none }, a)

end SharedStream

/-- `StrishIterSourceStream` as a source stream, as `sharedStreamOps`. -/
def sharedStreamM (A : StrishOps R) (T : TextType (SharedChunk R) τ α) : StreamOps (SharedStream R τ) CharPos τ α where
  peek := SharedStream.peekM M A
  next := SharedStream.nextM M A
  nextAccum := SharedStream.nextAccumLoopM M A T SharedStream.turns
  accumDone := SharedStream.accumDoneM M A T

end Kul
