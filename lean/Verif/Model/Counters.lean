import Verif.Model.Streams

/-!
# The source streams with finite counters

The streams of `Model/Chunk.lean` and `Model/Streams.lean` again, where no position, index
or length is above `M` (`usize::MAX`): each addition of the code is checked, and one with a
greater sum is `.panic`, as it is in builds with overflow checks. The counters of the parser
itself are in `Model/Stack.lean`.
-/

namespace Kul

variable {C CS P τ α : Type} (M : Nat)

/-! ## `PosStr` -/

/-- The additions that give the item `x` to a `PosStrIter`:
`core/src/text/chunk/premade/pos_str.rs` 122 (`byte_pos`), 123 (`char_pos`) and the count of
`Enumerate` in 128, which is one more after `x`. That count starts at 0 in each chunk; here it
is taken to start at the chunk's own position, which is not less. -/
def StrPos.inRange (x : Item StrPos) : Prop := x.pos.bytePos ≤ M ∧ x.pos.charPos + 1 ≤ M

instance (x : Item StrPos) : Decidable (StrPos.inRange M x) := inferInstanceAs (Decidable (_ ∧ _))

namespace PosStrIter

/-- `pos_str.rs` 146-149 `Iterator::next`. -/
def nextM (it : PosStrIter) : Outcome Empty (Option (Item StrPos)) × PosStrIter :=
  match it.pei with
  | [] => (.ok none, ⟨[], none⟩)
  | x :: rest => if StrPos.inRange M x then (.ok (some x), ⟨rest, none⟩) else (.panic, ⟨rest, none⟩)

/-- `pos_str.rs` 160-162 `peek`. -/
def peekM (it : PosStrIter) : Outcome Empty (Option (Item StrPos)) × PosStrIter :=
  match it.pei with
  | [] => (.ok none, it)
  | x :: _ => if StrPos.inRange M x then (.ok (some x), it) else (.panic, it)

/-- `pos_str.rs` 164-180 `next_accum`; 167 is `end`. -/
def nextAccumM (it : PosStrIter) : Outcome Empty (Option (Item StrPos)) × PosStrIter :=
  match it.pei with
  | [] => (.ok none, it)
  | next :: rest =>
    if StrPos.inRange M next ∧ next.pos.bytePos + Str.lenUtf8 next.ch ≤ M then it.nextAccum
    else (.panic, ⟨rest, it.accum⟩)

end PosStrIter

/-- `PosStr` as a chunk type, as `posStrOps`. -/
def posStrM : ChunkOps PosStr PosStrIter StrPos :=
  { posStrOps with
    peek := PosStrIter.peekM M
    next := PosStrIter.nextM M
    nextAccum := PosStrIter.nextAccumM M }

/-! ## `PosStrish` -/

/-- `src/text/chunk/pos_strish.rs` 124-137 `RefCntSlice::slice`; the additions are in 135. -/
def RefCntSlice.sliceM (s : RefCntSlice) (start «end» : Nat) : Option RefCntSlice :=
  if s.start + start ≤ M ∧ s.start + «end» ≤ M then s.slice start «end» else none

namespace PosStrishIter

/-- `pos_strish.rs` 277-285 `do_next_no_peeked`; the additions are in 280-282. -/
def doNextNoPeekedM (it : PosStrishIter) : Outcome Empty (Option (Item CharPos)) × PosStrishIter :=
  match it.chunk.val.asStr.bind (Str.sliceFrom · it.byteIdx) with
  | none => (.panic, it)
  | some [] => (.ok none, it)
  | some (ch :: _) =>
    if it.chunk.pos.n + it.charIdx ≤ M ∧ it.charIdx + 1 ≤ M ∧ it.byteIdx + Str.lenUtf8 ch ≤ M then
      (.ok (some ⟨ch, ⟨it.chunk.pos.n + it.charIdx⟩⟩),
        { it with charIdx := it.charIdx + 1, byteIdx := it.byteIdx + Str.lenUtf8 ch })
    else (.panic, it)

/-- `pos_strish.rs` 287-293 `do_next`. -/
def doNextM (it : PosStrishIter) : Outcome Empty (Option (Item CharPos)) × PosStrishIter :=
  match it.peeked with
  | some x => (.ok (some x), { it with peeked := none })
  | none => it.doNextNoPeekedM M

/-- `pos_strish.rs` 306-309 `Iterator::next`. -/
def nextM (it : PosStrishIter) : Outcome Empty (Option (Item CharPos)) × PosStrishIter :=
  doNextM M { it with accum := none }

/-- `pos_strish.rs` 322-329 `peek`. -/
def peekM (it : PosStrishIter) : Outcome Empty (Option (Item CharPos)) × PosStrishIter :=
  match it.peeked with
  | some x => (.ok (some x), it)
  | none =>
    match it.doNextNoPeekedM M with
    | (.ok o, it) => (.ok o, { it with peeked := o })
    | (e, it) => (e, it)

/-- `pos_strish.rs` 331-344 `next_accum`; the addition is in 340. -/
def nextAccumM (it : PosStrishIter) : Outcome Empty (Option (Item CharPos)) × PosStrishIter :=
  match it.doNextM M with
  | (.ok (some x), it) =>
    match it.accum with
    | some (start, _, pos) =>
      (.ok (some x), { it with accum := some (start, it.byteIdx, pos) })
    | none =>
      if Str.lenUtf8 x.ch ≤ it.byteIdx ∧ 1 ≤ it.charIdx ∧ it.chunk.pos.n + (it.charIdx - 1) ≤ M then
        (.ok (some x), { it with accum := some (it.byteIdx - Str.lenUtf8 x.ch, it.byteIdx,
          ⟨it.chunk.pos.n + (it.charIdx - 1)⟩) })
      else (.panic, it)
  | (o, it) => (o, it)

/-- `pos_strish.rs` 346-353 `accum_done`. -/
def accumDoneM (it : PosStrishIter) : Outcome Empty PosStrish × PosStrishIter :=
  match it.accum with
  | none => (.ok .empty, it)
  | some (start, «end», pos) =>
    match it.chunk.val.sliceM M start «end» with
    | some val => (.ok ⟨val, pos⟩, { it with accum := none })
    | none => (.panic, { it with accum := none })

end PosStrishIter

/-- `PosStrish` as a chunk type, as `posStrishOps`. -/
def posStrishM : ChunkOps PosStrish PosStrishIter CharPos :=
  { posStrishOps with
    peek := PosStrishIter.peekM M
    next := PosStrishIter.nextM M
    nextAccum := PosStrishIter.nextAccumM M
    accumDone := PosStrishIter.accumDoneM M }

/-! ## `StrishIterSourceStream` -/

namespace StrishIter

/-- `src/source_stream/strish_iter_src_strm.rs` 80-88 `next_posstrish`. -/
def nextPosstrishM (it : StrishIter τ) : Option (StrishIter τ) :=
  match it.cur with
  | none => none
  | some s =>
    match s.peekM M with
    | (.ok none, _) =>
      match it.peekedStrm with
      | some p => some { it with cur := some p, peekedStrm := none }
      | none =>
        match nextPosstrishOf it.charIdx it.strishIter with
        | (cur, ss) => some { it with cur := cur, strishIter := ss }
    | _ => none

/-- `strish_iter_src_strm.rs` 105-116, the loop of `Iterator::next`; the addition is in 108. -/
def nextLoopM : Nat → StrishIter τ → Outcome Empty (Option (Item CharPos)) × StrishIter τ
  | 0, it => (.fuel, it)
  | n + 1, it =>
    match it.cur with
    | none => (.ok none, it)
    | some s =>
      match s.nextM M with
      | (.ok none, s) =>
        match nextPosstrishM M { it with cur := some s } with
        | some it => nextLoopM n it
        | none => (.panic, { it with cur := some s })
      | (.ok (some x), s) =>
        if it.charIdx + 1 ≤ M then (.ok (some x), { it with cur := some s, charIdx := it.charIdx + 1 })
        else (.panic, { it with cur := some s })
      | (o, s) => (o, { it with cur := some s })

/-- `strish_iter_src_strm.rs` 103-117 `Iterator::next`. -/
def nextM (it : StrishIter τ) : Outcome Empty (Option (Item CharPos)) × StrishIter τ :=
  nextLoopM M turns { it with accum := none }

/-- `strish_iter_src_strm.rs` 130-147 `peek`. -/
def peekM (it : StrishIter τ) : Outcome Empty (Option (Item CharPos)) × StrishIter τ :=
  match it.cur with
  | none => (.ok none, it)
  | some s =>
    match s.peekM M with
    | (.ok none, s) =>
      let it := { it with cur := some s }
      let it := match it.peekedStrm with
        | some _ => it
        | none => match nextPosstrishOf it.charIdx it.strishIter with
          | (p, ss) => { it with peekedStrm := p, strishIter := ss }
      match it.peekedStrm with
      | none => (.ok none, it)
      | some p => match p.peekM M with
        | (o, p) => (o, { it with peekedStrm := some p })
    | (o, s) => (o, { it with cur := some s })

/-- `strish_iter_src_strm.rs` 153-167, the loop of `next_accum`; the addition is in 156. -/
def nextAccumLoopM (T : TextType PosStrish τ α) : Nat → StrishIter τ → α →
    Outcome AllocErr (Option (Item CharPos)) × StrishIter τ × α
  | 0, it, a => (.fuel, it, a)
  | n + 1, it, a =>
    match it.cur with
    | none => (.ok none, it, a)
    | some s =>
      match s.nextAccumM M with
      | (.ok none, s) =>
        match s.accumDoneM M with
        | (.ok c, s) =>
          match T.concat (it.accum.getD T.empty) (T.ofChunk c) a with
          | (.ok acc, a) =>
            match nextPosstrishM M { it with cur := some s, accum := some acc } with
            | some it => nextAccumLoopM T n it a
            | none => (.panic, { it with cur := some s, accum := some acc }, a)
          | (.err e, a) => (.err e, { it with cur := some s, accum := none }, a)
          | (.panic, a) => (.panic, { it with cur := some s, accum := none }, a)
          | (.fuel, a) => (.fuel, { it with cur := some s, accum := none }, a)
        | (_, s) => (.panic, { it with cur := some s }, a)
      | (.ok (some x), s) =>
        if it.charIdx + 1 ≤ M then (.ok (some x), { it with cur := some s, charIdx := it.charIdx + 1 }, a)
        else (.panic, { it with cur := some s }, a)
      | (o, s) => (o.mapErr (fun e => nomatch e), { it with cur := some s }, a)

/-- `strish_iter_src_strm.rs` 170-177 `accum_done`. -/
def accumDoneM (T : TextType PosStrish τ α) (it : StrishIter τ) (a : α) :
    Outcome AllocErr τ × StrishIter τ × α :=
  let acc := it.accum.getD T.empty
  match it.cur with
  | none => (.ok acc, { it with accum := none }, a)
  | some s =>
    match s.accumDoneM M with
    | (.ok c, s) =>
      match T.concat acc (T.ofChunk c) a with
      | (o, a) => (o, { it with cur := some s, accum := none }, a)
    | (_, s) => (.panic, { it with cur := some s, accum := none }, a)

end StrishIter

/-- `StrishIterSourceStream` as a source stream, as `strishIterOps`. -/
def strishIterM (T : TextType PosStrish τ α) : StreamOps (StrishIter τ) CharPos τ α where
  peek := StrishIter.peekM M
  next := StrishIter.nextM M
  nextAccum := StrishIter.nextAccumLoopM M T StrishIter.turns
  accumDone := StrishIter.accumDoneM M T

/-! ## `CharIterSourceStream` -/

namespace CharIter

/-- `src/source_stream/char_iter_src_strm.rs` 170-173 `Iterator::next`. The count of `Enumerate`
(146-149) is one more after an item than its position. -/
def nextM (it : CharIter) : Outcome Empty (Option (Item CharPos)) × CharIter :=
  match it.peIter with
  | [] => (.ok none, ⟨[], none⟩)
  | x :: rest => if x.pos.n + 1 ≤ M then (.ok (some x), ⟨rest, none⟩) else (.panic, ⟨rest, none⟩)

/-- `char_iter_src_strm.rs` 186-188 `peek`. -/
def peekM (it : CharIter) : Outcome Empty (Option (Item CharPos)) × CharIter :=
  match it.peIter with
  | [] => (.ok none, it)
  | x :: _ => if x.pos.n + 1 ≤ M then (.ok (some x), it) else (.panic, it)

/-- `char_iter_src_strm.rs` 190-206 `next_accum`. -/
def nextAccumM (it : CharIter) (a : α) : Outcome AllocErr (Option (Item CharPos)) × CharIter × α :=
  match it.peIter with
  | [] => (.ok none, it, a)
  | x :: rest =>
    if x.pos.n + 1 ≤ M then match it.nextAccum with | (o, it) => (.ok o, it, a)
    else (.panic, ⟨rest, it.accum⟩, a)

end CharIter

/-- `CharIterSourceStream` as a source stream, as `charIterOps`. -/
def charIterM (T : TextType PosStrish τ α) : StreamOps CharIter CharPos τ α :=
  { charIterOps T with
    peek := CharIter.peekM M
    next := CharIter.nextM M
    nextAccum := CharIter.nextAccumM M }

end Kul
