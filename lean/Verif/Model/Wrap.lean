import Verif.Model.Release

/-!
# Builds without debug assertions, with wrapping arithmetic

The parser and the source streams of release builds again, as in `Model/Release.lean`; but there additions are without
limit, and here they are those of `usize` in a release build (Cargo's default profile): they wrap around, as subtractions
do. `W` is the number of values of `usize`. Only functions that add, and those that call them, are here.
-/

namespace Kul

/-- Addition of `usize`s in a release build. -/
def addWrap (W a b : Nat) : Nat := (a + b) % W

variable {σ P τ ε α CE : Type}

namespace Env

variable (E : Env σ P τ ε α CE) (W : Nat)

/-- `core/src/lib.rs` 404-437, the `while let` loop of `parse_text`, followed by 438-444 (`finishText`); the addition is in 420. -/
def wrapParseTextLoop (mode : Mode) : Nat → τ → Nat → Act (St σ α) (Err P CE) τ
  | 0, _, _ => Act.fuel
  | n + 1, text, nestLevel => do
    match ← E.peek with
    | none => E.finishText text nestLevel
    | some it =>
      if nestLevel = 0 ∧ isEndChar E.cc mode it.ch then
        E.finishText text nestLevel
      else if E.cc.isNestEscape it.ch then do
        let text ← E.concatAccum text
        let _ ← E.next
        let _ ← E.nextAccum
        wrapParseTextLoop mode n text nestLevel
      else if E.cc.isNestStart it.ch then do
        let _ ← E.nextAccum
        wrapParseTextLoop mode n text (addWrap W nestLevel 1)
      else if E.cc.isNestEnd it.ch then
        if nestLevel > 0 then do
          let _ ← E.nextAccum
          wrapParseTextLoop mode n text (nestLevel - 1)
        else do
          E.relCheckEndChar
          E.finishText text nestLevel
      else do
        let _ ← E.nextAccum
        wrapParseTextLoop mode n text nestLevel

/-- `core/src/lib.rs` 361-445 `parse_text`. -/
def wrapParseText (n : Nat) (mode : Mode) : Act (St σ α) (Err P CE) τ :=
  E.wrapParseTextLoop W mode n E.text.empty 0

/-- `core/src/lib.rs` 334-337; the addition is in 334. -/
def wrapNestedInDepth {A : Type} (nested : Act (St σ α) (Err P CE) A) : Act (St σ α) (Err P CE) A := fun s =>
  match nested { s with ndepth := addWrap W s.ndepth 1 } with
  | (r, s') => (r, { s' with ndepth := subWrap W s'.ndepth 1 })

mutual

/-- `core/src/lib.rs` 308-358 `parse_next`. -/
def wrapParseNext : Nat → Mode → Act (St σ α) (Err P CE) (Option (Datum τ ε))
  | 0, _ => Act.fuel
  | n + 1, mode => do
    E.skipLeading n mode
    match ← E.peek with
    | none => do
      let d ← getDepth
      if d = 0 then pure none else Act.throw .missingEndChar
    | some it =>
      if E.cc.isNestStart it.ch then do
        match ← wrapNestedInDepth W (wrapParseNested n) with
        | none => wrapParseNext n mode
        | some d => pure (some d)
      else if E.cc.isNestEnd it.ch then do
        E.relCheckEndChar
        pure none
      else do
        let t ← E.wrapParseText W n mode
        pure (some (.text t))

/-- `core/src/lib.rs` 448-522 `parse_nested`; 470-471 is not there. -/
def wrapParseNested : Nat → Act (St σ α) (Err P CE) (Option (Datum τ ε))
  | 0 => Act.fuel
  | n + 1 => do
    let _ ← E.next
    let operator ← wrapParseNext n .operator
    E.skipSeparator
    match operator with
    | some operator =>
      match E.lookup operator with
      | some (.operative opr) => do
        let operands ← E.wrapParseText W n .operands
        E.relNestEnd
        liftCombiner (opr operator operands)
      | some (.applicative apl) => do
        let arguments ← wrapParseAll n .base []
        E.relNestEnd
        liftCombiner (apl operator arguments)
      | none => do
        let operands ← wrapParseAll n .base []
        E.relNestEnd
        E.newDatum operator
        E.newDatum operands
        pure (some (.combination operator operands))
    | none => do
      E.relNestEnd
      pure (some .emptyNest)

/-- `core/src/lib.rs` 524-557 `parse_all`. -/
def wrapParseAll : Nat → Mode → List (Datum τ ε) → Act (St σ α) (Err P CE) (Datum τ ε)
  | 0, _, _ => Act.fuel
  | n + 1, mode, acc => do
    match ← wrapParseNext n mode with
    | some it => do
      E.newDatum it
      E.newDatum .emptyList
      let m ← E.getMutFresh
      if m then wrapParseAll n mode (acc ++ [it]) else Act.throw .failedDerefTryMut
    | none => pure (mkList acc)

end

/-- A call of `ParseIter::next` (`core/src/lib.rs` 244-259, 299-306), as `Env.Call`. -/
def WrapCall (s : St σ α) (o : Outcome (Err P CE) (Option (Datum τ ε))) (s' : St σ α) : Prop :=
  ∃ n, E.wrapParseNext W n .base s = (o, s') ∧ o ≠ .fuel

/-- A history of calls of `next`, as `Env.Calls`. -/
inductive WrapCalls : St σ α → List (Outcome (Err P CE) (Option (Datum τ ε))) → St σ α → Prop where
  | nil {s} : WrapCalls s [] s
  | cons {s o s' os s''} : E.WrapCall W s o s' → WrapCalls s' os s'' → WrapCalls s (o :: os) s''

end Env

/-! ## `PosStr` -/

/-- An item of a `PosStrIter` with its sums wrapped: `core/src/text/chunk/premade/pos_str.rs` 122 (`byte_pos`), 123 (`char_pos`). -/
def StrPos.wrap (W : Nat) (x : Item StrPos) : Item StrPos :=
  ⟨x.ch, { x.pos with bytePos := x.pos.bytePos % W, charPos := x.pos.charPos % W }⟩

namespace PosStrIter

variable (W : Nat)

/-- `pos_str.rs` 146-149 `Iterator::next`. -/
def nextWrap (it : PosStrIter) : Outcome Empty (Option (Item StrPos)) × PosStrIter :=
  (.ok (it.pei.head?.map (StrPos.wrap W)), ⟨it.pei.tail, none⟩)

/-- `pos_str.rs` 160-162 `peek`. -/
def peekWrap (it : PosStrIter) : Outcome Empty (Option (Item StrPos)) × PosStrIter :=
  (.ok (it.pei.head?.map (StrPos.wrap W)), it)

/-- `pos_str.rs` 164-180 `next_accum`; the addition is in 167. Slicing panics in a release build, too. -/
def nextAccumWrap (it : PosStrIter) : Outcome Empty (Option (Item StrPos)) × PosStrIter :=
  match it.pei with
  | [] => (.ok none, it)
  | x :: rest =>
    let next := StrPos.wrap W x
    let «end» := addWrap W next.pos.bytePos (Str.lenUtf8 next.ch)
    match it.accum with
    | some accum =>
      match Str.slice accum.pos.src accum.pos.bytePos «end» with
      | some val => (.ok (some next), ⟨rest, some { accum with val := val }⟩)
      | none => (.panic, ⟨rest, it.accum⟩)
    | none =>
      match Str.slice next.pos.src next.pos.bytePos «end» with
      | some val => (.ok (some next), ⟨rest, some ⟨val, next.pos⟩⟩)
      | none => (.panic, ⟨rest, it.accum⟩)

end PosStrIter

/-- `PosStr` as a chunk type, as `posStrOps`. -/
def posStrWrap (W : Nat) : ChunkOps PosStr PosStrIter StrPos :=
  { posStrOps with
    peek := PosStrIter.peekWrap W
    next := PosStrIter.nextWrap W
    nextAccum := PosStrIter.nextAccumWrap W }

/-! ## `PosStrish` -/

/-- `src/text/chunk/pos_strish.rs` 124-137 `RefCntSlice::slice`; 131-132 are not there, the additions are in 135. -/
def RefCntSlice.sliceWrap (W : Nat) (s : RefCntSlice) (start «end» : Nat) : RefCntSlice :=
  ⟨s.strish, addWrap W s.start start, addWrap W s.start «end»⟩

namespace PosStrishIter

variable (W : Nat)

/-- `pos_strish.rs` 277-285 `do_next_no_peeked`; the additions are in 280-282. -/
def doNextNoPeekedWrap (it : PosStrishIter) : Outcome Empty (Option (Item CharPos)) × PosStrishIter :=
  match it.chunk.val.asStr.bind (Str.sliceFrom · it.byteIdx) with
  | none => (.panic, it)
  | some [] => (.ok none, it)
  | some (ch :: _) =>
    (.ok (some ⟨ch, ⟨addWrap W it.chunk.pos.n it.charIdx⟩⟩),
      { it with charIdx := addWrap W it.charIdx 1, byteIdx := addWrap W it.byteIdx (Str.lenUtf8 ch) })

/-- `pos_strish.rs` 287-293 `do_next`. -/
def doNextWrap (it : PosStrishIter) : Outcome Empty (Option (Item CharPos)) × PosStrishIter :=
  match it.peeked with
  | some x => (.ok (some x), { it with peeked := none })
  | none => it.doNextNoPeekedWrap W

/-- `pos_strish.rs` 306-309 `Iterator::next`. -/
def nextWrap (it : PosStrishIter) : Outcome Empty (Option (Item CharPos)) × PosStrishIter :=
  doNextWrap W { it with accum := none }

/-- `pos_strish.rs` 322-329 `peek`. -/
def peekWrap (it : PosStrishIter) : Outcome Empty (Option (Item CharPos)) × PosStrishIter :=
  match it.peeked with
  | some x => (.ok (some x), it)
  | none =>
    match it.doNextNoPeekedWrap W with
    | (.ok o, it) => (.ok o, { it with peeked := o })
    | (e, it) => (e, it)

/-- `pos_strish.rs` 331-344 `next_accum`; the addition is in 340. -/
def nextAccumWrap (it : PosStrishIter) : Outcome Empty (Option (Item CharPos)) × PosStrishIter :=
  match it.doNextWrap W with
  | (.ok (some x), it) =>
    match it.accum with
    | some (start, _, pos) =>
      (.ok (some x), { it with accum := some (start, it.byteIdx, pos) })
    | none =>
      (.ok (some x), { it with accum := some (subWrap W it.byteIdx (Str.lenUtf8 x.ch), it.byteIdx,
        ⟨addWrap W it.chunk.pos.n (subWrap W it.charIdx 1)⟩) })
  | (o, it) => (o, it)

/-- `pos_strish.rs` 346-353 `accum_done`. -/
def accumDoneWrap (it : PosStrishIter) : Outcome Empty PosStrish × PosStrishIter :=
  match it.accum with
  | none => (.ok .empty, it)
  | some (start, «end», pos) => (.ok ⟨it.chunk.val.sliceWrap W start «end», pos⟩, { it with accum := none })

end PosStrishIter

/-- `PosStrish` as a chunk type, as `posStrishOps`. -/
def posStrishWrap (W : Nat) : ChunkOps PosStrish PosStrishIter CharPos :=
  { posStrishOps with
    peek := PosStrishIter.peekWrap W
    next := PosStrishIter.nextWrap W
    nextAccum := PosStrishIter.nextAccumWrap W
    accumDone := PosStrishIter.accumDoneWrap W }

/-! ## `StrishIterSourceStream` -/

namespace StrishIter

variable (W : Nat)

/-- `src/source_stream/strish_iter_src_strm.rs` 105-116, the loop of `Iterator::next`; the addition is in 108. -/
def nextLoopWrap : Nat → StrishIter τ → Outcome Empty (Option (Item CharPos)) × StrishIter τ
  | 0, it => (.fuel, it)
  | n + 1, it =>
    match it.cur with
    | none => (.ok none, it)
    | some s =>
      match s.nextWrap W with
      | (.ok none, s) => nextLoopWrap n (relNextPosstrish { it with cur := some s })
      | (.ok (some x), s) => (.ok (some x), { it with cur := some s, charIdx := addWrap W it.charIdx 1 })
      | (o, s) => (o, { it with cur := some s })

/-- `strish_iter_src_strm.rs` 103-117 `Iterator::next`. -/
def nextWrap (it : StrishIter τ) : Outcome Empty (Option (Item CharPos)) × StrishIter τ :=
  nextLoopWrap W turns { it with accum := none }

/-- `strish_iter_src_strm.rs` 130-147 `peek`. -/
def peekWrap (it : StrishIter τ) : Outcome Empty (Option (Item CharPos)) × StrishIter τ :=
  match it.cur with
  | none => (.ok none, it)
  | some s =>
    match s.peekWrap W with
    | (.ok none, s) =>
      let it := { it with cur := some s }
      let it := match it.peekedStrm with
        | some _ => it
        | none => match nextPosstrishOf it.charIdx it.strishIter with
          | (p, ss) => { it with peekedStrm := p, strishIter := ss }
      match it.peekedStrm with
      | none => (.ok none, it)
      | some p => match p.peekWrap W with
        | (o, p) => (o, { it with peekedStrm := some p })
    | (o, s) => (o, { it with cur := some s })

/-- `strish_iter_src_strm.rs` 153-167, the loop of `next_accum`; the addition is in 156. -/
def nextAccumLoopWrap (T : TextType PosStrish τ α) : Nat → StrishIter τ → α →
    Outcome AllocErr (Option (Item CharPos)) × StrishIter τ × α
  | 0, it, a => (.fuel, it, a)
  | n + 1, it, a =>
    match it.cur with
    | none => (.ok none, it, a)
    | some s =>
      match s.nextAccumWrap W with
      | (.ok none, s) =>
        match s.accumDoneWrap W with
        | (.ok c, s) =>
          match T.concat (it.accum.getD T.empty) (T.ofChunk c) a with
          | (.ok acc, a) => nextAccumLoopWrap T n (relNextPosstrish { it with cur := some s, accum := some acc }) a
          | (.err e, a) => (.err e, { it with cur := some s, accum := none }, a)
          | (.panic, a) => (.panic, { it with cur := some s, accum := none }, a)
          | (.fuel, a) => (.fuel, { it with cur := some s, accum := none }, a)
        | (_, s) => (.panic, { it with cur := some s }, a)
      | (.ok (some x), s) => (.ok (some x), { it with cur := some s, charIdx := addWrap W it.charIdx 1 }, a)
      | (o, s) => (o.mapErr (fun e => nomatch e), { it with cur := some s }, a)

/-- `strish_iter_src_strm.rs` 170-177 `accum_done`. -/
def accumDoneWrap (T : TextType PosStrish τ α) (it : StrishIter τ) (a : α) :
    Outcome AllocErr τ × StrishIter τ × α :=
  let acc := it.accum.getD T.empty
  match it.cur with
  | none => (.ok acc, { it with accum := none }, a)
  | some s =>
    match s.accumDoneWrap W with
    | (.ok c, s) =>
      match T.concat acc (T.ofChunk c) a with
      | (o, a) => (o, { it with cur := some s, accum := none }, a)
    | (_, s) => (.panic, { it with cur := some s, accum := none }, a)

end StrishIter

/-- `StrishIterSourceStream` as a source stream, as `strishIterOps`. -/
def strishIterWrap (W : Nat) (T : TextType PosStrish τ α) : StreamOps (StrishIter τ) CharPos τ α where
  peek := StrishIter.peekWrap W
  next := StrishIter.nextWrap W
  nextAccum := StrishIter.nextAccumLoopWrap W T StrishIter.turns
  accumDone := StrishIter.accumDoneWrap W T

/-! ## `CharIterSourceStream` -/

/-- An item of a `CharIterSourceStream` with its position wrapped: `src/source_stream/char_iter_src_strm.rs` 146-149 (the count of
`Enumerate`). -/
def CharPos.wrap (W : Nat) (x : Item CharPos) : Item CharPos := ⟨x.ch, ⟨x.pos.n % W⟩⟩

namespace CharIter

variable (W : Nat)

/-- `char_iter_src_strm.rs` 170-173 `Iterator::next`. -/
def nextWrap (it : CharIter) : Outcome Empty (Option (Item CharPos)) × CharIter :=
  (.ok (it.peIter.head?.map (CharPos.wrap W)), ⟨it.peIter.tail, none⟩)

/-- `char_iter_src_strm.rs` 186-188 `peek`. -/
def peekWrap (it : CharIter) : Outcome Empty (Option (Item CharPos)) × CharIter :=
  (.ok (it.peIter.head?.map (CharPos.wrap W)), it)

/-- `char_iter_src_strm.rs` 190-206 `next_accum`. -/
def nextAccumWrap (it : CharIter) (a : α) : Outcome AllocErr (Option (Item CharPos)) × CharIter × α :=
  match it.peIter with
  | [] => (.ok none, it, a)
  | x :: rest =>
    let x := CharPos.wrap W x
    match it.accum with
    | some (s, pos) => (.ok (some x), ⟨rest, some (s ++ [x.ch], pos)⟩, a)
    | none => (.ok (some x), ⟨rest, some ([x.ch], x.pos)⟩, a)

end CharIter

/-- `CharIterSourceStream` as a source stream, as `charIterOps`. -/
def charIterWrap (W : Nat) (T : TextType PosStrish τ α) : StreamOps CharIter CharPos τ α :=
  { charIterOps T with
    peek := CharIter.peekWrap W
    next := CharIter.nextWrap W
    nextAccum := CharIter.nextAccumWrap W }

/-! ## The same with strings that are told apart, as in `Model/Shared.lean` -/

section

variable {R : Type}

/-- `src/text/chunk/pos_strish.rs` 124-137 `RefCntSlice::slice`; 131-132 are not there, the additions are in 135. -/
def SharedSlice.sliceWrap (W : Nat) (s : SharedSlice R) (start «end» : Nat) : SharedSlice R :=
  ⟨s.strish, addWrap W s.start start, addWrap W s.start «end»⟩

namespace SharedChunkIter

variable (W : Nat) (A : StrishOps R)

/-- `pos_strish.rs` 277-285 `do_next_no_peeked`; the additions are in 280-282. -/
def doNextNoPeekedWrap (it : SharedChunkIter R) : Outcome Empty (Option (Item CharPos)) × SharedChunkIter R :=
  match (it.chunk.val.asStr A).bind (Str.sliceFrom · it.byteIdx) with
  | none => (.panic, it)
  | some [] => (.ok none, it)
  | some (ch :: _) =>
    (.ok (some ⟨ch, ⟨addWrap W it.chunk.pos.n it.charIdx⟩⟩),
      { it with charIdx := addWrap W it.charIdx 1, byteIdx := addWrap W it.byteIdx (Str.lenUtf8 ch) })

/-- `pos_strish.rs` 287-293 `do_next`. -/
def doNextWrap (it : SharedChunkIter R) : Outcome Empty (Option (Item CharPos)) × SharedChunkIter R :=
  match it.peeked with
  | some x => (.ok (some x), { it with peeked := none })
  | none => it.doNextNoPeekedWrap W A

/-- `pos_strish.rs` 306-309 `Iterator::next`. -/
def nextWrap (it : SharedChunkIter R) : Outcome Empty (Option (Item CharPos)) × SharedChunkIter R :=
  doNextWrap W A { it with accum := none }

/-- `pos_strish.rs` 322-329 `peek`. -/
def peekWrap (it : SharedChunkIter R) : Outcome Empty (Option (Item CharPos)) × SharedChunkIter R :=
  match it.peeked with
  | some x => (.ok (some x), it)
  | none =>
    match it.doNextNoPeekedWrap W A with
    | (.ok o, it) => (.ok o, { it with peeked := o })
    | (e, it) => (e, it)

/-- `pos_strish.rs` 331-344 `next_accum`; the addition is in 340. -/
def nextAccumWrap (it : SharedChunkIter R) : Outcome Empty (Option (Item CharPos)) × SharedChunkIter R :=
  match it.doNextWrap W A with
  | (.ok (some x), it) =>
    match it.accum with
    | some (start, _, pos) =>
      (.ok (some x), { it with accum := some (start, it.byteIdx, pos) })
    | none =>
      (.ok (some x), { it with accum := some (subWrap W it.byteIdx (Str.lenUtf8 x.ch), it.byteIdx,
        ⟨addWrap W it.chunk.pos.n (subWrap W it.charIdx 1)⟩) })
  | (o, it) => (o, it)

/-- `pos_strish.rs` 346-353 `accum_done`. -/
def accumDoneWrap (it : SharedChunkIter R) : Outcome Empty (SharedChunk R) × SharedChunkIter R :=
  match it.accum with
  | none => (.ok (.empty A), it)
  | some (start, «end», pos) => (.ok ⟨it.chunk.val.sliceWrap W start «end», pos⟩, { it with accum := none })

end SharedChunkIter

/-- `PosStrish` as a chunk type, as `sharedChunkOps`. -/
def sharedChunkWrap (W : Nat) (A : StrishOps R) : ChunkOps (SharedChunk R) (SharedChunkIter R) CharPos :=
  { sharedChunkOps A with
    peek := SharedChunkIter.peekWrap W A
    next := SharedChunkIter.nextWrap W A
    nextAccum := SharedChunkIter.nextAccumWrap W A
    accumDone := SharedChunkIter.accumDoneWrap W A }

namespace SharedStream

variable (W : Nat) (A : StrishOps R)

/-- `src/source_stream/strish_iter_src_strm.rs` 105-116, the loop of `Iterator::next`; the addition is in 108. -/
def nextLoopWrap : Nat → SharedStream R τ → Outcome Empty (Option (Item CharPos)) × SharedStream R τ
  | 0, it => (.fuel, it)
  | n + 1, it =>
    match it.cur with
    | none => (.ok none, it)
    | some s =>
      match s.nextWrap W A with
      | (.ok none, s) => nextLoopWrap n (relNextPosstrish A { it with cur := some s })
      | (.ok (some x), s) => (.ok (some x), { it with cur := some s, charIdx := addWrap W it.charIdx 1 })
      | (o, s) => (o, { it with cur := some s })

/-- `strish_iter_src_strm.rs` 103-117 `Iterator::next`. -/
def nextWrap (it : SharedStream R τ) : Outcome Empty (Option (Item CharPos)) × SharedStream R τ :=
  nextLoopWrap W A turns { it with accum := none }

/-- `strish_iter_src_strm.rs` 130-147 `peek`. -/
def peekWrap (it : SharedStream R τ) : Outcome Empty (Option (Item CharPos)) × SharedStream R τ :=
  match it.cur with
  | none => (.ok none, it)
  | some s =>
    match s.peekWrap W A with
    | (.ok none, s) =>
      let it := { it with cur := some s }
      let it := match it.peekedStrm with
        | some _ => it
        | none => match nextPosstrishOf A it.charIdx it.strishIter with
          | (p, ss) => { it with peekedStrm := p, strishIter := ss }
      match it.peekedStrm with
      | none => (.ok none, it)
      | some p => match p.peekWrap W A with
        | (o, p) => (o, { it with peekedStrm := some p })
    | (o, s) => (o, { it with cur := some s })

/-- `strish_iter_src_strm.rs` 153-167, the loop of `next_accum`; the addition is in 156. -/
def nextAccumLoopWrap (T : TextType (SharedChunk R) τ α) : Nat → SharedStream R τ → α →
    Outcome AllocErr (Option (Item CharPos)) × SharedStream R τ × α
  | 0, it, a => (.fuel, it, a)
  | n + 1, it, a =>
    match it.cur with
    | none => (.ok none, it, a)
    | some s =>
      match s.nextAccumWrap W A with
      | (.ok none, s) =>
        match s.accumDoneWrap W A with
        | (.ok c, s) =>
          match T.concat (it.accum.getD T.empty) (T.ofChunk c) a with
          | (.ok acc, a) => nextAccumLoopWrap T n (relNextPosstrish A { it with cur := some s, accum := some acc }) a
          | (.err e, a) => (.err e, { it with cur := some s, accum := none }, a)
          | (.panic, a) => (.panic, { it with cur := some s, accum := none }, a)
          | (.fuel, a) => (.fuel, { it with cur := some s, accum := none }, a)
        | (_, s) => (.panic, { it with cur := some s }, a)
      | (.ok (some x), s) => (.ok (some x), { it with cur := some s, charIdx := addWrap W it.charIdx 1 }, a)
      | (o, s) => (o.mapErr (fun e => nomatch e), { it with cur := some s }, a)

/-- `strish_iter_src_strm.rs` 170-177 `accum_done`. -/
def accumDoneWrap (T : TextType (SharedChunk R) τ α) (it : SharedStream R τ) (a : α) :
    Outcome AllocErr τ × SharedStream R τ × α :=
  let acc := it.accum.getD T.empty
  match it.cur with
  | none => (.ok acc, { it with accum := none }, a)
  | some s =>
    match s.accumDoneWrap W A with
    | (.ok c, s) =>
      match T.concat acc (T.ofChunk c) a with
      | (o, a) => (o, { it with cur := some s, accum := none }, a)
    | (_, s) => (.panic, { it with cur := some s, accum := none }, a)

end SharedStream

/-- `StrishIterSourceStream` as a source stream, as `sharedStreamOps`. -/
def sharedStreamWrap (W : Nat) (A : StrishOps R) (T : TextType (SharedChunk R) τ α) : StreamOps (SharedStream R τ) CharPos τ α where
  peek := SharedStream.peekWrap W A
  next := SharedStream.nextWrap W A
  nextAccum := SharedStream.nextAccumLoopWrap W A T SharedStream.turns
  accumDone := SharedStream.accumDoneWrap W A T

end

end Kul
