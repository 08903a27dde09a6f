import Verif.Model.Premade

/-!
# Streams of reference-counted strings

Models `src/text/chunk/pos_strish.rs` and `src/source_stream/strish_iter_src_strm.rs` once
more. `Chunk.lean` and `Streams.lean` represent a reference-counted string by its contents; here
a string is a value of any type `R` that has contents, so that two strings with the same
contents can be told apart (take for instance an address with the contents). Cloning an `Rc` or
`Arc` gives the same value of `R`; only `RefCntStrish::from_str` and `empty` make other ones.
-/

namespace Kul

variable {R τ α : Type}

/-- `pos_strish.rs` 31-51 `AsStr`, 60-65 `RefCntStrish`: a type of reference-counted strings, with
the contents of each and the making of one from a string. (A simplification: the same string made twice
is the same value.) -/
structure StrishOps (R : Type) where
  asStr : R → Str
  fromStr : Str → R

/-- `pos_strish.rs` 64 `RefCntStrish::empty`. -/
def StrishOps.empty (A : StrishOps R) : R := A.fromStr []

/-- `pos_strish.rs` 110-115 `RefCntSlice`: a shared string and a byte range. -/
structure SharedSlice (R : Type) where
  strish : R
  start : Nat
  «end» : Nat
deriving DecidableEq, Repr

/-- `pos_strish.rs` 124-137 `RefCntSlice::slice`; `none` is a failed
`debug_assert!` (or an arithmetic underflow). -/
def SharedSlice.slice (s : SharedSlice R) (start «end» : Nat) : Option (SharedSlice R) :=
  if start ≤ «end» ∧ s.start ≤ s.end ∧ «end» ≤ s.end - s.start then
    some ⟨s.strish, s.start + start, s.start + «end»⟩
  else none

/-- `pos_strish.rs` 143-148 `RefCntSlice::as_str`; `none` is a panic. -/
def SharedSlice.asStr (A : StrishOps R) (s : SharedSlice R) : Option Str :=
  Str.slice (A.asStr s.strish) s.start s.end

/-- `pos_strish.rs` 192-200 `PosStrish`. -/
structure SharedChunk (R : Type) where
  val : SharedSlice R
  pos : CharPos
deriving DecidableEq, Repr

/-- `pos_strish.rs` 209-215 `PosStrish::new`. -/
def SharedChunk.new (A : StrishOps R) (strish : R) (pos : CharPos) : SharedChunk R :=
  ⟨⟨strish, 0, (A.asStr strish).len⟩, pos⟩

/-- `pos_strish.rs` 219-225 `From<&str>`. -/
def SharedChunk.ofStr (A : StrishOps R) (val : Str) : SharedChunk R := .new A (A.fromStr val) ⟨0⟩

/-- `pos_strish.rs` 233 `TextBase::empty`. -/
def SharedChunk.empty (A : StrishOps R) : SharedChunk R := .new A A.empty ⟨0⟩

/-- `pos_strish.rs` 256-262 `PosStrishIter`. -/
structure SharedChunkIter (R : Type) where
  chunk : SharedChunk R
  byteIdx : Nat
  charIdx : Nat
  peeked : Option (Item CharPos)
  accum : Option (Nat × Nat × CharPos)
deriving DecidableEq, Repr

namespace SharedChunkIter

/-- `pos_strish.rs` 267-275 `PosStrishIter::new`. -/
def new (ps : SharedChunk R) : SharedChunkIter R := ⟨ps, 0, 0, none, none⟩

/-- `pos_strish.rs` 277-285 `do_next_no_peeked`. -/
def doNextNoPeeked (A : StrishOps R) (it : SharedChunkIter R) :
    Outcome Empty (Option (Item CharPos)) × SharedChunkIter R :=
  match (it.chunk.val.asStr A).bind (Str.sliceFrom · it.byteIdx) with
  | none => (.panic, it)
  | some [] => (.ok none, it)
  | some (ch :: _) =>
    (.ok (some ⟨ch, ⟨it.chunk.pos.n + it.charIdx⟩⟩),
      { it with charIdx := it.charIdx + 1, byteIdx := it.byteIdx + Str.lenUtf8 ch })

/-- `pos_strish.rs` 287-293 `do_next`. -/
def doNext (A : StrishOps R) (it : SharedChunkIter R) :
    Outcome Empty (Option (Item CharPos)) × SharedChunkIter R :=
  match it.peeked with
  | some x => (.ok (some x), { it with peeked := none })
  | none => it.doNextNoPeeked A

/-- `pos_strish.rs` 306-309 `Iterator::next`. -/
def next (A : StrishOps R) (it : SharedChunkIter R) :
    Outcome Empty (Option (Item CharPos)) × SharedChunkIter R :=
  doNext A { it with accum := none }

/-- `pos_strish.rs` 322-329 `peek`. -/
def peek (A : StrishOps R) (it : SharedChunkIter R) :
    Outcome Empty (Option (Item CharPos)) × SharedChunkIter R :=
  match it.peeked with
  | some x => (.ok (some x), it)
  | none =>
    match it.doNextNoPeeked A with
    | (.ok o, it) => (.ok o, { it with peeked := o })
    | (e, it) => (e, it)

/-- `pos_strish.rs` 331-344 `next_accum`. The subtractions would panic on underflow. -/
def nextAccum (A : StrishOps R) (it : SharedChunkIter R) :
    Outcome Empty (Option (Item CharPos)) × SharedChunkIter R :=
  match it.doNext A with
  | (.ok (some x), it) =>
    match it.accum with
    | some (start, _, pos) =>
      (.ok (some x), { it with accum := some (start, it.byteIdx, pos) })
    | none =>
      if Str.lenUtf8 x.ch ≤ it.byteIdx ∧ 1 ≤ it.charIdx then
        (.ok (some x), { it with accum := some (it.byteIdx - Str.lenUtf8 x.ch, it.byteIdx,
          ⟨it.chunk.pos.n + (it.charIdx - 1)⟩) })
      else (.panic, it)
  | (o, it) => (o, it)

/-- `pos_strish.rs` 346-353 `accum_done`. -/
def accumDone (A : StrishOps R) (it : SharedChunkIter R) :
    Outcome Empty (SharedChunk R) × SharedChunkIter R :=
  match it.accum with
  | none => (.ok (.empty A), it)
  | some (start, «end», pos) =>
    match it.chunk.val.slice start «end» with
    | some val => (.ok ⟨val, pos⟩, { it with accum := none })
    | none => (.panic, { it with accum := none })

end SharedChunkIter

/-- `PosStrish` as a chunk type: `pos_strish.rs` 228-246 (`TextBase`, `TextChunk`) and
the stream above. -/
def sharedChunkOps (A : StrishOps R) : ChunkOps (SharedChunk R) (SharedChunkIter R) CharPos where
  empty := .empty A
  isEmpty c := match c.val.asStr A with
    | some s => .ok (s.len == 0)
    | none => .panic
  srcStrm := .new
  peek it := it.peek A
  next it := it.next A
  nextAccum it := it.nextAccum A
  accumDone it := it.accumDone A

/-! ## `StrishIterSourceStream` -/

/-- `src/source_stream/strish_iter_src_strm.rs` 28-37 `StrishIterSourceStream`. The
iterator of strings is represented by the list of the strings that it will still
yield. -/
structure SharedStream (R τ : Type) where
  cur : Option (SharedChunkIter R)
  charIdx : Nat
  strishIter : List R
  peekedStrm : Option (SharedChunkIter R)
  accum : Option τ
deriving DecidableEq, Repr

namespace SharedStream

/-- `strish_iter_src_strm.rs` 66-75 `next_posstrish_of`: skips empty strings. -/
def nextPosstrishOf (A : StrishOps R) (charIdx : Nat) :
    List R → Option (SharedChunkIter R) × List R
  | [] => (none, [])
  | s :: ss =>
    if Str.len (A.asStr s) > 0 then (some (.new (.new A s ⟨charIdx⟩)), ss)
    else nextPosstrishOf A charIdx ss

/-- `strish_iter_src_strm.rs` 48-61 `new`. -/
def new (A : StrishOps R) (ss : List R) : SharedStream R τ :=
  match nextPosstrishOf A 0 ss with
  | (cur, ss) => ⟨cur, 0, ss, none, none⟩

/-- `strish_iter_src_strm.rs` 80-88 `next_posstrish`, called with `cur` at its end;
the `debug_assert!` is modelled. `none` is its failure. -/
def nextPosstrish (A : StrishOps R) (it : SharedStream R τ) : Option (SharedStream R τ) :=
  match it.cur with
  | none => none
  | some s =>
    match s.peek A with
    | (.ok none, _) =>
      match it.peekedStrm with
      | some p => some { it with cur := some p, peekedStrm := none }
      | none =>
        match nextPosstrishOf A it.charIdx it.strishIter with
        | (cur, ss) => some { it with cur := cur, strishIter := ss }
    | _ => none

/-- `strish_iter_src_strm.rs` 105-116, the loop of `Iterator::next`, with a budget of
turns. -/
def nextLoop (A : StrishOps R) : Nat → SharedStream R τ →
    Outcome Empty (Option (Item CharPos)) × SharedStream R τ
  | 0, it => (.fuel, it)
  | n + 1, it =>
    match it.cur with
    | none => (.ok none, it)
    | some s =>
      match s.next A with
      | (.ok none, s) =>
        match nextPosstrish A { it with cur := some s } with
        | some it => nextLoop A n it
        | none => (.panic, { it with cur := some s })
      | (.ok (some x), s) => (.ok (some x), { it with cur := some s, charIdx := it.charIdx + 1 })
      | (o, s) => (o, { it with cur := some s })

/-- A budget for the number of turns of the loops, as in `Streams`. -/
def turns : Nat := 2

/-- `strish_iter_src_strm.rs` 103-117 `Iterator::next`. -/
def next (A : StrishOps R) (it : SharedStream R τ) :
    Outcome Empty (Option (Item CharPos)) × SharedStream R τ :=
  nextLoop A turns { it with accum := none }

/-- `strish_iter_src_strm.rs` 130-147 `peek`. -/
def peek (A : StrishOps R) (it : SharedStream R τ) :
    Outcome Empty (Option (Item CharPos)) × SharedStream R τ :=
  match it.cur with
  | none => (.ok none, it)
  | some s =>
    match s.peek A with
    | (.ok none, s) =>
      let it := { it with cur := some s }
      let it := match it.peekedStrm with
        | some _ => it
        | none => match nextPosstrishOf A it.charIdx it.strishIter with
          | (p, ss) => { it with peekedStrm := p, strishIter := ss }
      match it.peekedStrm with
      | none => (.ok none, it)
      | some p => match p.peek A with
        | (o, p) => (o, { it with peekedStrm := some p })
    | (o, s) => (o, { it with cur := some s })

/-- `strish_iter_src_strm.rs` 153-167, the loop of `next_accum`. -/
def nextAccumLoop (A : StrishOps R) (T : TextType (SharedChunk R) τ α) : Nat → SharedStream R τ → α →
    Outcome AllocErr (Option (Item CharPos)) × SharedStream R τ × α
  | 0, it, a => (.fuel, it, a)
  | n + 1, it, a =>
    match it.cur with
    | none => (.ok none, it, a)
    | some s =>
      match s.nextAccum A with
      | (.ok none, s) =>
        match s.accumDone A with
        | (.ok c, s) =>
          match T.concat (it.accum.getD T.empty) (T.ofChunk c) a with
          | (.ok acc, a) =>
            match nextPosstrish A { it with cur := some s, accum := some acc } with
            | some it => nextAccumLoop A T n it a
            | none => (.panic, { it with cur := some s, accum := some acc }, a)
          | (.err e, a) => (.err e, { it with cur := some s, accum := none }, a)
          | (.panic, a) => (.panic, { it with cur := some s, accum := none }, a)
          | (.fuel, a) => (.fuel, { it with cur := some s, accum := none }, a)
        | (_, s) => (.panic, { it with cur := some s }, a)
      | (.ok (some x), s) => (.ok (some x), { it with cur := some s, charIdx := it.charIdx + 1 }, a)
      | (o, s) => (o.mapErr (fun e => nomatch e), { it with cur := some s }, a)

/-- `strish_iter_src_strm.rs` 149-168 `next_accum`. -/
def nextAccum (A : StrishOps R) (T : TextType (SharedChunk R) τ α) (it : SharedStream R τ) (a : α) :
    Outcome AllocErr (Option (Item CharPos)) × SharedStream R τ × α :=
  nextAccumLoop A T turns it a

/-- `strish_iter_src_strm.rs` 170-177 `accum_done`. -/
def accumDone (A : StrishOps R) (T : TextType (SharedChunk R) τ α) (it : SharedStream R τ) (a : α) :
    Outcome AllocErr τ × SharedStream R τ × α :=
  let acc := it.accum.getD T.empty
  match it.cur with
  | none => (.ok acc, { it with accum := none }, a)
  | some s =>
    match s.accumDone A with
    | (.ok c, s) =>
      match T.concat acc (T.ofChunk c) a with
      | (o, a) => (o, { it with cur := some s, accum := none }, a)
    | (_, s) => (.panic, { it with cur := some s, accum := none }, a)

end SharedStream

/-- `StrishIterSourceStream` as a source stream: `strish_iter_src_strm.rs` 91-178.
The text's chunk type is `PosStrish` itself. -/
def sharedStreamOps (A : StrishOps R) (T : TextType (SharedChunk R) τ α) :
    StreamOps (SharedStream R τ) CharPos τ α where
  peek := SharedStream.peek A
  next := SharedStream.next A
  nextAccum := SharedStream.nextAccum A T
  accumDone := SharedStream.accumDone A T

/-- A parser with this stream. -/
def sharedEnv {ε CE : Type} (A : StrishOps R) (T : TextType (SharedChunk R) τ α) (cc : Classifier)
    (al : AllocOps τ ε α) (lookup : Datum τ ε → Option (Combiner τ ε α CharPos CE)) :
    Env (SharedStream R τ) CharPos τ ε α CE where
  cc := cc
  strm := sharedStreamOps A T
  text := T.ops
  alloc := al
  lookup := lookup

end Kul
