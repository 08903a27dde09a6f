import Verif.Model.Text

/-!
# Source streams

Models `core/src/text/iter.rs` (`text::Iter`, the stream of the characters of a
text), `src/source_stream/strish_iter_src_strm.rs` (`StrishIterSourceStream`) and
`src/source_stream/char_iter_src_strm.rs` (`CharIterSourceStream`).
-/

namespace Kul

variable {C CS P τ α : Type}

/-! ## `text::Iter` -/

/-- `core/src/text/iter.rs` 19-32 `Iter`. The iterator of the next chunks is
represented by the list of the chunks that it will still yield. -/
structure TextIter (C CS P τ : Type) where
  cur : Option CS
  nextChunks : List C
  accum : Option τ
  peeked : Option (Item P)
deriving DecidableEq, Repr

namespace TextIter

/-- `core/src/text/iter.rs` 47-56 `Iter::new`, for a text with the given chunks. -/
def ofChunks (O : ChunkOps C CS P) : List C → TextIter C CS P τ
  | [] => ⟨none, [], none, none⟩
  | c :: cs => ⟨some (O.srcStrm c), cs, none, none⟩

/-- `core/src/text/iter.rs` 75-86, the loop of `Iterator::next`. -/
def nextLoop (O : ChunkOps C CS P) : List C → Option CS →
    Outcome Empty (Option (Item P)) × Option CS × List C
  | cs, none => (.ok none, none, cs)
  | cs, some s =>
    match O.next s with
    | (.ok none, _) =>
      match cs with
      | [] => (.ok none, none, [])
      | c :: cs => nextLoop O cs (some (O.srcStrm c))
    | (o, s) => (o, some s, cs)

/-- `core/src/text/iter.rs` 72-87 `Iterator::next`. -/
def next (O : ChunkOps C CS P) (it : TextIter C CS P τ) :
    Outcome Empty (Option (Item P)) × TextIter C CS P τ :=
  match nextLoop O it.nextChunks it.cur with
  | (o, cur, cs) => (o, ⟨cur, cs, none, none⟩)

/-- `core/src/text/iter.rs` 107-120, the loop of `peek` after the current chunk, on
temporary streams. -/
def peekAhead (O : ChunkOps C CS P) : List C → Outcome Empty (Option (Item P))
  | [] => .ok none
  | c :: cs =>
    match O.peek (O.srcStrm c) with
    | (.ok none, _) => peekAhead O cs
    | (o, _) => o

/-- `core/src/text/iter.rs` 97-121 `peek`. -/
def peek (O : ChunkOps C CS P) (it : TextIter C CS P τ) :
    Outcome Empty (Option (Item P)) × TextIter C CS P τ :=
  match it.peeked with
  | some x => (.ok (some x), it)
  | none =>
    match it.cur with
    | none => (.ok none, it)
    | some s =>
      match O.peek s with
      | (.ok none, s) =>
        match peekAhead O it.nextChunks with
        | .ok o => (.ok o, { it with cur := some s, peeked := o })
        | o => (o, { it with cur := some s })
      | (.ok o, s) => (.ok o, { it with cur := some s, peeked := o })
      | (o, s) => (o, { it with cur := some s })

/-- `core/src/text/iter.rs` 128-142, the loop of `next_accum`. -/
def nextAccumLoop (O : ChunkOps C CS P) (T : TextType C τ α) : List C → Option CS → Option τ → α →
    Outcome AllocErr (Option (Item P)) × (Option CS × List C × Option τ) × α
  | cs, none, acc, a => (.ok none, (none, cs, acc), a)
  | cs, some s, acc, a =>
    match O.nextAccum s with
    | (.ok none, s) =>
      match O.accumDone s with
      | (.ok c, s) =>
        match T.concat (acc.getD T.empty) (T.ofChunk c) a with
        | (.ok acc, a) =>
          match cs with
          | [] => (.ok none, (none, [], some acc), a)
          | c :: cs => nextAccumLoop O T cs (some (O.srcStrm c)) (some acc) a
        | (.err e, a) => (.err e, (some s, cs, none), a)
        | (.panic, a) => (.panic, (some s, cs, none), a)
        | (.fuel, a) => (.fuel, (some s, cs, none), a)
      | (_, s) => (.panic, (some s, cs, acc), a)
    | (o, s) => (o.mapErr (fun e => nomatch e), (some s, cs, acc), a)

/-- `core/src/text/iter.rs` 123-143 `next_accum`. -/
def nextAccum (O : ChunkOps C CS P) (T : TextType C τ α) (it : TextIter C CS P τ) (a : α) :
    Outcome AllocErr (Option (Item P)) × TextIter C CS P τ × α :=
  match nextAccumLoop O T it.nextChunks it.cur it.accum a with
  | (o, (cur, cs, acc), a) => (o, ⟨cur, cs, acc, none⟩, a)

/-- `core/src/text/iter.rs` 145-152 `accum_done`. -/
def accumDone (O : ChunkOps C CS P) (T : TextType C τ α) (it : TextIter C CS P τ) (a : α) :
    Outcome AllocErr τ × TextIter C CS P τ × α :=
  let acc := it.accum.getD T.empty
  match it.cur with
  | none => (.ok acc, { it with accum := none }, a)
  | some s =>
    match O.accumDone s with
    | (.ok c, s) =>
      match T.concat acc (T.ofChunk c) a with
      | (o, a) => (o, { it with cur := some s, accum := none }, a)
    | (_, s) => (.panic, { it with cur := some s, accum := none }, a)

end TextIter

/-- `text::Iter` as a source stream: `core/src/text/iter.rs` 62-153. -/
def textIterOps (O : ChunkOps C CS P) (T : TextType C τ α) :
    StreamOps (TextIter C CS P τ) P τ α where
  peek := TextIter.peek O
  next := TextIter.next O
  nextAccum := TextIter.nextAccum O T
  accumDone := TextIter.accumDone O T

/-! ## `StrishIterSourceStream` -/

/-- `src/source_stream/strish_iter_src_strm.rs` 28-37 `StrishIterSourceStream`. The
iterator of strings is represented by the list of the strings that it will still
yield. -/
structure StrishIter (τ : Type) where
  cur : Option PosStrishIter
  charIdx : Nat
  strishIter : List Str
  peekedStrm : Option PosStrishIter
  accum : Option τ
deriving DecidableEq, Repr

namespace StrishIter

/-- `strish_iter_src_strm.rs` 66-75 `next_posstrish_of`: skips empty strings. -/
def nextPosstrishOf (charIdx : Nat) : List Str → Option PosStrishIter × List Str
  | [] => (none, [])
  | s :: ss =>
    if Str.len s > 0 then (some (.new (.new s ⟨charIdx⟩)), ss)
    else nextPosstrishOf charIdx ss

/-- `strish_iter_src_strm.rs` 48-61 `new`. -/
def new (ss : List Str) : StrishIter τ :=
  match nextPosstrishOf 0 ss with
  | (cur, ss) => ⟨cur, 0, ss, none, none⟩

/-- `strish_iter_src_strm.rs` 80-88 `next_posstrish`, called with `cur` at its end;
the `debug_assert!` is modelled. `none` is its failure. -/
def nextPosstrish (it : StrishIter τ) : Option (StrishIter τ) :=
  match it.cur with
  | none => none
  | some s =>
    match s.peek with
    | (.ok none, _) =>
      match it.peekedStrm with
      | some p => some { it with cur := some p, peekedStrm := none }
      | none =>
        match nextPosstrishOf it.charIdx it.strishIter with
        | (cur, ss) => some { it with cur := cur, strishIter := ss }
    | _ => none

/-- `strish_iter_src_strm.rs` 105-116, the loop of `Iterator::next`, with a budget of
turns. -/
def nextLoop : Nat → StrishIter τ → Outcome Empty (Option (Item CharPos)) × StrishIter τ
  | 0, it => (.fuel, it)
  | n + 1, it =>
    match it.cur with
    | none => (.ok none, it)
    | some s =>
      match s.next with
      | (.ok none, s) =>
        match nextPosstrish { it with cur := some s } with
        | some it => nextLoop n it
        | none => (.panic, { it with cur := some s })
      | (.ok (some x), s) => (.ok (some x), { it with cur := some s, charIdx := it.charIdx + 1 })
      | (o, s) => (o, { it with cur := some s })

/-- A budget for the number of turns of the loops (proved to suffice: since empty
strings are skipped, the second turn is always the last). -/
def turns : Nat := 2

/-- `strish_iter_src_strm.rs` 103-117 `Iterator::next`. -/
def next (it : StrishIter τ) : Outcome Empty (Option (Item CharPos)) × StrishIter τ :=
  nextLoop turns { it with accum := none }

/-- `strish_iter_src_strm.rs` 130-147 `peek`. -/
def peek (it : StrishIter τ) : Outcome Empty (Option (Item CharPos)) × StrishIter τ :=
  match it.cur with
  | none => (.ok none, it)
  | some s =>
    match s.peek with
    | (.ok none, s) =>
      let it := { it with cur := some s }
      let it := match it.peekedStrm with
        | some _ => it
        | none => match nextPosstrishOf it.charIdx it.strishIter with
          | (p, ss) => { it with peekedStrm := p, strishIter := ss }
      match it.peekedStrm with
      | none => (.ok none, it)
      | some p => match p.peek with
        | (o, p) => (o, { it with peekedStrm := some p })
    | (o, s) => (o, { it with cur := some s })

/-- `strish_iter_src_strm.rs` 153-167, the loop of `next_accum`. -/
def nextAccumLoop (T : TextType PosStrish τ α) : Nat → StrishIter τ → α →
    Outcome AllocErr (Option (Item CharPos)) × StrishIter τ × α
  | 0, it, a => (.fuel, it, a)
  | n + 1, it, a =>
    match it.cur with
    | none => (.ok none, it, a)
    | some s =>
      match s.nextAccum with
      | (.ok none, s) =>
        match s.accumDone with
        | (.ok c, s) =>
          match T.concat (it.accum.getD T.empty) (T.ofChunk c) a with
          | (.ok acc, a) =>
            match nextPosstrish { it with cur := some s, accum := some acc } with
            | some it => nextAccumLoop T n it a
            | none => (.panic, { it with cur := some s, accum := some acc }, a)
          | (.err e, a) => (.err e, { it with cur := some s, accum := none }, a)
          | (.panic, a) => (.panic, { it with cur := some s, accum := none }, a)
          | (.fuel, a) => (.fuel, { it with cur := some s, accum := none }, a)
        | (_, s) => (.panic, { it with cur := some s }, a)
      | (.ok (some x), s) => (.ok (some x), { it with cur := some s, charIdx := it.charIdx + 1 }, a)
      | (o, s) => (o.mapErr (fun e => nomatch e), { it with cur := some s }, a)

/-- `strish_iter_src_strm.rs` 149-168 `next_accum`. -/
def nextAccum (T : TextType PosStrish τ α) (it : StrishIter τ) (a : α) :
    Outcome AllocErr (Option (Item CharPos)) × StrishIter τ × α :=
  nextAccumLoop T turns it a

/-- `strish_iter_src_strm.rs` 170-177 `accum_done`. -/
def accumDone (T : TextType PosStrish τ α) (it : StrishIter τ) (a : α) :
    Outcome AllocErr τ × StrishIter τ × α :=
  let acc := it.accum.getD T.empty
  match it.cur with
  | none => (.ok acc, { it with accum := none }, a)
  | some s =>
    match s.accumDone with
    | (.ok c, s) =>
      match T.concat acc (T.ofChunk c) a with
      | (o, a) => (o, { it with cur := some s, accum := none }, a)
    | (_, s) => (.panic, { it with cur := some s, accum := none }, a)

end StrishIter

/-- `StrishIterSourceStream` as a source stream: `strish_iter_src_strm.rs` 91-178.
The text's chunk type is `PosStrish` itself. -/
def strishIterOps (T : TextType PosStrish τ α) : StreamOps (StrishIter τ) CharPos τ α where
  peek := StrishIter.peek
  next := StrishIter.next
  nextAccum := StrishIter.nextAccum T
  accumDone := StrishIter.accumDone T

/-! ## `CharIterSourceStream` -/

/-- `src/source_stream/char_iter_src_strm.rs` 111-124 `CharIterSourceStream`. The
peekable, enumerated iterator of characters is represented by the list of the items
that it will still yield. -/
structure CharIter where
  peIter : List (Item CharPos)
  accum : Option (Str × CharPos)
deriving DecidableEq, Repr

namespace CharIter

/-- `char_iter_src_strm.rs` 141-153 `new`. -/
def new (s : List Char) : CharIter where
  peIter := s.zipIdx.map fun (ch, pos) => ⟨ch, ⟨pos⟩⟩
  accum := none

/-- `char_iter_src_strm.rs` 170-173 `Iterator::next`. -/
def next (it : CharIter) : Option (Item CharPos) × CharIter :=
  (it.peIter.head?, ⟨it.peIter.tail, none⟩)

/-- `char_iter_src_strm.rs` 186-188 `peek`. -/
def peek (it : CharIter) : Option (Item CharPos) × CharIter := (it.peIter.head?, it)

/-- `char_iter_src_strm.rs` 190-206 `next_accum`. -/
def nextAccum (it : CharIter) : Option (Item CharPos) × CharIter :=
  match it.peIter with
  | [] => (none, it)
  | x :: rest =>
    match it.accum with
    | some (s, pos) => (some x, ⟨rest, some (s ++ [x.ch], pos)⟩)
    | none => (some x, ⟨rest, some ([x.ch], x.pos)⟩)

/-- `char_iter_src_strm.rs` 208-219 `accum_done`, with a conversion to a
reference-counted string that keeps the contents. -/
def accumDone (it : CharIter) : PosStrish × CharIter :=
  match it.accum with
  | some (s, pos) => (.new s pos, { it with accum := none })
  | none => (.empty, it)

end CharIter

/-- `CharIterSourceStream` as a source stream: `char_iter_src_strm.rs` 158-220. The
text's chunk type is `PosStrish` itself. -/
def charIterOps (T : TextType PosStrish τ α) : StreamOps CharIter CharPos τ α where
  peek it := match it.peek with | (o, it) => (.ok o, it)
  next it := match it.next with | (o, it) => (.ok o, it)
  nextAccum it a := match it.nextAccum with | (o, it) => (.ok o, it, a)
  accumDone it a := match it.accumDone with | (c, it) => (.ok (T.ofChunk c), it, a)

end Kul
