import Verif.Model.Premade

/-!
# Streams of characters over any iterator

Models `CharIterSourceStream` of `src/source_stream/char_iter_src_strm.rs` once more, this time
over any `Iterator`: a state machine that is asked for one item at a time, that may go on for
ever, and that may even give further items after it has given `None`. `Streams.lean` represents
the iterator by the list of the items it will give; that the two agree is `C54`.
-/

namespace Kul

/-- Rust's `Iterator::next` of any iterator with states `I` and items `A`. -/
abbrev Machine (I A : Type) := I → Option A × I

/-- `std::iter::Enumerate::next` followed by the function that
`char_iter_src_strm.rs` 145 maps over its items. The state is that of the underlying iterator
with `Enumerate`'s counter, which counts the items given so far (a `usize` in Rust, unbounded
here). -/
def enumerated {I : Type} (M : Machine I Char) : Machine (I × Nat) (Item CharPos) := fun (i, k) =>
  match M i with
  | (some c, i) => (some ⟨c, ⟨k⟩⟩, (i, k + 1))
  | (none, i) => (none, (i, k))

/-- `std::iter::Peekable { iter, peeked: Option<Option<I::Item>> }`. -/
structure Peekable (I A : Type) where
  iter : I
  peeked : Option (Option A)
deriving DecidableEq, Repr

namespace Peekable

variable {I A : Type} (M : Machine I A)

/-- `std::iter::Peekable::peek`: `self.peeked.get_or_insert_with(|| iter.next()).as_ref()`. -/
def peek (p : Peekable I A) : Option A × Peekable I A :=
  match p.peeked with
  | some v => (v, p)
  | none => match M p.iter with
    | (v, i) => (v, ⟨i, some v⟩)

/-- `std::iter::Peekable::next`:
`match self.peeked.take() { Some(v) => v, None => self.iter.next() }`. -/
def next (p : Peekable I A) : Option A × Peekable I A :=
  match p.peeked with
  | some v => (v, ⟨p.iter, none⟩)
  | none => match M p.iter with
    | (v, i) => (v, ⟨i, none⟩)

end Peekable

/-- `src/source_stream/char_iter_src_strm.rs` 111-124 `CharIterSourceStream`. The function
`to_refcnt_strish` is left out: it is taken to keep the contents of the string, like all those
of lines 40-84 do. -/
structure LiveChar (I : Type) where
  peIter : Peekable (I × Nat) (Item CharPos)
  accum : Option (Str × CharPos)
deriving DecidableEq, Repr

namespace LiveChar

variable {I : Type} (M : Machine I Char)

/-- `char_iter_src_strm.rs` 141-153 `new`. -/
def new (i : I) : LiveChar I := ⟨⟨(i, 0), none⟩, none⟩

/-- `char_iter_src_strm.rs` 170-173 `Iterator::next`. -/
def next (it : LiveChar I) : Option (Item CharPos) × LiveChar I :=
  match it.peIter.next (enumerated M) with
  | (x, p) => (x, ⟨p, none⟩)

/-- `char_iter_src_strm.rs` 186-188 `peek`. -/
def peek (it : LiveChar I) : Option (Item CharPos) × LiveChar I :=
  match it.peIter.peek (enumerated M) with
  | (x, p) => (x, { it with peIter := p })

/-- `char_iter_src_strm.rs` 190-206 `next_accum`. -/
def nextAccum (it : LiveChar I) : Option (Item CharPos) × LiveChar I :=
  match it.peIter.next (enumerated M) with
  | (none, p) => (none, { it with peIter := p })
  | (some x, p) =>
    match it.accum with
    | some (s, pos) => (some x, ⟨p, some (s ++ [x.ch], pos)⟩)
    | none => (some x, ⟨p, some ([x.ch], x.pos)⟩)

/-- `char_iter_src_strm.rs` 208-219 `accum_done`. -/
def accumDone (it : LiveChar I) : PosStrish × LiveChar I :=
  match it.accum with
  | some (s, pos) => (.new s pos, { it with accum := none })
  | none => (.empty, it)

/-- How many characters have been taken out of the iterator: `Enumerate`'s counter. -/
def pulled (it : LiveChar I) : Nat := it.peIter.iter.2

end LiveChar

/-- `CharIterSourceStream` over any iterator as a source stream:
`char_iter_src_strm.rs` 158-220. -/
def liveCharOps {I τ α : Type} (M : Machine I Char) (T : TextType PosStrish τ α) :
    StreamOps (LiveChar I) CharPos τ α where
  peek it := match it.peek M with | (o, it) => (.ok o, it)
  next it := match it.next M with | (o, it) => (.ok o, it)
  nextAccum it a := match it.nextAccum M with | (o, it) => (.ok o, it, a)
  accumDone it a := match it.accumDone with | (c, it) => (.ok (T.ofChunk c), it, a)

/-- A parser with the stream `CharIterSourceStream` over any iterator. -/
def liveCharEnv {I τ ε α CE : Type} (M : Machine I Char) (T : TextType PosStrish τ α)
    (cc : Classifier) (al : AllocOps τ ε α)
    (lookup : Datum τ ε → Option (Combiner τ ε α CharPos CE)) :
    Env (LiveChar I) CharPos τ ε α CE where
  cc := cc
  strm := liveCharOps M T
  text := T.ops
  alloc := al
  lookup := lookup

end Kul
