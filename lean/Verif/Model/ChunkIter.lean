import Verif.Model.Premade

/-!
# `text::Iter` over the states of the iteration of chunks

`Model/Streams.lean` has the iterator of the next chunks as a list. Here are the same functions of
`core/src/text/iter.rs` with the iterator that the code has: `chunks::Iter`, an optional state of which
`next` is called (`core/src/text/iter/chunks.rs` 28-70). The number of iterations of each loop is bounded
by `fuel`; running out of it is the outcome `fuel`. `Props/ChunkIter.lean` shows that the two agree.
-/

namespace Kul

variable {S C CS P τ ε α CE : Type}

/-- `core/src/text/iter.rs` 19-32 `Iter`. -/
structure StateIter (S CS P τ : Type) where
  cur : Option CS
  next : Option S
  accum : Option τ
  peeked : Option (Item P)

namespace StateIter

/-- `core/src/text/iter.rs` 51, 82, 114, 137 `next_chunks_iter.next().map(TextChunk::src_strm)`. -/
def advance (N : ChunksState C S) (O : ChunkOps C CS P) (st : Option S) :
    Outcome Empty (Option CS) × Option S :=
  match N.iterNext st with
  | (.ok c, st) => (.ok (c.map O.srcStrm), st)
  | (.err e, _) => nomatch e
  | (.panic, st) => (.panic, st)
  | (.fuel, st) => (.fuel, st)

/-- `core/src/text/iter.rs` 47-59 `Iter::new`; `st` is the text's `iter_chunks_state`. -/
def new (N : ChunksState C S) (O : ChunkOps C CS P) (st : Option S) :
    Outcome Empty (StateIter S CS P τ) :=
  match advance N O st with
  | (.ok cur, st) => .ok ⟨cur, st, none, none⟩
  | (.err e, _) => nomatch e
  | (.panic, _) => .panic
  | (.fuel, _) => .fuel

/-- `core/src/text/iter.rs` 75-86, the loop of `Iterator::next`. -/
def nextLoop (N : ChunksState C S) (O : ChunkOps C CS P) : Nat → Option S → Option CS →
    Outcome Empty (Option (Item P)) × Option CS × Option S
  | 0, st, cur => (.fuel, cur, st)
  | _ + 1, st, none => (.ok none, none, st)
  | fuel + 1, st, some s =>
    match O.next s with
    | (.ok none, s) =>
      match advance N O st with
      | (.ok cur, st) => nextLoop N O fuel st cur
      | (.err e, _) => nomatch e
      | (.panic, st) => (.panic, some s, st)
      | (.fuel, st) => (.fuel, some s, st)
    | (o, s) => (o, some s, st)

/-- `core/src/text/iter.rs` 72-87 `Iterator::next`. -/
def nextItem (N : ChunksState C S) (O : ChunkOps C CS P) (fuel : Nat) (it : StateIter S CS P τ) :
    Outcome Empty (Option (Item P)) × StateIter S CS P τ :=
  match nextLoop N O fuel it.next it.cur with
  | (o, cur, st) => (o, ⟨cur, st, none, none⟩)

/-- `core/src/text/iter.rs` 107-120, the loop of `peek`, on a copy of the iterator of the next chunks
and, after the first iteration, on a temporary stream. The third component is the stream that the
loop leaves in `self.cur_chunk_src_strm`, which only the first iteration changes: here `cur` is given back
as it is at the end, and the caller keeps the one of the first iteration. -/
def peekLoop (N : ChunksState C S) (O : ChunkOps C CS P) : Nat → Option S → Option CS →
    Outcome Empty (Option (Item P)) × Option CS
  | 0, _, cur => (.fuel, cur)
  | _ + 1, _, none => (.ok none, none)
  | fuel + 1, st, some s =>
    match O.peek s with
    | (.ok none, s) =>
      match advance N O st with
      | (.ok cur, st) => ((peekLoop N O fuel st cur).1, some s)
      | (.err e, _) => nomatch e
      | (.panic, _) => (.panic, some s)
      | (.fuel, _) => (.fuel, some s)
    | (o, s) => (o, some s)

/-- `core/src/text/iter.rs` 97-121 `peek`. -/
def peek (N : ChunksState C S) (O : ChunkOps C CS P) (fuel : Nat) (it : StateIter S CS P τ) :
    Outcome Empty (Option (Item P)) × StateIter S CS P τ :=
  match it.peeked with
  | some x => (.ok (some x), it)
  | none =>
    match peekLoop N O fuel it.next it.cur with
    | (.ok (some x), cur) => (.ok (some x), { it with cur := cur, peeked := some x })
    | (o, cur) => (o, { it with cur := cur })

/-- `core/src/text/iter.rs` 128-142, the loop of `next_accum`. -/
def nextAccumLoop (N : ChunksState C S) (O : ChunkOps C CS P) (T : TextType C τ α) : Nat →
    Option S → Option CS → Option τ → α →
    Outcome AllocErr (Option (Item P)) × (Option CS × Option S × Option τ) × α
  | 0, st, cur, acc, a => (.fuel, (cur, st, acc), a)
  | _ + 1, st, none, acc, a => (.ok none, (none, st, acc), a)
  | fuel + 1, st, some s, acc, a =>
    match O.nextAccum s with
    | (.ok none, s) =>
      match O.accumDone s with
      | (.ok c, s) =>
        match T.concat (acc.getD T.empty) (T.ofChunk c) a with
        | (.ok acc, a) =>
          match advance N O st with
          | (.ok cur, st) => nextAccumLoop N O T fuel st cur (some acc) a
          | (.err e, _) => nomatch e
          | (.panic, st) => (.panic, (some s, st, some acc), a)
          | (.fuel, st) => (.fuel, (some s, st, some acc), a)
        | (.err e, a) => (.err e, (some s, st, none), a)
        | (.panic, a) => (.panic, (some s, st, none), a)
        | (.fuel, a) => (.fuel, (some s, st, none), a)
      | (_, s) => (.panic, (some s, st, acc), a)
    | (o, s) => (o.mapErr (fun e => nomatch e), (some s, st, acc), a)

/-- `core/src/text/iter.rs` 123-143 `next_accum`. -/
def nextAccum (N : ChunksState C S) (O : ChunkOps C CS P) (T : TextType C τ α) (fuel : Nat)
    (it : StateIter S CS P τ) (a : α) : Outcome AllocErr (Option (Item P)) × StateIter S CS P τ × α :=
  match nextAccumLoop N O T fuel it.next it.cur it.accum a with
  | (o, (cur, st, acc), a) => (o, ⟨cur, st, acc, none⟩, a)

/-- `core/src/text/iter.rs` 145-152 `accum_done`. -/
def accumDone (O : ChunkOps C CS P) (T : TextType C τ α) (it : StateIter S CS P τ) (a : α) :
    Outcome AllocErr τ × StateIter S CS P τ × α :=
  let acc := it.accum.getD T.empty
  match it.cur with
  | none => (.ok acc, { it with accum := none }, a)
  | some s =>
    match O.accumDone s with
    | (.ok c, s) =>
      match T.concat acc (T.ofChunk c) a with
      | (o, a) => (o, { it with cur := some s, accum := none }, a)
    | (_, s) => (.panic, { it with cur := some s, accum := none }, a)

end StateIter

/-- `text::Iter` as a source stream: `core/src/text/iter.rs` 62-153. -/
def stateIterOps (N : ChunksState C S) (O : ChunkOps C CS P) (T : TextType C τ α) (fuel : Nat) :
    StreamOps (StateIter S CS P τ) P τ α where
  peek := StateIter.peek N O fuel
  next := StateIter.nextItem N O fuel
  nextAccum := StateIter.nextAccum N O T fuel
  accumDone := StateIter.accumDone O T

/-- A parser with the stream `text::Iter` of a text type, as `textEnv`. -/
def stateEnv (N : ChunksState C S) (O : ChunkOps C CS P) (T : TextType C τ α) (fuel : Nat) (cc : Classifier)
    (al : AllocOps τ ε α) (lookup : Datum τ ε → Option (Combiner τ ε α P CE)) :
    Env (StateIter S CS P τ) P τ ε α CE where
  cc := cc
  strm := stateIterOps N O T fuel
  text := T.ops
  alloc := al
  lookup := lookup

end Kul
