import Verif.Model.Live

/-!
# Streams of strings over any iterator

Models `StrishIterSourceStream` of `src/source_stream/strish_iter_src_strm.rs` once more, this
time over any `Iterator` of strings (`Machine`). `Streams.lean` represents the iterator by the
list of the strings it will give; that the two agree is `C55`.
-/

namespace Kul

/-- `strish_iter_src_strm.rs` 28-37 `StrishIterSourceStream`, over an iterator with states `I`. -/
structure LiveStrish (I τ : Type) where
  cur : Option PosStrishIter
  charIdx : Nat
  strishIter : I
  peekedStrm : Option PosStrishIter
  accum : Option τ
deriving DecidableEq, Repr

namespace LiveStrish

variable {I τ α : Type}

/-- `strish_iter_src_strm.rs` 66-75 `next_posstrish_of`: skips empty strings. The `for` loop has
a budget of turns: it does not end on an iterator that gives empty strings for ever. -/
def nextPosstrishOf (M : Machine I Str) : Nat → Nat → I → Outcome Empty (Option PosStrishIter) × I
  | 0, _, i => (.fuel, i)
  | n + 1, charIdx, i =>
    match M i with
    | (none, i) => (.ok none, i)
    | (some s, i) =>
      if Str.len s > 0 then (.ok (some (.new (.new s ⟨charIdx⟩))), i)
      else nextPosstrishOf M n charIdx i

/-- `strish_iter_src_strm.rs` 48-61 `new`. Here and below, `pull` stands for
`next_posstrish_of`. -/
def new (pull : Nat → I → Outcome Empty (Option PosStrishIter) × I) (i : I) :
    Outcome Empty (LiveStrish I τ) :=
  match pull 0 i with
  | (.ok cur, i) => .ok ⟨cur, 0, i, none, none⟩
  | (.err e, _) => .err e
  | (.panic, _) => .panic
  | (.fuel, _) => .fuel

variable (pull : Nat → I → Outcome Empty (Option PosStrishIter) × I)

/-- `strish_iter_src_strm.rs` 80-88 `next_posstrish`, called with `cur` at its end;
the `debug_assert!` is modelled. -/
def nextPosstrish (it : LiveStrish I τ) : Outcome Empty Unit × LiveStrish I τ :=
  match it.cur with
  | none => (.panic, it)
  | some s =>
    match s.peek with
    | (.ok none, _) =>
      match it.peekedStrm with
      | some p => (.ok (), { it with cur := some p, peekedStrm := none })
      | none =>
        match pull it.charIdx it.strishIter with
        | (.ok cur, i) => (.ok (), { it with cur := cur, strishIter := i })
        | (.err e, i) => (.err e, { it with strishIter := i })
        | (.panic, i) => (.panic, { it with strishIter := i })
        | (.fuel, i) => (.fuel, { it with strishIter := i })
    | _ => (.panic, it)

/-- `strish_iter_src_strm.rs` 105-116, the loop of `Iterator::next`, with a budget of
turns. -/
def nextLoop : Nat → LiveStrish I τ → Outcome Empty (Option (Item CharPos)) × LiveStrish I τ
  | 0, it => (.fuel, it)
  | n + 1, it =>
    match it.cur with
    | none => (.ok none, it)
    | some s =>
      match s.next with
      | (.ok none, s) =>
        match nextPosstrish pull { it with cur := some s } with
        | (.ok (), it) => nextLoop n it
        | (.err e, it) => (.err e, it)
        | (.panic, it) => (.panic, it)
        | (.fuel, it) => (.fuel, it)
      | (.ok (some x), s) => (.ok (some x), { it with cur := some s, charIdx := it.charIdx + 1 })
      | (o, s) => (o, { it with cur := some s })

/-- `strish_iter_src_strm.rs` 103-117 `Iterator::next`. -/
def next (it : LiveStrish I τ) : Outcome Empty (Option (Item CharPos)) × LiveStrish I τ :=
  nextLoop pull StrishIter.turns { it with accum := none }

/-- `strish_iter_src_strm.rs` 134-142: fills `peeked_posstrish_src_strm` if it is empty. -/
def peekStrm (it : LiveStrish I τ) : Outcome Empty Unit × LiveStrish I τ :=
  match it.peekedStrm with
  | some _ => (.ok (), it)
  | none =>
    match pull it.charIdx it.strishIter with
    | (.ok p, i) => (.ok (), { it with peekedStrm := p, strishIter := i })
    | (.err e, i) => (.err e, { it with strishIter := i })
    | (.panic, i) => (.panic, { it with strishIter := i })
    | (.fuel, i) => (.fuel, { it with strishIter := i })

/-- `strish_iter_src_strm.rs` 130-147 `peek`. -/
def peek (it : LiveStrish I τ) : Outcome Empty (Option (Item CharPos)) × LiveStrish I τ :=
  match it.cur with
  | none => (.ok none, it)
  | some s =>
    match s.peek with
    | (.ok none, s) =>
      match peekStrm pull { it with cur := some s } with
      | (.ok (), it) =>
        match it.peekedStrm with
        | none => (.ok none, it)
        | some p => match p.peek with
          | (o, p) => (o, { it with peekedStrm := some p })
      | (.err e, it) => (.err e, it)
      | (.panic, it) => (.panic, it)
      | (.fuel, it) => (.fuel, it)
    | (o, s) => (o, { it with cur := some s })

/-- `strish_iter_src_strm.rs` 153-167, the loop of `next_accum`. -/
def nextAccumLoop (T : TextType PosStrish τ α) : Nat → LiveStrish I τ → α →
    Outcome AllocErr (Option (Item CharPos)) × LiveStrish I τ × α
  | 0, it, a => (.fuel, it, a)
  | n + 1, it, a =>
    match it.cur with
    | none => (.ok none, it, a)
    | some s =>
      match s.nextAccum with
      | (.ok none, s) =>
        match s.accumDone with
        | (.ok c, s) =>
          match T.concat (it.accum.getD T.empty) (T.ofChunk c) a with
          | (.ok acc, a) =>
            match nextPosstrish pull { it with cur := some s, accum := some acc } with
            | (.ok (), it) => nextAccumLoop T n it a
            | (.err e, it) => (.err (nomatch e), it, a)
            | (.panic, it) => (.panic, it, a)
            | (.fuel, it) => (.fuel, it, a)
          | (.err e, a) => (.err e, { it with cur := some s, accum := none }, a)
          | (.panic, a) => (.panic, { it with cur := some s, accum := none }, a)
          | (.fuel, a) => (.fuel, { it with cur := some s, accum := none }, a)
        | (_, s) => (.panic, { it with cur := some s }, a)
      | (.ok (some x), s) => (.ok (some x), { it with cur := some s, charIdx := it.charIdx + 1 }, a)
      | (o, s) => (o.mapErr (fun e => nomatch e), { it with cur := some s }, a)

/-- `strish_iter_src_strm.rs` 149-168 `next_accum`. -/
def nextAccum (T : TextType PosStrish τ α) (it : LiveStrish I τ) (a : α) :
    Outcome AllocErr (Option (Item CharPos)) × LiveStrish I τ × α :=
  nextAccumLoop pull T StrishIter.turns it a

/-- `strish_iter_src_strm.rs` 170-177 `accum_done`. -/
def accumDone (T : TextType PosStrish τ α) (it : LiveStrish I τ) (a : α) :
    Outcome AllocErr τ × LiveStrish I τ × α :=
  let acc := it.accum.getD T.empty
  match it.cur with
  | none => (.ok acc, { it with accum := none }, a)
  | some s =>
    match s.accumDone with
    | (.ok c, s) =>
      match T.concat acc (T.ofChunk c) a with
      | (o, a) => (o, { it with cur := some s, accum := none }, a)
    | (_, s) => (.panic, { it with cur := some s, accum := none }, a)

end LiveStrish

/-- `StrishIterSourceStream` over any iterator as a source stream:
`strish_iter_src_strm.rs` 91-178. -/
def liveStrishOps {I τ α : Type} (pull : Nat → I → Outcome Empty (Option PosStrishIter) × I)
    (T : TextType PosStrish τ α) : StreamOps (LiveStrish I τ) CharPos τ α where
  peek := LiveStrish.peek pull
  next := LiveStrish.next pull
  nextAccum := LiveStrish.nextAccum pull T
  accumDone := LiveStrish.accumDone T

/-- A parser with the stream `StrishIterSourceStream` over any iterator `M` of strings, with a
budget of `k` turns for skipping empty strings. -/
def liveStrishEnv {I τ ε α CE : Type} (M : Machine I Str) (k : Nat) (T : TextType PosStrish τ α)
    (cc : Classifier) (al : AllocOps τ ε α)
    (lookup : Datum τ ε → Option (Combiner τ ε α CharPos CE)) :
    Env (LiveStrish I τ) CharPos τ ε α CE where
  cc := cc
  strm := liveStrishOps (LiveStrish.nextPosstrishOf M k) T
  text := T.ops
  alloc := al
  lookup := lookup

end Kul
