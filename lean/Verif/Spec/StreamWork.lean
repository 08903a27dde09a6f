import Verif.Model.Premade
import Verif.Spec.Provided

/-!
# Counting the steps inside of the source streams

Specification only: `E.metered N` is the parser `E` on its stream with counts of the calls of the stream's methods, of
the peeks that found nothing, and of the steps, given by `N`, that the methods take.
-/

namespace Kul

variable {σ C CS P τ ε α CE : Type}

/-- A stream, the number of calls of its methods, how many of these were peeks that found nothing, and the number of
steps that they took. -/
structure Meter (σ : Type) where
  strm : σ
  calls : Nat
  atEnd : Nat
  steps : Nat
deriving DecidableEq, Repr

/-- Nothing has been called yet. -/
def Meter.start (s : σ) : Meter σ := ⟨s, 0, 0, 0⟩

/-- How many steps each method takes. -/
structure StreamSteps (σ α : Type) where
  peek : σ → Nat
  next : σ → Nat
  nextAccum : σ → α → Nat
  accumDone : σ → Nat

/-- The stream with the counts. -/
def StreamOps.metered (S : StreamOps σ P τ α) (N : StreamSteps σ α) : StreamOps (Meter σ) P τ α where
  peek m := ((S.peek m.strm).1, ⟨(S.peek m.strm).2, m.calls + 1,
    m.atEnd + (match (S.peek m.strm).1 with | .ok none => 1 | _ => 0), m.steps + N.peek m.strm⟩)
  next m := ((S.next m.strm).1, ⟨(S.next m.strm).2, m.calls + 1, m.atEnd, m.steps + N.next m.strm⟩)
  nextAccum m a := ((S.nextAccum m.strm a).1,
    ⟨(S.nextAccum m.strm a).2.1, m.calls + 1, m.atEnd, m.steps + N.nextAccum m.strm a⟩, (S.nextAccum m.strm a).2.2)
  accumDone m a := ((S.accumDone m.strm a).1,
    ⟨(S.accumDone m.strm a).2.1, m.calls + 1, m.atEnd, m.steps + N.accumDone m.strm⟩, (S.accumDone m.strm a).2.2)

/-- The same parser on the stream with the counts. -/
def Env.metered (E : Env σ P τ ε α CE) (N : StreamSteps σ α) : Env (Meter σ) P τ ε α CE where
  cc := E.cc
  strm := E.strm.metered N
  text := E.text
  alloc := E.alloc
  lookup := E.lookup

/-! ## `text::Iter`: the turns of its loops -/

/-- `core/src/text/iter.rs` 75-86: the turns of the loop of `next`. -/
def TextIter.nextTurns (O : ChunkOps C CS P) : List C → Option CS → Nat
  | _, none => 1
  | cs, some s =>
    match O.next s with
    | (.ok none, _) =>
      match cs with
      | [] => 2
      | c :: cs => nextTurns O cs (some (O.srcStrm c)) + 1
    | _ => 1

/-- `core/src/text/iter.rs` 107-120: the turns of the loop of `peek` after the current chunk. -/
def TextIter.aheadTurns (O : ChunkOps C CS P) : List C → Nat
  | [] => 1
  | c :: cs =>
    match O.peek (O.srcStrm c) with
    | (.ok none, _) => aheadTurns O cs + 1
    | _ => 1

/-- `core/src/text/iter.rs` 97-121: the turns of the loop of `peek`; none if there is a peeked item already. -/
def TextIter.peekTurns (O : ChunkOps C CS P) (it : TextIter C CS P τ) : Nat :=
  match it.peeked with
  | some _ => 0
  | none =>
    match it.cur with
    | none => 1
    | some s =>
      match O.peek s with
      | (.ok none, _) => aheadTurns O it.nextChunks + 1
      | _ => 1

/-- `core/src/text/iter.rs` 128-142: the turns of the loop of `next_accum`. -/
def TextIter.nextAccumTurns (O : ChunkOps C CS P) (T : TextType C τ α) : List C → Option CS → Option τ → α → Nat
  | _, none, _, _ => 1
  | cs, some s, acc, a =>
    match O.nextAccum s with
    | (.ok none, s) =>
      match O.accumDone s with
      | (.ok c, _) =>
        match T.concat (acc.getD T.empty) (T.ofChunk c) a with
        | (.ok acc, a) =>
          match cs with
          | [] => 2
          | c :: cs => nextAccumTurns O T cs (some (O.srcStrm c)) (some acc) a + 1
        | _ => 1
      | _ => 1
    | _ => 1

/-- The turns of the loops of `text::Iter`. -/
def textTurns (O : ChunkOps C CS P) (T : TextType C τ α) : StreamSteps (TextIter C CS P τ) α where
  peek it := it.peekTurns O
  next it := TextIter.nextTurns O it.nextChunks it.cur
  nextAccum it a := TextIter.nextAccumTurns O T it.nextChunks it.cur it.accum a
  accumDone _ := 0

/-- How many empty chunks are at the end. -/
def trailing {A : Type} (pieces : List (List A)) : Nat := (pieces.reverse.takeWhile (·.isEmpty)).length

/-! ## `StrishIterSourceStream`: the turns of its loops, and the strings that it asks for -/

/-- `strish_iter_src_strm.rs` 66-75 `next_posstrish_of`: how often it asks its iterator for a string. -/
def StrishIter.asks : List Str → Nat
  | [] => 1
  | s :: ss => if Str.len s > 0 then 1 else asks ss + 1

/-- `strish_iter_src_strm.rs` 80-88 `next_posstrish`: how often it asks. -/
def StrishIter.nextAsks (it : StrishIter τ) : Nat :=
  match it.cur with
  | none => 0
  | some s =>
    match s.peek with
    | (.ok none, _) =>
      match it.peekedStrm with
      | some _ => 0
      | none => asks it.strishIter
    | _ => 0

/-- `strish_iter_src_strm.rs` 105-116: the turns of the loop of `next`, and how often it asks. -/
def StrishIter.nextSteps : Nat → StrishIter τ → Nat
  | 0, _ => 0
  | n + 1, it =>
    match it.cur with
    | none => 1
    | some s =>
      match s.next with
      | (.ok none, s) =>
        1 + nextAsks { it with cur := some s } +
          match nextPosstrish { it with cur := some s } with
          | some it => nextSteps n it
          | none => 0
      | _ => 1

/-- `strish_iter_src_strm.rs` 130-147 `peek`: how often it asks. -/
def StrishIter.peekAsks (it : StrishIter τ) : Nat :=
  match it.cur with
  | none => 0
  | some s =>
    match s.peek with
    | (.ok none, _) =>
      match it.peekedStrm with
      | some _ => 0
      | none => asks it.strishIter
    | _ => 0

/-- `strish_iter_src_strm.rs` 153-167: the turns of the loop of `next_accum`, and how often it asks. -/
def StrishIter.nextAccumSteps (T : TextType PosStrish τ α) : Nat → StrishIter τ → α → Nat
  | 0, _, _ => 0
  | n + 1, it, a =>
    match it.cur with
    | none => 1
    | some s =>
      match s.nextAccum with
      | (.ok none, s) =>
        match s.accumDone with
        | (.ok c, s) =>
          match T.concat (it.accum.getD T.empty) (T.ofChunk c) a with
          | (.ok acc, a) =>
            1 + nextAsks { it with cur := some s, accum := some acc } +
              match nextPosstrish { it with cur := some s, accum := some acc } with
              | some it => nextAccumSteps T n it a
              | none => 0
          | _ => 1
        | _ => 1
      | _ => 1

/-- The steps of `StrishIterSourceStream`. -/
def strishSteps (T : TextType PosStrish τ α) : StreamSteps (StrishIter τ) α where
  peek it := it.peekAsks
  next it := StrishIter.nextSteps StrishIter.turns { it with accum := (none : Option τ) }
  nextAccum it a := StrishIter.nextAccumSteps T StrishIter.turns it a
  accumDone _ := 0

/-! ## `CharIterSourceStream`: the characters that it copies -/

/-- `char_iter_src_strm.rs` 190-219: `next_accum` puts a character into a string; `accum_done` copies the characters of
that string. -/
def charCopies : StreamSteps CharIter α where
  peek _ := 0
  next _ := 0
  nextAccum it _ := if it.peIter = [] then 0 else 1
  accumDone it := match it.accum with | some (s, _) => s.length | none => 0

end Kul
