import Verif.Model.Parser

/-!
# The abstract source: a sequence of items

`SourceStream` (`core/src/lib.rs` 145-195) is documented as an iterator with
peeking and accumulation. Its simplest reading: a list of items still to come, and
the list of items accumulated so far. Texts are lists of items. This file is
specification, not code of the repository: the concrete streams are proved to be
refinements of it (`Props/Streams.lean`).
-/

namespace Kul

/-- State of the abstract source. -/
structure Seq (P : Type) where
  pending : List (Item P)
  rest : List (Item P)
deriving DecidableEq, Repr

/-- The abstract source's operations: `peek` looks at the first item; `next` takes
it and forgets what was accumulated; `next_accum` takes it and accumulates it;
`accum_done` returns and forgets what was accumulated. -/
def seqOps (P α : Type) : StreamOps (Seq P) P (List (Item P)) α where
  peek s := (.ok s.rest.head?, s)
  next s := (.ok s.rest.head?, ⟨[], s.rest.tail⟩)
  nextAccum s a := (.ok s.rest.head?, ⟨s.pending ++ s.rest.head?.toList, s.rest.tail⟩, a)
  accumDone s a := (.ok s.pending, ⟨[], s.rest⟩, a)

/-- Texts of the abstract source: lists of items. -/
def seqText (P α : Type) : TextOps (List (Item P)) α where
  empty := []
  concat t u a := (.ok (t ++ u), a)

/-- The parser over the abstract source. -/
def seqEnv {P ε α CE : Type} (cc : Classifier) (alloc : AllocOps (List (Item P)) ε α)
    (lookup : Datum (List (Item P)) ε → Option (Combiner (List (Item P)) ε α P CE)) :
    Env (Seq P) P (List (Item P)) ε α CE where
  cc := cc
  strm := seqOps P α
  text := seqText P α
  alloc := alloc
  lookup := lookup

/-- An allocator that never fails (and touches nothing). -/
def freeAlloc (τ ε α : Type) : AllocOps τ ε α where
  newDatum _ a := (.ok (), a)
  getMutFresh _ := true

/-- No bindings (as `core/src/parser/premade/empty_bindings.rs` 44-55). -/
def noBindings (τ ε α P CE : Type) : Datum τ ε → Option (Combiner τ ε α P CE) := fun _ => none

end Kul
