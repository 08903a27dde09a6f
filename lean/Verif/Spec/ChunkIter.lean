import Verif.Model.ChunkIter

/-!
# Iterating the chunks of a text

Specification only.
-/

namespace Kul

variable {S C CS P τ α : Type}

/-- The results of the first `n` calls of `next` of the iterator of chunks that is in state `st`. -/
def ChunksState.results (N : ChunksState C S) : Nat → Option S → List (Outcome Empty (Option C))
  | 0, _ => []
  | n + 1, st => (N.iterNext st).1 :: N.results n (N.iterNext st).2

/-- The results of `n` calls of an iterator that yields `cs`, in this order, and then nothing any more. -/
def yieldsOnly (cs : List C) (n : Nat) : List (Outcome Empty (Option C)) :=
  (cs.take n).map (fun c => .ok (some c)) ++ List.replicate (n - cs.length) (.ok none)

/-- The chunks in the nodes of a linked list, all of whose links are texts. -/
inductive TextDatumList.Nodes {C ε : Type} : TextDatumList C ε → List C → Prop where
  | last {c : C} : Nodes (.mk c none) [c]
  | node {c : C} {t : TextDatumList C ε} {cs : List C} : Nodes t cs → Nodes (.mk c (some (.text t))) (c :: cs)

/-- How the text types of the library iterate their chunks: where the iteration starts
(`Text::iter_chunks_state`), and how it goes on (`State::next`). -/
inductive LibIteration (O : ChunkOps C CS P) :
    {τ α S : Type} → TextType C τ α → (τ → Option S) → ChunksState C S → Prop where
  /-- A `TextVec`. -/
  | vec {α : Type} : LibIteration O (textVec α O) TextVec.state (sliceState C)
  /-- A `TextDatumList`, which is its own state (`datum_list.rs` 94-134). -/
  | datumList {ε α : Type} (al : AllocOps (TextDatumList C ε) ε α) :
    LibIteration O (textDatumList O al) some TextDatumList.stateNext

end Kul
