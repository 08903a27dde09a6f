import Verif.Model.Premade
import Verif.Spec.Slices

/-!
# Counting the steps of concatenating texts

Specification only: texts with a count, kept beside the state of the allocator, of how often texts were
concatenated, and of the steps that this took.
-/

namespace Kul

variable {σ C CS P τ ε α CE : Type}

/-- The state of an allocator, the number of concatenations, and the number of their steps. -/
structure Tally (α : Type) where
  state : α
  concats : Nat
  steps : Nat

/-- The text type with the counts. `steps t u` is the number of steps of `t.concat(u)`. -/
def TextType.tallied (T : TextType C τ α) (steps : τ → τ → Nat) : TextType C τ (Tally α) where
  chunks := T.chunks
  ofChunk := T.ofChunk
  empty := T.empty
  concat t u a := ((T.concat t u a.state).1, ⟨(T.concat t u a.state).2, a.concats + 1, a.steps + steps t u⟩)

/-- The allocator, beside the counts. -/
def AllocOps.tallied (al : AllocOps τ ε α) : AllocOps τ ε (Tally α) where
  newDatum d a := ((al.newDatum d a.state).1, { a with state := (al.newDatum d a.state).2 })
  getMutFresh a := al.getMutFresh a.state

/-- The combiner, beside the counts. -/
def Combiner.tallied : Combiner τ ε α P CE → Combiner τ ε (Tally α) P CE
  | .operative f => .operative fun d t a => ((f d t a.state).1, { a with state := (f d t a.state).2 })
  | .applicative f => .applicative fun d l a => ((f d l a.state).1, { a with state := (f d l a.state).2 })

/-- The bindings, beside the counts. -/
def tallyLookup (lookup : Datum τ ε → Option (Combiner τ ε α P CE)) (d : Datum τ ε) : Option (Combiner τ ε (Tally α) P CE) :=
  (lookup d).map Combiner.tallied

/-- Parsers of the library, each with the same parser that has the counts, at the beginning of a source in `pieces`:
the chunks of a text, an iterator of strings, an iterator of characters. -/
inductive Tallied : {σ C CS P τ ε α CE : Type} → ChunkOps C CS P → (C → List (Item P) → Prop) → TextType C τ α → (τ → τ → Nat) →
    Env σ P τ ε α CE → Env σ P τ ε (Tally α) CE → σ → List (List (Item P)) → Prop where
  | text {C CS P τ ε α CE : Type} {O : ChunkOps C CS P} {RC : C → List (Item P) → Prop} (hC : LibChunk O RC)
    (T : TextType C τ α) (steps : τ → τ → Nat) (cc : Classifier) (al : AllocOps τ ε α)
    (lookup : Datum τ ε → Option (Combiner τ ε α P CE)) {cs : List C} {pieces : List (List (Item P))}
    (h : List.Forall₂ RC cs pieces) : Tallied O RC T steps (textEnv O T cc al lookup)
      (textEnv O (T.tallied steps) cc al.tallied (tallyLookup lookup)) (.ofChunks O cs) pieces
  | strs {τ ε α CE : Type} (T : TextType PosStrish τ α) (steps : τ → τ → Nat) (cc : Classifier) (al : AllocOps τ ε α)
    (lookup : Datum τ ε → Option (Combiner τ ε α CharPos CE)) (ss : List Str) :
    Tallied posStrishOps PosStrish.Means T steps (strishEnv T cc al lookup)
      (strishEnv (T.tallied steps) cc al.tallied (tallyLookup lookup)) (.new ss) (charPieces 0 ss)
  | chars {τ ε α CE : Type} (T : TextType PosStrish τ α) (steps : τ → τ → Nat) (cc : Classifier) (al : AllocOps τ ε α)
    (lookup : Datum τ ε → Option (Combiner τ ε α CharPos CE)) (s : Str) :
    Tallied posStrishOps PosStrish.Means T steps (charEnv T cc al lookup)
      (charEnv (T.tallied steps) cc al.tallied (tallyLookup lookup)) (.new s) [charItems s]

/-- How many chunks `is_empty` looks at: all, up to the first that is not empty. -/
def looks (O : ChunkOps C CS P) : List C → Nat
  | [] => 0
  | c :: cs =>
    match O.isEmpty c with
    | .ok true => looks O cs + 1
    | _ => 1

/-- How many chunks `concat` looks at to know whether the texts are empty: at those of the second only if the first is
not empty. -/
def TextType.looks (T : TextType C τ α) (O : ChunkOps C CS P) (t u : τ) : Nat :=
  match T.chunks t, T.chunks u with
  | .ok cs, .ok cs' => Kul.looks O cs + if allChunks O.isEmpty cs = .ok false then Kul.looks O cs' else 0
  | _, _ => 0

/-- `src/text/vec.rs` 113-140 `concat`: how many chunks are put into a `Vec`, or moved in one to make place for
another, if neither text is empty. -/
def TextVec.moves (O : ChunkOps C CS P) (t u : TextVec C) : Nat :=
  if t.isEmpty O = .ok false ∧ u.isEmpty O = .ok false then
    match t, u with
    | .single _, .single _ => 2
    | .single _, .multi cs => cs.length + 1
    | .multi _, .single _ => 1
    | .multi _, .multi cs => cs.length
  else 0

/-- How many turns of the loop find the end of the list. -/
def TextDatumList.toEnd : TextDatumList C ε → Nat
  | .mk _ (some (.text t)) => toEnd t + 1
  | .mk _ _ => 1

/-- `core/src/text/premade/datum_list.rs` 153-181 `concat`: how many turns its loop has, if neither text is empty. -/
def TextDatumList.turns (O : ChunkOps C CS P) (t u : TextDatumList C ε) : Nat :=
  if t.isEmpty O = .ok false ∧ u.isEmpty O = .ok false then t.toEnd else 0

end Kul
