import Verif.Model.Parser
import Verif.Spec.Text
import Verif.Spec.Provided

/-!
# The slices that a text is made of

The source comes in pieces: one string, or the chunks of a text, or the strings of an iterator. When must a
text that is parsed out of it have more than one chunk? Specification only.
-/

namespace Kul

variable {P C τ α : Type}

/-- A text must be cut between `x` and `y`: in the source there is one item between them, an escape character
(which the text does not have); or a piece of the source ends with `x`, and the next that is not empty begins
with `y`. -/
inductive Cut (cc : Classifier) (pieces : List (List (Item P))) (x y : Item P) : Prop where
  | escape (it : Item P) : cc.isNestEscape it.ch = true → [x, it, y] <:+: pieces.flatten → Cut cc pieces x y
  | pieces (before after : List (List (Item P))) (l l' : List (Item P)) (k : Nat) :
    pieces = before ++ (l ++ [x]) :: (List.replicate k [] ++ (y :: l') :: after) → Cut cc pieces x y

/-- Where `l` ends and `l'` begins, a text must be cut. -/
def CutBetween (cc : Classifier) (pieces : List (List (Item P))) (l l' : List (Item P)) : Prop :=
  ∀ x ∈ l.getLast?, ∀ y ∈ l'.head?, Cut cc pieces x y

/-- Each of `ls` is a slice of one piece of the source, not empty; and one ends and the next begins only where
a text must be cut. -/
structure Slices (cc : Classifier) (pieces ls : List (List (Item P))) : Prop where
  slice : ∀ l ∈ ls, l ≠ [] ∧ ∃ p ∈ pieces, l <:+: p
  apart : ls.IsChain (CutBetween cc pieces)

/-- The chunks of the text are such slices; or the text has no characters, and at most one chunk. -/
def TextType.InSlices (cc : Classifier) (T : TextType C τ α) (RC : C → List (Item P) → Prop)
    (pieces : List (List (Item P))) (t : τ) : Prop :=
  ∃ cs ls, T.chunks t = .ok cs ∧ List.Forall₂ RC cs ls ∧ (ls.flatten = [] ∧ cs.length ≤ 1 ∨ Slices cc pieces ls)

/-- The text has at most one chunk, or as few as a text with its items can have, if each chunk is a slice of one piece of
the source. -/
def TextType.Fewest (T : TextType C τ α) (RC : C → List (Item P) → Prop) (pieces : List (List (Item P))) (t : τ) : Prop :=
  ∃ cs ls, T.chunks t = .ok cs ∧ List.Forall₂ RC cs ls ∧ (cs.length ≤ 1 ∨ ∀ ls' : List (List (Item P)),
    ls'.flatten = ls.flatten → (∀ l ∈ ls', ∃ p ∈ pieces, l <:+: p) → cs.length ≤ ls'.length)

/-- Written one after another, with one escape character between each two, `ls` are `w`. -/
inductive Spelt (cc : Classifier) : List (List (Item P)) → List (Item P) → Prop where
  | one {l} : l ≠ [] → Spelt cc [l] l
  | cons {l it ls w} : l ≠ [] → cc.isNestEscape it.ch = true → Spelt cc ls w → Spelt cc (l :: ls) (l ++ it :: w)

/-- The chunks of the text, written so, are a slice of the source `r`; or the text has no characters, and at most one
chunk. -/
def TextType.SpeltIn (cc : Classifier) (T : TextType C τ α) (RC : C → List (Item P) → Prop) (r : List (Item P)) (t : τ) : Prop :=
  ∃ cs ls, T.chunks t = .ok cs ∧ List.Forall₂ RC cs ls ∧ (ls.flatten = [] ∧ cs.length ≤ 1 ∨ ∃ w, Spelt cc ls w ∧ w <:+: r)

/-- The items of the strings of an iterator, each apart: positions go on from string to string. -/
def charPieces : Nat → List Str → List (List (Item CharPos))
  | _, [] => []
  | k, s :: ss => itemsFrom CharPos.adv ⟨k⟩ s :: charPieces (k + s.length) ss

/-- The parsers of the library with the pieces of their sources: the chunks of a text (also of one with one
chunk, a string), iterated as a list or by the states of its own that the library has for it; an iterator of
strings; an iterator of characters, which is one piece. `T` is the type of the texts, `RC` gives the items of
their chunks. -/
inductive InPieces : {σ P τ ε α CE C : Type} → Env σ P τ ε α CE → σ → List (List (Item P)) → TextType C τ α →
    (C → List (Item P) → Prop) → TextSem P τ α → Prop where
  /-- A text. -/
  | text {C CS P τ ε α CE : Type} {O : ChunkOps C CS P} {RC : C → List (Item P) → Prop} (hC : LibChunk O RC)
    {T : TextType C τ α} {X} (hT : LibText O RC T X) (cc : Classifier) (al : AllocOps τ ε α)
    (lookup : Datum τ ε → Option (Combiner τ ε α P CE)) {cs : List C} {pieces : List (List (Item P))}
    (h : List.Forall₂ RC cs pieces) : InPieces (textEnv O T cc al lookup) (.ofChunks O cs) pieces T RC X
  /-- A text, its chunks iterated by the states of its own. -/
  | byStates {C CS P τ ε α S CE : Type} {O : ChunkOps C CS P} {RC : C → List (Item P) → Prop} (hC : LibChunk O RC)
    {T : TextType C τ α} {X} (hT : LibText O RC T X) {state : τ → Option S} {N : ChunksState C S}
    (hN : LibIteration O T state N) (cc : Classifier) (al : AllocOps τ ε α)
    (lookup : Datum τ ε → Option (Combiner τ ε α P CE)) {t : τ} {cs : List C} {pieces : List (List (Item P))}
    (ht : T.chunks t = .ok cs) (h : List.Forall₂ RC cs pieces) {fuel : Nat} (hf : cs.length + 1 < fuel)
    {it : StateIter S CS P τ} (hi : StateIter.new N O (state t) = .ok it) :
    InPieces (stateEnv N O T fuel cc al lookup) it pieces T RC X
  /-- An iterator of strings. -/
  | strs {τ ε α CE : Type} {T : TextType PosStrish τ α} {X} (hT : LibText posStrishOps PosStrish.Means T X) (cc : Classifier)
    (al : AllocOps τ ε α) (lookup : Datum τ ε → Option (Combiner τ ε α CharPos CE)) (ss : List Str) :
    InPieces (strishEnv T cc al lookup) (.new ss) (charPieces 0 ss) T PosStrish.Means X
  /-- An iterator of characters. -/
  | chars {τ ε α CE : Type} {T : TextType PosStrish τ α} {X} (hT : LibText posStrishOps PosStrish.Means T X) (cc : Classifier)
    (al : AllocOps τ ε α) (lookup : Datum τ ε → Option (Combiner τ ε α CharPos CE)) (s : Str) :
    InPieces (charEnv T cc al lookup) (.new s) [charItems s] T PosStrish.Means X

end Kul
