import Verif.Model.Premade
import Verif.Model.TextFns
import Verif.Spec.Text

/-!
# What the methods of texts are to do

The characters of a text are what iterating its chunks yields. The orders and encodings
are those of lists of characters. Specification only.
-/

namespace Kul

variable {C CS P τ α S A : Type}

/-- Iterating from state `s` gives the items `l` and then nothing. -/
inductive IterNext.Gives (next : IterNext S A) : S → List A → Prop where
  | done {s s'} : next s = (.ok none, s') → Gives next s []
  | item {s a s' l} : next s = (.ok (some a), s') → Gives next s' l → Gives next s (a :: l)

/-- Iterating a stream over chunk `c` gives the items `l`. -/
def ChunkOps.Reads (O : ChunkOps C CS P) (c : C) (l : List (Item P)) : Prop :=
  IterNext.Gives O.next (O.srcStrm c) l

/-- Text `t` has the characters `cs`: they are the characters of its chunks, in order. -/
def TextType.Chars (O : ChunkOps C CS P) (T : TextType C τ α) (t : τ) (cs : List Char) : Prop :=
  ∃ l, T.Means O.Reads t l ∧ l.map Item.ch = cs

/-- The UTF-8 encoding of a string. -/
def utf8 (s : Str) : List UInt8 := s.flatMap String.utf8EncodeChar

/-- Less in the lexicographic order by code points. -/
inductive LexLt : List Char → List Char → Prop where
  | nil {d ds} : LexLt [] (d :: ds)
  | head {c cs d ds} : c.val.toNat < d.val.toNat → LexLt (c :: cs) (d :: ds)
  | tail {c cs ds} : LexLt cs ds → LexLt (c :: cs) (c :: ds)

/-- `p` is the longest prefix of `s` whose encoding fits into `n` bytes. -/
def LongestFit (n : Nat) (s p : Str) : Prop :=
  p <+: s ∧ (utf8 p).length ≤ n ∧ ∀ q, q <+: s → (utf8 q).length ≤ n → q <+: p

variable {C' CS' P' τ' α' H : Type}

/-- Text equality, with the budget hidden. -/
def TextEq (O : ChunkOps C CS P) (T : TextType C τ α) (O' : ChunkOps C' CS' P')
    (T' : TextType C' τ' α') (t : τ) (u : τ') (b : Bool) : Prop :=
  ∃ n, TextType.eq O T O' T' n t u = .ok b

/-- Chunks whose `is_empty` agrees with their iteration. -/
def ChunkOps.EmptyOk (O : ChunkOps C CS P) : Prop := ∀ c l, O.Reads c l → O.isEmpty c = .ok l.isEmpty

/-- The characters of a `TextVec` of `PosStr`. -/
def TextVec.charsOf (t : TextVec PosStr) : List Char := t.chunks.flatMap PosStr.val

/-- The characters of items. -/
def charsAt (l : List (Item P)) : List Char := l.map Item.ch

/-- `Text::eq` of `TextVec`s of `PosStr`, as a total function: by `C31_text_vec_eq` a
sufficient budget is known. -/
def TextVec.eqFn (t u : TextVec PosStr) : Bool :=
  match TextType.eq posStrOps (textVec Unit posStrOps) posStrOps (textVec Unit posStrOps)
    (t.charsOf.length + 1) t u with
  | .ok b => b
  | _ => false

/-- `Text::hash` of `TextVec`s of `PosStr`, as a total function: by `C33_text_hash` a
sufficient budget is known. -/
def TextVec.hashFn (W : HasherOps H) (t : TextVec PosStr) (h : H) : H :=
  match (textVec Unit posStrOps).hash posStrOps W (t.charsOf.length + 1) t h with
  | .ok h' => h'
  | _ => h

end Kul
