import Verif.Spec.Results
import Verif.Spec.Related
import Verif.Spec.TextFns
import Verif.Model.Premade

/-!
# What a string yields, for the parsers the library provides

The results of a parser of the library are compared with those that `PlainResults` gives the
characters of the string, numbered from zero. Specification only.
-/

namespace Kul

variable {C CS P τ ε α CE : Type}

/-- The characters of a string, numbered from `n`. -/
def numbered : Nat → Str → List (Item Nat)
  | _, [] => []
  | n, c :: s => ⟨c, n⟩ :: numbered (n + 1) s

/-- The position is that of character `n` of the string `s` held in memory: its source is `s`
and its offset in bytes is the length of the encoding of the characters before. -/
def StrPos.IsAt (s : Str) (p : StrPos) (n : Nat) : Prop :=
  p.src = s ∧ p.charPos = n ∧ p.bytePos = (utf8 (s.take n)).length

/-- The position is that of character `n` of a stream. -/
def CharPos.IsAt (p : CharPos) (n : Nat) : Prop := p.n = n

/-- Iterating the chunks of text `t` gives the characters of `c`, at their positions. -/
def TextType.Shows (O : ChunkOps C CS P) (T : TextType C τ α) (RP : P → Nat → Prop) (t : τ)
    (c : List (Item Nat)) : Prop :=
  ∃ l, T.Means O.Reads t l ∧ List.Forall₂ (ItemRel Eq RP) l c

/-- The item yielded is the one specified: the same tree with the same texts, or the same error at
the same position. -/
def TextType.AsSpecified (O : ChunkOps C CS P) (T : TextType C τ α) (RP : P → Nat → Prop) :
    Except (Err P CE) (Datum τ ε) → Except (Err Nat CE) (Datum (List (Item Nat)) ε) → Prop :=
  ResultRel RP Eq (DatumRel (T.Shows O RP) Eq)

/-- The string `s` yields the items `l`. -/
def StrResults (s : Str) (l : List (Except (Err Nat CE) (Datum (List (Item Nat)) ε))) : Prop :=
  PlainResults defaultClassifier (numbered 0 s) l

end Kul
