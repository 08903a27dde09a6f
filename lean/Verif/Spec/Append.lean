import Verif.Spec.Concrete
import Verif.Spec.Agree

/-!
# One source after another

When a source `s` is followed by a source `t`, a text at the end of the one can run into a text at the
start of the other. `Apart` says that this does not happen. Nothing here refers to the parser.
-/

namespace Kul

variable {P : Type}

/-- Reading from left to right, the last character is an escape character that is not itself escaped, so
that it would escape whatever came next. -/
def danglingEscape (cc : Classifier) : List (Item P) → Bool
  | [] => false
  | [x] => cc.isNestEscape x.ch
  | x :: y :: s => if cc.isNestEscape x.ch then danglingEscape cc s else danglingEscape cc (y :: s)

/-- The last character is an end delimiter, and it is not escaped. -/
def endsWithNest (cc : Classifier) : List (Item P) → Bool
  | [] => false
  | [x] => cc.isNestEnd x.ch
  | x :: y :: s => if cc.isNestEscape x.ch then endsWithNest cc s else endsWithNest cc (y :: s)

/-- There is nothing yet, or a start delimiter comes first. -/
def StartsNest (cc : Classifier) (t : List (Item P)) : Prop :=
  t = [] ∨ ∃ x t', t = x :: t' ∧ cc.isNestStart x.ch = true

/-- `s` is empty, or ends with a nest; or `t` starts with a nest, and `s` does not escape it. -/
def Apart (cc : Classifier) (s t : List (Item P)) : Prop :=
  s = [] ∨ endsWithNest cc s = true ∨ danglingEscape cc s = false ∧ StartsNest cc t

/-- The position `q` is where `p` is when the string `u` is put before the source. -/
def StrPos.After (u : Str) (p q : StrPos) : Prop :=
  q.charPos = p.charPos + u.length ∧ q.bytePos = p.bytePos + (utf8 u).length

/-- The same for positions in streams. -/
def CharPos.After (u : Str) (p q : CharPos) : Prop := q.n = p.n + u.length

/-- The same items, texts with the same characters at positions that `RP` relates, and errors of the same
kind at such positions. -/
def SameResults {τ ε α CE : Type} (X : TextSem P τ α) (RP : P → P → Prop)
    (l m : List (Except (Err P CE) (Datum τ ε))) : Prop :=
  List.Forall₂ (ResultRel RP Eq (DatumRel (SameText X X (ItemRel Eq RP)) Eq)) l m

end Kul
