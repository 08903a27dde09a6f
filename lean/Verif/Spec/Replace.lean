import Verif.Spec.Append

/-!
# One nest in place of another

What it means that two datums differ in one place. Nothing here refers to the parser.
-/

namespace Kul

/-- `ReplacedAt Same SameN d d' x y`: somewhere in `x` there is `d`, and `y` is like `x` but has `d'` there.
"Is" and "like" are what `SameN` and `Same` say. -/
inductive ReplacedAt {τ ε : Type} (Same SameN : Datum τ ε → Datum τ ε → Prop) (d d' : Datum τ ε) :
    Datum τ ε → Datum τ ε → Prop where
  | here {x y} : SameN d x → SameN d' y → ReplacedAt Same SameN d d' x y
  | operator {x y u v} : ReplacedAt Same SameN d d' x y → Same u v →
      ReplacedAt Same SameN d d' (.combination x u) (.combination y v)
  | operands {x y u v} : Same u v → ReplacedAt Same SameN d d' x y →
      ReplacedAt Same SameN d d' (.combination u x) (.combination v y)
  | element {x y u v} : ReplacedAt Same SameN d d' x y → Same u v →
      ReplacedAt Same SameN d d' (.list x u) (.list y v)
  | rest {x y u v} : Same u v → ReplacedAt Same SameN d d' x y →
      ReplacedAt Same SameN d d' (.list u x) (.list v y)

/-- The same for the results of a whole source: one of them, a datum, differs in one place. -/
def ReplacedIn {τ ε Er : Type} (SameR : Except Er (Datum τ ε) → Except Er (Datum τ ε) → Prop)
    (Same SameN : Datum τ ε → Datum τ ε → Prop) (d d' : Datum τ ε) (l l' : List (Except Er (Datum τ ε))) : Prop :=
  ∃ b b' x y c c', l = b ++ .ok x :: c ∧ l' = b' ++ .ok y :: c' ∧
    List.Forall₂ SameR b b' ∧ ReplacedAt Same SameN d d' x y ∧ List.Forall₂ SameR c c'

/-- Texts with the same characters, wherever they are. -/
def SameChars {P τ α ε : Type} (X : TextSem P τ α) : Datum τ ε → Datum τ ε → Prop :=
  DatumRel (SameText X X (ItemRel Eq fun _ _ => True)) Eq

/-- The position `q` is `p`, or where `p` is when, before it, the string `n` is replaced by `n'`. -/
def StrPos.Moved (n n' : Str) (p q : StrPos) : Prop :=
  (q.charPos = p.charPos ∧ q.bytePos = p.bytePos) ∨
  (q.charPos + n.length = p.charPos + n'.length ∧ q.bytePos + (utf8 n).length = p.bytePos + (utf8 n').length)

/-- The same for positions in streams. -/
def CharPos.Moved (n n' : Str) (p q : CharPos) : Prop := q.n = p.n ∨ q.n + n.length = p.n + n'.length

end Kul
