import Verif.Spec.Grammar

/-!
# Shape, content and writing of datums

Independent of the parser: what datums without bindings look like, which characters of a
source end up in texts, and how a datum is written out.
-/

namespace Kul

variable {P A ε : Type}

/-- Change the texts of a datum. -/
def Datum.mapText {τ τ' : Type} (f : τ → τ') : Datum τ ε → Datum τ' ε
  | .text t => .text (f t)
  | .combination h l => .combination (h.mapText f) (l.mapText f)
  | .emptyNest => .emptyNest
  | .list d r => .list (d.mapText f) (r.mapText f)
  | .emptyList => .emptyList
  | .extra e => .extra e

/-- All texts of a datum, in written order, put together. -/
def Datum.texts : Datum (List A) ε → List A
  | .text t => t
  | .combination h l => h.texts ++ l.texts
  | .emptyNest => []
  | .list d r => d.texts ++ r.texts
  | .emptyList => []
  | .extra _ => []

/-- No `Extra` anywhere in the datum. -/
def Datum.NoExtra {τ : Type} : Datum τ ε → Prop
  | .text _ => True
  | .combination h l => h.NoExtra ∧ l.NoExtra
  | .emptyNest => True
  | .list d r => d.NoExtra ∧ r.NoExtra
  | .emptyList => True
  | .extra _ => False

/-- No two texts stand next to each other. -/
def NoAdjacentTexts {τ : Type} (ds : List (Datum τ ε)) : Prop :=
  ∀ l₁ t u l₂, ds ≠ l₁ ++ .text t :: .text u :: l₂

/-- The shape of a form inside a nest: a text that is not empty, an empty nest, or a
combination whose head is such a form and whose operands are a proper list of such forms, no
two texts adjacent. -/
inductive Shaped : Datum (List A) ε → Prop where
  | text {t} : t ≠ [] → Shaped (.text t)
  | emptyNest : Shaped .emptyNest
  | combination {h ds} : Shaped h → (∀ d ∈ ds, Shaped d) → NoAdjacentTexts ds →
      Shaped (.combination h (listOf ds))

/-- The shape of the forms of a whole source: as in a nest, but the last may be an
empty text (from a lone escape character at the end). -/
def TopShaped (ds : List (Datum (List A) ε)) : Prop :=
  NoAdjacentTexts ds ∧ ∃ ds₀ last, ds = ds₀ ++ last ∧ (∀ d ∈ ds₀, Shaped d) ∧
    (last = [] ∨ last = [.text []])

/-- `Kept cc s c`: `c` is what is left of the source `s` when only escape
characters, unescaped delimiters and unescaped whitespace are left out (whitespace may also
be kept). -/
inductive Kept (cc : Classifier) : List (Item P) → List (Item P) → Prop where
  | nil : Kept cc [] []
  | escaped {e it s c} : cc.isNestEscape e.ch = true → Kept cc s c → Kept cc (e :: it :: s) (it :: c)
  | dangling {e} : cc.isNestEscape e.ch = true → Kept cc [e] []
  | delim {b s c} : cc.delim b.ch = true → Kept cc s c → Kept cc (b :: s) c
  | space {w s c} : cc.isWhitespace w.ch = true → Kept cc s c → Kept cc (w :: s) c
  | plain {it s c} : cc.delim it.ch = false → cc.isNestEscape it.ch = false → Kept cc s c →
      Kept cc (it :: s) (it :: c)

/-- Characters to write with: a start and an end delimiter, an escape character and a
whitespace character. -/
structure Pens (cc : Classifier) where
  start : Char
  fin : Char
  esc : Char
  space : Char
  hstart : cc.isNestStart start = true
  hfin : cc.isNestEnd fin = true
  hesc : cc.isNestEscape esc = true
  hspace : cc.isWhitespace space = true

/-- Write a text: escape the characters in `stop` and escape characters. -/
def writeText {cc : Classifier} (w : Pens cc) (stop : Char → Bool) (t : List Char) : List Char :=
  t.flatMap fun c => if stop c || cc.isNestEscape c then [w.esc, c] else [c]

/-- Write a form: in head position (`head`) whitespace in a text is escaped too. -/
def write {cc : Classifier} (w : Pens cc) (head : Bool) : Datum (List Char) ε → List Char
  | .text t => writeText w (if head then cc.headDelim else cc.delim) t
  | .combination h l => w.start :: (write w true h ++ [w.space] ++ write w false l ++ [w.fin])
  | .emptyNest => [w.start, w.fin]
  | .list d r => write w false d ++ write w false r
  | .emptyList => []
  | .extra _ => []

/-- Write a whole source. An empty text is written as a lone escape character. -/
def writeSource {cc : Classifier} (w : Pens cc) (ds : List (Datum (List Char) ε)) : List Char :=
  ds.flatMap fun d => match d with
    | .text [] => [w.esc]
    | d => write w false d

/-- Characters as items without position. -/
def unitItems (cs : List Char) : List (Item Unit) := cs.map fun c => ⟨c, ()⟩

end Kul
