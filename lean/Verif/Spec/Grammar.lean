import Verif.Model.Base

/-!
# The grammar of Kul notation

An independent description of the notation: which sequences of items are written
forms and what they mean. Nothing here refers to the parser; characters are told
apart by a classifier only.

* A *text* is a run of plain characters and escaped characters. The escape
  character is not part of the text, the character after it always is.
* A *nest* is a start delimiter, an optional head, operands, and an end delimiter.
  Whitespace before the head is ignored; one whitespace character after the head is
  ignored.
* At the top level a sequence of texts and nests is written one after the other. A
  text extends as far as it can, so no two texts are adjacent.
-/

namespace Kul

variable {P : Type}

/-- `core/src/parser.rs` 46-48: "Do not make more than one of the predicate methods
return `true` for the same `char`". -/
structure Classifier.Disjoint (cc : Classifier) : Prop where
  start_end : ∀ c, cc.isNestStart c = true → cc.isNestEnd c = false
  start_esc : ∀ c, cc.isNestStart c = true → cc.isNestEscape c = false
  start_ws : ∀ c, cc.isNestStart c = true → cc.isWhitespace c = false
  end_esc : ∀ c, cc.isNestEnd c = true → cc.isNestEscape c = false
  end_ws : ∀ c, cc.isNestEnd c = true → cc.isWhitespace c = false
  esc_ws : ∀ c, cc.isNestEscape c = true → cc.isWhitespace c = false

/-- Characters at which a text outside head position stops. -/
def Classifier.delim (cc : Classifier) (c : Char) : Bool := cc.isNestStart c || cc.isNestEnd c

/-- Characters at which a text in head position stops. -/
def Classifier.headDelim (cc : Classifier) (c : Char) : Bool := cc.isWhitespace c || cc.delim c

/-- `TextOf cc stop s c`: `s` is the written text with content `c`, for a text that
stops at unescaped characters in `stop`. -/
inductive TextOf (cc : Classifier) (stop : Char → Bool) :
    List (Item P) → List (Item P) → Prop where
  | nil : TextOf cc stop [] []
  | plain {it s c} : stop it.ch = false → cc.isNestEscape it.ch = false → TextOf cc stop s c →
      TextOf cc stop (it :: s) (it :: c)
  | escaped {e it s c} : cc.isNestEscape e.ch = true → TextOf cc stop s c →
      TextOf cc stop (e :: it :: s) (it :: c)

/-- `RawOf cc s c`: `s` is a balanced operands text with content `c`: delimiters
are kept, escape characters are not. -/
inductive RawOf (cc : Classifier) : List (Item P) → List (Item P) → Prop where
  | nil : RawOf cc [] []
  | plain {it s c} : cc.delim it.ch = false → cc.isNestEscape it.ch = false → RawOf cc s c →
      RawOf cc (it :: s) (it :: c)
  | escaped {e it s c} : cc.isNestEscape e.ch = true → RawOf cc s c →
      RawOf cc (e :: it :: s) (it :: c)
  | nest {b e s c s' c'} : cc.isNestStart b.ch = true → cc.isNestEnd e.ch = true → RawOf cc s c →
      RawOf cc s' c' → RawOf cc (b :: (s ++ e :: s')) (b :: (c ++ e :: c'))

/-- All characters of `ws` are whitespace. -/
def AllWs (cc : Classifier) (ws : List (Item P)) : Prop := ∀ it ∈ ws, cc.isWhitespace it.ch = true

/-- What may stand between a head and the operands `r`: one whitespace character; or
nothing if `r` does not start with whitespace and, when the head is a text
(`textHead`), `r` starts with a nest or is empty. -/
inductive Sep (cc : Classifier) (textHead : Bool) : List (Item P) → List (Item P) → Prop where
  | one {w r} : cc.isWhitespace w.ch = true → Sep cc textHead [w] r
  | empty : Sep cc textHead [] []
  | none {it r} : cc.isWhitespace it.ch = false →
      (textHead = true → cc.isNestStart it.ch = true) → Sep cc textHead [] (it :: r)

/-- The datum list of the given elements. -/
def listOf {τ ε : Type} : List (Datum τ ε) → Datum τ ε
  | [] => .emptyList
  | d :: ds => .list d (listOf ds)

/-- Grammatical categories: a nest; the inside of a nest up to and including its
head (`textHead` says that it ends in a text); a sequence of forms (`top` at top level,
`afterText` directly after a text, where no other text may follow). -/
inductive Cat where
  | nest
  | head (textHead : Bool)
  | forms (top afterText : Bool)

/-- `Gram cc cat s ds`: the items `s` are written as `cat` and mean the datums `ds`
(texts are their contents). -/
inductive Gram {ε : Type} (cc : Classifier) :
    Cat → List (Item P) → List (Datum (List (Item P)) ε) → Prop where
  | nil {top b} : Gram cc (.forms top b) [] []
  | text {top s c r ds} : s ≠ [] → TextOf cc cc.delim s c → Gram cc (.forms top true) r ds →
      Gram cc (.forms top false) (s ++ r) (.text c :: ds)
  | form {top b s d r ds} : Gram cc .nest s [d] → Gram cc (.forms top false) r ds →
      Gram cc (.forms top b) (s ++ r) (d :: ds)
  /-- At the very end of the source a lone escape character is ignored. -/
  | dangling {s c e} : TextOf cc cc.delim s c → cc.isNestEscape e.ch = true →
      Gram cc (.forms true false) (s ++ [e]) [.text c]
  | noHead {ws} : AllWs cc ws → Gram cc (.head false) ws []
  | textHead {ws s c} : AllWs cc ws → s ≠ [] → TextOf cc cc.headDelim s c →
      Gram cc (.head true) (ws ++ s) [.text c]
  | nestHead {ws s d} : AllWs cc ws → Gram cc .nest s [d] → Gram cc (.head false) (ws ++ s) [d]
  | emptyNest {b e h} : cc.isNestStart b.ch = true → cc.isNestEnd e.ch = true →
      Gram cc (.head false) h [] → Gram cc .nest (b :: (h ++ [e])) [.emptyNest]
  | combination {b e h k d sep r ds} : cc.isNestStart b.ch = true → cc.isNestEnd e.ch = true →
      Gram cc (.head k) h [d] → Sep cc k sep r → Gram cc (.forms false false) r ds →
      Gram cc .nest (b :: (h ++ sep ++ r ++ [e])) [.combination d (listOf ds)]

/-- `Written cc s ds`: the source `s` consists of well-formed forms that mean `ds`. -/
def Written {ε : Type} (cc : Classifier) (s : List (Item P)) (ds : List (Datum (List (Item P)) ε)) :
    Prop := Gram cc (.forms true false) s ds

end Kul
