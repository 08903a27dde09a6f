import Verif.Spec.Bound
import Verif.Spec.Balance
import Verif.Spec.Contract

/-!
# How reading a source can fail

The counterpart of `Spec/Bound.lean` for sources that are not read to the end: which
part was read, which combiners were called (their effect on the state), and with which
error it stopped.
-/

namespace Kul

variable {P τ ε α CE : Type}

/-- `Mem` covers every change to the state made by texts and by allocation. -/
structure MemOk (X : TextSem P τ α) (al : AllocOps τ ε α) (Mem : α → α → Prop) : Prop where
  refl : ∀ a, Mem a a
  trans : ∀ a b c, Mem a b → Mem b c → Mem a c
  text : ∀ a b, X.RA a b → Mem a b
  alloc : ∀ d a, Mem a (al.newDatum d a).2

/-- `s` is the start of a text: its first character is no delimiter. -/
def StartsText (cc : Classifier) (s : List (Item P)) : Prop :=
  ∃ it s', s = it :: s' ∧ cc.delim it.ch = false

/-- No end delimiter in `s` closes the nest that `s` is in. -/
def NeverClosed (cc : Classifier) (s : List (Item P)) : Prop :=
  ∀ s₁ x s₂ c, s = s₁ ++ x :: s₂ → cc.isNestEnd x.ch = true → ¬ RawOf cc s₁ c

/-- `Fails .. cat s rest a ds e a'`: of the items `s ++ rest`, where a `cat` was expected,
`s` was read, starting in state `a`; the datums `ds` (of this category, if it is a sequence of
forms) were complete; then error `e` occurred, in state `a'`. `MF` are the errors of memory. -/
inductive Fails (cc : Classifier) (RT : τ → List (Item P) → Prop) (Mem : α → α → Prop)
    (MF : Err P CE → Prop) (lookup : Datum τ ε → Option (Combiner τ ε α P CE)) :
    Cat → List (Item P) → List (Item P) → α → List (Datum τ ε) → Err P CE → α → Prop where
  /-- A complete text comes first. -/
  | afterText {top s c t r rest a a₁ ds e a'} : s ≠ [] → TextOf cc cc.delim s c → RT t c → Mem a a₁ →
      Fails cc RT Mem MF lookup (.forms top true) r rest a₁ ds e a' →
      Fails cc RT Mem MF lookup (.forms top false) (s ++ r) rest a (.text t :: ds) e a'
  /-- A complete nest comes first. -/
  | afterForm {top b s d r rest a a₁ a₂ ds e a'} : Reads cc RT Mem lookup .nest s a [d] a₁ →
      Mem a₁ a₂ → Fails cc RT Mem MF lookup (.forms top false) r rest a₂ ds e a' →
      Fails cc RT Mem MF lookup (.forms top b) (s ++ r) rest a (d :: ds) e a'
  /-- A nest removed by its combiner comes first. -/
  | afterRemoved {top b s r rest a a₁ ds e a'} : Reads cc RT Mem lookup .nest s a [] a₁ →
      Fails cc RT Mem MF lookup (.forms top false) r rest a₁ ds e a' →
      Fails cc RT Mem MF lookup (.forms top b) (s ++ r) rest a ds e a'
  /-- A nest fails: its error is the error. -/
  | inNest {top b s rest a e a'} : Fails cc RT Mem MF lookup .nest s rest a [] e a' →
      Fails cc RT Mem MF lookup (.forms top b) s rest a [] e a'
  /-- An end delimiter at top level. -/
  | unbalanced {x rest a} : cc.isNestEnd x.ch = true →
      Fails cc RT Mem MF lookup (.forms true false) [x] rest a [] (.unbalancedEndChar x.pos) a
  /-- A text at top level directly before an end delimiter is lost. -/
  | textUnbalanced {s c x rest a a'} : s ≠ [] → TextOf cc cc.delim s c → cc.isNestEnd x.ch = true →
      Mem a a' →
      Fails cc RT Mem MF lookup (.forms true false) (s ++ [x]) rest a [] (.unbalancedEndChar x.pos) a'
  /-- The source ends inside a nest. -/
  | formsOpen {b a} : Fails cc RT Mem MF lookup (.forms false b) [] [] a [] .missingEndChar a
  | formsOpenEscape {s c t x a a'} : TextOf cc cc.delim s c → cc.isNestEscape x.ch = true → RT t c →
      Mem a a' →
      Fails cc RT Mem MF lookup (.forms false false) (s ++ [x]) [] a [.text t] .missingEndChar a'
  | textMemory {top s rest a e a'} : StartsText cc s → Mem a a' → MF e →
      Fails cc RT Mem MF lookup (.forms top false) s rest a [] e a'
  | formMemory {b s rest d a a₁ e a'} : Reads cc RT Mem lookup .nest s a [d] a₁ → Mem a₁ a' → MF e →
      Fails cc RT Mem MF lookup (.forms false b) s rest a [] e a'
  | headOpen {ws a} : AllWs cc ws → Fails cc RT Mem MF lookup (.head false) ws [] a [] .missingEndChar a
  | headOpenEscape {ws s c x a a'} : AllWs cc ws → TextOf cc cc.headDelim s c →
      cc.isNestEscape x.ch = true → Mem a a' →
      Fails cc RT Mem MF lookup (.head false) (ws ++ s ++ [x]) [] a [] .missingEndChar a'
  | headNest {ws s rest a e a'} : AllWs cc ws → Fails cc RT Mem MF lookup .nest s rest a [] e a' →
      Fails cc RT Mem MF lookup (.head false) (ws ++ s) rest a [] e a'
  | headRemoved {ws s h rest a a₁ e a'} : AllWs cc ws → Reads cc RT Mem lookup .nest s a [] a₁ →
      Fails cc RT Mem MF lookup (.head false) h rest a₁ [] e a' →
      Fails cc RT Mem MF lookup (.head false) (ws ++ s ++ h) rest a [] e a'
  | headMemory {ws s rest a e a'} : AllWs cc ws → StartsText cc s → Mem a a' → MF e →
      Fails cc RT Mem MF lookup (.head false) (ws ++ s) rest a [] e a'
  /-- The head of a nest fails: nothing else of the nest is read and no combiner is called. -/
  | inHead {b h rest a e a'} : cc.isNestStart b.ch = true →
      Fails cc RT Mem MF lookup (.head false) h rest a [] e a' →
      Fails cc RT Mem MF lookup .nest (b :: h) rest a [] e a'
  /-- The operands of a nest fail: the combiner is not called. -/
  | inOperands {b h k d sep r rest ds a a₁ e a'} : cc.isNestStart b.ch = true →
      Reads cc RT Mem lookup (.head k) h a [d] a₁ → Sep cc k sep r →
      (∀ f, lookup d ≠ some (.operative f)) →
      Fails cc RT Mem MF lookup (.forms false false) r rest a₁ ds e a' →
      Fails cc RT Mem MF lookup .nest (b :: (h ++ sep ++ r)) rest a [] e a'
  /-- The source ends inside the operands of an operative: it is not called. -/
  | rawOpen {b h k d sep r f a a₁ a'} : cc.isNestStart b.ch = true →
      Reads cc RT Mem lookup (.head k) h a [d] a₁ → Sep cc k sep r → lookup d = some (.operative f) →
      NeverClosed cc r → Mem a₁ a' →
      Fails cc RT Mem MF lookup .nest (b :: (h ++ sep ++ r)) [] a [] .missingEndChar a'
  | rawMemory {b h k d r f rest a a₁ e a'} : cc.isNestStart b.ch = true →
      Reads cc RT Mem lookup (.head k) h a [d] a₁ → lookup d = some (.operative f) → Mem a₁ a' → MF e →
      Fails cc RT Mem MF lookup .nest (b :: (h ++ r)) rest a [] e a'
  /-- The combiner fails: its error is the error. -/
  | operative {b x h k d sep r c t rest a a₁ a₂ e a' f} : cc.isNestStart b.ch = true →
      cc.isNestEnd x.ch = true → Reads cc RT Mem lookup (.head k) h a [d] a₁ → Sep cc k sep r →
      lookup d = some (.operative f) → RawOf cc r c → RT t c → Mem a₁ a₂ → f d t a₂ = (.error e, a') →
      Fails cc RT Mem MF lookup .nest (b :: (h ++ sep ++ r ++ [x])) rest a [] e a'
  | applicative {b x h k d sep r ds rest a a₁ a₂ e a' f} : cc.isNestStart b.ch = true →
      cc.isNestEnd x.ch = true → Reads cc RT Mem lookup (.head k) h a [d] a₁ → Sep cc k sep r →
      lookup d = some (.applicative f) → Reads cc RT Mem lookup (.forms false false) r a₁ ds a₂ →
      f d (listOf ds) a₂ = (.error e, a') →
      Fails cc RT Mem MF lookup .nest (b :: (h ++ sep ++ r ++ [x])) rest a [] e a'
  | combinationMemory {b x h k d sep r ds rest a a₁ a₂ e a'} : cc.isNestStart b.ch = true →
      cc.isNestEnd x.ch = true → Reads cc RT Mem lookup (.head k) h a [d] a₁ → Sep cc k sep r →
      lookup d = none → Reads cc RT Mem lookup (.forms false false) r a₁ ds a₂ → Mem a₂ a' → MF e →
      Fails cc RT Mem MF lookup .nest (b :: (h ++ sep ++ r ++ [x])) rest a [] e a'

end Kul
