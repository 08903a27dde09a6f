import Verif.Model.Dynamic
import Verif.Spec.Failing
import Verif.Spec.Invariant

/-!
# Meaning of the notation with bindings that change

As `Spec/Bound.lean` and `Spec/Failing.lean`, where `lookup d a = (c, a')` says that, in state `a`, the datum `d`
is bound to `c` (or unbound), and that looking it up leaves state `a'`.
-/

namespace Kul.Dyn

variable {P τ ε α CE : Type}

/-- `Reads .. cat s a ds a'`: the items `s` are written as `cat`; evaluated in state
`a` they mean the datums `ds` (none for a removed nest) and leave state `a'`. As
`Kul.Reads`, but the head of a nest is looked up in the state `a₁` its own evaluation has
left, and the operands are evaluated in the state `a₁'` the lookup has left. -/
inductive Reads (cc : Classifier) (RT : τ → List (Item P) → Prop) (Mem : α → α → Prop)
    (lookup : Datum τ ε → α → Option (Combiner τ ε α P CE) × α) :
    Cat → List (Item P) → α → List (Datum τ ε) → α → Prop where
  | nil {top b a} : Reads cc RT Mem lookup (.forms top b) [] a [] a
  | text {top s c t r a a₁ ds a'} : s ≠ [] → TextOf cc cc.delim s c → RT t c → Mem a a₁ →
      Reads cc RT Mem lookup (.forms top true) r a₁ ds a' →
      Reads cc RT Mem lookup (.forms top false) (s ++ r) a (.text t :: ds) a'
  | form {top b s d r a a₁ a₂ ds a'} : Reads cc RT Mem lookup .nest s a [d] a₁ → Mem a₁ a₂ →
      Reads cc RT Mem lookup (.forms top false) r a₂ ds a' →
      Reads cc RT Mem lookup (.forms top b) (s ++ r) a (d :: ds) a'
  /-- A nest removed by its combiner. -/
  | removed {top b s r a a₁ ds a'} : Reads cc RT Mem lookup .nest s a [] a₁ →
      Reads cc RT Mem lookup (.forms top false) r a₁ ds a' →
      Reads cc RT Mem lookup (.forms top b) (s ++ r) a ds a'
  | dangling {s c t e a a'} : TextOf cc cc.delim s c → cc.isNestEscape e.ch = true → RT t c →
      Mem a a' → Reads cc RT Mem lookup (.forms true false) (s ++ [e]) a [.text t] a'
  | noHead {ws a} : AllWs cc ws → Reads cc RT Mem lookup (.head false) ws a [] a
  | textHead {ws s c t a a'} : AllWs cc ws → s ≠ [] → TextOf cc cc.headDelim s c → RT t c →
      Mem a a' → Reads cc RT Mem lookup (.head true) (ws ++ s) a [.text t] a'
  | nestHead {ws s d a a'} : AllWs cc ws → Reads cc RT Mem lookup .nest s a [d] a' →
      Reads cc RT Mem lookup (.head false) (ws ++ s) a [d] a'
  | removedHead {ws s k h a a₁ ds a'} : AllWs cc ws → Reads cc RT Mem lookup .nest s a [] a₁ →
      Reads cc RT Mem lookup (.head k) h a₁ ds a' →
      Reads cc RT Mem lookup (.head k) (ws ++ s ++ h) a ds a'
  | emptyNest {b e h a a'} : cc.isNestStart b.ch = true → cc.isNestEnd e.ch = true →
      Reads cc RT Mem lookup (.head false) h a [] a' →
      Reads cc RT Mem lookup .nest (b :: (h ++ [e])) a [.emptyNest] a'
  | combination {b e h k d sep r ds a a₁ a₁' a₂ a'} : cc.isNestStart b.ch = true →
      cc.isNestEnd e.ch = true → Reads cc RT Mem lookup (.head k) h a [d] a₁ → Sep cc k sep r →
      lookup d a₁ = (none, a₁') →
      Reads cc RT Mem lookup (.forms false false) r a₁' ds a₂ → Mem a₂ a' →
      Reads cc RT Mem lookup .nest (b :: (h ++ sep ++ r ++ [e])) a [.combination d (listOf ds)] a'
  /-- An applicative gets the datums of its operands. -/
  | applicative {b e h k d sep r ds a a₁ a₁' a₂ a' f o} : cc.isNestStart b.ch = true →
      cc.isNestEnd e.ch = true → Reads cc RT Mem lookup (.head k) h a [d] a₁ → Sep cc k sep r →
      lookup d a₁ = (some (.applicative f), a₁') →
      Reads cc RT Mem lookup (.forms false false) r a₁' ds a₂ →
      f d (listOf ds) a₂ = (.ok o, a') →
      Reads cc RT Mem lookup .nest (b :: (h ++ sep ++ r ++ [e])) a o.toList a'
  /-- An operative gets the raw text of its operands. -/
  | operative {b e h k d sep r c t a a₁ a₁' a₂ a' f o} : cc.isNestStart b.ch = true →
      cc.isNestEnd e.ch = true → Reads cc RT Mem lookup (.head k) h a [d] a₁ → Sep cc k sep r →
      lookup d a₁ = (some (.operative f), a₁') → RawOf cc r c → RT t c → Mem a₁' a₂ →
      f d t a₂ = (.ok o, a') →
      Reads cc RT Mem lookup .nest (b :: (h ++ sep ++ r ++ [e])) a o.toList a'

/-- The meaning of a whole source. -/
def Means (cc : Classifier) (RT : τ → List (Item P) → Prop) (Mem : α → α → Prop)
    (lookup : Datum τ ε → α → Option (Combiner τ ε α P CE) × α) (s : List (Item P)) (a : α)
    (ds : List (Datum τ ε)) (a' : α) : Prop :=
  Reads cc RT Mem lookup (.forms true false) s a ds a'

/-- `DanglingHead .. s a t a'`: the items `s`, where a head was expected, are a text `t` that ends
with an escape character which nothing follows; removed nests may come first. -/
inductive DanglingHead (cc : Classifier) (RT : τ → List (Item P) → Prop) (Mem : α → α → Prop)
    (lookup : Datum τ ε → α → Option (Combiner τ ε α P CE) × α) :
    List (Item P) → α → τ → α → Prop where
  | text {ws s c t x a a'} : AllWs cc ws → TextOf cc cc.headDelim s c → cc.isNestEscape x.ch = true →
      RT t c → Mem a a' → DanglingHead cc RT Mem lookup (ws ++ s ++ [x]) a t a'
  | removed {ws s h a a₁ t a'} : AllWs cc ws → Reads cc RT Mem lookup .nest s a [] a₁ →
      DanglingHead cc RT Mem lookup h a₁ t a' → DanglingHead cc RT Mem lookup (ws ++ s ++ h) a t a'

/-- As `Kul.Fails`, with bindings that may change.
`Fails .. cat s rest a ds e a'`: of the items `s ++ rest`, where a `cat` was expected,
`s` was read, starting in state `a`; the datums `ds` (of this category, if it is a sequence of
forms) were complete; then error `e` occurred, in state `a'`. `MF` are the errors of memory. -/
inductive Fails (cc : Classifier) (RT : τ → List (Item P) → Prop) (Mem : α → α → Prop)
    (MF : Err P CE → Prop) (lookup : Datum τ ε → α → Option (Combiner τ ε α P CE) × α) :
    Cat → List (Item P) → List (Item P) → α → List (Datum τ ε) → Err P CE → α → Prop where
  /-- A complete text comes first. -/
  | afterText {top s c t r rest a a₁ ds e a'} : s ≠ [] → TextOf cc cc.delim s c → RT t c → Mem a a₁ →
      Fails cc RT Mem MF lookup (.forms top true) r rest a₁ ds e a' →
      Fails cc RT Mem MF lookup (.forms top false) (s ++ r) rest a (.text t :: ds) e a'
  /-- A complete nest comes first. -/
  | afterForm {top b s d r rest a a₁ a₂ ds e a'} : Reads cc RT Mem lookup .nest s a [d] a₁ →
      Mem a₁ a₂ → Fails cc RT Mem MF lookup (.forms top false) r rest a₂ ds e a' →
      Fails cc RT Mem MF lookup (.forms top b) (s ++ r) rest a (d :: ds) e a'
  /-- A nest removed by its combiner comes first. -/
  | afterRemoved {top b s r rest a a₁ ds e a'} : Reads cc RT Mem lookup .nest s a [] a₁ →
      Fails cc RT Mem MF lookup (.forms top false) r rest a₁ ds e a' →
      Fails cc RT Mem MF lookup (.forms top b) (s ++ r) rest a ds e a'
  /-- A nest fails: its error is the error. -/
  | inNest {top b s rest a e a'} : Fails cc RT Mem MF lookup .nest s rest a [] e a' →
      Fails cc RT Mem MF lookup (.forms top b) s rest a [] e a'
  /-- An end delimiter at top level. -/
  | unbalanced {x rest a} : cc.isNestEnd x.ch = true →
      Fails cc RT Mem MF lookup (.forms true false) [x] rest a [] (.unbalancedEndChar x.pos) a
  /-- A text at top level directly before an end delimiter is lost. -/
  | textUnbalanced {s c x rest a a'} : s ≠ [] → TextOf cc cc.delim s c → cc.isNestEnd x.ch = true →
      Mem a a' →
      Fails cc RT Mem MF lookup (.forms true false) (s ++ [x]) rest a [] (.unbalancedEndChar x.pos) a'
  /-- The source ends inside a nest. -/
  | formsOpen {b a} : Fails cc RT Mem MF lookup (.forms false b) [] [] a [] .missingEndChar a
  | formsOpenEscape {s c t x a a'} : TextOf cc cc.delim s c → cc.isNestEscape x.ch = true → RT t c →
      Mem a a' →
      Fails cc RT Mem MF lookup (.forms false false) (s ++ [x]) [] a [.text t] .missingEndChar a'
  | textMemory {top s rest a e a'} : StartsText cc s → Mem a a' → MF e →
      Fails cc RT Mem MF lookup (.forms top false) s rest a [] e a'
  | formMemory {b s rest d a a₁ e a'} : Reads cc RT Mem lookup .nest s a [d] a₁ → Mem a₁ a' → MF e →
      Fails cc RT Mem MF lookup (.forms false b) s rest a [] e a'
  | headOpen {ws a} : AllWs cc ws → Fails cc RT Mem MF lookup (.head false) ws [] a [] .missingEndChar a
  | headNest {ws s rest a e a'} : AllWs cc ws → Fails cc RT Mem MF lookup .nest s rest a [] e a' →
      Fails cc RT Mem MF lookup (.head false) (ws ++ s) rest a [] e a'
  | headRemoved {ws s h rest a a₁ e a'} : AllWs cc ws → Reads cc RT Mem lookup .nest s a [] a₁ →
      Fails cc RT Mem MF lookup (.head false) h rest a₁ [] e a' →
      Fails cc RT Mem MF lookup (.head false) (ws ++ s ++ h) rest a [] e a'
  | headMemory {ws s rest a e a'} : AllWs cc ws → StartsText cc s → Mem a a' → MF e →
      Fails cc RT Mem MF lookup (.head false) (ws ++ s) rest a [] e a'
  /-- The head of a nest fails: nothing else of the nest is read and no combiner is called. -/
  | inHead {b h rest a e a'} : cc.isNestStart b.ch = true →
      Fails cc RT Mem MF lookup (.head false) h rest a [] e a' →
      Fails cc RT Mem MF lookup .nest (b :: h) rest a [] e a'
  /-- The source ends with an escape character in the head of a nest: the head, without it, is
  looked up, and nothing is called. -/
  | danglingHead {b h t a a₁ c a₁' e a'} : cc.isNestStart b.ch = true →
      DanglingHead cc RT Mem lookup h a t a₁ → lookup (.text t) a₁ = (c, a₁') → Mem a₁' a' →
      (e = .missingEndChar ∨ (MF e ∧ ∃ f, c = some (.operative f))) →
      Fails cc RT Mem MF lookup .nest (b :: h) [] a [] e a'
  /-- The operands of a nest fail: the combiner is not called. -/
  | inOperands {b h k d sep r rest ds a a₁ c a₁' e a'} : cc.isNestStart b.ch = true →
      Reads cc RT Mem lookup (.head k) h a [d] a₁ → Sep cc k sep r →
      lookup d a₁ = (c, a₁') → (∀ f, c ≠ some (.operative f)) →
      Fails cc RT Mem MF lookup (.forms false false) r rest a₁' ds e a' →
      Fails cc RT Mem MF lookup .nest (b :: (h ++ sep ++ r)) rest a [] e a'
  /-- The source ends inside the operands of an operative: it is not called. -/
  | rawOpen {b h k d sep r f a a₁ a₁' a'} : cc.isNestStart b.ch = true →
      Reads cc RT Mem lookup (.head k) h a [d] a₁ → Sep cc k sep r →
      lookup d a₁ = (some (.operative f), a₁') → NeverClosed cc r → Mem a₁' a' →
      Fails cc RT Mem MF lookup .nest (b :: (h ++ sep ++ r)) [] a [] .missingEndChar a'
  | rawMemory {b h k d r f rest a a₁ a₁' e a'} : cc.isNestStart b.ch = true →
      Reads cc RT Mem lookup (.head k) h a [d] a₁ → lookup d a₁ = (some (.operative f), a₁') →
      Mem a₁' a' → MF e →
      Fails cc RT Mem MF lookup .nest (b :: (h ++ r)) rest a [] e a'
  /-- The combiner fails: its error is the error. -/
  | operative {b x h k d sep r c t rest a a₁ a₁' a₂ e a' f} : cc.isNestStart b.ch = true →
      cc.isNestEnd x.ch = true → Reads cc RT Mem lookup (.head k) h a [d] a₁ → Sep cc k sep r →
      lookup d a₁ = (some (.operative f), a₁') → RawOf cc r c → RT t c → Mem a₁' a₂ →
      f d t a₂ = (.error e, a') →
      Fails cc RT Mem MF lookup .nest (b :: (h ++ sep ++ r ++ [x])) rest a [] e a'
  | applicative {b x h k d sep r ds rest a a₁ a₁' a₂ e a' f} : cc.isNestStart b.ch = true →
      cc.isNestEnd x.ch = true → Reads cc RT Mem lookup (.head k) h a [d] a₁ → Sep cc k sep r →
      lookup d a₁ = (some (.applicative f), a₁') →
      Reads cc RT Mem lookup (.forms false false) r a₁' ds a₂ →
      f d (listOf ds) a₂ = (.error e, a') →
      Fails cc RT Mem MF lookup .nest (b :: (h ++ sep ++ r ++ [x])) rest a [] e a'
  | combinationMemory {b x h k d sep r ds rest a a₁ a₁' a₂ e a'} : cc.isNestStart b.ch = true →
      cc.isNestEnd x.ch = true → Reads cc RT Mem lookup (.head k) h a [d] a₁ → Sep cc k sep r →
      lookup d a₁ = (none, a₁') →
      Reads cc RT Mem lookup (.forms false false) r a₁' ds a₂ → Mem a₂ a' → MF e →
      Fails cc RT Mem MF lookup .nest (b :: (h ++ sep ++ r ++ [x])) rest a [] e a'

/-- `Results .. s a l a'`: reading the source `s` in state `a` yields the items `l`, datums and
errors, and leaves state `a'`. -/
inductive Results (cc : Classifier) (RT : τ → List (Item P) → Prop) (Mem : α → α → Prop)
    (MF : Err P CE → Prop) (lookup : Datum τ ε → α → Option (Combiner τ ε α P CE) × α) :
    List (Item P) → α → List (Except (Err P CE) (Datum τ ε)) → α → Prop where
  /-- The whole source can be read. -/
  | all {s a ds a'} : Means cc RT Mem lookup s a ds a' →
      Results cc RT Mem MF lookup s a (ds.map .ok) a'
  /-- The part `s` can be read until an error; the part `rest` is then read afresh. -/
  | fails {s rest a ds e a₁ l a'} : Fails cc RT Mem MF lookup (.forms true false) s rest a ds e a₁ →
      Results cc RT Mem MF lookup rest a₁ l a' →
      Results cc RT Mem MF lookup (s ++ rest) a (ds.map .ok ++ .error e :: l) a'

/-- Bindings that do not change: what is looked up does not depend on the state, and
looking up leaves it alone. -/
def fixed (lookup : Datum τ ε → Option (Combiner τ ε α P CE)) (d : Datum τ ε) (a : α) :
    Option (Combiner τ ε α P CE) × α := (lookup d, a)

/-- Whatever the bindings have become, a combiner they give can return an error `e`. -/
def CombinerError (lookup : Datum τ ε → α → Option (Combiner τ ε α P CE) × α) (e : Err P CE) : Prop :=
  (∃ d a f t a', (lookup d a).1 = some (.operative f) ∧ (f d t a').1 = .error e) ∨
  (∃ d a f l a', (lookup d a).1 = some (.applicative f) ∧ (f d l a').1 = .error e)

/-- `n` grows by at most `p` when something is looked up, by at most `q` when a combiner is called,
and not otherwise. -/
structure Counts (X : TextSem P τ α) (al : AllocOps τ ε α)
    (lookup : Datum τ ε → α → Option (Combiner τ ε α P CE) × α) (p q : Nat) (n : α → Nat) : Prop where
  find : ∀ d a, n (lookup d a).2 ≤ n a + p
  operative : ∀ d a₀ f, (lookup d a₀).1 = some (.operative f) → ∀ t a, n (f d t a).2 ≤ n a + q
  applicative : ∀ d a₀ f, (lookup d a₀).1 = some (.applicative f) → ∀ l a, n (f d l a).2 ≤ n a + q
  text : ∀ a b, X.RA a b → n b ≤ n a
  alloc : ∀ d a, n (al.newDatum d a).2 ≤ n a

end Kul.Dyn
