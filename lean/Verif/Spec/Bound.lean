import Verif.Model.Api
import Verif.Spec.Contract
import Verif.Spec.Grammar

/-!
# Meaning of the notation with bindings

The grammar of `Spec/Grammar.lean` with operator bindings as semantic actions. A
nest whose head is bound means what its combiner returns; combiners may change a
state `α` (the allocator and anything else they can reach), so the order and number
of their calls is part of the meaning. `RT t c` says that text value `t` has the
content `c`; `Mem a a'` says how plain memory allocation may change the state
(`Eq` if it is not observed).
-/

namespace Kul

variable {P τ ε α CE : Type}

/-- `Reads .. cat s a ds a'`: the items `s` are written as `cat`; evaluated in state
`a` they mean the datums `ds` (none for a removed nest) and leave state `a'`. -/
inductive Reads (cc : Classifier) (RT : τ → List (Item P) → Prop) (Mem : α → α → Prop)
    (lookup : Datum τ ε → Option (Combiner τ ε α P CE)) :
    Cat → List (Item P) → α → List (Datum τ ε) → α → Prop where
  | nil {top b a} : Reads cc RT Mem lookup (.forms top b) [] a [] a
  | text {top s c t r a a₁ ds a'} : s ≠ [] → TextOf cc cc.delim s c → RT t c → Mem a a₁ →
      Reads cc RT Mem lookup (.forms top true) r a₁ ds a' →
      Reads cc RT Mem lookup (.forms top false) (s ++ r) a (.text t :: ds) a'
  | form {top b s d r a a₁ a₂ ds a'} : Reads cc RT Mem lookup .nest s a [d] a₁ → Mem a₁ a₂ →
      Reads cc RT Mem lookup (.forms top false) r a₂ ds a' →
      Reads cc RT Mem lookup (.forms top b) (s ++ r) a (d :: ds) a'
  /-- A nest removed by its combiner. -/
  | removed {top b s r a a₁ ds a'} : Reads cc RT Mem lookup .nest s a [] a₁ →
      Reads cc RT Mem lookup (.forms top false) r a₁ ds a' →
      Reads cc RT Mem lookup (.forms top b) (s ++ r) a ds a'
  | dangling {s c t e a a'} : TextOf cc cc.delim s c → cc.isNestEscape e.ch = true → RT t c →
      Mem a a' → Reads cc RT Mem lookup (.forms true false) (s ++ [e]) a [.text t] a'
  | noHead {ws a} : AllWs cc ws → Reads cc RT Mem lookup (.head false) ws a [] a
  | textHead {ws s c t a a'} : AllWs cc ws → s ≠ [] → TextOf cc cc.headDelim s c → RT t c →
      Mem a a' → Reads cc RT Mem lookup (.head true) (ws ++ s) a [.text t] a'
  | nestHead {ws s d a a'} : AllWs cc ws → Reads cc RT Mem lookup .nest s a [d] a' →
      Reads cc RT Mem lookup (.head false) (ws ++ s) a [d] a'
  | removedHead {ws s k h a a₁ ds a'} : AllWs cc ws → Reads cc RT Mem lookup .nest s a [] a₁ →
      Reads cc RT Mem lookup (.head k) h a₁ ds a' →
      Reads cc RT Mem lookup (.head k) (ws ++ s ++ h) a ds a'
  | emptyNest {b e h a a'} : cc.isNestStart b.ch = true → cc.isNestEnd e.ch = true →
      Reads cc RT Mem lookup (.head false) h a [] a' →
      Reads cc RT Mem lookup .nest (b :: (h ++ [e])) a [.emptyNest] a'
  | combination {b e h k d sep r ds a a₁ a₂ a'} : cc.isNestStart b.ch = true →
      cc.isNestEnd e.ch = true → Reads cc RT Mem lookup (.head k) h a [d] a₁ → Sep cc k sep r →
      lookup d = none → Reads cc RT Mem lookup (.forms false false) r a₁ ds a₂ → Mem a₂ a' →
      Reads cc RT Mem lookup .nest (b :: (h ++ sep ++ r ++ [e])) a [.combination d (listOf ds)] a'
  /-- An applicative gets the datums of its operands. -/
  | applicative {b e h k d sep r ds a a₁ a₂ a' f o} : cc.isNestStart b.ch = true →
      cc.isNestEnd e.ch = true → Reads cc RT Mem lookup (.head k) h a [d] a₁ → Sep cc k sep r →
      lookup d = some (.applicative f) → Reads cc RT Mem lookup (.forms false false) r a₁ ds a₂ →
      f d (listOf ds) a₂ = (.ok o, a') →
      Reads cc RT Mem lookup .nest (b :: (h ++ sep ++ r ++ [e])) a o.toList a'
  /-- An operative gets the raw text of its operands. -/
  | operative {b e h k d sep r c t a a₁ a₂ a' f o} : cc.isNestStart b.ch = true →
      cc.isNestEnd e.ch = true → Reads cc RT Mem lookup (.head k) h a [d] a₁ → Sep cc k sep r →
      lookup d = some (.operative f) → RawOf cc r c → RT t c → Mem a₁ a₂ →
      f d t a₂ = (.ok o, a') →
      Reads cc RT Mem lookup .nest (b :: (h ++ sep ++ r ++ [e])) a o.toList a'

/-- The meaning of a whole source. -/
def Means (cc : Classifier) (RT : τ → List (Item P) → Prop) (Mem : α → α → Prop)
    (lookup : Datum τ ε → Option (Combiner τ ε α P CE)) (s : List (Item P)) (a : α)
    (ds : List (Datum τ ε)) (a' : α) : Prop :=
  Reads cc RT Mem lookup (.forms true false) s a ds a'

variable {σ : Type}

/-- A call of the parser at a nest, when the combiner of the nest gives `o` and leaves the state
`a'`, and `rest` follows the nest: a datum or error of the combiner is the result and the parser is
at `rest`; if the combiner gave nothing, the call is the same as one at `rest`. -/
def CallGives (E : Env σ P τ ε α CE) (RS : σ → Seq P → Prop) (s : St σ α)
    (o : Except (Err P CE) (Option (Datum τ ε))) (a' : α) (rest : List (Item P)) : Prop :=
  ∃ s', AtItems RS s' rest ∧
    match o with
    | .ok (some d) => E.Call s (.ok (some d)) (St.init s' a')
    | .error e => E.Call s (.err e) (St.init s' a')
    | .ok none => ∀ x t, E.Call s x t ↔ E.Call (St.init s' a') x t

/-- The stream of plain items stands for its items. -/
abbrev SeqAt (s q : Seq P) : Prop := s = q

end Kul
