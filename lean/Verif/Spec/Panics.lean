import Verif.Model.Panics
import Verif.Spec.Results

/-!
# What a panic of the user's code leaves, and what comes after it

Specification only.
-/

namespace Kul

variable {σ P τ ε α CE : Type}

/-- A parser some function of which panics in some state. -/
def PEnv.MayPanic (U : PEnv σ P τ ε α CE) : Prop :=
  (∃ c s a, U.strmPanics c s a ≠ none) ∨ ∃ c a, U.panics c a ≠ none

/-- The stream and the allocator are as a function of the user's that panicked has left them: a
method of the stream, or another function, which has access to the allocator only. -/
def PEnv.LeftByPanic (U : PEnv σ P τ ε α CE) (s' : σ) (a' : α) : Prop :=
  (∃ c s a, U.strmPanics c s a = some (s', a')) ∨ ∃ c a, U.panics c a = some a'

/-- `I` is kept by everything that the parser calls, whether it returns or panics. -/
structure PEnv.KeptBy (U : PEnv σ P τ ε α CE) (I : σ → α → Prop) : Prop where
  peek : ∀ s a, I s a → I (U.env.strm.peek s).2 a
  next : ∀ s a, I s a → I (U.env.strm.next s).2 a
  nextAccum : ∀ s a, I s a → I (U.env.strm.nextAccum s a).2.1 (U.env.strm.nextAccum s a).2.2
  accumDone : ∀ s a, I s a → I (U.env.strm.accumDone s a).2.1 (U.env.strm.accumDone s a).2.2
  concat : ∀ t u s a, I s a → I s (U.env.text.concat t u a).2
  newDatum : ∀ d s a, I s a → I s (U.env.alloc.newDatum d a).2
  operative : ∀ d f, U.env.lookup d = some (.operative f) → ∀ t s a, I s a → I s (f d t a).2
  applicative : ∀ d f, U.env.lookup d = some (.applicative f) → ∀ l s a, I s a → I s (f d l a).2
  strmPanics : ∀ c s a s' a', I s a → U.strmPanics c s a = some (s', a') → I s' a'
  panics : ∀ c s a a', I s a → U.panics c a = some a' → I s a'

/-- A method of the stream that panics leaves a stream in order: it still stands for a
sequence, from which at most some more items at the front are gone. The items accumulated
may be gone as well, or be fewer. -/
def PEnv.StreamsInOrder (U : PEnv σ P τ ε α CE) (RS : σ → Seq P → Prop) : Prop :=
  ∀ c s a s' a' q, RS s q → U.strmPanics c s a = some (s', a') →
    ∃ before p r, q.pending ++ q.rest = before ++ p ++ r ∧ RS s' ⟨p, r⟩

/-- `Resumed .. left rest a l a'`: reading the items `rest` in state `a`, while the stream has
the items `left` accumulated by a call that panicked, yields `l` and leaves state `a'`. -/
inductive Resumed (cc : Classifier) (RT : τ → List (Item P) → Prop) (Mem : α → α → Prop)
    (MF : Err P CE → Prop) (lookup : Datum τ ε → Option (Combiner τ ε α P CE)) :
    List (Item P) → List (Item P) → α → List (Except (Err P CE) (Datum τ ε)) → α → Prop where
  /-- Nothing is left, or the source is at its end or at a delimiter: what is left is
  dropped and the source has its usual meaning. -/
  | dropped {left rest a l a'} : left = [] ∨ ¬ StartsText cc rest →
      Results cc RT Mem MF lookup rest a l a' → Resumed cc RT Mem MF lookup left rest a l a'
  /-- A text follows: it is given with what is left in front of it. -/
  | joined {left s c t rest a a₁ l a'} : s ≠ [] → TextOf cc cc.delim s c → RT t (left ++ c) → Mem a a₁ →
      (rest = [] ∨ ∃ x r, rest = x :: r ∧ cc.isNestStart x.ch = true) →
      Results cc RT Mem MF lookup rest a₁ l a' →
      Resumed cc RT Mem MF lookup left (s ++ rest) a (.ok (.text t) :: l) a'
  /-- The same for a text that the source ends after an escape. -/
  | joinedEscape {left s c t x a a'} : TextOf cc cc.delim s c → cc.isNestEscape x.ch = true →
      RT t (left ++ c) → Mem a a' →
      Resumed cc RT Mem MF lookup left (s ++ [x]) a [.ok (.text t)] a'
  /-- A text follows that is lost to an unmatched end delimiter: so is what is left. -/
  | stray {left s c x rest a a₁ l a'} : s ≠ [] → TextOf cc cc.delim s c → cc.isNestEnd x.ch = true →
      Mem a a₁ → Results cc RT Mem MF lookup rest a₁ l a' →
      Resumed cc RT Mem MF lookup left (s ++ x :: rest) a (.error (.unbalancedEndChar x.pos) :: l) a'
  /-- A text follows and memory runs out in it. -/
  | memory {left s rest e a a₁ l a'} : StartsText cc (s ++ rest) → MF e → Mem a a₁ →
      Results cc RT Mem MF lookup rest a₁ l a' →
      Resumed cc RT Mem MF lookup left (s ++ rest) a (.error e :: l) a'

end Kul
