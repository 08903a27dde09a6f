import Verif.Model.LiveStrish
import Verif.Model.Live

/-!
# What iterators give

Used to state C54.
-/

namespace Kul

variable {I A : Type}

/-- From state `i` the iterator gives the items `l`, one after the other and without a `None`
among them, and is then in state `j`. -/
inductive Gives (M : Machine I A) : I → List A → I → Prop where
  | nil {i} : Gives M i [] i
  | cons {i c i' l j} : M i = (some c, i') → Gives M i' l j → Gives M i (c :: l) j

/-- The state of the iterator after `n` calls of its `next`. -/
def after (M : Machine I A) : Nat → I → I
  | 0, i => i
  | n + 1, i => after M n (M i).2

/-- The iterator is at its end: it gives only `None` from now on. -/
def Ended (M : Machine I A) (i : I) : Prop := ∀ n, (M (after M n i)).1 = none

/-- The iterator never ends. -/
def Endless (M : Machine I A) (i : I) : Prop := ∀ n, (M (after M n i)).1 ≠ none

/-- The iterator is fused: once it has given `None`, it gives only `None`. -/
def Fused (M : Machine I A) : Prop := ∀ i, (M i).1 = none → Ended M (M i).2

/-- The same iterator with a record of its answers so far. -/
def recorded (M : Machine I A) : Machine (I × List (Option A)) A := fun (i, g) =>
  ((M i).1, ((M i).2, g ++ [(M i).1]))

/-- How many characters the answers of an iterator of strings have. -/
def charsIn (g : List (Option Str)) : Nat := (g.map fun a => (a.getD []).length).sum

/-- How many characters have been taken out of the iterator and are yet unread (0 or 1). -/
def LiveChar.held {I : Type} (it : LiveChar I) : Nat :=
  match it.peIter.peeked with
  | some (some _) => 1
  | _ => 0

variable {τ : Type}

/-- The strings asked for, from the first one to the last, in the order of the answers. -/
abbrev LiveStrish.asked (it : LiveStrish (I × List (Option Str)) τ) : List (Option Str) := it.strishIter.2

end Kul
