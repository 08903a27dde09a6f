import Verif.Model.Streams
import Verif.Spec.Chunk
import Verif.Spec.Contract
import Mathlib.Data.List.Forall2

/-!
# What a text means

A text stands for the concatenation of the items of its chunks. The contract of
text types against lists of items. Specification only.
-/

namespace Kul

variable {C CS P τ α : Type}

/-- Text `t` stands for the items `l`: iterating its chunks does not panic, and `l`
is the concatenation of the items of the chunks. -/
def TextType.Means (T : TextType C τ α) (RC : C → List (Item P) → Prop) (t : τ)
    (l : List (Item P)) : Prop :=
  ∃ cs ls, T.chunks t = .ok cs ∧ List.Forall₂ RC cs ls ∧ l = ls.flatten

/-- The meaning of a text type. -/
def TextType.sem (T : TextType C τ α) (RC : C → List (Item P) → Prop) (RA : α → α → Prop) (F : Prop) :
    TextSem P τ α := ⟨T.Means RC, RA, F⟩

/-- The contract of a text type. -/
structure TextConf (T : TextType C τ α) (RC : C → List (Item P) → Prop) (RA : α → α → Prop)
    (F : Prop) : Prop where
  refl : ∀ a, RA a a
  trans : ∀ a b c, RA a b → RA b c → RA a c
  ofChunk : ∀ c l, RC c l → T.Means RC (T.ofChunk c) l
  empty : T.Means RC T.empty []
  concat : ∀ t u c e a, T.Means RC t c → T.Means RC u e → ∃ o a', T.concat t u a = (o, a') ∧ RA a a' ∧
    ((∃ v, o = .ok v ∧ T.Means RC v (c ++ e)) ∨ (F ∧ c ≠ [] ∧ e ≠ [] ∧ ∃ x, o = .err x))

/-- The allocator went from `a` to `a'` by calls of `new_datum` only. -/
inductive AllocOps.Steps {τ ε α : Type} (al : AllocOps τ ε α) : α → α → Prop where
  | refl {a} : Steps al a a
  | step {a d a'} : Steps al (al.newDatum d a).2 a' → Steps al a a'

/-- The allocator can fail at all. -/
def AllocOps.CanFail {τ ε α : Type} (al : AllocOps τ ε α) : Prop :=
  ∃ d a e a', al.newDatum d a = (.error e, a')

theorem AllocOps.Steps.trans {τ ε α : Type} {al : AllocOps τ ε α} {a b c : α} (h : al.Steps a b)
    (h' : al.Steps b c) : al.Steps a c := by
  induction h with
  | refl => exact h'
  | step _ ih => exact .step (ih h')

end Kul
