import Verif.Spec.Contract
import Verif.Spec.Related
import Mathlib.Data.List.Forall2

/-!
# Parsers that agree

Two parsers with different positions, text types, allocators and extras, whose
classifiers, allocators and combiners treat corresponding values alike.
-/

namespace Kul

variable {σ₁ P₁ τ₁ ε₁ α₁ CE₁ σ₂ P₂ τ₂ ε₂ α₂ CE₂ : Type}

/-- Texts with corresponding contents. -/
def SameText (X₁ : TextSem P₁ τ₁ α₁) (X₂ : TextSem P₂ τ₂ α₂)
    (RI : Item P₁ → Item P₂ → Prop) (t : τ₁) (u : τ₂) : Prop :=
  ∃ c e, X₁.RT t c ∧ X₂.RT u e ∧ List.Forall₂ RI c e

/-- Two allocators correspond: on corresponding datums both succeed (and
the new references can or cannot be written through alike) or both fail,
or (if `FailOk`) the first may fail. -/
structure AllocSim (RT : τ₁ → τ₂ → Prop) (RX : ε₁ → ε₂ → Prop) (RA : α₁ → α₂ → Prop) (FailOk : Prop)
    (al₁ : AllocOps τ₁ ε₁ α₁) (al₂ : AllocOps τ₂ ε₂ α₂) : Prop where
  newDatum : ∀ d₁ d₂ a b, DatumRel RT RX d₁ d₂ → RA a b →
    (∃ a' b', al₁.newDatum d₁ a = (.ok (), a') ∧ al₂.newDatum d₂ b = (.ok (), b') ∧ RA a' b' ∧
      al₁.getMutFresh a' = al₂.getMutFresh b') ∨
    (∃ e a' b', al₁.newDatum d₁ a = (.error e, a') ∧ al₂.newDatum d₂ b = (.error e, b') ∧ RA a' b') ∨
    (FailOk ∧ ∃ e a' b', al₁.newDatum d₁ a = (.error e, a') ∧ RA a' b')

/-- Classifiers that agree on corresponding characters. -/
structure ClassifierSim (RC : Char → Char → Prop) (cc₁ cc₂ : Classifier) : Prop where
  start : ∀ c d, RC c d → cc₁.isNestStart c = cc₂.isNestStart d
  fin : ∀ c d, RC c d → cc₁.isNestEnd c = cc₂.isNestEnd d
  esc : ∀ c d, RC c d → cc₁.isNestEscape c = cc₂.isNestEscape d
  ws : ∀ c d, RC c d → cc₁.isWhitespace c = cc₂.isWhitespace d

/-- The two parsers agree. `RC`, `RP`, `RX`, `RA`, `RE` say which characters, positions,
extras, allocator states and combiner errors correspond; texts correspond if their items do.
With `FailOk`, the first may run out of memory where the second does not. -/
structure Agree (RC : Char → Char → Prop) (RP : P₁ → P₂ → Prop) (RX : ε₁ → ε₂ → Prop)
    (RA : α₁ → α₂ → Prop) (RE : CE₁ → CE₂ → Prop) (FailOk : Prop)
    (E₁ : Env σ₁ P₁ τ₁ ε₁ α₁ CE₁) (X₁ : TextSem P₁ τ₁ α₁)
    (E₂ : Env σ₂ P₂ τ₂ ε₂ α₂ CE₂) (X₂ : TextSem P₂ τ₂ α₂) : Prop where
  cc : ClassifierSim RC E₁.cc E₂.cc
  fail₁ : X₁.F → FailOk
  fail₂ : ¬ X₂.F
  mem : ∀ a a' b b', X₁.RA a a' → X₂.RA b b' → RA a b → RA a' b'
  alloc : AllocSim (SameText X₁ X₂ (ItemRel RC RP)) RX RA FailOk E₁.alloc E₂.alloc
  lookup : ∀ d₁ d₂, DatumRel (SameText X₁ X₂ (ItemRel RC RP)) RX d₁ d₂ →
    OptRel (CombinerRel RP RE (SameText X₁ X₂ (ItemRel RC RP)) RX RA FailOk)
      (E₁.lookup d₁) (E₂.lookup d₂)

/-- The two parses are at corresponding places: corresponding items are yet to come (and
accumulated), and the memories correspond. -/
def AtSame (RS₁ : σ₁ → Seq P₁ → Prop) (RS₂ : σ₂ → Seq P₂ → Prop) (RI : Item P₁ → Item P₂ → Prop)
    (RA : α₁ → α₂ → Prop) (s : St σ₁ α₁) (t : St σ₂ α₂) : Prop :=
  ∃ p r p' r', RS₁ s.strm ⟨p, r⟩ ∧ RS₂ t.strm ⟨p', r'⟩ ∧ List.Forall₂ RI p p' ∧ List.Forall₂ RI r r' ∧
    RA s.alloc t.alloc ∧ s.ndepth = t.ndepth

end Kul
