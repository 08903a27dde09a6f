import Verif.Model.Base

/-!
# Values that correspond to each other

Relations between the values of two parses that use different representations
(positions, text types, allocators). Specification only: with equality of
characters and positions, two related datums are the same tree with texts of the
same content.
-/

namespace Kul

/-- Two optional values are both absent or both present and related. -/
def OptRel {A B : Type} (R : A → B → Prop) : Option A → Option B → Prop
  | none, none => True
  | some a, some b => R a b
  | _, _ => False

/-- Items related by their characters and positions. -/
def ItemRel {P₁ P₂ : Type} (RC : Char → Char → Prop) (RP : P₁ → P₂ → Prop)
    (i : Item P₁) (j : Item P₂) : Prop := RC i.ch j.ch ∧ RP i.pos j.pos

/-- Two datums of the same tree shape with related texts and extras. -/
inductive DatumRel {τ₁ τ₂ ε₁ ε₂ : Type} (RT : τ₁ → τ₂ → Prop) (RX : ε₁ → ε₂ → Prop) :
    Datum τ₁ ε₁ → Datum τ₂ ε₂ → Prop where
  | text {t u} : RT t u → DatumRel RT RX (.text t) (.text u)
  | combination {a b c d} : DatumRel RT RX a c → DatumRel RT RX b d →
      DatumRel RT RX (.combination a b) (.combination c d)
  | emptyNest : DatumRel RT RX .emptyNest .emptyNest
  | list {a b c d} : DatumRel RT RX a c → DatumRel RT RX b d →
      DatumRel RT RX (.list a b) (.list c d)
  | emptyList : DatumRel RT RX .emptyList .emptyList
  | extra {x y} : RX x y → DatumRel RT RX (.extra x) (.extra y)

/-- Errors of the same kind with related payloads. -/
inductive ErrRel {P₁ P₂ CE₁ CE₂ : Type} (RP : P₁ → P₂ → Prop) (RE : CE₁ → CE₂ → Prop) :
    Err P₁ CE₁ → Err P₂ CE₂ → Prop where
  | unbalancedEndChar {p q} : RP p q → ErrRel RP RE (.unbalancedEndChar p) (.unbalancedEndChar q)
  | missingEndChar : ErrRel RP RE .missingEndChar .missingEndChar
  | failedAlloc (e) : ErrRel RP RE (.failedAlloc e) (.failedAlloc e)
  | failedDerefTryMut : ErrRel RP RE .failedDerefTryMut .failedDerefTryMut
  | failedCombiner {e f} : RE e f → ErrRel RP RE (.failedCombiner e) (.failedCombiner f)

/-- Results of two combiners: both succeed or both fail, with related payloads; if
`FailOk`, the first may instead run out of memory. -/
def ResRel {P₁ P₂ CE₁ CE₂ α₁ α₂ A B : Type}
    (RP : P₁ → P₂ → Prop) (RE : CE₁ → CE₂ → Prop) (RA : α₁ → α₂ → Prop) (FailOk : Prop)
    (RV : A → B → Prop)
    (x : Except (Err P₁ CE₁) A × α₁) (y : Except (Err P₂ CE₂) B × α₂) : Prop :=
  (∃ a b, x.1 = .ok a ∧ y.1 = .ok b ∧ RV a b ∧ RA x.2 y.2) ∨
  (∃ e f, x.1 = .error e ∧ y.1 = .error f ∧ ErrRel RP RE e f ∧ RA x.2 y.2) ∨
  (FailOk ∧ (∃ e, x.1 = .error (.failedAlloc e)) ∧ ∃ a, RA x.2 a)

/-- Combiners of the same kind that give related results on related arguments. -/
inductive CombinerRel {P₁ P₂ CE₁ CE₂ τ₁ τ₂ ε₁ ε₂ α₁ α₂ : Type}
    (RP : P₁ → P₂ → Prop) (RE : CE₁ → CE₂ → Prop) (RT : τ₁ → τ₂ → Prop) (RX : ε₁ → ε₂ → Prop)
    (RA : α₁ → α₂ → Prop) (FailOk : Prop) :
    Combiner τ₁ ε₁ α₁ P₁ CE₁ → Combiner τ₂ ε₂ α₂ P₂ CE₂ → Prop where
  | operative {f g} :
      (∀ d₁ d₂ t₁ t₂ a₁ a₂, DatumRel RT RX d₁ d₂ → RT t₁ t₂ → RA a₁ a₂ →
        ResRel RP RE RA FailOk (OptRel (DatumRel RT RX)) (f d₁ t₁ a₁) (g d₂ t₂ a₂)) →
      CombinerRel RP RE RT RX RA FailOk (.operative f) (.operative g)
  | applicative {f g} :
      (∀ d₁ d₂ t₁ t₂ a₁ a₂, DatumRel RT RX d₁ d₂ → DatumRel RT RX t₁ t₂ → RA a₁ a₂ →
        ResRel RP RE RA FailOk (OptRel (DatumRel RT RX)) (f d₁ t₁ a₁) (g d₂ t₂ a₂)) →
      CombinerRel RP RE RT RX RA FailOk (.applicative f) (.applicative g)

/-- Results of two corresponding calls of `next`. -/
inductive CallRel {P₁ P₂ CE₁ CE₂ A B : Type} (RP : P₁ → P₂ → Prop) (RE : CE₁ → CE₂ → Prop)
    (RD : A → B → Prop) :
    Outcome (Err P₁ CE₁) (Option A) → Outcome (Err P₂ CE₂) (Option B) → Prop where
  | none : CallRel RP RE RD (.ok none) (.ok none)
  | datum {a b} : RD a b → CallRel RP RE RD (.ok (some a)) (.ok (some b))
  | error {e f} : ErrRel RP RE e f → CallRel RP RE RD (.err e) (.err f)
  | panic : CallRel RP RE RD .panic .panic

/-- Corresponding items. -/
inductive ResultRel {P₁ P₂ CE₁ CE₂ A B : Type} (RP : P₁ → P₂ → Prop) (RE : CE₁ → CE₂ → Prop)
    (RD : A → B → Prop) : Except (Err P₁ CE₁) A → Except (Err P₂ CE₂) B → Prop where
  | datum {a b} : RD a b → ResultRel RP RE RD (.ok a) (.ok b)
  | error {e f} : ErrRel RP RE e f → ResultRel RP RE RD (.error e) (.error f)

end Kul
