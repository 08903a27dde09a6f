import Verif.Spec.Shape
import Verif.Spec.Provided

/-!
# Formatting a source

Specification only.
-/

namespace Kul

variable {σ P τ ε α CE σ₁ σ₂ P₁ P₂ τ₁ τ₂ α₁ α₂ : Type}

/-- The datums `ds`, whose texts `X` explains, are written out as `out`. -/
def PrintsAs (X : TextSem P τ α) {cc : Classifier} (w : Pens cc) (ds : List (Datum τ ε)) (out : List Char) : Prop :=
  ∃ ds' : List (Datum (List Char) ε), List.Forall₂ (DatumRel X.HasChars Eq) ds ds' ∧ out = writeSource w ds'

/-- The parse of the source is without error, and what it gave is written out as `out`. -/
def Formats (E : Env σ P τ ε α CE) (X : TextSem P τ α) {cc : Classifier} (w : Pens cc) (s : σ) (out : List Char) : Prop :=
  ∃ a ds t, E.Yields (St.init s a) (ds.map .ok) t ∧ PrintsAs X w ds out

/-- The datums of two parses are the same, text for text and character for character. -/
def SameForms (X₁ : TextSem P₁ τ₁ α₁) (X₂ : TextSem P₂ τ₂ α₂) (ds₁ : List (Datum τ₁ ε)) (ds₂ : List (Datum τ₂ ε)) : Prop :=
  ∃ ds' : List (Datum (List Char) ε), List.Forall₂ (DatumRel X₁.HasChars Eq) ds₁ ds' ∧
    List.Forall₂ (DatumRel X₂.HasChars Eq) ds₂ ds'

end Kul
