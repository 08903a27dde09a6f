import Verif.Model.Base

/-! # Allocators that do not fail -/

namespace Kul

/-- Allocation never fails, and a reference just made can be written through. -/
structure AllocOps.Reliable {τ ε α : Type} (al : AllocOps τ ε α) : Prop where
  newDatum : ∀ d a, ∃ a', al.newDatum d a = (.ok (), a') ∧ al.getMutFresh a' = true

end Kul
