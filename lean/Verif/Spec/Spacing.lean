import Verif.Spec.Grammar

/-! # Sources that differ in whitespace before heads -/

namespace Kul

variable {P : Type}

/-- The two sources are the same except for the amount of whitespace directly after
unescaped start delimiters. -/
inductive HeadSpaced (cc : Classifier) : List (Item P) → List (Item P) → Prop where
  | nil : HeadSpaced cc [] []
  | plain {it r r₂} : cc.isNestEscape it.ch = false → HeadSpaced cc r r₂ →
      HeadSpaced cc (it :: r) (it :: r₂)
  | escaped {e it r r₂} : cc.isNestEscape e.ch = true → HeadSpaced cc r r₂ →
      HeadSpaced cc (e :: it :: r) (e :: it :: r₂)
  | dangling {e} : cc.isNestEscape e.ch = true → HeadSpaced cc [e] [e]
  | start {b ws ws₂ r r₂} : cc.isNestStart b.ch = true → AllWs cc ws → AllWs cc ws₂ →
      HeadSpaced cc r r₂ → HeadSpaced cc (b :: (ws ++ r)) (b :: (ws₂ ++ r₂))

end Kul
