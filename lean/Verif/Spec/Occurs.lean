import Verif.Model.Base

/-! # Texts that occur in a datum -/

namespace Kul

/-- Text `t` occurs somewhere in the datum. -/
inductive Datum.Occurs {τ ε : Type} (t : τ) : Datum τ ε → Prop where
  | text : Occurs t (.text t)
  | operator {a b} : Occurs t a → Occurs t (.combination a b)
  | operands {a b} : Occurs t b → Occurs t (.combination a b)
  | elem {a b} : Occurs t a → Occurs t (.list a b)
  | next {a b} : Occurs t b → Occurs t (.list a b)

end Kul
