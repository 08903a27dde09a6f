import Verif.Model.Api

/-!
# Operators of combinations

Nothing here refers to the parser, but for `Env.unbound`.
-/

namespace Kul

/-- `OperatorIn h d`: somewhere in `d` there is a combination whose operator is `h`. -/
inductive OperatorIn {τ ε : Type} (h : Datum τ ε) : Datum τ ε → Prop where
  | here {l} : OperatorIn h (.combination h l)
  | operator {x l} : OperatorIn h x → OperatorIn h (.combination x l)
  | operands {x l} : OperatorIn h l → OperatorIn h (.combination x l)
  | element {x l} : OperatorIn h x → OperatorIn h (.list x l)
  | rest {x l} : OperatorIn h l → OperatorIn h (.list x l)

variable {σ P τ ε α CE : Type}

/-- The same parser without bindings. -/
def Env.unbound (E : Env σ P τ ε α CE) : Env σ P τ ε α CE := { E with lookup := fun _ => none }

end Kul
