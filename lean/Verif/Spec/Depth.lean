import Verif.Model.Stack

/-!
# How deeply a source nests

Specification only. A left-to-right scan that counts delimiters; the escape character
and the character after it are skipped. Nothing in `deepest` refers to the parser.
-/

namespace Kul

variable {σ P τ ε α CE : Type}

/-- The largest number of nests that are open at once while scanning, if `d` are open
before. An end delimiter that matches no start changes nothing. -/
def deepest (cc : Classifier) : Nat → List (Item P) → Nat
  | d, [] => d
  | d, it :: r =>
    if cc.isNestEscape it.ch then
      match r with
      | [] => d
      | _ :: r' => deepest cc d r'
    else if cc.isNestStart it.ch then deepest cc (d + 1) r
    else if cc.isNestEnd it.ch then max d (deepest cc (d - 1) r)
    else deepest cc d r

/-- The character `x` is none of escape, start, end and whitespace. -/
def Classifier.Ordinary (cc : Classifier) (x : Char) : Prop :=
  cc.isNestEscape x = false ∧ cc.isNestStart x = false ∧ cc.isNestEnd x = false ∧ cc.isWhitespace x = false

/-- `L` nests, each the operand of the one before, the last with an ordinary character as
operand: `{x {x {x x`, if `b` is `{` and `w` is a space. -/
def nestedOperands (b x w : Char) : Nat → List Char
  | 0 => [x]
  | L + 1 => b :: x :: w :: nestedOperands b x w L

/-- A call of the parser iterator's `next` in a program whose stack has room for `k`
frames of the parser's recursive functions and whose counters go up to `M`. -/
def Env.CallK (E : Env σ P τ ε α CE) (M k : Nat) (s : St σ α)
    (o : Outcome (Err P CE) (Option (Datum τ ε))) (s' : St σ α) : Prop :=
  ∃ n, E.doNextK M n k s = (o, s') ∧ o ≠ .fuel

/-- A history of such calls. -/
inductive Env.CallsK (E : Env σ P τ ε α CE) (M k : Nat) :
    St σ α → List (Outcome (Err P CE) (Option (Datum τ ε))) → St σ α → Prop where
  | nil {s} : CallsK E M k s [] s
  | cons {s o s' os s''} : E.CallK M k s o s' → CallsK E M k s' os s'' → CallsK E M k s (o :: os) s''

end Kul
