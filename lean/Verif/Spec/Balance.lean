import Verif.Model.Base

/-!
# Balance of nest delimiters

A left-to-right scan that counts delimiters; the escape character and the character
after it are skipped. Nothing here refers to the parser.
-/

namespace Kul

variable {P τ ε α CE : Type}

/-- How a scan ends: at an end delimiter that matches no start (with what follows
it), or at the end of the source with `n` starts unmatched. -/
inductive Balance (P : Type) where
  | unmatched (it : Item P) (after : List (Item P))
  | opened (n : Nat)
deriving DecidableEq, Repr

/-- Scan inside `d` open nests. -/
def balance (cc : Classifier) : Nat → List (Item P) → Balance P
  | d, [] => .opened d
  | d, it :: r =>
    if cc.isNestEscape it.ch then
      match r with
      | [] => .opened d
      | _ :: r' => balance cc d r'
    else if cc.isNestStart it.ch then balance cc (d + 1) r
    else if cc.isNestEnd it.ch then
      match d with
      | 0 => .unmatched it r
      | d + 1 => balance cc d r
    else balance cc d r

/-- A source is balanced: nothing unmatched, nothing left open. -/
def Balanced (cc : Classifier) (r : List (Item P)) : Prop := balance cc 0 r = .opened 0

/-- Errors that a combiner returns. -/
def CombinerError (lookup : Datum τ ε → Option (Combiner τ ε α P CE)) (e : Err P CE) : Prop :=
  (∃ h f t a a', lookup h = some (.operative f) ∧ f h t a = (.error e, a')) ∨
  (∃ h f l a a', lookup h = some (.applicative f) ∧ f h l a = (.error e, a'))

/-- Errors of memory: allocation fails only if a text operation (`F`) or `new_datum`
can fail; `FailedDerefTryMut` only if a reference just made cannot be written through. -/
def MemoryError (F : Prop) (al : AllocOps τ ε α) (e : Err P CE) : Prop :=
  ((∃ x, e = .failedAlloc x) ∧ (F ∨ ∃ d a x a', al.newDatum d a = (.error x, a'))) ∨
  (e = .failedDerefTryMut ∧ ∃ d a a', al.newDatum d a = (.ok (), a') ∧ al.getMutFresh a' = false)

end Kul
