import Verif.Spec.Contract
import Verif.Proof.SimParser

/-!
# Big-step rules of the parser

`Eval j r a o r' a'`: doing job `j` with remaining items `r` and allocator state
`a` gives `o`, leaving `r'` and `a'`. The rules are derived from the parser model,
for any source that conforms to the sequence contract and any text type, and every
run of the parser model is proved to follow them (`Proof/EvalRun.lean`); they
serve as an induction principle.
-/

namespace Kul

variable {P τ ε α CE : Type}

/-- Outcome of collecting one text. -/
inductive TextRes (P : Type) where
  | ok (content rest : List (Item P))
  | missing
  | unbalanced (pos : P) (rest : List (Item P))
deriving DecidableEq, Repr

/-- Put an item in front of the content. -/
def TextRes.cons (it : Item P) : TextRes P → TextRes P
  | .ok c r => .ok (it :: c) r
  | .missing => .missing
  | .unbalanced p r => .unbalanced p r

/-- What `parse_text` does on a list; `top` says whether the nest depth is 0. -/
def scanText (cc : Classifier) (mode : Mode) (top : Bool) : Nat → List (Item P) → TextRes P
  | nl, [] => if nl = 0 then .ok [] [] else .missing
  | nl, it :: r =>
    if nl = 0 ∧ isEndChar cc mode it.ch then .ok [] (it :: r)
    else if cc.isNestEscape it.ch then
      match r with
      | [] => if nl = 0 then .ok [] [] else .missing
      | x :: r' => (scanText cc mode top nl r').cons x
    else if cc.isNestStart it.ch then (scanText cc mode top (nl + 1) r).cons it
    else if cc.isNestEnd it.ch then
      if nl > 0 then (scanText cc mode top (nl - 1) r).cons it
      else if top then .unbalanced it.pos r
      else .ok [] (it :: r)
    else (scanText cc mode top nl r).cons it

/-- Skipping of leading whitespace in operator position. -/
def lead (cc : Classifier) (mode : Mode) (r : List (Item P)) : List (Item P) :=
  if mode = .operator then r.dropWhile (fun it => cc.isWhitespace it.ch) else r

/-- Skipping of one whitespace character after the head. -/
def dropSep (cc : Classifier) : List (Item P) → List (Item P)
  | [] => []
  | it :: r => if cc.isWhitespace it.ch then r else it :: r

/-- `parse_text` on remaining items `r`: its result agrees with `scanText`, or the
allocation of the text failed. -/
def TextEv (cc : Classifier) (X : TextSem P τ α) (m : Mode) (top : Bool) (r : List (Item P)) (a : α)
    (o : Except (Err P CE) τ) (r' : List (Item P)) (a' : α) : Prop :=
  X.RA a a' ∧
  ((∃ t c, o = .ok t ∧ scanText cc m top 0 r = .ok c r' ∧ X.RT t c) ∨
   (o = .error .missingEndChar ∧ scanText cc m top 0 r = .missing ∧ r' = []) ∨
   (∃ p, o = .error (.unbalancedEndChar p) ∧ scanText cc m top 0 r = .unbalanced p r') ∨
   (X.F ∧ (∃ e, o = .error (.failedAlloc e)) ∧ r' <:+ r ∧ (r ≠ [] → r'.length < r.length)))

/-- The two allocations of one list cell, and the access through the fresh one. -/
def allocCell (al : AllocOps τ ε α) (d : Datum τ ε) (a : α) :
    Except (Err P CE) Unit × α :=
  match al.newDatum d a with
  | (.error e, a) => (.error (.failedAlloc e), a)
  | (.ok _, a) =>
    match al.newDatum .emptyList a with
    | (.error e, a) => (.error (.failedAlloc e), a)
    | (.ok _, a) => if al.getMutFresh a then (.ok (), a) else (.error .failedDerefTryMut, a)

/-- The two allocations of a combination. -/
def allocComb (al : AllocOps τ ε α) (d l : Datum τ ε) (a : α) :
    Except (Err P CE) (List (Datum τ ε)) × α :=
  match al.newDatum d a with
  | (.error e, a) => (.error (.failedAlloc e), a)
  | (.ok _, a) =>
    match al.newDatum l a with
    | (.error e, a) => (.error (.failedAlloc e), a)
    | (.ok _, a) => (.ok [.combination d l], a)

/-- An optional datum as a list of at most one. -/
def optRes {E A : Type} : Except E (Option A) → Except E (List A)
  | .ok o => .ok o.toList
  | .error e => .error e

/-- After the operands of a nest were parsed: the end is consumed and the nest is
combined. -/
def finishNest (al : AllocOps τ ε α)
    (comb : Option (Datum τ ε → Datum τ ε → α → Except (Err P CE) (Option (Datum τ ε)) × α))
    (h : Datum τ ε) (ds : List (Datum τ ε)) (r : List (Item P)) (a : α) :
    Except (Err P CE) (List (Datum τ ε)) × List (Item P) × α :=
  match r with
  | [] => (.error .missingEndChar, [], a)
  | _ :: r =>
    match comb with
    | some f => match f h (mkList ds) a with
      | (o, a') => (optRes o, r, a')
    | none => match allocComb al h (mkList ds) a with
      | (o, a') => (o, r, a')

/-- The whole treatment of the operands by an operative. -/
def OperEv (cc : Classifier) (X : TextSem P τ α)
    (f : Datum τ ε → τ → α → Except (Err P CE) (Option (Datum τ ε)) × α)
    (h : Datum τ ε) (r : List (Item P)) (a : α) (o : Except (Err P CE) (List (Datum τ ε)))
    (r' : List (Item P)) (a' : α) : Prop :=
  (∃ t e a1, TextEv (CE := CE) cc X .operands false r a (.ok t) (e :: r') a1 ∧
    o = optRes (f h t a1).1 ∧ a' = (f h t a1).2) ∨
  (∃ t, TextEv (CE := CE) cc X .operands false r a (.ok t) [] a' ∧ o = .error .missingEndChar ∧ r' = []) ∨
  (∃ e, TextEv cc X .operands false r a (.error e) r' a' ∧ o = .error e)

/-- The end of a nest without head. -/
def finishEmpty (r : List (Item P)) :
    Except (Err P CE) (List (Datum τ ε)) × List (Item P) :=
  match r with
  | [] => (.error .missingEndChar, [])
  | _ :: r => (.ok [.emptyNest], r)

/-- A text form as result. -/
def TextForm (cc : Classifier) (X : TextSem P τ α) (m : Mode) (top : Bool) (r : List (Item P)) (a : α)
    (o : Except (Err P CE) (List (Datum τ ε))) (r' : List (Item P)) (a' : α) : Prop :=
  (∃ t, TextEv (CE := CE) cc X m top r a (.ok t) r' a' ∧ o = .ok [.text t]) ∨
  (∃ e, TextEv cc X m top r a (.error e) r' a' ∧ o = .error e)

/-- An end character met where a form could start. -/
def endForm (d : Nat) (it : Item P) (r : List (Item P)) :
    Except (Err P CE) (List (Datum τ ε)) × List (Item P) :=
  if d = 0 then (.error (.unbalancedEndChar it.pos), r) else (.ok [], it :: r)

/-- The end of the source met where a form could start. -/
def eofForm (d : Nat) : Except (Err P CE) (List (Datum τ ε)) :=
  if d = 0 then .ok [] else .error .missingEndChar

/-- Jobs of the parser: `parse_next` in a mode at a depth, `parse_nested`,
`parse_all`. -/
inductive Job where
  | next (m : Mode) (d : Nat)
  | nested (d : Nat)
  | all (d : Nat)

/-- The applicative's function if the head is bound to one, nothing if unbound. -/
inductive ArgComb (lookup : Datum τ ε → Option (Combiner τ ε α P CE)) (h : Datum τ ε) :
    Option (Datum τ ε → Datum τ ε → α → Except (Err P CE) (Option (Datum τ ε)) × α) → Prop where
  | unbound : lookup h = none → ArgComb lookup h none
  | applicative {f} : lookup h = some (.applicative f) → ArgComb lookup h (some f)

variable (cc : Classifier) (X : TextSem P τ α) (al : AllocOps τ ε α)
  (lookup : Datum τ ε → Option (Combiner τ ε α P CE))

/-- The rules. -/
inductive Eval : Job → List (Item P) → α → Except (Err P CE) (List (Datum τ ε)) →
    List (Item P) → α → Prop where
  | next_eof {m d r a o} : lead cc m r = [] → eofForm d = o → Eval (.next m d) r a o [] a
  | next_nest {m d r a it r1 o r' a'} : lead cc m r = it :: r1 → cc.isNestStart it.ch = true →
      Eval (.nested (d + 1)) (it :: r1) a o r' a' → o ≠ .ok [] → Eval (.next m d) r a o r' a'
  | next_removed {m d r a it r1 r2 a2 o r' a'} : lead cc m r = it :: r1 →
      cc.isNestStart it.ch = true →
      Eval (.nested (d + 1)) (it :: r1) a (.ok []) r2 a2 → Eval (.next m d) r2 a2 o r' a' →
      Eval (.next m d) r a o r' a'
  | next_end {m d r a it r1 o r'} : lead cc m r = it :: r1 → cc.isNestStart it.ch = false →
      cc.isNestEnd it.ch = true → endForm d it r1 = (o, r') → Eval (.next m d) r a o r' a
  | next_text {m d r a it r1 o r' a'} : lead cc m r = it :: r1 → cc.isNestStart it.ch = false →
      cc.isNestEnd it.ch = false → TextForm cc X m (d == 0) (it :: r1) a o r' a' →
      Eval (.next m d) r a o r' a'
  | nested_head_err {d it r a e r' a'} : Eval (.next .operator d) r a (.error e) r' a' →
      Eval (.nested d) (it :: r) a (.error e) r' a'
  | nested_empty {d it r a r1 a1 o r'} : Eval (.next .operator d) r a (.ok []) r1 a1 →
      finishEmpty (dropSep cc r1) = (o, r') → Eval (.nested d) (it :: r) a o r' a1
  | nested_operative {d it r a h r1 a1 f o r' a'} : Eval (.next .operator d) r a (.ok [h]) r1 a1 →
      lookup h = some (.operative f) → OperEv cc X f h (dropSep cc r1) a1 o r' a' →
      Eval (.nested d) (it :: r) a o r' a'
  | nested_args_err {d it r a h r1 a1 c e r' a'} : Eval (.next .operator d) r a (.ok [h]) r1 a1 →
      ArgComb lookup h c → Eval (.all d) (dropSep cc r1) a1 (.error e) r' a' →
      Eval (.nested d) (it :: r) a (.error e) r' a'
  | nested_args {d it r a h r1 a1 c ds r2 a2 o r' a'} : Eval (.next .operator d) r a (.ok [h]) r1 a1 →
      ArgComb lookup h c → Eval (.all d) (dropSep cc r1) a1 (.ok ds) r2 a2 →
      finishNest al c h ds r2 a2 = (o, r', a') → Eval (.nested d) (it :: r) a o r' a'
  | all_err {d r a e r' a'} : Eval (.next .base d) r a (.error e) r' a' →
      Eval (.all d) r a (.error e) r' a'
  | all_nil {d r a r' a'} : Eval (.next .base d) r a (.ok []) r' a' →
      Eval (.all d) r a (.ok []) r' a'
  | all_alloc_err {d r a x r1 a1 e a2} : Eval (.next .base d) r a (.ok [x]) r1 a1 →
      allocCell al x a1 = (.error e, a2) → Eval (.all d) r a (.error e) r1 a2
  | all_cons_err {d r a x r1 a1 u a2 e r' a'} : Eval (.next .base d) r a (.ok [x]) r1 a1 →
      allocCell (P := P) (CE := CE) al x a1 = (.ok u, a2) → Eval (.all d) r1 a2 (.error e) r' a' →
      Eval (.all d) r a (.error e) r' a'
  | all_cons {d r a x r1 a1 u a2 ds r' a'} : Eval (.next .base d) r a (.ok [x]) r1 a1 →
      allocCell (P := P) (CE := CE) al x a1 = (.ok u, a2) → Eval (.all d) r1 a2 (.ok ds) r' a' →
      Eval (.all d) r a (.ok (x :: ds)) r' a'

end Kul
