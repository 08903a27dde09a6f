import Verif.Spec.Failing

/-!
# Everything a source yields

The meaning of a whole source, well-formed or not: the datums of its forms up to the first
failure, the error, and then whatever the part of the source not yet read yields. Puts
`Spec/Bound.lean` and `Spec/Failing.lean` together. Specification only.
-/

namespace Kul

variable {P τ ε α CE : Type}

/-- `Results .. s a l a'`: reading the source `s` in state `a` yields the items `l`, datums and
errors, and leaves state `a'`. -/
inductive Results (cc : Classifier) (RT : τ → List (Item P) → Prop) (Mem : α → α → Prop)
    (MF : Err P CE → Prop) (lookup : Datum τ ε → Option (Combiner τ ε α P CE)) :
    List (Item P) → α → List (Except (Err P CE) (Datum τ ε)) → α → Prop where
  /-- The whole source can be read. -/
  | all {s a ds a'} : Means cc RT Mem lookup s a ds a' →
      Results cc RT Mem MF lookup s a (ds.map .ok) a'
  /-- The part `s` can be read until an error; the part `rest` is then read afresh. -/
  | fails {s rest a ds e a₁ l a'} : Fails cc RT Mem MF lookup (.forms true false) s rest a ds e a₁ →
      Results cc RT Mem MF lookup rest a₁ l a' →
      Results cc RT Mem MF lookup (s ++ rest) a (ds.map .ok ++ .error e :: l) a'

/-- A source without bindings: `ds` are the forms before the first failure. -/
inductive PlainResults {ε : Type} (cc : Classifier) :
    List (Item P) → List (Except (Err P CE) (Datum (List (Item P)) ε)) → Prop where
  /-- The whole source is written in the grammar. -/
  | all {s ds} : Written cc s ds → PlainResults cc s (ds.map .ok)
  /-- An end delimiter that matches no start: it is reported and the rest of the source is read
  afresh. A text directly before it is lost. -/
  | stray {s t c x rest ds l} : Gram cc (.forms false false) s ds → (∀ u, ds.getLast? ≠ some (.text u)) →
      TextOf cc cc.delim t c → cc.isNestEnd x.ch = true → PlainResults cc rest l →
      PlainResults cc (s ++ t ++ x :: rest) (ds.map .ok ++ .error (.unbalancedEndChar x.pos) :: l)
  /-- A start delimiter that is never matched, that is to say, what follows it has no unmatched
  end delimiter: nothing else is yielded. -/
  | unclosed {s x rest k ds} : Gram cc (.forms false false) s ds → cc.isNestStart x.ch = true →
      balance cc 0 rest = .opened k →
      PlainResults cc (s ++ x :: rest) (ds.map .ok ++ [.error .missingEndChar])

end Kul
