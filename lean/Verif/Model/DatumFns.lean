import Verif.Model.TextFns

/-!
# Comparing and hashing datums, comparing errors

Models `core/src/datum.rs` 18 (derived `Hash`), 55-93 (`PartialEq` between datums of any
two types), `core/src/error.rs` 32-55 (`PartialEq` between errors of any two types).
-/

namespace Kul

variable {τ τ' ε ε' P P' CE CE' H : Type}

/-- `core/src/datum.rs` 63-92 `PartialEq::eq` of `Datum`. The Rust function is a loop over
the two local variables `left` and `right`; a turn of the loop that goes on is a tail call
here. `teq` and `xeq` are the equalities of the texts and of the extras. Besides the
result, gives how deep the calls of `eq` were nested: a call inside the loop
(`**rnds1 == **rnds2`, `**e1 == **e2`) is one level deeper, another turn of the loop is
not. -/
def Datum.eqRun (teq : τ → τ' → Bool) (xeq : ε → ε' → Bool) : Datum τ ε → Datum τ' ε' → Bool × Nat
  | .text t, .text u => (teq t u, 1)
  | .combination rtr1 rnds1, .combination rtr2 rnds2 =>
    match eqRun teq xeq rnds1 rnds2 with
    | (true, n) =>
      match eqRun teq xeq rtr1 rtr2 with
      | (b, m) => (b, max (n + 1) m)
    | (false, n) => (false, n + 1)
  | .emptyNest, .emptyNest => (true, 1)
  | .list e1 n1, .list e2 n2 =>
    match eqRun teq xeq e1 e2 with
    | (true, n) =>
      match eqRun teq xeq n1 n2 with
      | (b, m) => (b, max (n + 1) m)
    | (false, n) => (false, n + 1)
  | .emptyList, .emptyList => (true, 1)
  | .extra x, .extra y => (xeq x y, 1)
  | _, _ => (false, 1)

/-- The result of `core/src/datum.rs` 63-92 `PartialEq::eq` of `Datum`. -/
def Datum.eqv (teq : τ → τ' → Bool) (xeq : ε → ε' → Bool) (d : Datum τ ε) (e : Datum τ' ε') : Bool :=
  (d.eqRun teq xeq e).1

/-- `core/src/datum.rs` 18: the derived `Hash` of `Datum`: the discriminant, then the
fields in order. The references' own `Hash` (`src/datum.rs` 22, 61, 93, derived;
`core/src/datum/premade/mutref.rs`) hashes the datum referred to. -/
def Datum.hash (W : HasherOps H) (th : τ → H → H) (xh : ε → H → H) : Datum τ ε → H → H
  | .text t, h => th t (W.writeIsize h 0)
  | .combination f a, h => hash W th xh a (hash W th xh f (W.writeIsize h 1))
  | .emptyNest, h => W.writeIsize h 2
  | .list e n, h => hash W th xh n (hash W th xh e (W.writeIsize h 3))
  | .emptyList, h => W.writeIsize h 4
  | .extra x, h => xh x (W.writeIsize h 5)

/-- The same, and how deep the calls of it were nested: a field that is a reference is hashed by a call inside the call,
also the rest of a list. -/
def Datum.hashRun (W : HasherOps H) (th : τ → H → H) (xh : ε → H → H) : Datum τ ε → H → H × Nat
  | .text t, h => (th t (W.writeIsize h 0), 1)
  | .combination f a, h =>
    match hashRun W th xh f (W.writeIsize h 1) with
    | (h, n) =>
      match hashRun W th xh a h with
      | (h, m) => (h, max (n + 1) (m + 1))
  | .emptyNest, h => (W.writeIsize h 2, 1)
  | .list e n, h =>
    match hashRun W th xh e (W.writeIsize h 3) with
    | (h, k) =>
      match hashRun W th xh n h with
      | (h, m) => (h, max (k + 1) (m + 1))
  | .emptyList, h => (W.writeIsize h 4, 1)
  | .extra x, h => (xh x (W.writeIsize h 5), 1)

/-- `core/src/error.rs` 36-55 `PartialEq::eq` of `Error`; `AllocError`'s is derived
(`core/src/parser.rs` 28). -/
def Err.eqv (peq : P → P' → Bool) (ceq : CE → CE' → Bool) : Err P CE → Err P' CE' → Bool
  | .unbalancedEndChar p, .unbalancedEndChar q => peq p q
  | .missingEndChar, .missingEndChar => true
  | .failedAlloc a, .failedAlloc b => a == b
  | .failedDerefTryMut, .failedDerefTryMut => true
  | .failedCombiner e, .failedCombiner f => ceq e f
  | _, _ => false

end Kul
