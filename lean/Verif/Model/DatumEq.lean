import Verif.Model.DatumFns
import Verif.Model.MemParser

/-!
# Comparing datums, step by step

`core/src/datum.rs` 63-92 again, with comparisons of texts and extras that are any code of the user's: they are actions of a
monad, so they may change a state, panic or not return. Each turn of the loop performs `turn`, so that turns can be
counted.
-/

namespace Kul

variable {τ τ' ε ε' : Type} {M : Type → Type} [Monad M]

/-- `core/src/datum.rs` 63-92 `PartialEq::eq` of `Datum`. -/
def Datum.eqM (turn : M Unit) (teq : τ → τ' → M Bool) (xeq : ε → ε' → M Bool) : Datum τ ε → Datum τ' ε' → M Bool
  | .text t, .text u => do turn; teq t u
  | .combination rtr1 rnds1, .combination rtr2 rnds2 => do
    turn
    if ← eqM turn teq xeq rnds1 rnds2 then eqM turn teq xeq rtr1 rtr2 else pure false
  | .emptyNest, .emptyNest => do turn; pure true
  | .list e1 n1, .list e2 n2 => do
    turn
    if ← eqM turn teq xeq e1 e2 then eqM turn teq xeq n1 n2 else pure false
  | .emptyList, .emptyList => do turn; pure true
  | .extra x, .extra y => do turn; xeq x y
  | _, _ => do turn; pure false

/-- The same function on datums in memory: `**rnds1` etc. (73, 80) are what is at the addresses. The two may be in
different memories, as the types of references may be different. `bad` is for references that lead nowhere or that form a cycle, which safe
Rust does not have. The first number bounds how many references are followed in a row. -/
def Mem.Dat.eqIn (turn : M Unit) (teq : τ → τ' → M Bool) (xeq : ε → ε' → M Bool) (bad : M Bool)
    (m : Mem.Addr → Option (Mem.Dat τ ε)) (m' : Mem.Addr → Option (Mem.Dat τ' ε')) : Nat → Mem.Dat τ ε → Mem.Dat τ' ε' → M Bool
  | 0, _, _ => bad
  | _ + 1, .text t, .text u => do turn; teq t u
  | n + 1, .combination rtr1 rnds1, .combination rtr2 rnds2 => do
    turn
    match m rnds1, m' rnds2 with
    | some d, some e =>
      if ← eqIn turn teq xeq bad m m' n d e then
        match m rtr1, m' rtr2 with
        | some d, some e => eqIn turn teq xeq bad m m' n d e
        | _, _ => bad
      else pure false
    | _, _ => bad
  | _ + 1, .emptyNest, .emptyNest => do turn; pure true
  | n + 1, .list e1 n1, .list e2 n2 => do
    turn
    match m e1, m' e2 with
    | some d, some e =>
      if ← eqIn turn teq xeq bad m m' n d e then
        match m n1, m' n2 with
        | some d, some e => eqIn turn teq xeq bad m m' n d e
        | _, _ => bad
      else pure false
    | _, _ => bad
  | _ + 1, .emptyList, .emptyList => do turn; pure true
  | _ + 1, .extra x, .extra y => do turn; xeq x y
  | _ + 1, _, _ => do turn; pure false

end Kul
