import Verif.Spec.MemParser
import Verif.Model.MemAlloc
import Verif.Model.RcHeap
import Mathlib.Data.List.Forall2

/-! # What a user sees of memory -/

namespace Kul.Mem

variable {σ P τ ε α CE : Type}

/-- The result of a call, and the result of the same call by value, but for the datum: both are `None`, both are
datums, or both are the same error. -/
inductive Alike : Outcome (Err P CE) (Option (Dat τ ε)) → Outcome (Err P CE) (Option (Datum τ ε)) → Prop where
  | none : Alike (.ok none) (.ok none)
  | datum {d D} : Alike (.ok (some d)) (.ok (some D))
  | error {e} : Alike (.err e) (.err e)

/-- Whatever the user of parser `E` does, starting in state `s₀`: `V`, which is the same parser by value, gives the same
results, starting in state `t₀`, when it is called as often; and any datum or clone that the user holds still reads
back, by following its references in memory as it is then, as the datum that the same call of `V` gave. -/
def ReadBack {β : Type} (E : Env σ P τ ε α CE) (V : Kul.Env σ P τ ε β CE) (s₀ : St σ α) (t₀ : St σ β) : Prop :=
  ∀ os held s, E.Uses true s₀ os held s → ∃ os' t, V.Calls t₀ os' t ∧ List.Forall₂ Alike os os' ∧
    ∀ i d, (i, d) ∈ held → ∃ D, os'[i]? = some (.ok (some D)) ∧ Reads (E.alloc.read s.alloc) d D

/-- Whatever the user of parser `E` did, another call of `next` returns, without panic. -/
def GoesOn (E : Env σ P τ ε α CE) (s₀ : St σ α) : Prop :=
  ∀ os held s, E.Uses true s₀ os held s → ∃ o s', E.Call s o s' ∧ o ≠ .panic

/-- An allocation that can be reached from the datums `ds` by following references. -/
inductive Heap.Reach (h : Heap τ ε) (ds : List (Dat τ ε)) : Addr → Prop where
  | root {d p} : d ∈ ds → p ∈ d.refs → Reach h ds p
  | ref {p c q} : Reach h ds p → h.cells p = some c → q ∈ c.dat.refs → Reach h ds q

/-- The number of references to `p` in the allocation `k`. -/
def Heap.refsFrom (h : Heap τ ε) (k p : Addr) : Nat :=
  match h.cells k with
  | some c => c.dat.refs.count p
  | none => 0

/-- The number of references to `p`, in the datums `ds` and in all allocations. -/
def Heap.refsTo (h : Heap τ ε) (ds : List (Dat τ ε)) (p : Addr) : Nat :=
  (ds.flatMap Dat.refs).count p + ((List.range h.size).map fun k => h.refsFrom k p).sum

/-- What is live is exactly what can be reached from the datums `ds`, and each count is the number of references. -/
def Heap.Exact (h : Heap τ ε) (ds : List (Dat τ ε)) : Prop :=
  (∀ p, h.cells p ≠ none ↔ h.Reach ds p) ∧ ∀ p c, h.cells p = some c → c.strong = h.refsTo ds p

/-- The memory as a heap of `Model/RcHeap.lean`, where it only matters which datums are branches. -/
def Heap.asRcHeap (h : Heap τ ε) : RcHeap.Heap (Dat τ ε) := fun k =>
  (h.cells k).map fun c => ⟨c.strong, match c.dat with
    | .combination p q | .list p q => .branch p q
    | d => .leaf (some d)⟩

/-- Dropping of references one after the other, as `src/drop.rs` does it. -/
def dropAll {L : Type} (n : Nat) : List Addr → RcHeap.Heap L → RcHeap.Res L
  | [], h => .ev h []
  | p :: ps, h => (RcHeap.drop n p h).andThen (dropAll n ps)

/-- No bindings. -/
abbrev unbound (τ ε α P CE : Type) : Dat τ ε → α → Option (Combiner τ ε α P CE) := fun _ _ => none

end Kul.Mem
