import Verif.Props.RcDepth
import Verif.Proof.RcTime

/-!
# How long dropping takes for references that count

C85, for `DatumRc`s with any sharing, also within what is dropped.
-/

namespace Kul.RcHeap

open Drop (Ref)

variable {L : Type} {D : Finset Nat}

theorem In.imp {P Q : Nat → Prop} (hPQ : ∀ k, P k → Q k) {t : Ref Nat L} (h : In P t) : In Q t := by
  induction t with
  | leaf => trivial
  | branch k l r ihl ihr => exact ⟨hPQ k h.1, ihl h.2.1, ihr h.2.2⟩

/-- C85. A reference to a datum in a heap in order is dropped with at most `n (n + 1) / 2` iterations of the loop of the
drop algorithm, where `n` is the number of branch datums that cannot be reached without this reference (which are the ones
that are freed); whatever is shared, and however often. What can be reached in other ways, or
in more than one way, is not counted for it. -/
theorem C85_time {h : Heap L} {k : Nat} {outs : List Nat} (g : Good D h (k :: outs)) {S : Finset Nat}
    (hS : ∀ j, j ∈ S ↔ h.isBranch j = true ∧ ¬ Reach h outs j) :
    ∃ N h' evs steps depth, (∀ n, N ≤ n → drop n k h = .done h' evs steps depth) ∧
      2 * steps ≤ S.card * (S.card + 1) := by
  classical
  obtain ⟨t, ht, rfl⟩ := g.rep (k := k) (g.valid k (Or.inl (by simp)))
  obtain ⟨N, h', evs, s, d, ω', _, hr⟩ := C69_agree g ht
  obtain ⟨N', h'', evs', s', d', hr', _, h1, h2, _⟩ := C42_shared g
  have e := (hr (max N N') (by omega)).1.symm.trans (hr' (max N N') (by omega))
  simp only [Res.done.injEq] at e
  obtain ⟨rfl, rfl, rfl, rfl⟩ := e
  rw [freed_plain] at h1 h2
  refine ⟨N, h', _, s, d, fun n hn => (hr n hn).1, ?_⟩
  have hb := (ht.reach (outs := [t.cell]) (.out (by simp))).imp fun _ h => h.1
  have a := ((timed _).1 t h.strong evs s d ω' hb (hr N (Nat.le_refl _)).2).2
  have hn : ((Drop.freed evs).filter h.isBranch).Nodup := by
    rw [List.nodup_iff_count_le_one]
    intro j
    refine ((List.filter_sublist).count_le _).trans ?_
    by_cases hj : Reach h outs j
    · rw [(h1 j hj).2]; omega
    · rw [(h2 j hj).2]; split <;> omega
  have hc : freedIn h.isBranch evs ≤ S.card := by
    rw [freedIn, ← List.toFinset_card_of_nodup hn]
    refine Finset.card_le_card fun j hj => ?_
    obtain ⟨h3, h4⟩ := List.mem_filter.mp (List.mem_toFinset.mp hj)
    refine (hS j).mpr ⟨h4, fun hr => ?_⟩
    have := (h1 j hr).2
    have := List.count_pos_iff.mpr h3
    omega
  calc 2 * s ≤ 2 * tri (freedIn h.isBranch evs) := Nat.mul_le_mul_left _ a
    _ ≤ 2 * tri S.card := Nat.mul_le_mul_left _ (tri_mono hc)
    _ = _ := tri_eq _

/-- The iterations. -/
def Res.steps : Res L → Option Nat
  | .done _ _ s _ => some s
  | _ => none

/-- In `exHeap` the cells 0, 1, 2 and 5 are such branches, and 4 is held from outside. -/
example : ∃ N h' evs steps depth, (∀ n, N ≤ n → drop n 0 exHeap = .done h' evs steps depth) ∧ 2 * steps ≤ 4 * 5 := by
  have hr : ∀ j, Reach exHeap [4] j → j = 4 := fun j h => by
    induction h with
    | out h => simpa using h
    | kid _ h ih => subst ih; cases h
  refine C85_time (S := {0, 1, 2, 5}) exHeap_good fun j => ⟨fun hj => ?_, fun ⟨h1, _⟩ => ?_⟩
  · simp only [Finset.mem_insert, Finset.mem_singleton] at hj
    rcases hj with rfl | rfl | rfl | rfl <;> exact ⟨rfl, fun h => by have := hr _ h; omega⟩
  · match j with
    | 0 | 1 | 2 | 3 | 4 | 5 | 6 => revert h1; decide
    | _ + 7 => cases h1

example : (drop 50 0 exHeap).steps = some 6 ∧ (drop 50 0 deepHeap).steps = some 8 := by decide +kernel

end Kul.RcHeap
