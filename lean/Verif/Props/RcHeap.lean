import Verif.Proof.RcHeap

/-!
# C42, for references that count, with any sharing

`Props/Drop.lean` has C42 for trees and for any way in which the taking out of datums may succeed or fail.
Here the references are `DatumRc`s: taking out succeeds exactly when the strong count is one, and any cell can
be referred to from any number of places, also from several places in what is dropped.
-/

namespace Kul.RcHeap

variable {L : Type} [DecidableEq L] {D : Finset Nat}

/-- **C42.** When one of the references `k :: outs` to the datums of a heap in order is dropped, dropping ends, without
panic and without access to a freed cell, however large the datum is and however it is shared. The heap is
in order for the remaining references: all strong counts are right. What can be reached from the remaining
references is unchanged. What cannot is gone: each such cell was freed exactly once, and each leaf in one was
disposed of exactly once, and nothing else was freed or disposed of. -/
theorem C42_shared {h : Heap L} {k : Nat} {outs : List Nat} (g : Good D h (k :: outs)) :
    ∃ N h' evs steps depth, (∀ n, N ≤ n → drop n k h = .done h' evs steps depth) ∧ Good D h' outs ∧
      (∀ j, Reach h outs j → h'.dat j = h.dat j ∧ (freed evs).count j = 0) ∧
      (∀ j, ¬ Reach h outs j → h' j = none ∧ (freed evs).count j = if h j = none then 0 else 1) ∧
      (∀ S : Finset Nat, (∀ j, j ∈ S ↔ h j ≠ none ∧ ¬ Reach h outs j) →
        ∀ x, (disposed evs).count x = ∑ j ∈ S, (h.leaf j).toList.count x) := by
  classical
  obtain ⟨t, ht, rfl⟩ := g.rep (k := k) (g.valid k (Or.inl (by simp)))
  obtain ⟨h', evs', s, d, _, hd, _, _, g', x⟩ := (drop_ends _).1 t h outs h.strong (le_refl _) g ht h.strong_agree
  generalize evs'.map plain = evs at hd x
  have hlive : ∀ j, ¬ Reach h outs j → h' j = none := fun j hj => by
    by_contra hn
    exact hj (reach_back x.keep (g'.reach hn))
  refine ⟨_, h', evs, s, d, fun n hn => drop_mono hd hn, g', fun j hj => ⟨x.keep j hj, ?_⟩, fun j hj => ⟨hlive j hj, ?_⟩, ?_⟩
  · have h1 := x.live j
    have h2 := x.keep j hj
    have : liveN h j = liveN h' j := by
      unfold liveN
      unfold Heap.dat at h2
      cases e : h j <;> cases e' : h' j <;> simp_all
    omega
  · have h1 := x.live j
    simp only [liveN, hlive j hj] at h1
    cases e : h j <;> simp_all
  · intro S hS y
    have h1 := x.leaves y
    unfold leafN at h1
    have h2 : ∑ j ∈ D, (h'.leaf j).toList.count y = ∑ j ∈ D with Reach h outs j, (h.leaf j).toList.count y := by
      rw [Finset.sum_filter]
      refine Finset.sum_congr rfl fun j _ => ?_
      split
      · next hr =>
        have h2 := x.keep j hr
        unfold Heap.dat at h2
        unfold Heap.leaf
        rcases e : h j with _ | ⟨s, d⟩ <;> rcases e' : h' j with _ | ⟨s', d'⟩ <;> rw [e, e'] at h2 <;> cases h2
        · cases d <;> rfl
      · next hr => simp [Heap.leaf, hlive j hr]
    have h3 : ∑ j ∈ S, (h.leaf j).toList.count y = ∑ j ∈ D with ¬ Reach h outs j, (h.leaf j).toList.count y := by
      refine Finset.sum_subset (fun j hj => ?_) fun j hj hn => ?_
      · obtain ⟨a, b⟩ := (hS j).mp hj
        exact Finset.mem_filter.mpr ⟨g.dom j a, b⟩
      · obtain ⟨a, b⟩ := Finset.mem_filter.mp hj
        have : h j = none := by
          by_contra hc
          exact hn ((hS j).mpr ⟨hc, b⟩)
        simp [Heap.leaf, this]
    rw [h2, ← Finset.sum_filter_add_sum_filter_not D (Reach h outs)] at h1
    omega

/-- A datum with sharing inside of it: 1 is in 0 and in 2, and 6 is twice in 5; 4 is also held from outside. -/
def exHeap : Heap Char
  | 0 => some ⟨1, .branch 1 2⟩
  | 1 => some ⟨2, .branch 3 4⟩
  | 2 => some ⟨1, .branch 1 5⟩
  | 3 => some ⟨1, .leaf (some 'a')⟩
  | 4 => some ⟨2, .leaf (some 'b')⟩
  | 5 => some ⟨1, .branch 6 6⟩
  | 6 => some ⟨2, .leaf (some 'c')⟩
  | _ => none

/-- The heap is in order when 0 and 4 are held: `C42_shared` applies. -/
theorem exHeap_good : Good (Finset.range 7) exHeap [0, 4] := by
  have leaf : ∀ k, exHeap.kids k = [] → Finite exHeap k := fun k h => .mk fun j hj => by rw [h] at hj; cases hj
  have f1 : Finite exHeap 1 := .mk fun j hj => by
    simp [Heap.kids, exHeap, Dat.kids] at hj; rcases hj with rfl | rfl <;> exact leaf _ rfl
  have f5 : Finite exHeap 5 := .mk fun j hj => by
    simp [Heap.kids, exHeap, Dat.kids] at hj; subst hj; exact leaf _ rfl
  have f2 : Finite exHeap 2 := .mk fun j hj => by
    simp [Heap.kids, exHeap, Dat.kids] at hj; rcases hj with rfl | rfl <;> assumption
  refine ⟨fun k hk => ?_, fun k c hk => ?_, fun k c hk => ?_, fun k hk => ?_, fun k => ?_⟩
  · match k with
    | 0 | 1 | 2 | 3 | 4 | 5 | 6 => decide
    | _ + 7 => exact absurd rfl hk
  · match k with
    | 0 | 1 | 2 | 3 | 4 | 5 | 6 => cases hk; decide +kernel
    | _ + 7 => cases hk
  · match k with
    | 0 | 1 | 2 | 3 | 4 | 5 | 6 => cases hk; decide
    | _ + 7 => cases hk
  · match k with
    | 0 | 1 | 2 | 3 | 4 | 5 | 6 => simp [exHeap]
    | _ + 7 =>
      exfalso
      rcases hk with hk | ⟨j, hj⟩
      · simp at hk
      · match j with
        | 0 | 1 | 2 | 3 | 4 | 5 | 6 => simp [Heap.kids, exHeap, Dat.kids] at hj
        | _ + 7 => cases hj
  · match k with
    | 0 =>
      refine .mk fun j hj => ?_
      simp [Heap.kids, exHeap, Dat.kids] at hj; rcases hj with rfl | rfl <;> assumption
    | 1 => exact f1
    | 2 => exact f2
    | 5 => exact f5
    | 3 | 4 | 6 => exact leaf _ rfl
    | _ + 7 => exact leaf _ rfl

/-- What happens to it. -/
def Res.evs : Res L → Option (List (Ev L))
  | .done _ e _ _ => some e
  | _ => none

example : (drop 50 0 exHeap).evs.map freed = some [5, 6, 2, 3, 1, 0] ∧
    (drop 50 0 exHeap).evs.map disposed = some ['c', 'a'] := by decide +kernel

example : ∃ h', Good (Finset.range 7) h' [4] ∧ h' 4 = some ⟨1, .leaf (some 'b')⟩ ∧ ∀ j, j ≠ 4 → h' j = none := by
  obtain ⟨_, h', _, _, _, _, g, h1, h2, _⟩ := C42_shared exHeap_good
  have hr : ∀ j, Reach exHeap [4] j ↔ j = 4 := fun j => by
    constructor
    · intro h
      induction h with
      | out h => simpa using h
      | kid _ h ih => subst ih; cases h
    · rintro rfl; exact .out (by simp)
  have h4 := (h1 4 ((hr 4).mpr rfl)).1
  have hn : ∀ j, j ≠ 4 → h' j = none := fun j hj => (h2 j (fun h => hj ((hr j).mp h))).1
  obtain ⟨s, e⟩ := dat_eq (h4.trans (show exHeap.dat 4 = some (.leaf (some 'b')) from rfl))
  refine ⟨h', g, ?_, hn⟩
  have := g.count 4 _ e
  rw [Finset.sum_eq_zero (fun j _ => by
    by_cases hj : j = 4
    · subst hj; simp [kids_of e, Dat.kids]
    · simp [Heap.kids, hn j hj])] at this
  rw [e]
  simp at this
  rw [this]

end Kul.RcHeap
