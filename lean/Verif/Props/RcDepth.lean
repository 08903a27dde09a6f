import Verif.Props.DropAgree
import Verif.Proof.RcDepth
import Mathlib.Algebra.BigOperators.Ring.Finset

/-!
# How deep the calls of `drop` are nested for references that count

C84: `Props/Drop.lean` has the depth for sharing that stays as it is during a drop (C82). Here the references are
`DatumRc`s, and may be shared within what is dropped: then the counts change during the drop, and what was shared
at first may be not shared any more when the last reference to it is dropped.
-/

namespace Kul.RcHeap

open Drop (Ref)

variable {L : Type} {D : Finset Nat}

theorem Rep.reach {h : Heap L} {t : Ref Nat L} (ht : Rep h t) {outs : List Nat} (hr : Reach h outs t.cell) :
    In (fun k => h.isBranch k = true ∧ Reach h outs k) t := by
  induction t with
  | leaf => trivial
  | branch k l r ihl ihr =>
    obtain ⟨h1, h2, h3⟩ := ht
    obtain ⟨s, hc⟩ := dat_eq h1
    have hk : h.kids k = [l.cell, r.cell] := kids_of hc
    exact ⟨⟨by simp [Heap.isBranch, hc], hr⟩, ihl h2 (.kid hr (by simp [Ref.cell, hk])),
      ihr h3 (.kid hr (by simp [Ref.cell, hk]))⟩

theorem freed_plain (e : List (Drop.Ev Nat L)) : freed (e.map plain) = Drop.freed e := by
  induction e with
  | nil => rfl
  | cons x e ih => cases x <;> simp_all [freed, Drop.freed, plain]

theorem gives_plain (e : List (Drop.Ev Nat L)) :
    givenUp (e.map plain) = gives e := by
  induction e with
  | nil => rfl
  | cons x e ih => cases x <;> simp_all [gives, givenUp, plain]

theorem length_counts (A : List Nat) : ∑ k ∈ A.toFinset, A.count k = A.length := List.sum_toFinset_count_eq_length A

/-- C84. A reference to a datum in a heap in order is dropped with calls of `drop` that are nested at most
`2 * n + 2` deep, where `n` is the number of references to branch datums that were given up because of others to the
same datum; whatever is shared, in the dropped datum and from outside, and however deep it is. And the depth is at most two
more than the number of all references, at first, to shared branch datums that can be reached. -/
theorem C84_depth {h : Heap L} {k : Nat} {outs : List Nat} (g : Good D h (k :: outs)) :
    ∃ N h' evs steps depth, (∀ n, N ≤ n → drop n k h = .done h' evs steps depth) ∧
      depth ≤ 2 * (branchesGivenUp h evs).length + 2 ∧
      ∀ S : Finset Nat, (∀ j, Reach h [k] j → h.isBranch j → 1 < h.strong j → j ∈ S) →
        depth ≤ ∑ j ∈ S, h.strong j + 2 := by
  classical
  obtain ⟨t, ht, rfl⟩ := g.rep (k := k) (g.valid k (Or.inl (by simp)))
  obtain ⟨N, h', evs, s, d, ω', _, hr⟩ := C69_agree g ht
  obtain ⟨N', h'', evs', s', d', hr', _, h1, h2, _⟩ := C42_shared g
  have e := (hr (max N N') (by omega)).1.symm.trans (hr' (max N N') (by omega))
  simp only [Res.done.injEq] at e
  obtain ⟨rfl, rfl, rfl, rfl⟩ := e
  have hf : ∀ j, (Drop.freed evs).count j ≤ 1 := by
    intro j
    rw [← freed_plain]
    by_cases hj : Reach h outs j
    · rw [(h1 j hj).2]; omega
    · rw [(h2 j hj).2]; split <;> omega
  refine ⟨N, h', _, s, d, fun n hn => (hr n hn).1, ?_⟩
  have hb := ht.reach (outs := [t.cell]) (.out (by simp))
  have a := ((did _).1 t h.strong evs s d ω' hb (hr N (Nat.le_refl _)).2).did
  obtain ⟨A, hd, hA, hcount⟩ := a.depth
  have hpos : ∀ j ∈ A, 1 < h.strong j := by
    intro j hj
    obtain ⟨⟨h3, _⟩, h4⟩ := hA j hj
    unfold Heap.isBranch at h3
    split at h3
    · next hc =>
      have := g.pos j _ hc
      simp only [Heap.strong, hc] at this h4 ⊢
      omega
    · cases h3
  have hle : ∀ j ∈ A, A.count j ≤ 2 * (gives evs).count j ∧ A.count j ≤ h.strong j := by
    intro j hj
    have h3 := hpos j hj
    have h4 := hcount j
    have h5 := hf j
    obtain ⟨h6, h7⟩ := a.count j (by omega)
    by_cases h8 : j ∈ Drop.freed evs
    · have := a.free j h8
      omega
    · rw [List.count_eq_zero.mpr h8] at h4
      omega
  constructor
  · have hG : ∀ j ∈ A, A.count j ≤ 2 * (branchesGivenUp h (evs.map plain)).count j := by
      intro j hj
      rw [branchesGivenUp, gives_plain, List.count_filter (hA j hj).1.1]
      exact (hle j hj).1
    generalize branchesGivenUp h (evs.map plain) = G at hG ⊢
    have h3 : A.length ≤ 2 * G.length := by
      rw [← length_counts A, ← length_counts G, Finset.mul_sum]
      refine (Finset.sum_le_sum fun j hj => hG j (List.mem_toFinset.mp hj)).trans ?_
      refine Finset.sum_le_sum_of_subset fun j hj => ?_
      have hj := List.mem_toFinset.mp hj
      have := hG j hj
      have := List.count_pos_iff.mpr hj
      exact List.mem_toFinset.mpr (List.count_pos_iff.mp (by omega))
    omega
  · intro S hS
    have h3 : A.length ≤ ∑ j ∈ S, h.strong j := by
      rw [← length_counts A]
      refine (Finset.sum_le_sum fun j hj => (hle j (List.mem_toFinset.mp hj)).2).trans ?_
      refine Finset.sum_le_sum_of_subset fun j hj => ?_
      have hj := List.mem_toFinset.mp hj
      exact hS j (hA j hj).1.2 (hA j hj).1.1 (hpos j hj)
    omega

/-- A datum in which the branch 2 is twice. -/
def deepHeap : Heap Char
  | 0 => some ⟨1, .branch 1 4⟩
  | 1 => some ⟨1, .branch 2 3⟩
  | 2 => some ⟨2, .branch 3 3⟩
  | 3 => some ⟨6, .leaf (some 'a')⟩
  | 4 => some ⟨1, .branch 5 6⟩
  | 5 => some ⟨1, .branch 2 3⟩
  | 6 => some ⟨1, .branch 3 3⟩
  | _ => none

theorem deepHeap_good : Good (Finset.range 7) deepHeap [0] := by
  have f3 : Finite deepHeap 3 := .mk fun j hj => by cases hj
  have two : ∀ k a b, deepHeap.kids k = [a, b] → Finite deepHeap a → Finite deepHeap b → Finite deepHeap k :=
    fun k a b h ha hb => .mk fun j hj => by
      rw [h] at hj
      simp at hj
      rcases hj with rfl | rfl <;> assumption
  have f2 := two 2 _ _ rfl f3 f3
  have f1 := two 1 _ _ rfl f2 f3
  have f5 := two 5 _ _ rfl f2 f3
  have f6 := two 6 _ _ rfl f3 f3
  have f4 := two 4 _ _ rfl f5 f6
  refine ⟨fun k hk => ?_, fun k c hk => ?_, fun k c hk => ?_, fun k hk => ?_, fun k => ?_⟩
  · match k with
    | 0 | 1 | 2 | 3 | 4 | 5 | 6 => decide
    | _ + 7 => exact absurd rfl hk
  · match k with
    | 0 | 1 | 2 | 3 | 4 | 5 | 6 => cases hk; decide +kernel
    | _ + 7 => cases hk
  · match k with
    | 0 | 1 | 2 | 3 | 4 | 5 | 6 => cases hk; decide
    | _ + 7 => cases hk
  · match k with
    | 0 | 1 | 2 | 3 | 4 | 5 | 6 => simp [deepHeap]
    | _ + 7 =>
      exfalso
      rcases hk with hk | ⟨j, hj⟩
      · simp at hk
      · match j with
        | 0 | 1 | 2 | 3 | 4 | 5 | 6 => simp [Heap.kids, deepHeap, Dat.kids] at hj
        | _ + 7 => cases hj
  · match k with
    | 0 => exact two 0 _ _ rfl f1 f4
    | 1 => exact f1
    | 2 => exact f2
    | 3 => exact f3
    | 4 => exact f4
    | 5 => exact f5
    | 6 => exact f6
    | _ + 7 => exact .mk fun j hj => by cases hj

/-- The depth. -/
def Res.depth : Res L → Option Nat
  | .done _ _ _ d => some d
  | _ => none

/-- Both bounds are reached: one reference is given up, there are two to a shared branch, and calls are nested four deep. -/
example : (drop 50 0 deepHeap).evs.map (branchesGivenUp deepHeap) = some [2] ∧ (drop 50 0 deepHeap).depth = some 4 ∧
    deepHeap.strong 2 = 2 := by decide +kernel

example : ∃ N h' evs steps depth, (∀ n, N ≤ n → drop n 0 deepHeap = .done h' evs steps depth) ∧
    depth ≤ 2 * (branchesGivenUp deepHeap evs).length + 2 ∧ depth ≤ 4 := by
  obtain ⟨N, h', evs, s, d, h, h1, h2⟩ := C84_depth deepHeap_good
  refine ⟨N, h', evs, s, d, h, h1, h2 {2} fun j _ h3 h4 => ?_⟩
  match j with
  | 0 | 1 | 2 | 3 | 4 | 5 | 6 => revert h3 h4; decide
  | _ + 7 => cases h3

end Kul.RcHeap
