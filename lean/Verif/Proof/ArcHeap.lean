import Verif.Proof.RcHeap

/-! # Further facts about heaps of counted cells: allocation, cloning, and how far one can go down on a side -/

namespace Kul.RcHeap

open Drop (Ref Side Class)

variable {L : Type} {D : Finset Nat}

theorem Good.mono {h : Heap L} {outs : List Nat} (g : Good D h outs) {D' : Finset Nat} (hD : D ⊆ D') :
    Good D' h outs := by
  refine ⟨fun k hk => hD (g.dom k hk), fun k c hc => ?_, g.pos, g.valid, g.finite⟩
  rw [g.count k c hc, Finset.sum_subset hD]
  intro j _ hj
  have : h j = none := by
    by_contra hn
    exact hj (g.dom j hn)
  simp [Heap.kids, this]

/-- A new cell. -/
theorem Good.alloc {h : Heap L} {outs : List Nat} {d : Dat L} (g : Good D h (d.kids ++ outs)) {n : Nat}
    (hn : h n = none) (hD : n ∈ D) : Good D (h.put n (some ⟨1, d⟩)) (n :: outs) := by
  have ho : n ∉ d.kids ++ outs := fun hm => g.valid n (Or.inl hm) hn
  have hk : ∀ j, n ∉ h.kids j := fun j hm => g.valid n (Or.inr ⟨j, hm⟩) hn
  have hrefs : ∀ x, ∑ j ∈ D, ((h.put n (some ⟨1, d⟩)).kids j).count x =
      ∑ j ∈ D, (h.kids j).count x + d.kids.count x := by
    intro x
    have := refs_put (h := h) hD (some ⟨1, d⟩) x
    simpa [Heap.kids, hn, okids] using this
  rw [List.mem_append, not_or] at ho
  refine ⟨?_, ?_, ?_, ?_, finite_put hk ho.1 g.finite⟩
  · intro j hj
    by_cases e : j = n
    · rw [e]; exact hD
    · rw [put_ne h e] at hj; exact g.dom j hj
  · intro j c hj
    rw [hrefs]
    by_cases e : j = n
    · subst e
      rw [put_same] at hj
      cases hj
      have h1 : ∑ i ∈ D, (h.kids i).count j = 0 := Finset.sum_eq_zero fun i _ => List.count_eq_zero.mpr (hk i)
      rw [h1, List.count_cons_self, List.count_eq_zero.mpr ho.1, List.count_eq_zero.mpr ho.2]
    · rw [put_ne h e] at hj
      rw [g.count _ _ hj, List.count_cons_of_ne (Ne.symm e), List.count_append]
      omega
  · intro j c hj
    by_cases e : j = n
    · subst e
      rw [put_same] at hj
      cases hj
      exact Nat.one_pos
    · rw [put_ne h e] at hj
      exact g.pos _ _ hj
  · intro j hj
    by_cases e : j = n
    · rw [e, put_same]; simp
    · rw [put_ne h e]
      refine g.valid j ?_
      rcases hj with hj | ⟨i, hj⟩
      · exact Or.inl (List.mem_append_right _ ((List.mem_cons.mp hj).resolve_left e))
      · rw [kids_put] at hj
        split at hj
        · exact Or.inl (List.mem_append_left _ hj)
        · exact Or.inr ⟨i, hj⟩

/-- One reference more. -/
theorem Good.cloned {h : Heap L} {outs : List Nat} (g : Good D h outs) {k : Nat} {c : Cell L} (hc : h k = some c) :
    Good D (h.put k (some { c with strong := c.strong + 1 })) (k :: outs) := by
  have hkids : ∀ j, (h.put k (some { c with strong := c.strong + 1 })).kids j = h.kids j := by
    intro j
    rw [kids_put]
    split
    · next e => rw [e, kids_of hc]; rfl
    · rfl
  refine ⟨?_, ?_, ?_, ?_, ?_⟩
  · intro j hj
    by_cases e : j = k
    · rw [e]; exact g.dom k (by rw [hc]; simp)
    · rw [put_ne h e] at hj; exact g.dom j hj
  · intro j c' hj
    simp only [hkids]
    by_cases e : j = k
    · subst e
      rw [put_same] at hj
      cases hj
      have := g.count _ _ hc
      rw [List.count_cons_self]
      simp only
      omega
    · rw [put_ne h e] at hj
      rw [g.count _ _ hj, List.count_cons_of_ne (Ne.symm e)]
  · intro j c' hj
    by_cases e : j = k
    · subst e
      rw [put_same] at hj
      cases hj
      simp
    · rw [put_ne h e] at hj
      exact g.pos _ _ hj
  · intro j hj
    simp only [hkids] at hj
    by_cases e : j = k
    · rw [e, put_same]; simp
    · rw [put_ne h e]
      exact g.valid j (hj.imp (fun h => (List.mem_cons.mp h).resolve_left e) id)
  · intro j
    have : ∀ j, Finite h j → Finite (h.put k (some { c with strong := c.strong + 1 })) j := by
      intro j hj
      induction hj with
      | mk _ ih => exact .mk fun i hi => ih i (by rwa [hkids] at hi)
    exact this j (g.finite j)

/-- The datum is taken out of a cell with a single reference, which is freed. -/
theorem Good.unwrap {h : Heap L} {outs : List Nat} {k : Nat} (g : Good D h (k :: outs)) {d : Dat L}
    (hc : h k = some ⟨1, d⟩) : Good D (h.put k none) (d.kids ++ outs) := by
  have g1 := g.replace (d' := .leaf none) (outs' := k :: (d.kids ++ outs)) hc (by simp) (by simp) (by
    intro j
    simp only [List.count_cons, List.count_append, Dat.kids, List.count_nil]
    omega)
  have := g1.free (put_same _ _ _)
  rwa [put_put] at this

theorem not_reach {h : Heap L} {outs : List Nat} {k : Nat} (h1 : k ∉ outs) (h2 : ∀ j, k ∉ h.kids j) :
    ¬ Reach h outs k := by
  intro hr
  cases hr with
  | out h => exact h1 h
  | kid _ h => exact h2 _ h

/-- How often one can go down on a side. -/
def spineOf (s : Side) : Ref Nat L → Nat
  | .leaf .. => 0
  | .branch _ l r => (match s with | .left => spineOf s l | .right => spineOf s r) + 1

open Classical in
/-- How often one can go down on a side, from a cell. -/
noncomputable def spine (h : Heap L) (s : Side) (k : Nat) : Nat :=
  if hx : ∃ t, Rep h t ∧ t.cell = k then spineOf s hx.choose else 0

theorem spine_eq {h : Heap L} {s : Side} {t : Ref Nat L} (hr : Rep h t) : spine h s t.cell = spineOf s t := by
  unfold spine
  have hx : ∃ t', Rep h t' ∧ t'.cell = t.cell := ⟨t, hr, rfl⟩
  rw [dif_pos hx, hx.choose_spec.1.unique hr hx.choose_spec.2]

theorem spine_branch {h : Heap L} {outs : List Nat} (g : Good D h outs) {s : Side} {k a b : Nat}
    (hd : h.dat k = some (.branch a b)) :
    spine h s k = spine h s (match s with | .left => a | .right => b) + 1 := by
  have hk : h k ≠ none := by intro h0; simp [Heap.dat, h0] at hd
  obtain ⟨t, ht, rfl⟩ := g.rep hk
  obtain ⟨ta, tb, e, rfl, rfl, h1, h2⟩ := ht.branch_of hd
  rw [spine_eq ht, e]
  cases s
  · simp only [spineOf]; rw [spine_eq h1]
  · simp only [spineOf]; rw [spine_eq h2]

theorem spine_keep {h h' : Heap L} {outs outs' : List Nat} (g : Good D h outs')
    (hk : ∀ k, Reach h outs k → h'.dat k = h.dat k) {k : Nat} (hl : h k ≠ none) (hr : Reach h outs k) (s : Side) :
    spine h' s k = spine h s k := by
  obtain ⟨t, ht, rfl⟩ := g.rep hl
  rw [spine_eq ht, spine_eq (ht.keep hk hr)]

/-- The cells on the way. -/
def spineCells (s : Side) : Ref Nat L → List Nat
  | .leaf .. => []
  | .branch k l r => k :: (match s with | .left => spineCells s l | .right => spineCells s r)

theorem spineCells_length (s : Side) (t : Ref Nat L) : (spineCells s t).length = spineOf s t := by
  induction t with
  | leaf => rfl
  | branch k l r ihl ihr => cases s <;> simp [spineCells, spineOf, ihl, ihr]

theorem spineCells_sub {h : Heap L} (s : Side) {t : Ref Nat L} (hr : Rep h t) {k : Nat} (hk : k ∈ spineCells s t) :
    ∃ t', Rep h t' ∧ t'.cell = k ∧ t'.size ≤ t.size := by
  induction t with
  | leaf => cases hk
  | branch c l r ihl ihr =>
    rcases List.mem_cons.mp hk with rfl | hk
    · exact ⟨_, hr, rfl, le_refl _⟩
    · cases s
      · obtain ⟨t', h1, h2, h3⟩ := ihl hr.2.1 hk
        exact ⟨t', h1, h2, by simp only [Ref.size]; omega⟩
      · obtain ⟨t', h1, h2, h3⟩ := ihr hr.2.2 hk
        exact ⟨t', h1, h2, by simp only [Ref.size]; omega⟩

theorem spineCells_nodup {h : Heap L} (s : Side) {t : Ref Nat L} (hr : Rep h t) : (spineCells s t).Nodup := by
  induction t with
  | leaf => exact List.nodup_nil
  | branch c l r ihl ihr =>
    refine List.nodup_cons.mpr ⟨fun hc => ?_, ?_⟩
    · cases s
      · obtain ⟨t', h1, h2, h3⟩ := spineCells_sub _ hr.2.1 hc
        rw [h1.unique hr h2] at h3
        simp only [Ref.size] at h3
        omega
      · obtain ⟨t', h1, h2, h3⟩ := spineCells_sub _ hr.2.2 hc
        rw [h1.unique hr h2] at h3
        simp only [Ref.size] at h3
        omega
    · cases s
      · exact ihl hr.2.1
      · exact ihr hr.2.2

theorem spine_le {h : Heap L} (s : Side) (k : Nat) (l : List Nat)
    (hl : ∀ k, h k ≠ none → k ∈ l) : spine h s k ≤ l.length := by
  by_cases hx : ∃ t, Rep h t ∧ t.cell = k
  · obtain ⟨t, ht, rfl⟩ := hx
    rw [spine_eq ht, ← spineCells_length]
    refine (List.subperm_of_subset (spineCells_nodup s ht) fun j hj => ?_).length_le
    obtain ⟨t', h1, rfl, _⟩ := spineCells_sub s ht hj
    obtain ⟨d, h2, _⟩ := h1.cls
    obtain ⟨c, h3⟩ := dat_eq h2
    exact hl _ (by rw [h3]; simp)
  · unfold spine
    rw [dif_neg hx]
    exact Nat.zero_le _

end Kul.RcHeap
