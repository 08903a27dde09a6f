import Verif.Proof.Drop
import Verif.Spec.RcHeap
import Mathlib.Algebra.Order.BigOperators.Group.Finset
import Mathlib.Data.Finset.Max

/-! # Facts about heaps of counted cells -/

namespace Kul.RcHeap

open Drop (Ref Side Class lockSize loopSteps)

variable {L : Type} {D : Finset Nat}

/-- The references in what is put at an address. -/
def okids : Option (Cell L) → List Nat
  | some c => c.dat.kids
  | none => []

theorem kids_put (h : Heap L) (k j : Nat) (v : Option (Cell L)) :
    (h.put k v).kids j = if j = k then okids v else h.kids j := by
  by_cases e : j = k
  · rw [if_pos e]
    cases v <;> simp [Heap.kids, Heap.put, e, okids]
  · rw [if_neg e]
    simp [Heap.kids, Heap.put, e]

theorem kids_of {h : Heap L} {k : Nat} {c : Cell L} (hc : h k = some c) : h.kids k = c.dat.kids := by
  simp [Heap.kids, hc]

theorem put_same (h : Heap L) (k : Nat) (v) : (h.put k v) k = v := by simp [Heap.put]

theorem put_ne (h : Heap L) {k j : Nat} (hj : j ≠ k) (v) : (h.put k v) j = h j := by simp [Heap.put, hj]

theorem sum_put {k : Nat} (hk : k ∈ D) (f : Nat → Nat) (v : Nat) (g : Nat → Nat) (hg : ∀ j, g j = if j = k then v else f j) :
    (∑ j ∈ D, g j) + f k = (∑ j ∈ D, f j) + v := by
  rw [← Finset.add_sum_erase D g hk, ← Finset.add_sum_erase D f hk, hg k, if_pos rfl,
    Finset.sum_congr rfl fun j hj => (hg j).trans (if_neg (Finset.ne_of_mem_erase hj))]
  simp only [Nat.add_comm, Nat.add_left_comm]

theorem refs_put {h : Heap L} {k : Nat} (hk : k ∈ D) (v : Option (Cell L)) (x : Nat) :
    (∑ j ∈ D, ((h.put k v).kids j).count x) + (h.kids k).count x =
      (∑ j ∈ D, (h.kids j).count x) + (okids v).count x :=
  sum_put hk (fun j => (h.kids j).count x) _ _ fun j => by rw [kids_put]; split <;> rfl

theorem Good.congr {h : Heap L} {outs outs' : List Nat} (g : Good D h outs)
    (hc : ∀ k, outs'.count k = outs.count k) : Good D h outs' :=
  ⟨g.dom, fun k c hk => by rw [hc]; exact g.count k c hk, g.pos,
    fun k hk => g.valid k (hk.imp (fun h => by
      have := List.count_pos_iff.mpr h
      rw [hc] at this
      exact List.count_pos_iff.mp this) id), g.finite⟩

theorem Good.live {h : Heap L} {outs : List Nat} (g : Good D h outs) {k : Nat} (hk : k ∈ outs) :
    ∃ c, h k = some c := Option.ne_none_iff_exists'.mp (g.valid k (Or.inl hk))

theorem Good.notin {h : Heap L} {outs : List Nat} (g : Good D h outs) {k : Nat}
    (h0 : ∑ j ∈ D, (h.kids j).count k = 0) (j : Nat) : k ∉ h.kids j := by
  rw [← List.count_eq_zero]
  by_cases hj : j ∈ D
  · exact Finset.sum_eq_zero_iff.mp h0 j hj
  · have : h j = none := by
      by_contra hn
      exact hj (g.dom j hn)
    simp [Heap.kids, this]

/-- The only reference to a cell. -/
theorem Good.sole {h : Heap L} {outs : List Nat} (g : Good D h outs) {k : Nat} {c : Cell L} (hk : k ∈ outs)
    (hc : h k = some c) (h1 : c.strong = 1) : outs.count k = 1 ∧ ∀ j, k ∉ h.kids j := by
  have h2 := g.count k c hc
  have h3 := List.count_pos_iff.mpr hk
  exact ⟨by omega, g.notin (by omega)⟩

/-! ## Trees -/

theorem dat_eq {h : Heap L} {k : Nat} {d : Dat L} (hd : h.dat k = some d) : ∃ s, h k = some ⟨s, d⟩ := by
  unfold Heap.dat at hd
  cases hc : h k with
  | none => rw [hc] at hd; cases hd
  | some c => rw [hc] at hd; cases hd; exact ⟨c.strong, rfl⟩

theorem dat_of {h : Heap L} {k : Nat} {c : Cell L} (hc : h k = some c) : h.dat k = some c.dat := by
  simp [Heap.dat, hc]

theorem kids_of_dat {h : Heap L} {k : Nat} {d : Dat L} (hd : h.dat k = some d) : h.kids k = d.kids := by
  obtain ⟨s, h1⟩ := dat_eq hd
  exact kids_of h1

theorem dat_put (h : Heap L) (k j : Nat) (v : Option (Cell L)) :
    (h.put k v).dat j = if j = k then v.map (·.dat) else h.dat j := by
  simp only [Heap.dat, Heap.put]
  split <;> rfl

theorem Good.rep {h : Heap L} {outs : List Nat} (g : Good D h outs) {k : Nat} (hk : h k ≠ none) :
    ∃ t, Rep h t ∧ t.cell = k := by
  induction g.finite k with
  | @mk k hf ih =>
    obtain ⟨⟨s, d⟩, hc⟩ := Option.ne_none_iff_exists'.mp hk
    cases d with
    | leaf x => exact ⟨.leaf k x, dat_of hc, rfl⟩
    | branch l r =>
      have hk := kids_of hc
      simp only [Dat.kids] at hk
      obtain ⟨tl, h1, h2⟩ := ih l (by rw [hk]; simp) (g.valid l (Or.inr ⟨k, by rw [hk]; simp⟩))
      obtain ⟨tr, h3, h4⟩ := ih r (by rw [hk]; simp) (g.valid r (Or.inr ⟨k, by rw [hk]; simp⟩))
      exact ⟨.branch k tl tr, ⟨by rw [h2, h4]; exact dat_of hc, h1, h3⟩, rfl⟩

/-- Only reachable cells matter. -/
theorem Rep.keep {h h' : Heap L} {outs : List Nat} (hk : ∀ k, Reach h outs k → h'.dat k = h.dat k)
    {t : Ref Nat L} (hr : Rep h t) (ht : Reach h outs t.cell) : Rep h' t := by
  induction t with
  | leaf k x => exact (hk k ht).trans hr
  | branch k l r ihl ihr =>
    obtain ⟨h1, h2, h3⟩ := hr
    have hkids := kids_of_dat h1
    simp only [Dat.kids] at hkids
    refine ⟨(hk k ht).trans h1, ihl h2 (.kid ht (by simp [Ref.cell, hkids])),
      ihr h3 (.kid ht (by simp [Ref.cell, hkids]))⟩

theorem Rep.cls {h : Heap L} {t : Ref Nat L} (hr : Rep h t) :
    ∃ d, h.dat t.cell = some d ∧ d.cls = t.cls := by
  cases t with
  | leaf k x => exact ⟨_, hr, rfl⟩
  | branch k l r => exact ⟨_, hr.1, rfl⟩

/-! ## Effects -/

/-- A cell counts as one. -/
def liveN (h : Heap L) (k : Nat) : Nat := if (h k).isSome then 1 else 0

/-- The number of times a leaf is in the heap. -/
def leafN [DecidableEq L] (D : Finset Nat) (h : Heap L) (x : L) : Nat :=
  ∑ j ∈ D, (h.leaf j).toList.count x

/-- What has happened: what can be reached from `outs` is unchanged, and each cell that is gone was freed once,
with the leaves. -/
structure Eff [DecidableEq L] (D : Finset Nat) (outs : List Nat) (h h' : Heap L) (evs : List (Ev L)) : Prop where
  keep : ∀ k, Reach h outs k → h'.dat k = h.dat k
  live : ∀ k, liveN h k = (freed evs).count k + liveN h' k
  leaves : ∀ x, leafN D h x = (disposed evs).count x + leafN D h' x

theorem Reach.mono {h : Heap L} {outs outs' : List Nat} (hs : ∀ k ∈ outs, k ∈ outs') {k : Nat}
    (hr : Reach h outs k) : Reach h outs' k := by
  induction hr with
  | out h => exact .out (hs _ h)
  | kid _ h ih => exact .kid ih h

theorem Reach.keep {h h' : Heap L} {outs : List Nat} (hk : ∀ k, Reach h outs k → h'.dat k = h.dat k) {k : Nat}
    (hr : Reach h outs k) : Reach h' outs k := by
  induction hr with
  | out h => exact .out h
  | @kid k j h1 h2 ih =>
    refine .kid ih ?_
    have := hk k h1
    unfold Heap.kids at h2 ⊢
    cases hc : h k with
    | none => rw [hc] at h2; cases h2
    | some c =>
      rw [hc] at h2
      rw [dat_of hc] at this
      obtain ⟨s, h3⟩ := dat_eq this
      rw [h3]
      exact h2

theorem Eff.refl [DecidableEq L] (outs : List Nat) (h : Heap L) : Eff D outs h h [] :=
  ⟨fun _ _ => rfl, fun _ => by simp [freed], fun _ => by simp [disposed]⟩

theorem Eff.trans [DecidableEq L] {outs outs' : List Nat} {h h' h'' : Heap L} {e e' : List (Ev L)} (a : Eff D outs' h h' e)
    (hs : ∀ k ∈ outs, k ∈ outs') (b : Eff D outs h' h'' e') : Eff D outs h h'' (e ++ e') := by
  have ka : ∀ k, Reach h outs k → h'.dat k = h.dat k := fun k hk => a.keep k (hk.mono hs)
  refine ⟨fun k hk => (b.keep k (hk.keep ka)).trans (ka k hk), fun k => ?_, fun x => ?_⟩
  · rw [a.live k, b.live k]
    simp [freed]
    omega
  · rw [a.leaves x, b.leaves x]
    simp [disposed]
    omega

/-- Putting something where only unreachable... the cell has a single reference, from outside. -/
theorem Eff.put [DecidableEq L] {outs : List Nat} {h : Heap L} {k : Nat} (hk : k ∉ outs) (hn : ∀ j, k ∉ h.kids j) (hD : k ∈ D)
    {v : Option (Cell L)} {e : List (Ev L)}
    (hl : ∀ j, liveN h j = (freed e).count j + liveN (h.put k v) j)
    (hx : ∀ x, (h.leaf k).toList.count x = (disposed e).count x + ((h.put k v).leaf k).toList.count x) :
    Eff D outs h (h.put k v) e := by
  refine ⟨fun j hj => ?_, hl, fun x => ?_⟩
  · have : j ≠ k := by
      rintro rfl
      cases hj with
      | out h => exact hk h
      | kid _ h => exact hn _ h
    rw [dat_put, if_neg this]
  · have := sum_put hD (fun j => (h.leaf j).toList.count x) (((h.put k v).leaf k).toList.count x)
      (fun j => ((h.put k v).leaf j).toList.count x) (fun j => by
        split
        · next e => rw [e]
        · next e => simp [Heap.leaf, put_ne h e])
    have := hx x
    unfold leafN
    omega

/-! ## Changes -/

theorem finite_put {h : Heap L} {k : Nat} (hn : ∀ j, k ∉ h.kids j) {v : Option (Cell L)} (hv : k ∉ okids v)
    (hf : ∀ j, Finite h j) (j : Nat) : Finite (h.put k v) j := by
  have key : ∀ j, Finite h j → j ≠ k → Finite (h.put k v) j := by
    intro j hj
    induction hj with
    | @mk j _ ih =>
      intro hjk
      refine .mk fun i hi => ?_
      rw [kids_put, if_neg hjk] at hi
      exact ih i hi (by rintro rfl; exact hn j hi)
  by_cases hj : j = k
  · subst hj
    refine .mk fun i hi => ?_
    rw [kids_put, if_pos rfl] at hi
    exact key i (hf i) (by rintro rfl; exact hv hi)
  · exact key j (hf j) hj

/-- A datum is exchanged in a cell to which there is only one reference. -/
theorem Good.replace {h : Heap L} {outs outs' : List Nat} (g : Good D h outs) {k : Nat} {d d' : Dat L}
    (hc : h k = some ⟨1, d⟩) (hk : k ∈ outs) (hk' : k ∈ outs')
    (hcount : ∀ j, outs.count j + d.kids.count j = outs'.count j + d'.kids.count j) :
    Good D (h.put k (some ⟨1, d'⟩)) outs' := by
  obtain ⟨h1, h2⟩ := g.sole hk hc rfl
  have hD : k ∈ D := g.dom k (by rw [hc]; simp)
  have hkd : d.kids.count k = 0 := by
    rw [List.count_eq_zero, ← kids_of hc]; exact h2 k
  have hkd' : d'.kids.count k = 0 ∧ outs'.count k = 1 := by
    have := hcount k
    have := List.count_pos_iff.mpr hk'
    omega
  have hrefs : ∀ x, outs'.count x + ∑ j ∈ D, ((h.put k (some ⟨1, d'⟩)).kids j).count x =
      outs.count x + ∑ j ∈ D, (h.kids j).count x := by
    intro x
    have := refs_put (h := h) hD (some ⟨1, d'⟩) x
    rw [kids_of hc] at this
    have := hcount x
    simp only [okids] at *
    omega
  refine ⟨?_, ?_, ?_, ?_, ?_⟩
  · intro j hj
    by_cases e : j = k
    · rw [e]; exact hD
    · rw [put_ne h e] at hj; exact g.dom j hj
  · intro j c hj
    rw [hrefs]
    by_cases e : j = k
    · subst e
      rw [put_same] at hj
      cases hj
      exact g.count j ⟨1, d⟩ hc
    · rw [put_ne h e] at hj
      exact g.count _ _ hj
  · intro j c hj
    by_cases e : j = k
    · subst e
      rw [put_same] at hj
      cases hj
      exact Nat.one_pos
    · rw [put_ne h e] at hj
      exact g.pos _ _ hj
  · intro j hj
    by_cases e : j = k
    · rw [e, put_same]; simp
    · rw [put_ne h e]
      by_cases h0 : h j = none
      · exfalso
        have ho : outs.count j = 0 := by
          rw [List.count_eq_zero]; intro hm; exact g.valid j (Or.inl hm) h0
        have hz : ∀ i, (h.kids i).count j = 0 := fun i => by
          rw [List.count_eq_zero]; intro hm; exact g.valid j (Or.inr ⟨i, hm⟩) h0
        have h3 := hcount j
        rw [← kids_of hc, hz k, ho] at h3
        rcases hj with hj | ⟨i, hj⟩
        · have := List.count_pos_iff.mpr hj
          omega
        · rw [kids_put] at hj
          split at hj
          · have := List.count_pos_iff.mpr hj
            simp only [okids] at this
            omega
          · have := List.count_pos_iff.mpr hj
            rw [hz] at this
            omega
      · exact h0
  · exact finite_put h2 (by simp only [okids]; rw [← List.count_eq_zero]; exact hkd'.1) g.finite

/-- A cell with a leaf is freed. -/
theorem Good.free {h : Heap L} {outs : List Nat} {k : Nat} (g : Good D h (k :: outs)) {x : Option L}
    (hc : h k = some ⟨1, .leaf x⟩) : Good D (h.put k none) outs := by
  obtain ⟨h1, h2⟩ := g.sole (by simp) hc rfl
  rw [List.count_cons_self] at h1
  have hD : k ∈ D := g.dom k (by rw [hc]; simp)
  have hrefs : ∀ x, ∑ j ∈ D, ((h.put k none).kids j).count x = ∑ j ∈ D, (h.kids j).count x := by
    intro x
    have := refs_put (h := h) hD none x
    rw [kids_of hc] at this
    simpa [okids, Dat.kids] using this
  refine ⟨?_, ?_, ?_, ?_, finite_put h2 (by simp [okids]) g.finite⟩
  · intro j hj
    by_cases e : j = k
    · rw [e]; exact hD
    · rw [put_ne h e] at hj; exact g.dom j hj
  · intro j c hj
    have e : j ≠ k := by rintro rfl; rw [put_same] at hj; cases hj
    rw [put_ne h e] at hj
    rw [hrefs, g.count _ _ hj, List.count_cons_of_ne (Ne.symm e)]
  · intro j c hj
    have e : j ≠ k := by rintro rfl; rw [put_same] at hj; cases hj
    rw [put_ne h e] at hj
    exact g.pos _ _ hj
  · intro j hj
    have e : j ≠ k := by
      rintro rfl
      rcases hj with hj | ⟨i, hj⟩
      · have := List.count_pos_iff.mpr hj
        omega
      · rw [kids_put] at hj
        split at hj
        · cases hj
        · exact h2 i hj
    rw [put_ne h e]
    refine g.valid j (hj.imp (fun h => by simp [h]) ?_)
    rintro ⟨i, hj⟩
    rw [kids_put] at hj
    split at hj
    · cases hj
    · exact ⟨i, hj⟩

/-- A reference that is not the last one is given up. -/
theorem Good.giveUp {h : Heap L} {outs : List Nat} {k : Nat} (g : Good D h (k :: outs)) {c : Cell L}
    (hc : h k = some c) (h1 : c.strong ≠ 1) :
    Good D (h.put k (some { c with strong := c.strong - 1 })) outs := by
  have hkids : ∀ j, (h.put k (some { c with strong := c.strong - 1 })).kids j = h.kids j := by
    intro j
    rw [kids_put]
    split
    · next e => rw [e, kids_of hc]; rfl
    · rfl
  have hpos := g.pos k c hc
  refine ⟨?_, ?_, ?_, ?_, ?_⟩
  · intro j hj
    by_cases e : j = k
    · rw [e]; exact g.dom k (by rw [hc]; simp)
    · rw [put_ne h e] at hj; exact g.dom j hj
  · intro j c' hj
    simp only [hkids]
    by_cases e : j = k
    · subst e
      rw [put_same] at hj
      cases hj
      have := g.count _ _ hc
      rw [List.count_cons_self] at this
      simp only
      omega
    · rw [put_ne h e] at hj
      rw [g.count _ _ hj, List.count_cons_of_ne (Ne.symm e)]
  · intro j c' hj
    by_cases e : j = k
    · subst e
      rw [put_same] at hj
      cases hj
      simp only
      omega
    · rw [put_ne h e] at hj
      exact g.pos _ _ hj
  · intro j hj
    simp only [hkids] at hj
    by_cases e : j = k
    · rw [e, put_same]; simp
    · rw [put_ne h e]
      exact g.valid j (hj.imp (fun h => by simp [h]) id)
  · intro j
    have : ∀ j, Finite h j → Finite (h.put k (some { c with strong := c.strong - 1 })) j := by
      intro j hj
      induction hj with
      | mk _ ih => exact .mk fun i hi => ih i (by rwa [hkids] at hi)
    exact this j (g.finite j)

/-! ## One iteration -/

theorem put_put (h : Heap L) (k : Nat) (u v) : (h.put k u).put k v = h.put k v := by
  funext j
  simp only [Heap.put]
  split <;> rfl

theorem tryTake_some {k : Nat} {h h' : Heap L} {d : Dat L} (ht : tryTake k h = some (d, h')) :
    h k = some ⟨1, d⟩ ∧ h' = h.put k (some ⟨1, .leaf none⟩) := by
  unfold tryTake at ht
  split at ht
  · next c hc =>
    split at ht
    · next h1 =>
      cases ht
      refine ⟨?_, rfl⟩
      rw [hc, ← h1]
    · cases ht
  · cases ht

theorem set_put (k : Nat) (d d' : Dat L) (h : Heap L) :
    set k d (h.put k (some ⟨1, d'⟩)) = some (h.put k (some ⟨1, d⟩)) := by
  unfold set
  rw [put_same]
  simp [put_put]

theorem cls_leaf {d : Dat L} (h : d.cls = .leaf) : ∃ x, d = .leaf x := by
  cases d with
  | leaf x => exact ⟨x, rfl⟩
  | branch l r => cases h

theorem cls_branch {d : Dat L} (h : d.cls = .branch) : ∃ l r, d = .branch l r := by
  cases d with
  | leaf x => cases h
  | branch l r => exact ⟨l, r, rfl⟩

/-- What one iteration does, to the heap and to the trees. -/
inductive Iter (n : Nat) (lock : Option Side) (l r : Ref Nat L) (h : Heap L) (ω : Nat → Nat) : Prop where
  | abort : loop (n + 1) lock (.branch l.cell r.cell) h = ((drop n r.cell h).andThen (drop n l.cell)).step →
      Drop.loop counts (n + 1) lock (.branch l r) ω =
        ((Drop.drop counts n r ω).andThen (Drop.drop counts n l)).step → Iter n lock l r h ω
  | left {k : Nat} {a b : Ref Nat L} : l = .branch k a b → h k = some ⟨1, .branch a.cell b.cell⟩ → Rep h a → Rep h b →
      lock ≠ some .right →
      loop (n + 1) lock (.branch l.cell r.cell) h =
        (loop n (some .left) (.branch a.cell k) (h.put k (some ⟨1, .branch b.cell r.cell⟩))).step →
      Drop.loop counts (n + 1) lock (.branch l r) ω =
        (Drop.loop counts n (some .left) (.branch a (.branch k b r)) ω).step → Iter n lock l r h ω
  | right {k : Nat} {a b : Ref Nat L} : r = .branch k a b → h k = some ⟨1, .branch a.cell b.cell⟩ → Rep h a → Rep h b →
      lock ≠ some .left →
      loop (n + 1) lock (.branch l.cell r.cell) h =
        (loop n (some .right) (.branch k b.cell) (h.put k (some ⟨1, .branch l.cell a.cell⟩))).step →
      Drop.loop counts (n + 1) lock (.branch l r) ω =
        (Drop.loop counts n (some .right) (.branch (.branch k l a) b) ω).step → Iter n lock l r h ω
  | down {k o : Nat} {a b : Ref Nat L} {x : Option L} :
      (l = .branch k a b ∧ r = .leaf o x ∨ r = .branch k a b ∧ l = .leaf o x) →
      h k = some ⟨1, .branch a.cell b.cell⟩ → Rep h a → Rep h b → h.dat o = some (.leaf x) →
      loop (n + 1) lock (.branch l.cell r.cell) h =
        (((drop n o (h.put k (some ⟨1, .leaf none⟩))).andThen (drop n k)).andThen
          (loop n none (.branch a.cell b.cell))).step →
      Drop.loop counts (n + 1) lock (.branch l r) ω =
        (((Drop.drop counts n (.leaf o x) ω).andThen (Drop.drop counts n (.leaf k none))).andThen
          (Drop.loop counts n none (.branch a b))).step → Iter n lock l r h ω

theorem takes {t : Ref Nat L} {ω : Nat → Nat} (h : ω t.cell = 1) :
    Drop.tryTake counts t ω = (some (t.datum, .of t.cell Drop.tempLeaf), ω) := by
  simp [Drop.tryTake, counts, h]

theorem takes_not {t : Ref Nat L} {ω : Nat → Nat} (h : ω t.cell ≠ 1) : Drop.tryTake counts t ω = (none, ω) := by
  have : (ω t.cell == 1) = false := by simpa using h
  simp [Drop.tryTake, counts, this]

theorem loop_iter (n : Nat) (lock : Option Side) {l r : Ref Nat L} {h : Heap L} {ω : Nat → Nat}
    (hl : Rep h l) (hr : Rep h r) (hω : Agree ω h) : Iter n lock l r h ω := by
  have tt : ∀ {k s d}, h k = some ⟨s, d⟩ →
      tryTake k h = if s = 1 then some (d, h.put k (some ⟨1, .leaf none⟩)) else none := by
    intro k s d hc
    simp [tryTake, hc]
  cases l with
  | leaf kl x =>
    obtain ⟨sl, hcl⟩ := dat_eq (show h.dat kl = _ from hl)
    cases r with
    | leaf kr y =>
      obtain ⟨sr, hcr⟩ := dat_eq (show h.dat kr = _ from hr)
      refine .abort ?_ ?_
      · rw [loop]; simp [choose, hcl, hcr, Ref.cell, Dat.cls]
      · rw [Drop.loop]; simp [Drop.choose, Ref.cls]
    | branch kr ra rb =>
      obtain ⟨hd, h1, h2⟩ := hr
      obtain ⟨sr, hcr⟩ := dat_eq hd
      have er := hω _ _ hcr
      simp only at er
      by_cases hs : sr = 1
      · subst hs
        have tr := takes (t := .branch kr ra rb) er
        refine .down (Or.inr ⟨rfl, rfl⟩) hcr h1 h2 hl ?_ ?_
        · rw [loop]; simp [choose, hcl, hcr, Ref.cell, Dat.cls, tt hcr]
        · rw [Drop.loop]
          simp [Drop.choose, Ref.cls, tr, Ref.cell, Ref.datum, Ref.of, Drop.tempLeaf]
      · refine .abort ?_ ?_
        · rw [loop]; simp [choose, hcl, hcr, Ref.cell, Dat.cls, tt hcr, hs]
        · rw [Drop.loop]; simp [Drop.choose, Ref.cls, takes_not (t := .branch kr ra rb) (er ▸ hs)]
  | branch kl la lb =>
    obtain ⟨hdl, l1, l2⟩ := hl
    obtain ⟨sl, hcl⟩ := dat_eq hdl
    have el := hω _ _ hcl
    simp only at el
    cases r with
    | leaf kr y =>
      obtain ⟨sr, hcr⟩ := dat_eq (show h.dat kr = _ from hr)
      by_cases hs : sl = 1
      · subst hs
        refine .down (Or.inl ⟨rfl, rfl⟩) hcl l1 l2 hr ?_ ?_
        · rw [loop]; simp [choose, hcl, hcr, Ref.cell, Dat.cls, tt hcl]
        · rw [Drop.loop]
          simp [Drop.choose, Ref.cls, takes (t := .branch kl la lb) el, Ref.cell, Ref.datum, Ref.of, Drop.tempLeaf]
      · refine .abort ?_ ?_
        · rw [loop]; simp [choose, hcl, hcr, Ref.cell, Dat.cls, tt hcl, hs]
        · rw [Drop.loop]; simp [Drop.choose, Ref.cls, takes_not (t := .branch kl la lb) (el ▸ hs)]
    | branch kr ra rb =>
      obtain ⟨hdr, r1, r2⟩ := hr
      obtain ⟨sr, hcr⟩ := dat_eq hdr
      have er := hω _ _ hcr
      simp only at er
      have left : sl = 1 → lock ≠ some .right → Iter n lock (.branch kl la lb) (.branch kr ra rb) h ω := by
        rintro rfl hlk
        refine .left rfl hcl l1 l2 hlk ?_ ?_
        · rw [loop]
          rcases lock with _ | _ | _
          · simp [choose, hcl, hcr, Ref.cell, Dat.cls, tt hcl, set_put]
          · simp [choose, hcl, hcr, Ref.cell, Dat.cls, tt hcl, set_put]
          · exact absurd rfl hlk
        · rw [Drop.loop]
          rcases lock with _ | _ | _
          · simp [Drop.choose, Ref.cls, takes (t := .branch kl la lb) el, Ref.cell, Ref.datum, Ref.of, Drop.tempLeaf,
              Drop.tempBranch]
          · simp [Drop.choose, Ref.cls, takes (t := .branch kl la lb) el, Ref.cell, Ref.datum, Ref.of, Drop.tempLeaf,
              Drop.tempBranch]
          · exact absurd rfl hlk
      have right : sr = 1 → lock ≠ some .left → (lock = none → sl ≠ 1) →
          Iter n lock (.branch kl la lb) (.branch kr ra rb) h ω := by
        rintro rfl hlk hn
        refine .right rfl hcr r1 r2 hlk ?_ ?_
        · rw [loop]
          rcases lock with _ | _ | _
          · simp [choose, hcl, hcr, Ref.cell, Dat.cls, tt hcl, tt hcr, set_put, hn rfl]
          · exact absurd rfl hlk
          · simp [choose, hcl, hcr, Ref.cell, Dat.cls, tt hcr, set_put]
        · rw [Drop.loop]
          rcases lock with _ | _ | _
          · simp [Drop.choose, Ref.cls, takes_not (t := .branch kl la lb) (el ▸ hn rfl),
              takes (t := .branch kr ra rb) er, Ref.cell, Ref.datum, Ref.of,
              Drop.tempLeaf, Drop.tempBranch]
          · exact absurd rfl hlk
          · simp [Drop.choose, Ref.cls, takes (t := .branch kr ra rb) er, Ref.cell, Ref.datum, Ref.of, Drop.tempLeaf,
              Drop.tempBranch]
      have abort : (sl = 1 → lock = some .right) → (sr = 1 → lock = some .left) →
          Iter n lock (.branch kl la lb) (.branch kr ra rb) h ω := by
        intro h1 h2
        refine .abort ?_ ?_
        · rw [loop]
          rcases lock with _ | _ | _ <;>
            simp [choose, hcl, hcr, Ref.cell, Dat.cls, tt hcl, tt hcr] at h1 h2 ⊢ <;> simp [h1, h2]
        · rw [Drop.loop]
          rcases lock with _ | _ | _ <;> simp only [reduceCtorEq, imp_false, Option.some.injEq] at h1 h2
          · simp [Drop.choose, Ref.cls, takes_not (t := .branch kl la lb) (el ▸ h1),
              takes_not (t := .branch kr ra rb) (er ▸ h2)]
          · simp [Drop.choose, Ref.cls, takes_not (t := .branch kl la lb) (el ▸ h1)]
          · simp [Drop.choose, Ref.cls, takes_not (t := .branch kr ra rb) (er ▸ h2)]
      by_cases h1 : sl = 1 <;> by_cases h2 : sr = 1 <;> rcases lock with _ | _ | _
      all_goals first
        | (refine left h1 ?_; simp; done)
        | (refine right h2 ?_ ?_ <;> simp [h1]; done)
        | (refine abort ?_ ?_ <;> simp [h1, h2]; done)

theorem rep_put {h : Heap L} {k : Nat} (hn : ∀ j, k ∉ h.kids j) {t : Ref Nat L} (hr : Rep h t) (ht : t.cell ≠ k)
    (v : Option (Cell L)) : Rep (h.put k v) t := by
  induction t with
  | leaf j x => exact ((dat_put h k j v).trans (if_neg ht)).trans hr
  | branch j l r ihl ihr =>
    obtain ⟨h1, h2, h3⟩ := hr
    have hk := hn j
    rw [kids_of_dat h1] at hk
    simp only [Dat.kids, List.mem_cons, List.not_mem_nil, or_false, not_or] at hk
    exact ⟨((dat_put h k j v).trans (if_neg ht)).trans h1, ihl h2 (Ne.symm hk.1),
      ihr h3 (Ne.symm hk.2)⟩

theorem Rep.branch_of {h : Heap L} {t : Ref Nat L} (hr : Rep h t) {a b : Nat}
    (hd : h.dat t.cell = some (.branch a b)) :
    ∃ ta tb, t = .branch t.cell ta tb ∧ ta.cell = a ∧ tb.cell = b ∧ Rep h ta ∧ Rep h tb := by
  cases t with
  | leaf k x => cases (show h.dat k = _ from hr).symm.trans hd
  | branch k l r =>
    obtain ⟨h1, h2, h3⟩ := hr
    cases (show h.dat k = _ from h1).symm.trans hd
    exact ⟨l, r, rfl, rfl, rfl, h2, h3⟩

theorem Rep.leaf_of {h : Heap L} {t : Ref Nat L} (hr : Rep h t) {x : Option L}
    (hd : h.dat t.cell = some (.leaf x)) : t = .leaf t.cell x := by
  cases t with
  | leaf k y => cases (show h.dat k = _ from hr).symm.trans hd; rfl
  | branch k l r => cases (show h.dat k = _ from hr.1).symm.trans hd

theorem Rep.unique {h : Heap L} {t t' : Ref Nat L} (a : Rep h t) (b : Rep h t') (e : t.cell = t'.cell) : t = t' := by
  induction t generalizing t' with
  | leaf k x =>
    have := b.leaf_of (x := x) (by rw [← e]; exact a)
    rw [this, ← e]
    rfl
  | branch k l r ihl ihr =>
    obtain ⟨h1, h2, h3⟩ := a
    obtain ⟨ta, tb, e', e1, e2, h4, h5⟩ := b.branch_of (by rw [← e]; exact h1)
    rw [e', ← e, ihl h2 h4 e1.symm, ihr h3 h5 e2.symm]
    rfl

theorem Good.reach {h : Heap L} {outs : List Nat} (g : Good D h outs) {k : Nat} (hk : h k ≠ none) :
    Reach h outs k := by
  classical
  by_contra hnr
  have hex : ∀ k, ∃ m : Nat, ∀ t, Rep h t → t.cell = k → t.size = m := by
    intro k
    by_cases hc : ∃ t, Rep h t ∧ t.cell = k
    · obtain ⟨t, h1, h2⟩ := hc
      exact ⟨t.size, fun t' h3 h4 => by rw [h3.unique h1 (h4.trans h2.symm)]⟩
    · exact ⟨0, fun t h1 h2 => absurd ⟨t, h1, h2⟩ hc⟩
  choose size hsize using hex
  let U := D.filter fun k => h k ≠ none ∧ ¬ Reach h outs k
  obtain ⟨m, hm, hmax⟩ := U.exists_max_image size ⟨k, by
    simp only [U, Finset.mem_filter]
    exact ⟨g.dom k hk, hk, hnr⟩⟩
  simp only [U, Finset.mem_filter] at hm hmax
  obtain ⟨-, hlive, hnr⟩ := hm
  obtain ⟨c, hc⟩ := Option.ne_none_iff_exists'.mp hlive
  have hcount := g.count m c hc
  have hpos := g.pos m c hc
  have h0 : outs.count m = 0 := by
    rw [List.count_eq_zero]
    intro hm
    exact hnr (.out hm)
  obtain ⟨p, hpD, hp⟩ : ∃ p ∈ D, m ∈ h.kids p := by
    by_contra hno
    push Not at hno
    have : ∑ j ∈ D, (h.kids j).count m = 0 :=
      Finset.sum_eq_zero fun j hj => List.count_eq_zero.mpr (hno j hj)
    omega
  have hplive : h p ≠ none := by
    intro h0
    simp [Heap.kids, h0] at hp
  obtain ⟨t, ht, rfl⟩ := g.rep hplive
  have hle := hmax t.cell ⟨hpD, hplive, fun hr => hnr (.kid hr hp)⟩
  rw [← hsize _ t ht rfl] at hle
  cases t with
  | leaf j x => change m ∈ h.kids j at hp; rw [kids_of_dat (show h.dat j = _ from ht)] at hp; cases hp
  | branch j l r =>
    obtain ⟨h1, h2, h3⟩ := ht
    change m ∈ h.kids j at hp
    rw [kids_of_dat (show h.dat j = _ from h1)] at hp
    simp only [Dat.kids, List.mem_cons, List.not_mem_nil, or_false] at hp
    rcases hp with rfl | rfl
    · rw [← hsize _ l h2 rfl] at hle
      simp only [Ref.size] at hle
      omega
    · rw [← hsize _ r h3 rfl] at hle
      simp only [Ref.size] at hle
      omega

theorem reach_back {h h' : Heap L} {outs : List Nat} (hk : ∀ k, Reach h outs k → h'.dat k = h.dat k) {k : Nat}
    (hr : Reach h' outs k) : Reach h outs k := by
  induction hr with
  | out h => exact .out h
  | @kid k j h1 h2 ih =>
    refine .kid ih ?_
    have := hk k ih
    unfold Heap.kids at h2 ⊢
    cases hc : h' k with
    | none => rw [hc] at h2; cases h2
    | some c =>
      rw [hc] at h2
      rw [dat_of hc] at this
      obtain ⟨s, h3⟩ := dat_eq this.symm
      rw [h3]
      exact h2

/-! ## Dropping -/

/-- A run that ends, in order, and so does one on trees: with the same steps, and the same happens. -/
def Ends [DecidableEq L] (D : Finset Nat) (outs : List Nat) (h : Heap L) (r : Res L)
    (r' : Drop.Res Nat L (Nat → Nat)) : Prop :=
  ∃ h' evs s d ω', r = .done h' (evs.map plain) s d ∧ r' = .done evs s d ω' ∧ Agree ω' h' ∧
    Good D h' outs ∧ Eff D outs h h' (evs.map plain)

theorem Ends.call [DecidableEq L] {outs : List Nat} {h : Heap L} {r : Res L} {r'} (a : Ends D outs h r r') :
    Ends D outs h r.call r'.call := by
  obtain ⟨h', e, s, d, ω', rfl, rfl, o, g, x⟩ := a
  exact ⟨h', e, s, d + 1, ω', rfl, rfl, o, g, x⟩

theorem Ends.step [DecidableEq L] {outs : List Nat} {h : Heap L} {r : Res L} {r'} (a : Ends D outs h r r') :
    Ends D outs h r.step r'.step := by
  obtain ⟨h', e, s, d, ω', rfl, rfl, o, g, x⟩ := a
  exact ⟨h', e, s + 1, d, ω', rfl, rfl, o, g, x⟩

theorem Ends.andThen [DecidableEq L] {outs outs' : List Nat} {h : Heap L} {r : Res L} {f : Heap L → Res L} {r'}
    {f' : (Nat → Nat) → Drop.Res Nat L (Nat → Nat)}
    (a : Ends D outs' h r r') (hs : ∀ k ∈ outs, k ∈ outs')
    (b : ∀ h' evs ω', Agree ω' h' → Good D h' outs' → Eff D outs' h h' evs → Ends D outs h' (f h') (f' ω')) :
    Ends D outs h (r.andThen f) (r'.andThen f') := by
  obtain ⟨h1, e1, s1, d1, ω1, rfl, rfl, o1, g1, x1⟩ := a
  obtain ⟨h2, e2, s2, d2, ω2, e, e', o2, g2, x2⟩ := b h1 _ ω1 o1 g1 x1
  exact ⟨h2, e1 ++ e2, s1 + s2, max d1 d2, ω2, by simp [Res.andThen, e], by simp [Drop.Res.andThen, e'], o2, g2,
    by rw [List.map_append]; exact x1.trans hs x2⟩

theorem Ends.after [DecidableEq L] {outs outs' : List Nat} {h h1 : Heap L} {r : Res L} {r'}
    (a : Eff D outs' h h1 []) (hs : ∀ k ∈ outs, k ∈ outs') (b : Ends D outs h1 r r') : Ends D outs h r r' := by
  obtain ⟨h2, e2, s2, d2, ω2, e, e', o2, g2, x2⟩ := b
  exact ⟨h2, e2, s2, d2, ω2, e, e', o2, g2, by simpa using a.trans hs x2⟩

theorem Heap.strong_agree (h : Heap L) : Agree h.strong h := fun k c hc => by simp [Heap.strong, hc]

theorem Agree.put {ω : Nat → Nat} {h : Heap L} (o : Agree ω h) {k : Nat} {d d' : Dat L} {s : Nat} (hc : h k = some ⟨s, d⟩) :
    Agree ω (h.put k (some ⟨s, d'⟩)) := by
  intro j c hj
  by_cases e : j = k
  · subst e
    rw [put_same] at hj
    cases hj
    exact (o _ _ hc :)
  · rw [put_ne h e] at hj
    exact o _ _ hj

theorem liveN_put (h : Heap L) (k j : Nat) (v : Option (Cell L)) :
    liveN (h.put k v) j = if j = k then (if v.isSome then 1 else 0) else liveN h j := by
  simp only [liveN, Heap.put]
  split <;> rfl

/-- Exchanging a datum that is not a leaf for one that is not a leaf. -/
theorem eff_replace [DecidableEq L] {outs : List Nat} {h : Heap L} {k : Nat} {d d' : Dat L}
    (hc : h k = some ⟨1, d⟩) (hk : k ∉ outs) (hn : ∀ j, k ∉ h.kids j) (hD : k ∈ D)
    (hd : ∀ x, d ≠ .leaf (some x)) (hd' : ∀ x, d' ≠ .leaf (some x)) :
    Eff D outs h (h.put k (some ⟨1, d'⟩)) [] := by
  refine Eff.put hk hn hD (fun j => ?_) fun x => ?_
  · rw [liveN_put]
    split
    · next e => subst e; simp [liveN, hc, freed]
    · simp [freed]
  · have h1 : h.leaf k = none := by
      simp only [Heap.leaf, hc]
      rcases d with ⟨_ | x⟩ | _
      · rfl
      · exact absurd rfl (hd x)
      · rfl
    have h2 : (h.put k (some ⟨1, d'⟩)).leaf k = none := by
      simp only [Heap.leaf, put_same]
      rcases d' with ⟨_ | x⟩ | _
      · rfl
      · exact absurd rfl (hd' x)
      · rfl
    rw [h1, h2]
    simp [disposed]

/-- The end of a drop, when there is a leaf in the cell or there are further references. -/
theorem release_ends [DecidableEq L] {outs : List Nat} {h : Heap L} {k n : Nat} (g : Good D h (k :: outs)) {c : Cell L}
    (hc : h k = some c) {ω : Nat → Nat} (o : Agree ω h) (t : Ref Nat L) (ht : t.cell = k)
    (h1 : c.strong ≠ 1 ∨ ∃ x, c.dat = .leaf x) {r'} (hr' : ∀ x, c.strong = 1 → c.dat = .leaf x →
      ∃ ω', r' = .done [.leaf x, .free k] 0 0 ω' ∧ ∀ j, j ≠ k → ω' j = ω j)
    (hr'' : c.strong ≠ 1 → r' = .done [.giveUp t] 0 0 fun j => if j = k then ω k - 1 else ω j) :
    Ends D outs h (release (n + 1) k h) r' := by
  have hD : k ∈ D := g.dom k (by rw [hc]; simp)
  by_cases hs : c.strong = 1
  · obtain ⟨x, hx⟩ := h1.resolve_left (by simpa using hs)
    have hc' : h k = some ⟨1, .leaf x⟩ := by rw [hc, ← hs, ← hx]
    obtain ⟨h2, h3⟩ := g.sole (by simp) hc hs
    rw [List.count_cons_self] at h2
    have hk : k ∉ outs := by rw [← List.count_eq_zero]; omega
    obtain ⟨ω', e', o'⟩ := hr' x hs hx
    refine ⟨h.put k none, [.leaf x, .free k], 0, 0, ω', by rw [release]; simp [hc', Res.ev, plain], e',
      fun j c' hj => ?_, g.free hc', ?_⟩
    · have hjk : j ≠ k := fun e => by rw [e, put_same] at hj; cases hj
      rw [put_ne h hjk] at hj
      rw [o' j hjk]
      exact o j c' hj
    refine Eff.put hk h3 hD (fun j => ?_) fun y => ?_
    · rw [liveN_put]
      split
      · next e => subst e; simp [liveN, hc, freed, plain]
      · next e => simp [freed, Ne.symm e, plain]
    · simp only [Heap.leaf, hc', put_same]
      cases x <;> simp [disposed, plain]
  · refine ⟨_, [.giveUp t], 0, 0, _, by rw [release]; simp [hc, hs, Res.ev, plain, ht], hr'' hs, fun j c' hj => ?_,
      g.giveUp hc hs, ?_⟩
    · by_cases e : j = k
      · subst e
        rw [put_same] at hj
        cases hj
        simp only [if_true]
        rw [o _ _ hc]
      · rw [put_ne h e] at hj
        simp only [if_neg e]
        exact o _ _ hj
    refine ⟨fun j _ => ?_, fun j => ?_, fun x => ?_⟩
    · rw [dat_put]
      split
      · next e => rw [e, dat_of hc]; rfl
      · rfl
    · rw [liveN_put]
      split
      · next e => subst e; simp [liveN, hc, freed, plain]
      · simp [freed, plain]
    · have : ∀ j, (h.put k (some { c with strong := c.strong - 1 })).leaf j = h.leaf j := by
        intro j
        by_cases e : j = k
        · subst e; obtain ⟨s, d⟩ := c; simp only [Heap.leaf, put_same, hc]; cases d <;> rfl
        · simp [Heap.leaf, put_ne h e]
      simp [leafN, this, disposed, plain]

theorem drop_ends [DecidableEq L] (n : Nat) :
    (∀ (t : Ref Nat L) (h : Heap L) (outs : List Nat) (ω : Nat → Nat), (t.size + 1) * (t.size + 1) + 1 ≤ n →
      Good D h (t.cell :: outs) → Rep h t → Agree ω h →
      Ends D outs h (drop n t.cell h) (Drop.drop counts n t ω)) ∧
    (∀ (lock : Option Side) (l r : Ref Nat L) (h : Heap L) (outs : List Nat) (ω : Nat → Nat),
      loopSteps lock l r + 2 ≤ n → Good D h (l.cell :: r.cell :: outs) → Rep h l → Rep h r → Agree ω h →
      Ends D outs h (loop n lock (.branch l.cell r.cell) h) (Drop.loop counts n lock (.branch l r) ω)) := by
  induction n with
  | zero => exact ⟨fun _ _ _ _ h => by omega, fun _ _ _ _ _ _ h => by omega⟩
  | succ n ih =>
    obtain ⟨ihd, ihl⟩ := ih
    constructor
    · intro t h outs ω hn g hr o
      obtain ⟨m, rfl⟩ : ∃ m, n = m + 1 := ⟨n - 1, by
        have : 1 ≤ (t.size + 1) * (t.size + 1) := Nat.one_le_iff_ne_zero.mpr (by positivity)
        omega⟩
      cases t with
      | leaf k x =>
        obtain ⟨s, hc⟩ := dat_eq (show h.dat k = _ from hr)
        have e : drop (m + 1 + 1) k h = (release (m + 1) k h).call := by rw [drop]; simp [hc, Dat.cls]
        simp only [Ref.cell] at g ⊢
        have ek := o _ _ hc
        simp only at ek
        rw [e, Drop.drop]
        refine (release_ends g hc o (.leaf k x) rfl (Or.inr ⟨x, rfl⟩) (fun y h1 h2 => ?_) fun h1 => ?_).call
        · cases h2
          simp only at h1
          exact ⟨ω, by simp [counts, ek, h1, Drop.Res.ev], fun _ _ => rfl⟩
        · simp only at h1
          simp [counts, ek, h1, Drop.Res.ev]
      | branch k l r =>
        obtain ⟨hd, hl, hrr⟩ := hr
        obtain ⟨s, hc⟩ := dat_eq hd
        simp only [Ref.cell] at g ⊢
        have ek := o _ _ hc
        simp only at ek
        by_cases hs : s = 1
        · subst hs
          have e' : Drop.drop counts (m + 1 + 1) (.branch k l r) ω = ((Drop.loop counts (m + 1) none (.branch l r)
              ω).andThen fun ω => .ev [.leaf none, .free k] ω).call := by
            rw [Drop.drop]; simp [Drop.tryTake, counts, Ref.cell, ek, Ref.datum]
          have e : drop (m + 1 + 1) k h = ((loop (m + 1) none (.branch l.cell r.cell)
              (h.put k (some ⟨1, .leaf none⟩))).andThen (release (m + 1) k)).call := by
            rw [drop]; simp [hc, Dat.cls, tryTake]
          rw [e, e']
          refine Ends.call ?_
          obtain ⟨h2, h3⟩ := g.sole (by simp) hc rfl
          rw [List.count_cons_self] at h2
          have hk : k ∉ outs := by rw [← List.count_eq_zero]; omega
          have hD : k ∈ D := g.dom k (by rw [hc]; simp)
          have hkk := h3 k
          rw [kids_of hc] at hkk
          simp only [Dat.kids, List.mem_cons, List.not_mem_nil, or_false, not_or] at hkk
          have g1 : Good D (h.put k (some ⟨1, .leaf none⟩)) (l.cell :: r.cell :: k :: outs) :=
            g.replace hc (by simp) (by simp) fun j => by
              simp only [Dat.kids, List.count_cons, List.count_nil]
              omega
          refine Ends.after (eff_replace (d' := .leaf none) hc hk h3 hD (by simp) (by simp)) (fun _ h => h) ?_
          refine Ends.andThen (outs' := k :: outs) (ihl none l r _ _ ω ?_ g1
            (rep_put h3 hl (Ne.symm hkk.1) _) (rep_put h3 hrr (Ne.symm hkk.2) _) (o.put hc)) (by simp; tauto) ?_
          · have hsz : (Ref.branch k l r : Ref Nat L).size = l.size + r.size + 1 := by
              simp only [Ref.size]
            simp only [loopSteps, lockSize]
            rw [hsz] at hn
            generalize l.size + r.size = w at hn ⊢
            have : (w + 1 + 1) * (w + 1 + 1) = w * (w + 3) + w + 4 := by ring
            omega
          · intro h' evs ω' o' g' x'
            have := x'.keep k (.out (by simp))
            rw [dat_put, if_pos rfl] at this
            obtain ⟨s, h4⟩ := dat_eq this
            refine release_ends g' h4 o' (.leaf k none) rfl (Or.inr ⟨_, rfl⟩) (fun y _ h6 => ?_) fun h5 => ?_
            · cases h6
              exact ⟨ω', rfl, fun _ _ => rfl⟩
            · exfalso
              refine h5 ?_
              have := g'.count k _ h4
              rw [this, List.count_cons_self, List.count_eq_zero.mpr hk, Finset.sum_eq_zero, Nat.add_zero]
              intro j _
              rw [List.count_eq_zero]
              intro hj
              have hn : h' j ≠ none := fun e => by simp [Heap.kids, e] at hj
              have e := x'.keep j (reach_back x'.keep (g'.reach hn))
              have e2 : h'.kids j = (h.put k (some ⟨1, .leaf none⟩)).kids j := by
                obtain ⟨c, hc'⟩ := Option.ne_none_iff_exists'.mp hn
                rw [dat_of hc'] at e
                rw [kids_of hc', kids_of_dat e.symm]
              rw [e2, kids_put] at hj
              split at hj
              · cases hj
              · exact h3 j hj
        · have e : drop (m + 1 + 1) k h = (release (m + 1) k h).call := by
            rw [drop]; simp [hc, Dat.cls, tryTake, hs]
          rw [e, Drop.drop]
          refine (release_ends g hc o (.branch k l r) rfl (Or.inl hs) (fun _ h1 => absurd h1 hs) fun _ => ?_).call
          rw [takes_not (t := .branch k l r) (ek ▸ hs)]
          simp [counts, ek, hs, Drop.Res.ev]
    · intro lock l r h outs ω hn g hl hr o
      cases loop_iter n lock hl hr o with
      | abort hres hres' =>
        rw [hres, hres']
        refine Ends.step ?_
        refine Ends.andThen (outs' := l.cell :: outs) (ihd r _ _ ω ?_ (g.congr ?_) hr o) (by simp; tauto) ?_
        · simp only [loopSteps] at hn; nlinarith
        · intro k; simp only [List.count_cons]; omega
        · intro h' evs ω' o' g' x'
          exact ihd l _ _ ω' (by simp only [loopSteps] at hn; nlinarith) g' (hl.keep x'.keep (.out (by simp))) o'
      | @left k ta tb e hc hra hrb hlk hres hres' =>
        rw [hres, hres']
        refine Ends.step ?_
        subst e
        have g : Good D h (k :: r.cell :: outs) := g
        obtain ⟨h2, h3⟩ := g.sole (by simp) hc rfl
        have hD : k ∈ D := g.dom _ (by rw [hc]; simp)
        have hkk := h3 k
        rw [kids_of hc] at hkk
        simp only [Dat.kids, List.mem_cons, List.not_mem_nil, or_false, not_or] at hkk
        rw [List.count_cons_self] at h2
        have hk : k ∉ r.cell :: outs := by rw [← List.count_eq_zero]; omega
        simp only [List.mem_cons, not_or] at hk
        have g1 : Good D (h.put k (some ⟨1, .branch tb.cell r.cell⟩)) (ta.cell :: k :: outs) :=
          g.replace hc (by simp) (by simp) fun j => by
            simp only [Dat.kids, List.count_cons, List.count_nil]
            omega
        refine Ends.after (eff_replace (d' := .branch tb.cell r.cell) hc hk.2 h3 hD (by simp) (by simp)) (fun _ h => h) ?_
        have := ihl (some .left) ta (.branch k tb r) _ outs ω ?_ g1 (rep_put h3 hra (Ne.symm hkk.1) _)
          ⟨by rw [dat_put, if_pos rfl]; rfl, rep_put h3 hrb (Ne.symm hkk.2) _, rep_put h3 hr (Ne.symm hk.1) _⟩ (o.put hc)
        · exact this
        · have : ta.size + 1 ≤ lockSize lock (.branch k ta tb) r := by
            rcases lock with _ | _ | _ <;> simp only [lockSize, Ref.size] <;> first | omega | exact absurd rfl hlk
          have e : ta.size + (Ref.branch k tb r).size = (Ref.branch k ta tb).size + r.size := by
            simp only [Ref.size]; omega
          simp only [loopSteps, e] at hn ⊢
          simp only [lockSize] at this hn ⊢
          omega
      | @right k ta tb e hc hra hrb hlk hres hres' =>
        rw [hres, hres']
        refine Ends.step ?_
        subst e
        have g : Good D h (l.cell :: k :: outs) := g
        obtain ⟨h2, h3⟩ := g.sole (by simp) hc rfl
        have hD : k ∈ D := g.dom _ (by rw [hc]; simp)
        have hkk := h3 k
        rw [kids_of hc] at hkk
        simp only [Dat.kids, List.mem_cons, List.not_mem_nil, or_false, not_or] at hkk
        have hk : k ∉ l.cell :: outs := by
          rw [← List.count_eq_zero]
          simp only [List.count_cons, beq_self_eq_true, if_true] at h2 ⊢
          omega
        simp only [List.mem_cons, not_or] at hk
        have g1 : Good D (h.put k (some ⟨1, .branch l.cell ta.cell⟩)) (k :: tb.cell :: outs) :=
          g.replace hc (by simp) (by simp) fun j => by
            simp only [Dat.kids, List.count_cons, List.count_nil]
            omega
        refine Ends.after (eff_replace (d' := .branch l.cell ta.cell) hc hk.2 h3 hD (by simp) (by simp)) (fun _ h => h) ?_
        have := ihl (some .right) (.branch k l ta) tb _ outs ω ?_ g1
          ⟨by rw [dat_put, if_pos rfl]; rfl, rep_put h3 hl (Ne.symm hk.1) _, rep_put h3 hra (Ne.symm hkk.1) _⟩
          (rep_put h3 hrb (Ne.symm hkk.2) _) (o.put hc)
        · exact this
        · have : tb.size + 1 ≤ lockSize lock l (.branch k ta tb) := by
            rcases lock with _ | _ | _ <;> simp only [lockSize, Ref.size] <;> first | omega | exact absurd rfl hlk
          have e : (Ref.branch k l ta).size + tb.size = l.size + (Ref.branch k ta tb).size := by
            simp only [Ref.size]; omega
          simp only [loopSteps, e] at hn ⊢
          simp only [lockSize] at this hn ⊢
          omega
      | @down k z ta tb x hko hc hra hrb hdo hres hres' =>
        rw [hres, hres']
        refine Ends.step ?_
        have hsz : ta.size + tb.size + 1 = l.size + r.size := by
          rcases hko with ⟨rfl, rfl⟩ | ⟨rfl, rfl⟩ <;> simp only [Ref.size] <;> omega
        have g := g.congr (outs' := k :: z :: outs) fun j => by
          rcases hko with ⟨rfl, rfl⟩ | ⟨rfl, rfl⟩ <;> simp only [Ref.cell, List.count_cons] <;> omega
        obtain ⟨h2, h3⟩ := g.sole (by simp) hc rfl
        have hD : k ∈ D := g.dom _ (by rw [hc]; simp)
        have hkk := h3 k
        rw [kids_of hc] at hkk
        simp only [Dat.kids, List.mem_cons, List.not_mem_nil, or_false, not_or] at hkk
        rw [List.count_cons_self] at h2
        have hk : k ∉ z :: outs := by rw [← List.count_eq_zero]; omega
        simp only [List.mem_cons, not_or] at hk
        have hb : loopSteps none ta tb + 1 ≤ loopSteps lock l r := by
          simp only [loopSteps, ← hsz, lockSize, Nat.add_zero]
          generalize ta.size + tb.size = m
          have : (m + 1) * (m + 1 + 3) = m * (m + 3) + 2 * m + 4 := by ring
          omega
        have hb' : 1 ≤ loopSteps none ta tb := by simp only [loopSteps]; omega
        have g1 : Good D (h.put k (some ⟨1, .leaf none⟩))
            (z :: k :: ta.cell :: tb.cell :: outs) :=
          g.replace hc (by simp) (by simp) fun j => by
            simp only [Dat.kids, List.count_cons, List.count_nil]
            omega
        refine Ends.after (eff_replace (d' := .leaf none) hc hk.2 h3 hD (by simp) (by simp)) (fun _ h => h) ?_
        have ra := rep_put h3 hra (Ne.symm hkk.1) (some ⟨1, .leaf none⟩)
        have rb := rep_put h3 hrb (Ne.symm hkk.2) (some ⟨1, .leaf none⟩)
        have ro := rep_put (t := .leaf z x) h3 hdo (Ne.symm hk.1) (some ⟨1, .leaf none⟩)
        have rk : (h.put k (some ⟨1, .leaf none⟩)).dat k = some (.leaf none) := by
          rw [dat_put, if_pos rfl]; rfl
        have o1 : Agree ω (h.put k (some ⟨1, .leaf none⟩)) := o.put hc
        generalize h.put k (some ⟨1, .leaf none⟩) = hh at *
        refine Ends.andThen (outs' := ta.cell :: tb.cell :: outs) (Ends.andThen
          (outs' := k :: ta.cell :: tb.cell :: outs)
          (ihd (.leaf z x) _ _ ω (by simp only [Ref.size]; omega) g1 ro o1)
          (by simp; tauto) ?_) (by simp; tauto) ?_
        · intro h' evs ω' o' g' x'
          exact ihd (.leaf k none) h' _ ω' (by simp only [Ref.size]; omega) g'
            (show Rep h' (.leaf k none) from (x'.keep _ (.out (by simp))).trans rk) o'
        · intro h' evs ω' o' g' x'
          exact ihl none ta tb h' _ ω' (by omega) g' (ra.keep x'.keep (.out (by simp)))
            (rb.keep x'.keep (.out (by simp))) o'

theorem Res.andThen_done {x : Res L} {f : Heap L → Res L} {h' : Heap L} {e : List (Ev L)} {s d : Nat} :
    x.andThen f = .done h' e s d ↔ ∃ h₁ e₁ s₁ d₁ e₂ s₂ d₂, x = .done h₁ e₁ s₁ d₁ ∧ f h₁ = .done h' e₂ s₂ d₂ ∧
      e = e₁ ++ e₂ ∧ s = s₁ + s₂ ∧ d = max d₁ d₂ := by
  constructor
  · intro h
    cases x with
    | done h₁ e₁ s₁ d₁ =>
      simp only [Res.andThen] at h
      split at h
      · next h₂ e₂ s₂ d₂ hf =>
        cases h
        exact ⟨h₁, e₁, s₁, d₁, e₂, s₂, d₂, rfl, hf, rfl, rfl, rfl⟩
      · next r hr => exact absurd h (hr _ _ _ _)
    | _ => cases h
  · rintro ⟨h₁, e₁, s₁, d₁, e₂, s₂, d₂, rfl, h2, rfl, rfl, rfl⟩
    simp [Res.andThen, h2]

/-- `x` and `y` are the same if `x` is a result. -/
def Le (x y : Res L) : Prop := ∀ h e s d, x = .done h e s d → y = .done h e s d

theorem Le.refl (x : Res L) : Le x x := fun _ _ _ _ h => h

theorem Le.andThen {x y : Res L} {f g : Heap L → Res L} (a : Le x y) (b : ∀ h, Le (f h) (g h)) :
    Le (x.andThen f) (y.andThen g) := by
  intro h e s d hx
  obtain ⟨h₁, e₁, s₁, d₁, e₂, s₂, d₂, rfl, k2, rfl, rfl, rfl⟩ := Res.andThen_done.mp hx
  exact Res.andThen_done.mpr ⟨h₁, e₁, s₁, d₁, e₂, s₂, d₂, a _ _ _ _ rfl, b _ _ _ _ _ k2, rfl, rfl, rfl⟩

theorem Le.call {x y : Res L} (a : Le x y) : Le x.call y.call := by
  intro h e s d hx
  cases x with
  | done h₁ e₁ s₁ d₁ => rw [a _ _ _ _ rfl]; exact hx
  | _ => cases hx

theorem Le.step {x y : Res L} (a : Le x y) : Le x.step y.step := by
  intro h e s d hx
  cases x with
  | done h₁ e₁ s₁ d₁ => rw [a _ _ _ _ rfl]; exact hx
  | _ => cases hx

theorem Le.bad (y : Res L) : Le .bad y := fun _ _ _ _ h => by cases h
theorem Le.panic (y : Res L) : Le .panic y := fun _ _ _ _ h => by cases h
theorem Le.fuel (y : Res L) : Le .fuel y := fun _ _ _ _ h => by cases h

theorem mono (n : Nat) :
    (∀ k (h : Heap L), Le (drop n k h) (drop (n + 1) k h)) ∧
    (∀ k (h : Heap L), Le (release n k h) (release (n + 1) k h)) ∧
    (∀ lock top (h : Heap L), Le (loop n lock top h) (loop (n + 1) lock top h)) := by
  induction n with
  | zero =>
    refine ⟨fun _ _ => ?_, fun _ _ => ?_, fun _ _ _ => ?_⟩
    · rw [drop]; exact .fuel _
    · rw [release]; exact .fuel _
    · rw [loop]; exact .fuel _
  | succ n ih =>
    obtain ⟨ihd, ihr, ihl⟩ := ih
    refine ⟨fun k h => ?_, fun k h => ?_, fun lock top h => ?_⟩
    · rw [drop, drop]
      refine Le.call ?_
      cases hc : h k with
      | none => exact .refl _
      | some c =>
        simp only
        rcases hcl : c.dat.cls with _ | _ <;> simp only
        · rcases ht : tryTake k h with _ | ⟨d, h1⟩
          · exact ihr _ _
          · exact (ihl _ _ _).andThen fun _ => ihr _ _
        · exact ihr _ _
    · rw [release, release]
      cases hc : h k with
      | none => exact .refl _
      | some c =>
        simp only
        split
        · rcases hd : c.dat with x | ⟨l, r⟩
          · exact .refl _
          · exact ((ihd _ _).andThen fun _ => ihd _ _).andThen fun _ => .refl _
        · exact .refl _
    · rcases top with x | ⟨l, r⟩
      · rw [loop, loop]; exact .refl _
      · rw [loop, loop]
        refine Le.step ?_
        simp only
        rcases hch : choose lock l r h with ⟨mode, sel, reuse, oc, other, h1⟩ | _ | _
        · simp only
          have hdown : ∀ top, Le (((drop n other h1).andThen (drop n reuse)).andThen (loop n none top))
              (((drop (n + 1) other h1).andThen (drop (n + 1) reuse)).andThen (loop (n + 1) none top)) := fun top =>
            ((ihd _ _).andThen fun _ => ihd _ _).andThen fun _ => ihl _ _ _
          rcases sel with x | ⟨sl, sr⟩ <;> rcases oc with _ | _
          · exact .refl _
          · exact hdown _
          · cases mode with
            | left =>
              simp only
              cases hs : set reuse (.branch sr other) h1 with
              | none => exact .refl _
              | some h2 => exact ihl _ _ _
            | right =>
              simp only
              cases hs : set reuse (.branch other sl) h1 with
              | none => exact .refl _
              | some h2 => exact ihl _ _ _
          · exact hdown _
        · exact (ihd _ _).andThen fun _ => ihd _ _
        · exact .refl _

theorem drop_mono {n m k : Nat} {h h' : Heap L} {e : List (Ev L)} {s d : Nat} (hr : drop n k h = .done h' e s d)
    (hm : n ≤ m) : drop m k h = .done h' e s d := by
  induction hm with
  | refl => exact hr
  | step _ ih => exact (mono _).1 _ _ _ _ _ _ ih

end Kul.RcHeap
