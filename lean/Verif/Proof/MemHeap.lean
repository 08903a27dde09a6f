import Verif.Spec.Own
import Verif.Model.MemAlloc
import Verif.Proof.RcHeap
import Verif.Proof.MemLock
import Verif.Proof.MemParser

/-! # Ownership in a memory of counted allocations -/

namespace Kul.RcHeap

variable {L : Type} {D D' : Finset Nat}

/-- A new cell. -/
theorem Good.new {h : Heap L} {outs : List Nat} (g : Good D h outs) {k : Nat} (hk : k ∉ D) (hD : ∀ j ∈ D, j ∈ D')
    (hk' : k ∈ D') (x : Option L) : Good D' (h.put k (some ⟨1, .leaf x⟩)) (k :: outs) := by
  have hn : h k = none := by
    by_contra hn
    exact hk (g.dom k hn)
  have h0 : k ∉ outs := fun hm => g.valid k (Or.inl hm) hn
  have h1 : ∀ j, k ∉ h.kids j := fun j hm => g.valid k (Or.inr ⟨j, hm⟩) hn
  have hkids : ∀ j, (h.put k (some ⟨1, .leaf x⟩)).kids j = h.kids j := by
    intro j
    rw [kids_put]
    split
    · next e => rw [e]; simp [Heap.kids, hn, okids, Dat.kids]
    · rfl
  have hsum : ∀ i, ∑ j ∈ D', ((h.put k (some ⟨1, .leaf x⟩)).kids j).count i = ∑ j ∈ D, (h.kids j).count i := by
    intro i
    simp only [hkids]
    refine (Finset.sum_subset hD fun j _ hj => ?_).symm
    have : h j = none := by
      by_contra hn
      exact hj (g.dom j hn)
    simp [Heap.kids, this]
  refine ⟨?_, ?_, ?_, ?_, finite_put h1 (by simp [okids, Dat.kids]) g.finite⟩
  · intro j hj
    by_cases e : j = k
    · rw [e]; exact hk'
    · rw [put_ne h e] at hj; exact hD _ (g.dom j hj)
  · intro j c hj
    rw [hsum]
    by_cases e : j = k
    · subst e
      rw [put_same] at hj
      cases hj
      rw [List.count_cons_self, List.count_eq_zero.mpr h0,
        Finset.sum_eq_zero fun i _ => List.count_eq_zero.mpr (h1 i), Nat.zero_add, Nat.add_zero]
    · rw [put_ne h e] at hj
      rw [List.count_cons_of_ne (Ne.symm e)]
      exact g.count j c hj
  · intro j c hj
    by_cases e : j = k
    · subst e
      rw [put_same] at hj
      cases hj
      exact Nat.one_pos
    · rw [put_ne h e] at hj
      exact g.pos _ _ hj
  · intro j hj
    by_cases e : j = k
    · rw [e, put_same]; simp
    · rw [put_ne h e]
      refine g.valid j (hj.imp (fun hm => ?_) fun ⟨i, hi⟩ => ⟨i, by rwa [hkids] at hi⟩)
      exact (List.mem_cons.mp hm).resolve_left e

/-- One more reference. -/
theorem Good.clone {h : Heap L} {outs : List Nat} (g : Good D h outs) {k : Nat} {c : Cell L}
    (hc : h k = some c) : Good D (h.put k (some { c with strong := c.strong + 1 })) (k :: outs) := by
  have hkids : ∀ j, (h.put k (some { c with strong := c.strong + 1 })).kids j = h.kids j := by
    intro j
    rw [kids_put]
    split
    · next e => rw [e, kids_of hc]; rfl
    · rfl
  refine ⟨?_, ?_, ?_, ?_, ?_⟩
  · intro j hj
    by_cases e : j = k
    · rw [e]; exact g.dom k (by rw [hc]; simp)
    · rw [put_ne h e] at hj; exact g.dom j hj
  · intro j c' hj
    simp only [hkids]
    by_cases e : j = k
    · subst e
      rw [put_same] at hj
      cases hj
      have := g.count j c hc
      simp only [List.count_cons_self]
      omega
    · rw [put_ne h e] at hj
      rw [List.count_cons_of_ne (Ne.symm e)]
      exact g.count j c' hj
  · intro j c' hj
    by_cases e : j = k
    · subst e
      rw [put_same] at hj
      cases hj
      exact Nat.succ_pos _
    · rw [put_ne h e] at hj
      exact g.pos _ _ hj
  · intro j hj
    by_cases e : j = k
    · rw [e, put_same]; simp
    · rw [put_ne h e]
      refine g.valid j (hj.imp (fun hm => ?_) fun ⟨i, hi⟩ => ⟨i, by rwa [hkids] at hi⟩)
      exact (List.mem_cons.mp hm).resolve_left e
  · intro j
    induction g.finite j with
    | mk _ ih => exact .mk fun i hi => ih i (by rwa [hkids] at hi)

end Kul.RcHeap

namespace Kul.Mem

open RcHeap (Good put_same put_ne kids_of)

variable {τ ε : Type}

theorem mem_places {xs : List (Res τ ε)} {p : Addr} : p ∈ places xs ↔ ∃ d, .place p d ∈ xs := by
  simp only [places, List.mem_filterMap]
  constructor
  · rintro ⟨r, hr, h⟩
    cases r with
    | ref => cases h
    | place q d => cases h; exact ⟨d, hr⟩
  · rintro ⟨d, h⟩
    exact ⟨_, h, rfl⟩

theorem places_append (xs ys : List (Res τ ε)) : places (xs ++ ys) = places xs ++ places ys :=
  List.filterMap_append

theorem Parts.places {d : Dat τ ε} {D : Datum τ ε} {rs : List (Res τ ε)} (h : Parts d D rs) : places rs = [] := by
  cases h <;> rfl

theorem Parts.addrs {d : Dat τ ε} {D : Datum τ ε} {rs : List (Res τ ε)} (h : Parts d D rs) :
    rs.map Res.addr = d.refs := by
  cases h <;> rfl

theorem shape_kids (d : Dat τ ε) : (shape d).kids = d.refs := by cases d <;> rfl

theorem view_congr (h : Heap τ ε) {ps qs : List Addr} (e : ∀ k, k ∈ ps ↔ k ∈ qs) : view h ps = view h qs := by
  funext k
  simp only [view, e]

theorem mask_congr (h : Heap τ ε) {ps qs : List Addr} (e : ∀ k, k ∈ ps ↔ k ∈ qs) : mask h ps = mask h qs := by
  funext k
  simp only [mask, e]

theorem view_some {h : Heap τ ε} {ps : List Addr} {k : Addr} {c : Cell τ ε} (hc : h.cells k = some c) (hk : k ∉ ps) :
    view h ps k = some ⟨c.strong, shape c.dat⟩ := by
  simp [view, hc, hk]

theorem view_place {h : Heap τ ε} {ps : List Addr} {k : Addr} {c : Cell τ ε} (hc : h.cells k = some c) (hk : k ∈ ps) :
    view h ps k = some ⟨c.strong, .leaf none⟩ := by
  simp [view, hc, hk]

theorem view_kids (h : Heap τ ε) (ps : List Addr) (k : Addr) :
    (view h ps).kids k = match mask h ps k with | some d => d.refs | none => [] := by
  unfold RcHeap.Heap.kids view mask
  cases h.cells k with
  | none => simp
  | some c =>
    by_cases e : k ∈ ps
    · simp [e, RcHeap.Dat.kids]
    · simp [e, shape_kids]

theorem mask_some {h : Heap τ ε} {ps : List Addr} {k : Addr} {d : Dat τ ε} (hm : mask h ps k = some d) :
    k ∉ ps ∧ ∃ s, h.cells k = some ⟨s, d⟩ := by
  unfold mask at hm
  split at hm
  · cases hm
  · next hk =>
    refine ⟨hk, ?_⟩
    cases hc : h.cells k with
    | none => rw [hc] at hm; cases hm
    | some c => rw [hc] at hm; cases hm; exact ⟨_, rfl⟩

theorem Reads.mono {m m' : Addr → Option (Dat τ ε)} (hm : ∀ k d, m k = some d → m' k = some d) {d : Dat τ ε}
    {D : Datum τ ε} (h : Reads m d D) : Reads m' d D := by
  induction h with
  | text => exact .text
  | combination h1 _ h2 _ ih1 ih2 => exact .combination (hm _ _ h1) ih1 (hm _ _ h2) ih2
  | emptyNest => exact .emptyNest
  | list h1 _ h2 _ ih1 ih2 => exact .list (hm _ _ h1) ih1 (hm _ _ h2) ih2
  | emptyList => exact .emptyList
  | extra => exact .extra

theorem At.mono {m m' : Addr → Option (Dat τ ε)} (hm : ∀ k d, m k = some d → m' k = some d) {p : Addr}
    {D : Datum τ ε} (h : At m p D) : At m' p D := by
  obtain ⟨d, h1, h2⟩ := h
  exact ⟨d, hm _ _ h1, h2.mono hm⟩

/-- What does not refer to `k` does not depend on it. -/
theorem Reads.without {m m' : Addr → Option (Dat τ ε)} {k : Addr} (hm : ∀ j, j ≠ k → m' j = m j)
    (hk : ∀ j d, m j = some d → k ∉ d.refs) {d : Dat τ ε} {D : Datum τ ε} (h : Reads m d D) :
    k ∉ d.refs → Reads m' d D := by
  induction h with
  | text => exact fun _ => .text
  | combination h1 _ h2 _ ih1 ih2 =>
    intro hn
    simp only [Dat.refs, List.mem_cons, List.not_mem_nil, or_false, not_or] at hn
    exact .combination (by rw [hm _ (Ne.symm hn.1)]; exact h1) (ih1 (hk _ _ h1))
      (by rw [hm _ (Ne.symm hn.2)]; exact h2) (ih2 (hk _ _ h2))
  | emptyNest => exact fun _ => .emptyNest
  | list h1 _ h2 _ ih1 ih2 =>
    intro hn
    simp only [Dat.refs, List.mem_cons, List.not_mem_nil, or_false, not_or] at hn
    exact .list (by rw [hm _ (Ne.symm hn.1)]; exact h1) (ih1 (hk _ _ h1))
      (by rw [hm _ (Ne.symm hn.2)]; exact h2) (ih2 (hk _ _ h2))
  | emptyList => exact fun _ => .emptyList
  | extra => exact fun _ => .extra

theorem At.without {m m' : Addr → Option (Dat τ ε)} {k : Addr} (hm : ∀ j, j ≠ k → m' j = m j)
    (hk : ∀ j d, m j = some d → k ∉ d.refs) {p : Addr} {D : Datum τ ε} (h : At m p D) (hp : p ≠ k) : At m' p D := by
  obtain ⟨d, h1, h2⟩ := h
  exact ⟨d, by rw [hm _ hp]; exact h1, h2.without hm hk (hk _ _ h1)⟩

/-- A datum and the references that it owns. -/
theorem Reads.parts {m : Addr → Option (Dat τ ε)} {d : Dat τ ε} {D : Datum τ ε} (h : Reads m d D) :
    ∃ rs, Parts d D rs ∧ ∀ p D', .ref p D' ∈ rs → At m p D' := by
  cases h with
  | text => exact ⟨[], .text, by simp⟩
  | emptyNest => exact ⟨[], .emptyNest, by simp⟩
  | emptyList => exact ⟨[], .emptyList, by simp⟩
  | extra => exact ⟨[], .extra, by simp⟩
  | combination h1 h2 h3 h4 =>
    refine ⟨_, .combination, fun p D' h => ?_⟩
    simp only [List.mem_cons, Res.ref.injEq, List.not_mem_nil, or_false] at h
    rcases h with ⟨rfl, rfl⟩ | ⟨rfl, rfl⟩
    · exact ⟨_, h1, h2⟩
    · exact ⟨_, h3, h4⟩
  | list h1 h2 h3 h4 =>
    refine ⟨_, .list, fun p D' h => ?_⟩
    simp only [List.mem_cons, Res.ref.injEq, List.not_mem_nil, or_false] at h
    rcases h with ⟨rfl, rfl⟩ | ⟨rfl, rfl⟩
    · exact ⟨_, h1, h2⟩
    · exact ⟨_, h3, h4⟩

theorem Parts.reads {m : Addr → Option (Dat τ ε)} {d : Dat τ ε} {D : Datum τ ε} {rs : List (Res τ ε)}
    (h : Parts d D rs) (hr : ∀ p D', .ref p D' ∈ rs → At m p D') : Reads m d D := by
  cases h with
  | text => exact .text
  | emptyNest => exact .emptyNest
  | emptyList => exact .emptyList
  | extra => exact .extra
  | combination =>
    obtain ⟨_, h1, h2⟩ := hr _ _ (List.mem_cons_self)
    obtain ⟨_, h3, h4⟩ := hr _ _ (List.mem_cons_of_mem _ List.mem_cons_self)
    exact .combination h1 h2 h3 h4
  | list =>
    obtain ⟨_, h1, h2⟩ := hr _ _ (List.mem_cons_self)
    obtain ⟨_, h3, h4⟩ := hr _ _ (List.mem_cons_of_mem _ List.mem_cons_self)
    exact .list h1 h2 h3 h4

variable {box : Bool} {h : Heap τ ε} {xs : List (Res τ ε)}

theorem HeapOwn.perm {ys : List (Res τ ε)} (H : HeapOwn box h xs) (p : xs.Perm ys) : HeapOwn box h ys := by
  have e : ∀ k, k ∈ places xs ↔ k ∈ places ys := fun k => (p.filterMap _).mem_iff
  refine ⟨?_, fun q d hq => H.place q d (p.mem_iff.mpr hq), fun q D hq => ?_, H.box⟩
  · rw [← view_congr h e]
    exact H.good.congr fun k => ((p.map _).count_eq k).symm
  · rw [← mask_congr h e]
    exact H.reads q D (p.mem_iff.mpr hq)

theorem HeapOwn.empty : HeapOwn box (Heap.empty : Heap τ ε) [] where
  good := by
    refine ⟨fun k hk => absurd rfl hk, fun k c hk => ?_, fun k c hk => ?_, fun k hk => ?_,
      fun k => .mk fun j hj => ?_⟩
    · cases hk
    · cases hk
    · rcases hk with hk | ⟨j, hk⟩
      · cases hk
      · cases hk
    · cases hj
  place := fun _ _ h => by cases h
  reads := fun _ _ h => by cases h
  box := fun _ k c hk => by cases hk

/-- What is owned can be read in the whole memory. -/
theorem HeapOwn.at {p : Addr} {D : Datum τ ε} (H : HeapOwn box h xs) (hp : .ref p D ∈ xs) :
    At (fun k => (h.cells k).map (·.dat)) p D :=
  (H.reads p D hp).mono fun k d hk => by
    obtain ⟨_, s, hs⟩ := mask_some hk
    simp [hs]

theorem HeapOwn.lt {k : Addr} (H : HeapOwn box h xs) (hk : h.cells k ≠ none) : k < h.size := by
  have := H.good.dom k (by simpa [view] using hk)
  simpa using this

theorem HeapOwn.fresh {k : Addr} (H : HeapOwn box h xs) (hk : h.size ≤ k) : h.cells k = none := by
  by_contra hn
  exact absurd (H.lt hn) (Nat.not_lt.mpr hk)

/-- Sole access to what there is only one reference to. -/
theorem HeapOwn.open {p : Addr} {D : Datum τ ε} (H : HeapOwn box h (.ref p D :: xs)) (hs : h.strong p = 1) :
    ∃ d rs, Parts d D rs ∧ HeapOwn box h (.place p d :: (rs ++ xs)) := by
  have hpl : places (.ref p D :: xs) = places xs := rfl
  obtain ⟨d, h1, h2⟩ := H.reads p D List.mem_cons_self
  rw [hpl] at h1 h2
  obtain ⟨hnp, s, hc⟩ := mask_some h1
  have : s = 1 := by simpa [Heap.strong, hc] using hs
  subst this
  have g := H.good
  rw [hpl] at g
  have hv : view h (places xs) p = some ⟨1, shape d⟩ := view_some hc hnp
  obtain ⟨s1, s2⟩ := g.sole (k := p) (by simp [Res.addr]) hv rfl
  have hk : ∀ j e, mask h (places xs) j = some e → p ∉ e.refs := by
    intro j e hj
    have := s2 j
    rw [view_kids, hj] at this
    exact this
  obtain ⟨rs, h3, h4⟩ := h2.parts
  have hpl' : places (.place p d :: (rs ++ xs)) = p :: places xs := by
    change p :: places (rs ++ xs) = _
    rw [places_append, h3.places]
    rfl
  have hview : view h (p :: places xs) = (view h (places xs)).put p (some ⟨1, .leaf none⟩) := by
    funext k
    by_cases e : k = p
    · subst e
      rw [put_same, view_place hc (by simp)]
    · rw [put_ne _ e]
      simp [view, e]
  have hpx : p ∉ xs.map Res.addr := by
    rw [← List.count_eq_zero]
    simpa [Res.addr] using s1
  refine ⟨d, rs, h3, ?_, ?_, ?_, H.box⟩
  · rw [hpl', hview]
    refine g.replace hv (by simp [Res.addr]) (by simp [Res.addr]) fun j => ?_
    rw [shape_kids]
    simp only [List.map_cons, List.map_append, h3.addrs, Res.addr, List.count_cons, List.count_append,
      RcHeap.Dat.kids, List.count_nil]
    omega
  · intro q e hq
    replace hq := List.mem_cons.mp hq
    rcases hq with hq | hq
    · cases hq
      exact hc
    · replace hq := List.mem_append.mp hq
      rcases hq with hq | hq
      · have := mem_places.mpr ⟨_, hq⟩
        rw [h3.places] at this
        cases this
      · exact H.place q e (List.mem_cons_of_mem _ hq)
  · intro q D' hq
    rw [hpl']
    have hm : ∀ j, j ≠ p → mask h (p :: places xs) j = mask h (places xs) j := by
      intro j hj
      simp [mask, hj]
    replace hq := List.mem_cons.mp hq
    rcases hq with hq | hq
    · cases hq
    · replace hq := List.mem_append.mp hq
      rcases hq with hq | hq
      · refine (h4 q D' hq).without hm hk ?_
        rintro rfl
        refine hk _ _ h1 ?_
        rw [← h3.addrs]
        exact List.mem_map_of_mem (f := Res.addr) hq
      · refine At.without hm hk (H.reads q D' (List.mem_cons_of_mem _ hq)) ?_
        rintro rfl
        exact hpx (List.mem_map_of_mem (f := Res.addr) hq)

theorem HeapOwn.sole {p : Addr} {d : Dat τ ε} (H : HeapOwn box h (.place p d :: xs)) :
    p ∉ xs.map Res.addr ∧ p ∉ places xs ∧ ∀ j, p ∉ (view h (p :: places xs)).kids j := by
  have hc := H.place p d List.mem_cons_self
  have g := H.good
  have hv : view h (p :: places xs) p = some ⟨1, .leaf none⟩ := view_place hc (by simp)
  obtain ⟨s1, s2⟩ := g.sole (k := p) (by simp [Res.addr]) hv rfl
  have hpx : p ∉ xs.map Res.addr := by
    rw [← List.count_eq_zero]
    simpa [Res.addr] using s1
  refine ⟨hpx, fun hm => hpx ?_, s2⟩
  obtain ⟨e, he⟩ := mem_places.mp hm
  exact List.mem_map_of_mem (f := Res.addr) he

/-- Sole access is given back. -/
theorem HeapOwn.close {p : Addr} {d : Dat τ ε} {D : Datum τ ε} {rs : List (Res τ ε)} (hp : Parts d D rs)
    (H : HeapOwn box h (.place p d :: (rs ++ xs))) : HeapOwn box h (.ref p D :: xs) := by
  obtain ⟨hpx, hnp, -⟩ := H.sole
  have hc := H.place p d List.mem_cons_self
  have hpl : places (rs ++ xs) = places xs := by rw [places_append, hp.places]; rfl
  rw [hpl] at hnp
  have hpl' : places (.place p d :: (rs ++ xs)) = p :: places xs := by
    change p :: places (rs ++ xs) = _
    rw [hpl]
  have g := H.good
  rw [hpl'] at g
  have hv : view h (p :: places xs) p = some ⟨1, .leaf none⟩ := view_place hc (by simp)
  have hview : view h (places xs) = (view h (p :: places xs)).put p (some ⟨1, shape d⟩) := by
    funext k
    by_cases e : k = p
    · subst e
      rw [put_same, view_some hc hnp]
    · rw [put_ne _ e]
      simp [view, e]
  have hmono : ∀ k e, mask h (p :: places xs) k = some e → mask h (places xs) k = some e := by
    intro k e hk
    obtain ⟨h1, s, h2⟩ := mask_some hk
    simp only [List.mem_cons, not_or] at h1
    simp [mask, h1.2, h2]
  have hrd : ∀ q D', .ref q D' ∈ rs ++ xs → At (mask h (places xs)) q D' := by
    intro q D' hq
    have := H.reads q D' (List.mem_cons_of_mem _ hq)
    rw [hpl'] at this
    exact this.mono hmono
  refine ⟨?_, ?_, ?_, H.box⟩
  · change Good _ (view h (places xs)) _
    rw [hview]
    refine g.replace hv (by simp [Res.addr]) (by simp [Res.addr]) fun j => ?_
    rw [shape_kids]
    simp only [List.map_cons, List.map_append, hp.addrs, Res.addr, List.count_cons, List.count_append,
      RcHeap.Dat.kids, List.count_nil]
    omega
  · intro q e hq
    replace hq := List.mem_cons.mp hq
    rcases hq with hq | hq
    · cases hq
    · exact H.place q e (List.mem_cons_of_mem _ (List.mem_append_right _ hq))
  · intro q D' hq
    change At (mask h (places xs)) q D'
    replace hq := List.mem_cons.mp hq
    rcases hq with hq | hq
    · cases hq
      exact ⟨d, by simp [mask, hnp, hc], hp.reads fun q D' hq => hrd q D' (List.mem_append_left _ hq)⟩
    · exact hrd q D' (List.mem_append_right _ hq)

/-- Who has sole access may write. -/
theorem HeapOwn.write {p : Addr} {d : Dat τ ε} (d' : Dat τ ε) (H : HeapOwn box h (.place p d :: xs)) :
    HeapOwn box (h.put p (some ⟨1, d'⟩)) (.place p d' :: xs) := by
  obtain ⟨hpx, hnp, -⟩ := H.sole
  have hc := H.place p d List.mem_cons_self
  have hview : view (h.put p (some ⟨1, d'⟩)) (p :: places xs) = view h (p :: places xs) := by
    funext k
    by_cases e : k = p
    · subst e
      rw [view_place hc (by simp), view_place (c := ⟨1, d'⟩) (by simp [Heap.put]) (by simp)]
    · simp [view, Heap.put, e]
  have hmask : mask (h.put p (some ⟨1, d'⟩)) (p :: places xs) = mask h (p :: places xs) := by
    funext k
    by_cases e : k = p
    · subst e
      simp [mask]
    · simp [mask, Heap.put, e]
  refine ⟨?_, ?_, ?_, ?_⟩
  · change Good _ (view (h.put p (some ⟨1, d'⟩)) (p :: places xs)) _
    rw [hview]
    exact H.good
  · intro q e hq
    replace hq := List.mem_cons.mp hq
    rcases hq with hq | hq
    · cases hq
      simp [Heap.put]
    · have hqp : q ≠ p := by
        rintro rfl
        exact hpx (List.mem_map_of_mem (f := Res.addr) hq)
      simp only [Heap.put, if_neg hqp]
      exact H.place q e (List.mem_cons_of_mem _ hq)
  · intro q D' hq
    change At (mask (h.put p (some ⟨1, d'⟩)) (p :: places xs)) q D'
    rw [hmask]
    replace hq := List.mem_cons.mp hq
    rcases hq with hq | hq
    · cases hq
    · exact H.reads q D' (List.mem_cons_of_mem _ hq)
  · intro hb k c hk
    by_cases e : k = p
    · subst e
      simp only [Heap.put, if_true] at hk
      cases hk
      rfl
    · simp only [Heap.put, if_neg e] at hk
      exact H.box hb k c hk

/-- Who has sole access may free. -/
theorem HeapOwn.free {p : Addr} {d : Dat τ ε} (H : HeapOwn box h (.place p d :: xs)) :
    HeapOwn box (h.put p none) xs := by
  obtain ⟨hpx, hnp, -⟩ := H.sole
  have hc := H.place p d List.mem_cons_self
  have hview : view (h.put p none) (places xs) = (view h (p :: places xs)).put p none := by
    funext k
    by_cases e : k = p
    · subst e
      rw [put_same]
      simp [view, Heap.put]
    · rw [put_ne _ e]
      simp [view, Heap.put, e]
  have hmask : mask (h.put p none) (places xs) = mask h (p :: places xs) := by
    funext k
    by_cases e : k = p
    · subst e
      simp [mask, Heap.put]
    · simp [mask, Heap.put, e]
  refine ⟨?_, ?_, ?_, ?_⟩
  · rw [hview]
    exact H.good.free (view_place (ps := p :: places xs) hc (by simp))
  · intro q e hq
    have hqp : q ≠ p := by
      rintro rfl
      exact hpx (List.mem_map_of_mem (f := Res.addr) hq)
    simp only [Heap.put, if_neg hqp]
    exact H.place q e (List.mem_cons_of_mem _ hq)
  · intro q D' hq
    rw [hmask]
    exact H.reads q D' (List.mem_cons_of_mem _ hq)
  · intro hb k c hk
    by_cases e : k = p
    · subst e
      simp [Heap.put] at hk
    · simp only [Heap.put, if_neg e] at hk
      exact H.box hb k c hk

/-- A reference that is not the last one is given up. -/
theorem HeapOwn.giveUp {p : Addr} {D : Datum τ ε} (H : HeapOwn box h (.ref p D :: xs)) {c : Cell τ ε}
    (hc : h.cells p = some c) (hs : c.strong ≠ 1) :
    HeapOwn box (h.put p (some { c with strong := c.strong - 1 })) xs := by
  obtain ⟨d, h1, -⟩ := H.reads p D List.mem_cons_self
  obtain ⟨hnp, -⟩ := mask_some h1
  change p ∉ places xs at hnp
  have hview : view (h.put p (some { c with strong := c.strong - 1 })) (places xs) =
      (view h (places xs)).put p (some ⟨c.strong - 1, shape c.dat⟩) := by
    funext k
    by_cases e : k = p
    · subst e
      rw [put_same]
      simp [view, Heap.put, hnp]
    · rw [put_ne _ e]
      simp [view, Heap.put, e]
  have hmask : mask (h.put p (some { c with strong := c.strong - 1 })) (places xs) = mask h (places xs) := by
    funext k
    by_cases e : k = p
    · subst e
      simp [mask, Heap.put, hc]
    · simp [mask, Heap.put, e]
  refine ⟨?_, ?_, ?_, ?_⟩
  · rw [hview]
    exact H.good.giveUp (view_some hc hnp) hs
  · intro q e hq
    have hqp : q ≠ p := by
      rintro rfl
      exact hnp (mem_places.mpr ⟨_, hq⟩)
    simp only [Heap.put, if_neg hqp]
    exact H.place q e (List.mem_cons_of_mem _ hq)
  · intro q D' hq
    rw [hmask]
    exact H.reads q D' (List.mem_cons_of_mem _ hq)
  · intro hb
    exact absurd (H.box hb p c hc) hs

/-- One more reference to anything that is live and not opened. -/
theorem HeapOwn.more {p : Addr} {D : Datum τ ε} (H : HeapOwn false h xs) (ha : At (mask h (places xs)) p D) :
    HeapOwn false (h.clone p) (.ref p D :: xs) := by
  have ha' := ha
  obtain ⟨d, h1, -⟩ := ha
  obtain ⟨hnp, s, hc⟩ := mask_some h1
  have hcl : h.clone p = h.put p (some ⟨s + 1, d⟩) := by simp [Heap.clone, hc]
  rw [hcl]
  have hview : view (h.put p (some ⟨s + 1, d⟩)) (places xs) =
      (view h (places xs)).put p (some ⟨s + 1, shape d⟩) := by
    funext k
    by_cases e : k = p
    · subst e
      rw [put_same]
      simp [view, Heap.put, hnp]
    · rw [put_ne _ e]
      simp [view, Heap.put, e]
  have hmask : mask (h.put p (some ⟨s + 1, d⟩)) (places xs) = mask h (places xs) := by
    funext k
    by_cases e : k = p
    · subst e
      simp [mask, Heap.put, hc]
    · simp [mask, Heap.put, e]
  refine ⟨?_, ?_, ?_, by simp⟩
  · change Good _ (view (h.put p (some ⟨s + 1, d⟩)) (places xs)) _
    rw [hview]
    exact H.good.clone (view_some hc hnp)
  · intro q e hq
    replace hq : Res.place q e ∈ xs := by simpa using hq
    have hqp : q ≠ p := by
      rintro rfl
      exact hnp (mem_places.mpr ⟨_, hq⟩)
    simp only [Heap.put, if_neg hqp]
    exact H.place q e hq
  · intro q D' hq
    change At (mask (h.put p (some ⟨s + 1, d⟩)) (places xs)) q D'
    rw [hmask]
    rcases List.mem_cons.mp hq with hq | hq
    · cases hq
      exact ha'
    · exact H.reads q D' hq

/-- One more of a reference. -/
theorem HeapOwn.clone {p : Addr} {D : Datum τ ε} (H : HeapOwn false h (.ref p D :: xs)) :
    HeapOwn false (h.clone p) (.ref p D :: .ref p D :: xs) := H.more (H.reads p D List.mem_cons_self)

/-- What is live and not opened is the root of a tree. -/
theorem HeapOwn.tree {p : Addr} (H : HeapOwn box h xs) (hc : h.cells p ≠ none) (hp : p ∉ places xs) :
    ∃ D, At (mask h (places xs)) p D := by
  have hr := H.good.reach (k := p) (by simpa [view] using hc)
  clear hc
  induction hr with
  | @out k h1 =>
    obtain ⟨x, hx, rfl⟩ := List.mem_map.mp h1
    cases x with
    | ref q D => exact ⟨D, H.reads q D hx⟩
    | place q d => exact absurd (mem_places.mpr ⟨d, hx⟩) hp
  | @kid k j h1 h2 ih =>
    rw [view_kids] at h2
    by_cases hk : k ∈ places xs
    · simp [mask, hk] at h2
    · obtain ⟨D, d, h3, h4⟩ := ih hk
      rw [h3] at h2
      cases h4 with
      | combination h5 h6 h7 h8 | list h5 h6 h7 h8 =>
        simp only [Dat.refs, List.mem_cons, List.not_mem_nil, or_false] at h2
        rcases h2 with rfl | rfl
        · exact ⟨_, _, h5, h6⟩
        · exact ⟨_, _, h7, h8⟩
      | _ => simp [Dat.refs] at h2

/-- A new place, at any address that was never used. -/
theorem HeapOwn.new {k : Addr} (hk : h.size ≤ k) (d : Dat τ ε) (H : HeapOwn box h xs) :
    HeapOwn box { h.put k (some ⟨1, d⟩) with size := k + 1 } (.place k d :: xs) := by
  have hn := H.fresh hk
  have hnp : k ∉ places xs := by
    intro hm
    obtain ⟨e, he⟩ := mem_places.mp hm
    have := H.place k e he
    rw [hn] at this
    cases this
  have hview : view { h.put k (some ⟨1, d⟩) with size := k + 1 } (k :: places xs) =
      (view h (places xs)).put k (some ⟨1, .leaf none⟩) := by
    funext j
    by_cases e : j = k
    · subst e
      rw [put_same]
      simp [view, Heap.put]
    · rw [put_ne _ e]
      simp [view, Heap.put, e]
  have hmask : mask { h.put k (some ⟨1, d⟩) with size := k + 1 } (k :: places xs) = mask h (places xs) := by
    funext j
    by_cases e : j = k
    · subst e
      simp [mask, hn]
    · simp [mask, Heap.put, e]
  refine ⟨?_, ?_, ?_, ?_⟩
  · change Good (Finset.range (k + 1)) (view { h.put k (some ⟨1, d⟩) with size := k + 1 } (k :: places xs)) _
    rw [hview]
    exact H.good.new (by simp; exact hk) (fun j hj => by simp at *; omega) (by simp) none
  · intro q e hq
    replace hq := List.mem_cons.mp hq
    rcases hq with hq | hq
    · cases hq
      simp [Heap.put]
    · have hqp : q ≠ k := by
        rintro rfl
        exact hnp (mem_places.mpr ⟨_, hq⟩)
      simp only [Heap.put, if_neg hqp]
      exact H.place q e hq
  · intro q D' hq
    change At (mask { h.put k (some ⟨1, d⟩) with size := k + 1 } (k :: places xs)) q D'
    rw [hmask]
    replace hq := List.mem_cons.mp hq
    rcases hq with hq | hq
    · cases hq
    · exact H.reads q D' hq
  · intro hb j c hj
    by_cases e : j = k
    · subst e
      simp only [Heap.put, if_true] at hj
      cases hj
      rfl
    · simp only [Heap.put, if_neg e] at hj
      exact H.box hb j c hj

/-- Nothing changes when addresses are skipped. -/
theorem HeapOwn.skip {k : Nat} (hk : h.size ≤ k) (H : HeapOwn box h xs) : HeapOwn box { h with size := k } xs := by
  have g := H.good
  refine ⟨⟨fun j hj => ?_, fun j c hj => ?_, g.pos, g.valid, g.finite⟩, H.place, H.reads, H.box⟩
  · have := g.dom j hj
    simp at *
    omega
  · refine (g.count j c hj).trans ?_
    congr 1
    refine Finset.sum_subset (fun i hi => by simp at *; omega) fun i _ hi => ?_
    have : view h (places xs) i = none := by
      by_contra hn
      exact hi (g.dom i hn)
    have h2 : view { h with size := k } (places xs) i = none := this
    simp [RcHeap.Heap.kids, this]

theorem Heap.total_eq (h : Heap τ ε) : h.total = ∑ k ∈ Finset.range h.size, h.strong k := rfl

theorem Heap.strong_put (h : Heap τ ε) (p : Addr) (c : Option (Cell τ ε)) (k : Addr) :
    (h.put p c).strong k = if k = p then (match c with | some c => c.strong | none => 0) else h.strong k := by
  unfold Heap.strong Heap.put
  by_cases e : k = p
  · subst e
    simp only [if_true]
    cases c <;> rfl
  · simp only [if_neg e]

theorem Heap.total_put (h : Heap τ ε) {p : Addr} (hp : p < h.size) (c : Option (Cell τ ε)) :
    (h.put p c).total + h.strong p = h.total + (match c with | some c => c.strong | none => 0) := by
  rw [Heap.total_eq, Heap.total_eq]
  exact RcHeap.sum_put (Finset.mem_range.mpr hp) h.strong _ _ fun j => h.strong_put p c j

/-- Dropping of references. -/
theorem HeapOwn.release (n : Nat) : ∀ {h : Heap τ ε} {rs : List (Res τ ε)} {ps : List Addr},
    (∀ r ∈ rs, ∃ p D, r = .ref p D) → rs.map Res.addr = ps → h.total ≤ n → HeapOwn box h (rs ++ xs) →
    HeapOwn box (h.release n ps) xs := by
  have hpos : ∀ {h : Heap τ ε} {p D ys}, HeapOwn box h (.ref p D :: ys) →
      ∃ c, h.cells p = some c ∧ 0 < c.strong ∧ p < h.size ∧ 0 < h.total := by
    intro h p D ys H
    obtain ⟨d, h1, -⟩ := H.reads p D List.mem_cons_self
    obtain ⟨h2, s, hc⟩ := mask_some h1
    have h3 := H.good.pos p _ (view_some hc h2)
    have h4 := H.lt (k := p) (by rw [hc]; simp)
    refine ⟨_, hc, h3, h4, ?_⟩
    rw [Heap.total_eq]
    refine Finset.sum_pos' (fun _ _ => Nat.zero_le _) ⟨p, Finset.mem_range.mpr h4, ?_⟩
    simpa [Heap.strong, hc] using h3
  induction n with
  | zero =>
    intro h rs ps hr he ht H
    cases rs with
    | nil => exact H
    | cons r rs =>
      obtain ⟨p, D, rfl⟩ := hr r List.mem_cons_self
      obtain ⟨_, _, _, _, h5⟩ := hpos H
      omega
  | succ n ih =>
    intro h rs ps hr he ht H
    cases rs with
    | nil => subst he; exact H
    | cons r rs =>
      obtain ⟨p, D, rfl⟩ := hr r List.mem_cons_self
      obtain ⟨c, hc, h0, hp, -⟩ := hpos H
      subst he
      have hstrong : h.strong p = c.strong := by simp [Heap.strong, hc]
      simp only [List.map_cons, Res.addr, Heap.release, hc]
      by_cases h1 : c.strong = 1
      · rw [if_pos h1]
        obtain ⟨d, rs', h3, H'⟩ := HeapOwn.open H (hstrong.trans h1)
        have hd := H'.place p d List.mem_cons_self
        rw [hc] at hd
        cases hd
        refine ih (rs := rs' ++ rs) ?_ ?_ ?_ (by rw [List.append_assoc]; exact H'.free)
        · intro r hr'
          rcases List.mem_append.mp hr' with hr' | hr'
          · cases r with
            | ref p D => exact ⟨p, D, rfl⟩
            | place q e =>
              have := mem_places.mpr ⟨_, hr'⟩
              rw [h3.places] at this
              cases this
          · exact hr r (List.mem_cons_of_mem _ hr')
        · rw [List.map_append, h3.addrs]
        · have := h.total_put hp none
          simp only at this
          omega
      · rw [if_neg h1]
        refine ih (fun r hr' => hr r (List.mem_cons_of_mem _ hr')) rfl ?_ (HeapOwn.giveUp H hc h1)
        have := h.total_put hp (some { c with strong := c.strong - 1 })
        simp only at this
        omega

/-- Who owns a reference may drop it. -/
theorem HeapOwn.drop {p : Addr} {D : Datum τ ε} (H : HeapOwn box h (.ref p D :: xs)) :
    HeapOwn box ((heapMem τ ε box).dropRef p h) xs :=
  HeapOwn.release (rs := [.ref p D]) _ (by simp) rfl (Nat.le_refl _) H

/-- Who owns a datum may drop it. -/
theorem HeapOwn.dropDat {d : Dat τ ε} {D : Datum τ ε} {rs : List (Res τ ε)} (hp : Parts d D rs)
    (H : HeapOwn box h (rs ++ xs)) : HeapOwn box ((heapMem τ ε box).dropDat d h) xs := by
  cases hp with
  | text | emptyNest | emptyList | extra => exact H
  | combination | list => exact HeapOwn.drop (HeapOwn.drop H)

theorem HeapOwn.alloc {d : Dat τ ε} {D : Datum τ ε} {rs : List (Res τ ε)} (hp : Parts d D rs) {k : Addr}
    (hk : h.size ≤ k) (H : HeapOwn box h (rs ++ xs)) :
    HeapOwn box { h.put k (some ⟨1, d⟩) with size := k + 1 } (.ref k D :: xs) :=
  HeapOwn.close hp (HeapOwn.new hk d H)

end Kul.Mem
