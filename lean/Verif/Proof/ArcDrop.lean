import Verif.Proof.ArcHeap
import Verif.Spec.ArcDrop

/-! # Facts about dropping by several threads -/

namespace Kul.ArcDrop

open Drop (Class Side)
open RcHeap (Dat Reach Good okids spine)

variable {L : Type}

/-! ## Stores -/

namespace Store

theorem put_same (s : Store L) (k : Nat) (c) : (s.put k c).cells k = c := by simp [put]

theorem put_ne (s : Store L) {k j : Nat} (h : j ≠ k) (c) : (s.put k c).cells j = s.cells j := by simp [put, h]

theorem get_eq {s : Store L} {k : Nat} {c : Cell L} : s.get k = some c ↔ s.cells k = some c ∧ c.strong ≠ 0 := by
  unfold get
  cases h : s.cells k with
  | none => simp
  | some c' =>
    simp only
    split
    · next h0 =>
      refine ⟨fun h => (by cases h), ?_⟩
      rintro ⟨h1, h2⟩
      cases h1
      exact (h2 h0).elim
    · next h0 =>
      refine ⟨fun h => (by cases h; exact ⟨rfl, h0⟩), ?_⟩
      rintro ⟨h1, _⟩
      rw [h1]

theorem live_of {s : Store L} {k : Nat} {c : Cell L} (h : s.get k = some c) : s.live k = some ⟨c.strong, c.dat⟩ := by
  simp [live, h]

theorem live_some {s : Store L} {k : Nat} {c : RcHeap.Cell L} (h : s.live k = some c) :
    ∃ w, s.get k = some ⟨c.strong, w, c.dat⟩ := by
  unfold live at h
  cases hg : s.get k with
  | none => rw [hg] at h; cases h
  | some c' => rw [hg] at h; cases h; exact ⟨c'.weak, rfl⟩

theorem get_put (s : Store L) (k j : Nat) (v : Option (Cell L)) :
    (s.put k v).get j = if j = k then (match v with | some c => if c.strong = 0 then none else some c | none => none)
      else s.get j := by
  by_cases e : j = k
  · subst e
    rw [if_pos rfl]
    unfold get
    rw [put_same]
    rfl
  · rw [if_neg e]
    unfold get
    rw [put_ne s e]

theorem live_put_pos (s : Store L) (k : Nat) {c : Cell L} (h : c.strong ≠ 0) :
    (s.put k (some c)).live = s.live.put k (some ⟨c.strong, c.dat⟩) := by
  funext j
  simp only [live, get_put, RcHeap.Heap.put, h]
  split <;> simp

theorem live_put_zero (s : Store L) (k : Nat) {c : Cell L} (h : c.strong = 0) :
    (s.put k (some c)).live = s.live.put k none := by
  funext j
  simp only [live, get_put, RcHeap.Heap.put, h]
  split <;> simp

theorem live_put_none (s : Store L) (k : Nat) : (s.put k none).live = s.live.put k none := by
  funext j
  simp only [live, get_put, RcHeap.Heap.put]
  split <;> simp

theorem live_new (s : Store L) (d : Dat L) : (s.new d).live = s.live.put s.next (some ⟨1, d⟩) :=
  live_put_pos s s.next (c := ⟨1, 1, d⟩) (by simp)

end Store

/-! ## Sums over the cells -/

/-- The sum of something over the cells with datums. -/
def total (f : Option (RcHeap.Cell L) → Nat) (s : Store L) : Nat := ∑ j ∈ Finset.range s.next, f (s.live j)

theorem total_congr {f : Option (RcHeap.Cell L) → Nat} {s s' : Store L} (h1 : s'.next = s.next) (h2 : s'.live = s.live) :
    total f s' = total f s := by
  unfold total
  rw [h1, h2]

theorem total_put {f : Option (RcHeap.Cell L) → Nat} {s s' : Store L} {k : Nat} (hk : k < s.next) {v}
    (h1 : s'.next = s.next) (h2 : s'.live = s.live.put k v) : total f s' + f (s.live k) = total f s + f v := by
  unfold total
  rw [h1, h2]
  refine RcHeap.sum_put (Finset.mem_range.mpr hk) (fun j => f (s.live j)) _ _ fun j => ?_
  simp only [RcHeap.Heap.put]
  split <;> rfl

theorem total_new {f : Option (RcHeap.Cell L) → Nat} {s s' : Store L} {d : Dat L} (h1 : s'.next = s.next + 1)
    (h2 : s'.live = s.live.put s.next (some ⟨1, d⟩)) : total f s' = total f s + f (some ⟨1, d⟩) := by
  unfold total
  rw [h1, h2, Finset.sum_range_succ, RcHeap.put_same]
  congr 1
  refine Finset.sum_congr rfl fun j hj => ?_
  rw [RcHeap.put_ne _ (Nat.ne_of_lt (Finset.mem_range.mp hj))]

/-- Counts the cells. -/
def one : Option (RcHeap.Cell L) → Nat
  | some _ => 1
  | none => 0

/-- Counts the references in the cells. -/
def kidN (o : Option (RcHeap.Cell L)) : Nat := (okids o).length

/-- Counts a leaf in the cells. -/
def leafN [DecidableEq L] (x : L) : Option (RcHeap.Cell L) → Nat
  | some c => (leafOf c.dat).count x
  | none => 0

theorem size_eq (s : Store L) : s.size = total one s := by
  unfold Store.size total
  rw [← List.countP_eq_length_filter]
  induction s.next with
  | zero => rfl
  | succ n ih =>
    rw [List.range_succ, List.countP_append, Finset.sum_range_succ, ih]
    congr 1
    unfold Store.live
    cases h : s.get n <;> simp [h, one]

/-! ## The invariant -/

/-- A store in order, when the strong references from outside of it are `R`, the `Weak`s `W`, and the `Weak`s that
the strong references to a cell had together are still to be dropped for the cells `F`. -/
structure Inv (s : Store L) (R W F : List Nat) : Prop where
  good : Good (Finset.range s.next) s.live R
  dom : ∀ k, s.cells k ≠ none → k < s.next
  weak : ∀ k c, s.cells k = some c → c.weak = W.count k + F.count k + (if c.strong = 0 then 0 else 1)
  wpos : ∀ k c, s.cells k = some c → 0 < c.weak
  valid : ∀ k, k ∈ W → s.cells k ≠ none
  dead : ∀ k ∈ F, F.count k = 1 ∧ ∃ c, s.cells k = some c ∧ c.strong = 0

theorem Inv.congr {s : Store L} {R R' W W' F F' : List Nat} (i : Inv s R W F) (hR : ∀ k, R'.count k = R.count k)
    (hW : ∀ k, W'.count k = W.count k) (hF : ∀ k, F'.count k = F.count k) : Inv s R' W' F' :=
  ⟨i.good.congr hR, i.dom, fun k c hc => by rw [hW, hF]; exact i.weak k c hc, i.wpos,
    fun k hk => i.valid k (by
      have := List.count_pos_iff.mpr hk
      rw [hW] at this
      exact List.count_pos_iff.mp this),
    fun k hk => by
      rw [hF]
      refine i.dead k ?_
      have := List.count_pos_iff.mpr hk
      rw [hF] at this
      exact List.count_pos_iff.mp this⟩

/-- Leaves do not matter for it. -/
theorem Inv.leaves {s : Store L} {R W F : List Nat} (i : Inv s R W F) (a b c : List L) :
    Inv { s with made := a, back := b, log := c } R W F :=
  ⟨i.good, i.dom, i.weak, i.wpos, i.valid, i.dead⟩

theorem Inv.got {s : Store L} {R W F : List Nat} (i : Inv s R W F) {k : Nat} (hk : k ∈ R) :
    ∃ c, s.get k = some c := by
  obtain ⟨c, hc⟩ := i.good.live hk
  obtain ⟨w, h⟩ := Store.live_some hc
  exact ⟨_, h⟩

theorem Inv.fresh {s : Store L} {R W F : List Nat} (i : Inv s R W F) : s.cells s.next = none := by
  by_contra h
  exact Nat.lt_irrefl _ (i.dom _ h)

theorem Inv.freshLive {s : Store L} {R W F : List Nat} (i : Inv s R W F) : s.live s.next = none := by
  simp [Store.live, Store.get, i.fresh]

/-- What is done without effect on references `R`. -/
structure Frame (R : List Nat) (s s' : Store L) : Prop where
  keep : ∀ k, Reach s.live R k → s'.live.dat k = s.live.dat k
  sole : ∀ k ∈ R, ∀ d, s.cells k = some ⟨1, 1, d⟩ → s'.cells k = some ⟨1, 1, d⟩

theorem Frame.refl (R : List Nat) (s : Store L) : Frame R s s := ⟨fun _ _ => rfl, fun _ _ _ h => h⟩

theorem Frame.trans {R : List Nat} {s s' s'' : Store L} (a : Frame R s s') (b : Frame R s' s'') : Frame R s s'' :=
  ⟨fun k hk => (b.keep k (hk.keep a.keep)).trans (a.keep k hk), fun k hk d h => b.sole k hk d (a.sole k hk d h)⟩

theorem Frame.mono {R R' : List Nat} {s s' : Store L} (f : Frame R s s') (h : ∀ k ∈ R', k ∈ R) : Frame R' s s' :=
  ⟨fun k hk => f.keep k (hk.mono h), fun k hk => f.sole k (h k hk)⟩

/-- A cell that is not reached is changed. -/
theorem Frame.put {R : List Nat} {s s' : Store L} {k : Nat} (h1 : k ∉ R) (h2 : ∀ j, k ∉ s.live.kids j)
    (hc : ∀ j, j ≠ k → s'.cells j = s.cells j) : Frame R s s' := by
  refine ⟨fun j hj => ?_, fun j hj d h => ?_⟩
  · have e : j ≠ k := by rintro rfl; exact RcHeap.not_reach h1 h2 hj
    simp only [RcHeap.Heap.dat, Store.live, Store.get, hc j e]
  · have e : j ≠ k := by rintro rfl; exact h1 hj
    rw [hc j e, h]

/-- The counts of a cell are changed that is not the only one with its datum. -/
theorem Frame.counts {R : List Nat} {s s' : Store L} {k : Nat} {c : Cell L} (hc : s.cells k = some c)
    (h1 : c.strong = 1 → c.weak = 1 → k ∉ R) (hd : s'.live.dat k = s.live.dat k)
    (hn : ∀ j, j ≠ k → s'.cells j = s.cells j) : Frame R s s' := by
  refine ⟨fun j hj => ?_, fun j hj d h => ?_⟩
  · by_cases e : j = k
    · rw [e, hd]
    · simp only [RcHeap.Heap.dat, Store.live, Store.get, hn j e]
  · have e : j ≠ k := by
      rintro rfl
      rw [hc] at h
      cases h
      exact h1 rfl rfl hj
    rw [hn j e, h]

/-- A new cell is made. -/
theorem Inv.new {s : Store L} {R W F : List Nat} {d : Dat L} (i : Inv s (d.kids ++ R) W F) :
    Inv (s.new d) (s.next :: R) W F ∧ Frame (d.kids ++ R) s (s.new d) := by
  have hcells : ∀ j, j ≠ s.next → (s.new d).cells j = s.cells j := fun j hj => Store.put_ne s hj _
  have hsame : (s.new d).cells s.next = some ⟨1, 1, d⟩ := Store.put_same s _ _
  have hW : s.next ∉ W := fun h => i.valid _ h i.fresh
  have hF : s.next ∉ F := fun h => by
    obtain ⟨_, c, hc, _⟩ := i.dead _ h
    rw [i.fresh] at hc
    cases hc
  refine ⟨⟨?_, ?_, ?_, ?_, ?_, ?_⟩, ?_⟩
  · rw [Store.live_new]
    exact (i.good.mono (Finset.range_subset_range.mpr (Nat.le_succ _))).alloc i.freshLive
      (Finset.mem_range.mpr (Nat.lt_succ_self _))
  · intro k hk
    change k < s.next + 1
    by_cases e : k = s.next
    · omega
    · rw [hcells k e] at hk
      have := i.dom k hk
      omega
  · intro k c hc
    by_cases e : k = s.next
    · subst e
      rw [hsame] at hc
      cases hc
      rw [List.count_eq_zero.mpr hW, List.count_eq_zero.mpr hF]
      rfl
    · rw [hcells k e] at hc
      exact i.weak k c hc
  · intro k c hc
    by_cases e : k = s.next
    · subst e
      rw [hsame] at hc
      cases hc
      exact Nat.one_pos
    · rw [hcells k e] at hc
      exact i.wpos k c hc
  · intro k hk
    by_cases e : k = s.next
    · rw [e, hsame]; simp
    · rw [hcells k e]
      exact i.valid k hk
  · intro k hk
    have e : k ≠ s.next := by rintro rfl; exact hF hk
    rw [hcells k e]
    exact i.dead k hk
  · refine Frame.put (k := s.next) ?_ ?_ hcells
    · exact fun h => i.good.valid _ (Or.inl h) i.freshLive
    · exact fun j h => i.good.valid _ (Or.inr ⟨j, h⟩) i.freshLive

/-- The datum is taken out of a cell with one strong reference. -/
theorem Inv.unwrap {s : Store L} {R W F : List Nat} {k : Nat} (i : Inv s (k :: R) W F) {c : Cell L}
    (hc : s.get k = some c) (h1 : c.strong = 1) :
    Inv (s.put k (some { c with strong := 0, dat := .leaf none })) (c.dat.kids ++ R) W (k :: F) ∧
      Frame (c.dat.kids ++ R) s (s.put k (some { c with strong := 0, dat := .leaf none })) := by
  obtain ⟨hcc, -⟩ := Store.get_eq.mp hc
  have hl : s.live k = some ⟨1, c.dat⟩ := by rw [Store.live_of hc, h1]
  have hF : k ∉ F := fun h => by
    obtain ⟨_, c', hc', h0⟩ := i.dead _ h
    rw [hcc] at hc'
    cases hc'
    omega
  obtain ⟨s1, s2⟩ := i.good.sole (by simp) hl rfl
  rw [List.count_cons_self] at s1
  refine ⟨⟨?_, ?_, ?_, ?_, ?_, ?_⟩, ?_⟩
  · rw [Store.live_put_zero s k rfl]
    exact i.good.unwrap hl
  · intro j hj
    by_cases e : j = k
    · rw [e]; exact i.dom k (by rw [hcc]; simp)
    · rw [Store.put_ne s e] at hj; exact i.dom j hj
  · intro j c' hj
    by_cases e : j = k
    · subst e
      rw [Store.put_same] at hj
      cases hj
      have := i.weak j c hcc
      rw [if_neg (by omega)] at this
      simp only [List.count_cons_self, if_true]
      omega
    · rw [Store.put_ne s e] at hj
      rw [List.count_cons_of_ne (Ne.symm e)]
      exact i.weak j c' hj
  · intro j c' hj
    by_cases e : j = k
    · subst e
      rw [Store.put_same] at hj
      cases hj
      exact i.wpos j c hcc
    · rw [Store.put_ne s e] at hj
      exact i.wpos j c' hj
  · intro j hj
    by_cases e : j = k
    · rw [e, Store.put_same]; simp
    · rw [Store.put_ne s e]; exact i.valid j hj
  · intro j hj
    by_cases e : j = k
    · subst e
      rw [List.count_cons_self, List.count_eq_zero.mpr hF, Store.put_same]
      exact ⟨rfl, _, rfl, rfl⟩
    · rw [List.count_cons_of_ne (Ne.symm e), Store.put_ne s e]
      exact i.dead j ((List.mem_cons.mp hj).resolve_left e)
  · refine Frame.put (fun h => ?_) s2 fun j hj => Store.put_ne s hj _
    rcases List.mem_append.mp h with h | h
    · exact s2 k (by rw [RcHeap.kids_of hl]; exact h)
    · have := List.count_pos_iff.mpr h
      omega

/-- A reference that is not the last one is given up. -/
theorem Inv.giveUp {s : Store L} {R W F : List Nat} {k : Nat} (i : Inv s (k :: R) W F) {c : Cell L}
    (hc : s.get k = some c) (h1 : c.strong ≠ 1) :
    Inv (s.put k (some { c with strong := c.strong - 1 })) R W F ∧
      Frame R s (s.put k (some { c with strong := c.strong - 1 })) := by
  obtain ⟨hcc, h0⟩ := Store.get_eq.mp hc
  have h2 : c.strong - 1 ≠ 0 := by omega
  have hlive := Store.live_put_pos s k (c := { c with strong := c.strong - 1 }) h2
  refine ⟨⟨?_, ?_, ?_, ?_, ?_, ?_⟩, ?_⟩
  · rw [hlive]
    exact i.good.giveUp (Store.live_of hc) h1
  · intro j hj
    by_cases e : j = k
    · rw [e]; exact i.dom k (by rw [hcc]; simp)
    · rw [Store.put_ne s e] at hj; exact i.dom j hj
  · intro j c' hj
    by_cases e : j = k
    · subst e
      rw [Store.put_same] at hj
      cases hj
      have := i.weak j c hcc
      rw [if_neg h0] at this
      rw [if_neg h2]
      exact this
    · rw [Store.put_ne s e] at hj
      exact i.weak j c' hj
  · intro j c' hj
    by_cases e : j = k
    · subst e
      rw [Store.put_same] at hj
      cases hj
      exact i.wpos j c hcc
    · rw [Store.put_ne s e] at hj
      exact i.wpos j c' hj
  · intro j hj
    by_cases e : j = k
    · rw [e, Store.put_same]; simp
    · rw [Store.put_ne s e]; exact i.valid j hj
  · intro j hj
    by_cases e : j = k
    · subst e
      obtain ⟨_, c', hc', h3⟩ := i.dead j hj
      rw [hcc] at hc'
      cases hc'
      exact (h0 h3).elim
    · rw [Store.put_ne s e]
      exact i.dead j hj
  · refine Frame.counts hcc (fun h => (h1 h).elim) ?_ fun j hj => Store.put_ne s hj _
    rw [hlive, RcHeap.dat_put, if_pos rfl, RcHeap.dat_of (Store.live_of hc)]
    rfl

/-- There is one strong reference more. -/
theorem Inv.cloned {s : Store L} {R W F : List Nat} {k : Nat} (i : Inv s R W F) {c : Cell L}
    (hc : s.get k = some c) : Inv (s.put k (some { c with strong := c.strong + 1 })) (k :: R) W F := by
  obtain ⟨hcc, h0⟩ := Store.get_eq.mp hc
  refine ⟨?_, ?_, ?_, ?_, ?_, ?_⟩
  · rw [Store.live_put_pos s k (c := { c with strong := c.strong + 1 }) (by simp)]
    exact i.good.cloned (Store.live_of hc)
  · intro j hj
    by_cases e : j = k
    · rw [e]; exact i.dom k (by rw [hcc]; simp)
    · rw [Store.put_ne s e] at hj; exact i.dom j hj
  · intro j c' hj
    by_cases e : j = k
    · subst e
      rw [Store.put_same] at hj
      cases hj
      have := i.weak j c hcc
      rw [if_neg h0] at this
      rw [if_neg (by simp)]
      exact this
    · rw [Store.put_ne s e] at hj
      exact i.weak j c' hj
  · intro j c' hj
    by_cases e : j = k
    · subst e
      rw [Store.put_same] at hj
      cases hj
      exact i.wpos j c hcc
    · rw [Store.put_ne s e] at hj
      exact i.wpos j c' hj
  · intro j hj
    by_cases e : j = k
    · rw [e, Store.put_same]; simp
    · rw [Store.put_ne s e]; exact i.valid j hj
  · intro j hj
    by_cases e : j = k
    · subst e
      obtain ⟨_, c', hc', h3⟩ := i.dead j hj
      rw [hcc] at hc'
      cases hc'
      exact (h0 h3).elim
    · rw [Store.put_ne s e]
      exact i.dead j hj

theorem live_put_weak (s : Store L) {k : Nat} {c : Cell L} (hc : s.cells k = some c) (w : Nat) :
    (s.put k (some { c with weak := w })).live = s.live := by
  by_cases h0 : c.strong = 0
  · rw [Store.live_put_zero s k (c := { c with weak := w }) h0]
    funext j
    simp only [RcHeap.Heap.put]
    split
    · next e => subst e; simp [Store.live, Store.get, hc, h0]
    · rfl
  · rw [Store.live_put_pos s k (c := { c with weak := w }) h0]
    funext j
    simp only [RcHeap.Heap.put]
    split
    · next e => subst e; rw [Store.live_of (Store.get_eq.mpr ⟨hc, h0⟩)]
    · rfl

/-- There is one `Weak` more. -/
theorem Inv.moreWeak {s : Store L} {R W F : List Nat} {k : Nat} (i : Inv s R W F) {c : Cell L}
    (hc : s.cells k = some c) : Inv (s.put k (some { c with weak := c.weak + 1 })) R (k :: W) F := by
  refine ⟨?_, ?_, ?_, ?_, ?_, ?_⟩
  · rw [live_put_weak s hc]
    exact i.good
  · intro j hj
    by_cases e : j = k
    · rw [e]; exact i.dom k (by rw [hc]; simp)
    · rw [Store.put_ne s e] at hj; exact i.dom j hj
  · intro j c' hj
    by_cases e : j = k
    · subst e
      rw [Store.put_same] at hj
      cases hj
      have := i.weak j c hc
      rw [List.count_cons_self]
      simp only
      omega
    · rw [Store.put_ne s e] at hj
      rw [List.count_cons_of_ne (Ne.symm e)]
      exact i.weak j c' hj
  · intro j c' hj
    by_cases e : j = k
    · subst e
      rw [Store.put_same] at hj
      cases hj
      exact Nat.succ_pos _
    · rw [Store.put_ne s e] at hj
      exact i.wpos j c' hj
  · intro j hj
    by_cases e : j = k
    · rw [e, Store.put_same]; simp
    · rw [Store.put_ne s e]; exact i.valid j ((List.mem_cons.mp hj).resolve_left e)
  · intro j hj
    obtain ⟨h1, c', h2, h3⟩ := i.dead j hj
    refine ⟨h1, ?_⟩
    by_cases e : j = k
    · subst e
      rw [hc] at h2
      cases h2
      exact ⟨_, Store.put_same s _ _, h3⟩
    · exact ⟨c', by rw [Store.put_ne s e]; exact h2, h3⟩

/-- A `Weak` is dropped, be it one of the program or one that the strong references had together. -/
theorem Inv.dropWeak {s : Store L} {R W F W' F' : List Nat} {k : Nat} (i : Inv s R W F)
    (h : ∀ j, W.count j + F.count j = W'.count j + F'.count j + (if j = k then 1 else 0))
    (hW : ∀ j, W'.count j ≤ W.count j) (hF : ∀ j, F'.count j ≤ F.count j) :
    ∃ s', s.dropWeak k = some s' ∧ Inv s' R W' F' ∧ s'.live = s.live ∧ s'.next = s.next ∧ Frame R s s' ∧
      s'.made = s.made ∧ s'.back = s.back ∧ s'.log = s.log := by
  have hk := h k
  rw [if_pos rfl] at hk
  obtain ⟨c, hc⟩ : ∃ c, s.cells k = some c := by
    by_cases h0 : 0 < W.count k
    · exact Option.ne_none_iff_exists'.mp (i.valid k (List.count_pos_iff.mp h0))
    · obtain ⟨_, c, hc, _⟩ := i.dead k (List.count_pos_iff.mp (by omega))
      exact ⟨c, hc⟩
  have hw := i.weak k c hc
  have hvalid : ∀ j, j ∈ W' → j ∈ W := fun j hj => by
    have := List.count_pos_iff.mpr hj
    have := hW j
    exact List.count_pos_iff.mp (by omega)
  have hdead : ∀ j ∈ F', j ∈ F ∧ F'.count j = 1 := fun j hj => by
    have h1 := List.count_pos_iff.mpr hj
    have h2 := hF j
    have h3 : j ∈ F := List.count_pos_iff.mp (by omega)
    have := (i.dead j h3).1
    exact ⟨h3, by omega⟩
  unfold Store.dropWeak
  rw [hc]
  by_cases h1 : c.weak = 1
  · have h0 : c.strong = 0 := by
      by_contra h0
      rw [if_neg h0] at hw
      omega
    have hlive : (s.put k none).live = s.live := by
      rw [Store.live_put_none]
      funext j
      simp only [RcHeap.Heap.put]
      split
      · next e => subst e; simp [Store.live, Store.get, hc, h0]
      · rfl
    simp only [h1, h0, if_true]
    refine ⟨_, rfl, ⟨?_, ?_, ?_, ?_, ?_, ?_⟩, hlive, rfl, ?_, rfl, rfl, rfl⟩
    · rw [hlive]; exact i.good
    · intro j hj
      by_cases e : j = k
      · rw [e]; exact i.dom k (by rw [hc]; simp)
      · rw [Store.put_ne s e] at hj; exact i.dom j hj
    · intro j c' hj
      have e : j ≠ k := by rintro rfl; rw [Store.put_same] at hj; cases hj
      rw [Store.put_ne s e] at hj
      have := i.weak j c' hj
      have h2 := h j
      rw [if_neg e] at h2
      omega
    · intro j c' hj
      have e : j ≠ k := by rintro rfl; rw [Store.put_same] at hj; cases hj
      rw [Store.put_ne s e] at hj
      exact i.wpos j c' hj
    · intro j hj
      have e : j ≠ k := by
        rintro rfl
        have := List.count_pos_iff.mpr hj
        omega
      rw [Store.put_ne s e]
      exact i.valid j (hvalid j hj)
    · intro j hj
      have e : j ≠ k := by
        rintro rfl
        have := List.count_pos_iff.mpr hj
        omega
      rw [Store.put_ne s e]
      exact ⟨(hdead j hj).2, (i.dead j (hdead j hj).1).2⟩
    · exact Frame.counts hc (fun h => by omega) (by rw [hlive]) fun j hj => Store.put_ne s hj _
  · have hlive := live_put_weak s hc (c.weak - 1)
    have hp := i.wpos k c hc
    simp only [h1, if_false]
    refine ⟨_, rfl, ⟨?_, ?_, ?_, ?_, ?_, ?_⟩, hlive, rfl, ?_, rfl, rfl, rfl⟩
    · rw [hlive]; exact i.good
    · intro j hj
      by_cases e : j = k
      · rw [e]; exact i.dom k (by rw [hc]; simp)
      · rw [Store.put_ne s e] at hj; exact i.dom j hj
    · intro j c' hj
      by_cases e : j = k
      · subst e
        rw [Store.put_same] at hj
        cases hj
        simp only
        omega
      · rw [Store.put_ne s e] at hj
        have := i.weak j c' hj
        have h2 := h j
        rw [if_neg e] at h2
        omega
    · intro j c' hj
      by_cases e : j = k
      · subst e
        rw [Store.put_same] at hj
        cases hj
        simp only
        omega
      · rw [Store.put_ne s e] at hj
        exact i.wpos j c' hj
    · intro j hj
      by_cases e : j = k
      · rw [e, Store.put_same]; simp
      · rw [Store.put_ne s e]
        exact i.valid j (hvalid j hj)
    · intro j hj
      obtain ⟨_, c', h3, h4⟩ := i.dead j (hdead j hj).1
      refine ⟨(hdead j hj).2, ?_⟩
      by_cases e : j = k
      · subst e
        rw [hc] at h3
        cases h3
        exact ⟨_, Store.put_same s _ _, h4⟩
      · exact ⟨c', by rw [Store.put_ne s e]; exact h3, h4⟩
    · exact Frame.counts hc (fun _ h => (h1 h).elim) (by rw [hlive]) fun j hj => Store.put_ne s hj _

/-- The datum of a cell with a single reference is exchanged. -/
theorem Inv.exchange {s : Store L} {R R' W F : List Nat} {k : Nat} (i : Inv s R W F) {c : Cell L}
    (hc : s.get k = some c) (h1 : c.strong = 1) (hk : k ∈ R) (hk' : k ∈ R') {d : Dat L}
    (hcount : ∀ j, R.count j + c.dat.kids.count j = R'.count j + d.kids.count j) :
    Inv (s.put k (some { c with dat := d })) R' W F ∧
      ∀ R₀, k ∉ R₀ → Frame R₀ s (s.put k (some { c with dat := d })) := by
  obtain ⟨hcc, h0⟩ := Store.get_eq.mp hc
  have hl : s.live k = some ⟨1, c.dat⟩ := by rw [Store.live_of hc, h1]
  refine ⟨⟨?_, ?_, ?_, ?_, ?_, ?_⟩, ?_⟩
  · rw [Store.live_put_pos s k (c := { c with dat := d }) h0]
    simp only [h1]
    exact i.good.replace hl hk hk' hcount
  · intro j hj
    by_cases e : j = k
    · rw [e]; exact i.dom k (by rw [hcc]; simp)
    · rw [Store.put_ne s e] at hj; exact i.dom j hj
  · intro j c' hj
    by_cases e : j = k
    · subst e
      rw [Store.put_same] at hj
      cases hj
      exact i.weak j c hcc
    · rw [Store.put_ne s e] at hj
      exact i.weak j c' hj
  · intro j c' hj
    by_cases e : j = k
    · subst e
      rw [Store.put_same] at hj
      cases hj
      exact i.wpos j c hcc
    · rw [Store.put_ne s e] at hj
      exact i.wpos j c' hj
  · intro j hj
    by_cases e : j = k
    · rw [e, Store.put_same]; simp
    · rw [Store.put_ne s e]; exact i.valid j hj
  · intro j hj
    by_cases e : j = k
    · subst e
      obtain ⟨_, c', hc', h3⟩ := i.dead j hj
      rw [hcc] at hc'
      cases hc'
      exact (h0 h3).elim
    · rw [Store.put_ne s e]
      exact i.dead j hj
  · exact fun R₀ h => Frame.put h (i.good.sole hk hl rfl).2 fun j hj => Store.put_ne s hj _

end Kul.ArcDrop
