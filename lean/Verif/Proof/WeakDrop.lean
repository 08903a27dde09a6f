import Verif.Spec.WeakDrop
import Mathlib.Tactic.Ring

/-!
# Proofs about lists whose elements have weak references to their nodes
-/

namespace Kul.WeakDrop

open RcCell (Heap Cell Replaced)

theorem put_cell (h : Heap Dat) (k : Nat) (c : Option (Cell Dat)) (j : Nat) : (h.put k c).cell j = if j = k then c else h.cell j := rfl

theorem put_next (h : Heap Dat) (k : Nat) (c : Option (Cell Dat)) : (h.put k c).next = h.next := rfl

variable {arc : Bool}

theorem drop_plain {h : Heap Dat} {k n : Nat} {d : Dat} (e : h.cell k = some ⟨some d, 1, 0⟩) (hd : d = .plain ∨ d = .temp) (hn : 2 ≤ n) :
    ∃ h', drop arc n k h = .done h' 0 1 ∧ h'.next = h.next ∧ ∀ j, h'.cell j = if j = k then none else h.cell j := by
  obtain ⟨n, rfl⟩ : ∃ m, n = m + 2 := ⟨n - 2, by omega⟩
  rcases hd with rfl | rfl <;>
  · simp only [drop, RcCell.get, e, Option.bind_some, Dat.cls, release, if_true, Res.andThen, Res.call, tidy, put_cell, Heap.store]
    exact ⟨_, rfl, rfl, fun j => by simp only [put_cell]; grind⟩

theorem drop_extra {h : Heap Dat} {k i n w : Nat} (e : h.cell k = some ⟨some (.extra (some i)), 1, 0⟩)
    (f : h.cell i = some ⟨none, 0, w + 1⟩) (hn : 2 ≤ n) :
    ∃ h', drop arc n k h = .done h' 0 1 ∧ h'.next = h.next ∧ ∀ j, h'.cell j = if j = k then none else if j = i then husk w else h.cell j := by
  obtain ⟨n, rfl⟩ : ∃ m, n = m + 2 := ⟨n - 2, by omega⟩
  have hne : i ≠ k := fun h' => by rw [h', e] at f; cases f
  simp only [drop, RcCell.get, e, Option.bind_some, Dat.cls, release, if_true, Res.andThen, Res.call, tidy, put_cell, Heap.store, RcCell.dropWeak,
    if_neg hne, f, if_neg hne.symm]
  exact ⟨_, rfl, rfl, fun j => by simp [put_cell, husk]; grind⟩

theorem take_weak {h : Heap Dat} {k w : Nat} {d : Dat} (e : h.cell k = some ⟨some d, 1, w + 1⟩) (hk : k < h.next) :
    ∃ h', tryTake arc k h = .ok d h.next h' ∧ h'.next = h.next + 1 ∧
      ∀ j, h'.cell j = if j = k then some ⟨none, 0, w + 1⟩ else if j = h.next then some ⟨some .temp, 1, 0⟩ else h.cell j := by
  have hne : k ≠ h.next := by omega
  have hr : tryTake arc k h = RcCell.tryReplace k .temp h := by
    cases arc <;> simp [tryTake, RcCell.tryReplaceOptim, RcCell.counts, e]
  rw [hr]
  simp only [RcCell.tryReplace, RcCell.new, RcCell.tryUnwrap, e, put_cell, if_neg hne, Heap.store]
  exact ⟨_, rfl, rfl, fun j => by simp [put_cell]⟩

/-- Such a list whose node `i + 1` has been taken apart. -/
structure Opened (w : Nat → Nat) (h : Heap Dat) (i : Nat) : Prop where
  zero : h.cell 0 = some ⟨some .plain, 1, 0⟩
  elem : ∀ c, c ≤ i → h.cell (2 * c + 1) = some ⟨some (.extra (some (2 * c + 2))), 1, 0⟩
  node : ∀ c, c < i → h.cell (2 * c + 2) = some ⟨some (.branch (2 * c + 1) (2 * c)), 1, w (c + 1) + 1⟩
  gone : h.cell (2 * i + 2) = some ⟨none, 0, w (i + 1) + 1⟩
  lt : 2 * i + 2 < h.next
  free : ∀ j, h.next ≤ j → h.cell j = none

theorem loop_weak (w : Nat → Nat) : ∀ (i n : Nat) (h : Heap Dat), Opened w h i → i + 3 ≤ n →
    ∃ h', loop arc n none (.branch (2 * i + 1) (2 * i)) h = .done h' (i + 1) 1 ∧ h'.next = h.next + i ∧
      ∀ j, h'.cell j = if j ≤ 2 * i + 2 then husks w j else h.cell j
  | 0, n, h, o, hn => by
    obtain ⟨n, rfl⟩ : ∃ m, n = m + 1 := ⟨n - 1, by omega⟩
    have e := o.elem 0 (le_refl _)
    have g := o.gone
    have z := o.zero
    simp only [Nat.mul_zero, Nat.zero_add] at e g ⊢
    obtain ⟨h1, d1, n1, c1⟩ := drop_plain (arc := arc) (n := n) z (Or.inl rfl) (by omega)
    obtain ⟨h2, d2, n2, c2⟩ := drop_extra (arc := arc) (n := n) (h := h1) (k := 1) (i := 2) (by rw [c1]; simpa using e) (by rw [c1]; simpa using g) (by omega)
    refine ⟨h2, ?_, by omega, fun j => ?_⟩
    · simp [loop, choose, RcCell.get, e, z, Dat.cls, d1, d2, Res.andThen, Res.step]
    · rw [c2, c1, husks]
      by_cases j2 : j = 2
      · subst j2; simp
      · grind
  | i + 1, n, h, o, hn => by
    obtain ⟨n, rfl⟩ : ∃ m, n = m + 1 := ⟨n - 1, by omega⟩
    have e := o.elem (i + 1) (le_refl _)
    have d := o.node i (by omega)
    have g := o.gone
    have lt := o.lt
    rw [show 2 * (i + 1) = 2 * i + 2 by ring] at e g lt ⊢
    obtain ⟨h1, t1, n1, c1⟩ := take_weak (arc := arc) d (by omega)
    obtain ⟨h2, d2, n2, c2⟩ := drop_extra (arc := arc) (n := n) (h := h1) (k := 2 * i + 2 + 1) (i := 2 * i + 2 + 2)
      (by rw [c1, if_neg (by omega), if_neg (by omega)]; exact e) (by rw [c1, if_neg (by omega), if_neg (by omega)]; exact g) (by omega)
    obtain ⟨h3, d3, n3, c3⟩ := drop_plain (arc := arc) (n := n) (h := h2) (k := h.next) (d := .temp)
      (by rw [c2, if_neg (by omega), if_neg (by omega), c1, if_neg (by omega), if_pos rfl]) (Or.inr rfl) (by omega)
    have low : ∀ j, j < 2 * i + 2 → h3.cell j = h.cell j := fun j hj => by
      rw [c3, if_neg (by omega), c2, if_neg (by omega), if_neg (by omega), c1, if_neg (by omega), if_neg (by omega)]
    have o3 : Opened w h3 i := by
      refine ⟨?_, fun c hc => ?_, fun c hc => ?_, ?_, by omega, fun j hj => ?_⟩
      · rw [low _ (by omega)]; exact o.zero
      · rw [low _ (by omega)]; exact o.elem c (by omega)
      · rw [low _ (by omega)]; exact o.node c (by omega)
      · rw [c3, if_neg (by omega), c2, if_neg (by omega), if_neg (by omega), c1, if_pos rfl]
      · rw [c3, if_neg (by omega), c2, if_neg (by omega), if_neg (by omega), c1, if_neg (by omega), if_neg (by omega)]
        exact o.free j (by omega)
    obtain ⟨h4, l4, n4, c4⟩ := loop_weak w i n h3 o3 (by omega)
    refine ⟨h4, ?_, by omega, fun j => ?_⟩
    · simp only [loop, choose, RcCell.get, e, d, Option.bind_some, Dat.cls, t1, d2, d3, Res.andThen, l4, Res.step]
      congr 1; omega
    · rw [c4, c3, c2, c1]
      have := o.free j
      by_cases j4 : j = 2 * i + 2 + 2
      · rw [if_neg (by omega), if_neg (by omega), if_neg (by omega), if_pos j4, if_pos (by omega), husks, if_neg (by omega),
          show j / 2 = i + 1 + 1 by omega]
      by_cases j3 : j = 2 * i + 2 + 1
      · rw [if_neg (by omega), if_neg (by omega), if_pos j3, if_pos (by omega), husks, if_pos (by omega)]
      · grind

theorem drop_weak {i n : Nat} {h : Heap Dat} {w : Nat → Nat} (hc : ∀ k, h.cell k = weakCells w (i + 1) k) (hx : 2 * i + 2 < h.next) (hn : i + 4 ≤ n) :
    ∃ h', drop arc n (2 * i + 2) h = .done h' (i + 1) 2 ∧ h'.next = h.next + i + 1 ∧ ∀ j, h'.cell j = if j ≤ 2 * (i + 1) then husks w j else none := by
  obtain ⟨n, rfl⟩ : ∃ m, n = m + 2 := ⟨n - 2, by omega⟩
  have node : ∀ c, c ≤ i → h.cell (2 * c + 2) = some ⟨some (.branch (2 * c + 1) (2 * c)), 1, w (c + 1) + 1⟩ := fun c hc' => by
    rw [hc, weakCells, if_neg (by omega), if_neg (by omega), if_neg (by omega), show (2 * c + 2) / 2 = c + 1 by omega]; rfl
  have elem : ∀ c, c ≤ i → h.cell (2 * c + 1) = some ⟨some (.extra (some (2 * c + 2))), 1, 0⟩ := fun c hc' => by
    rw [hc, weakCells, if_neg (by omega), if_neg (by omega), if_pos (by omega)]
  have free : ∀ j, 2 * i + 2 < j → h.cell j = none := fun j hj => by
    rw [hc, weakCells, if_neg (by omega), if_pos (by omega)]
  obtain ⟨h1, t1, n1, c1⟩ := take_weak (arc := arc) (node i (le_refl _)) hx
  have low : ∀ j, j < 2 * i + 2 → h1.cell j = h.cell j := fun j hj => by rw [c1, if_neg (by omega), if_neg (by omega)]
  have o1 : Opened w h1 i := by
    refine ⟨?_, fun c hc => ?_, fun c hc => ?_, ?_, by omega, fun j hj => ?_⟩
    · rw [low _ (by omega), hc]; rfl
    · rw [low _ (by omega)]; exact elem c hc
    · rw [low _ (by omega)]; exact node c (by omega)
    · rw [c1, if_pos rfl]
    · rw [c1, if_neg (by omega), if_neg (by omega)]; exact free j (by omega)
  obtain ⟨h2, l2, n2, c2⟩ := loop_weak (arc := arc) w i (n + 1) h1 o1 (by omega)
  have top : h2.cell h.next = some ⟨some .temp, 1, 0⟩ := by
    rw [c2, if_neg (by omega), c1, if_neg (by omega), if_pos rfl]
  refine ⟨h2.put h.next none, ?_, by rw [put_next]; omega, fun j => ?_⟩
  · rw [drop]
    simp only [RcCell.get, node i (le_refl _), Option.bind_some, Dat.cls, t1, l2, Res.andThen, release, top, if_true, tidy, put_cell, Heap.store,
      Res.call]
    congr 1
    simp only [Heap.put, Heap.mk.injEq, and_true]
    funext j
    grind
  · rw [put_cell, c2, c1]
    have := free j
    grind

/-! ## Lists without weak references -/

theorem drop_elem {h : Heap Dat} {k n : Nat} (e : h.cell k = some ⟨some (.extra none), 1, 0⟩) (hn : 2 ≤ n) :
    ∃ h', drop arc n k h = .done h' 0 1 ∧ h'.next = h.next ∧ ∀ j, h'.cell j = if j = k then none else h.cell j := by
  obtain ⟨n, rfl⟩ : ∃ m, n = m + 2 := ⟨n - 2, by omega⟩
  simp only [drop, RcCell.get, e, Option.bind_some, Dat.cls, release, if_true, Res.andThen, Res.call, tidy, put_cell, Heap.store]
  exact ⟨_, rfl, rfl, fun j => by simp only [put_cell]; grind⟩

/-- The address of a reference after its datum was taken out. -/
def moved (arc : Bool) (k : Nat) (h : Heap Dat) : Nat := if arc then h.next else k

theorem take_plain {h : Heap Dat} {k : Nat} {d : Dat} (e : h.cell k = some ⟨some d, 1, 0⟩) (hk : k < h.next) :
    ∃ h', tryTake arc k h = .ok d (moved arc k h) h' ∧ h'.next = h.next + perTake arc ∧
      ∀ j, h'.cell j = if j = moved arc k h then some ⟨some .temp, 1, 0⟩ else if j = k then none else h.cell j := by
  have hne : k ≠ h.next := by omega
  cases arc
  · simp only [tryTake, RcCell.tryReplaceOptim, RcCell.counts, RcCell.canMut, RcCell.get, e, RcCell.assign, moved, perTake]
    exact ⟨_, rfl, rfl, fun j => by simp [put_cell]; grind⟩
  · simp only [tryTake, RcCell.tryReplace, RcCell.new, RcCell.tryUnwrap, put_cell, if_neg hne, e, Heap.store, moved, perTake]
    exact ⟨_, rfl, rfl, fun j => by simp [put_cell]; grind⟩

/-- A list whose node `i + 1` has been taken apart. -/
structure OpenedPlain (h : Heap Dat) (i : Nat) : Prop where
  zero : h.cell 0 = some ⟨some .plain, 1, 0⟩
  elem : ∀ c, c ≤ i → h.cell (2 * c + 1) = some ⟨some (.extra none), 1, 0⟩
  node : ∀ c, c < i → h.cell (2 * c + 2) = some ⟨some (.branch (2 * c + 1) (2 * c)), 1, 0⟩
  lt : 2 * i + 1 < h.next
  free : ∀ j, h.next ≤ j → h.cell j = none

theorem loop_plain : ∀ (i n : Nat) (h : Heap Dat), OpenedPlain h i → i + 3 ≤ n →
    ∃ h', loop arc n none (.branch (2 * i + 1) (2 * i)) h = .done h' (i + 1) 1 ∧ h'.next = h.next + i * perTake arc ∧
      ∀ j, h'.cell j = if j ≤ 2 * i + 1 then none else h.cell j
  | 0, n, h, o, hn => by
    obtain ⟨n, rfl⟩ : ∃ m, n = m + 1 := ⟨n - 1, by omega⟩
    have e := o.elem 0 (le_refl _)
    have z := o.zero
    simp only [Nat.mul_zero, Nat.zero_add] at e ⊢
    obtain ⟨h1, d1, n1, c1⟩ := drop_plain (arc := arc) (n := n) z (Or.inl rfl) (by omega)
    obtain ⟨h2, d2, n2, c2⟩ := drop_elem (arc := arc) (n := n) (h := h1) (k := 1) (by rw [c1]; simpa using e) (by omega)
    refine ⟨h2, ?_, by omega, fun j => ?_⟩
    · simp [loop, choose, RcCell.get, e, z, Dat.cls, d1, d2, Res.andThen, Res.step]
    · rw [c2, c1]; grind
  | i + 1, n, h, o, hn => by
    obtain ⟨n, rfl⟩ : ∃ m, n = m + 1 := ⟨n - 1, by omega⟩
    have e := o.elem (i + 1) (le_refl _)
    have d := o.node i (by omega)
    have lt := o.lt
    rw [show 2 * (i + 1) = 2 * i + 2 by ring] at e lt ⊢
    obtain ⟨h1, t1, n1, c1⟩ := take_plain (arc := arc) d (by omega)
    have mv : moved arc (2 * i + 2) h = 2 * i + 2 ∨ moved arc (2 * i + 2) h = h.next := by cases arc <;> simp [moved]
    generalize moved arc (2 * i + 2) h = r at t1 c1 mv
    obtain ⟨h2, d2, n2, c2⟩ := drop_elem (arc := arc) (n := n) (h := h1) (k := 2 * i + 2 + 1)
      (by rw [c1, if_neg (by omega), if_neg (by omega)]; exact e) (by omega)
    obtain ⟨h3, d3, n3, c3⟩ := drop_plain (arc := arc) (n := n) (h := h2) (k := r) (d := .temp)
      (by rw [c2, if_neg (by omega), c1, if_pos rfl]) (Or.inr rfl) (by omega)
    have low : ∀ j, j < 2 * i + 2 → h3.cell j = h.cell j := fun j hj => by
      rw [c3, if_neg (by omega), c2, if_neg (by omega), c1, if_neg (by omega), if_neg (by omega)]
    have o3 : OpenedPlain h3 i := by
      refine ⟨?_, fun c hc => ?_, fun c hc => ?_, by omega, fun j hj => ?_⟩
      · rw [low _ (by omega)]; exact o.zero
      · rw [low _ (by omega)]; exact o.elem c (by omega)
      · rw [low _ (by omega)]; exact o.node c (by omega)
      · rw [c3]
        split
        · rfl
        · rw [c2, if_neg (by omega), c1, if_neg ‹_›, if_neg (by omega)]
          exact o.free j (by omega)
    obtain ⟨h4, l4, n4, c4⟩ := loop_plain i n h3 o3 (by omega)
    refine ⟨h4, ?_, ?_, fun j => ?_⟩
    · simp only [loop, choose, RcCell.get, e, d, Option.bind_some, Dat.cls, t1, d2, d3, Res.andThen, l4, Res.step]
      congr 1; omega
    · rw [n4, n3, n2, n1]; ring
    · rw [c4, c3, c2, c1]
      have := o.free j
      grind

theorem drop_list {i n : Nat} {h : Heap Dat} (hc : ∀ k, h.cell k = plainCells (i + 1) k) (hx : 2 * i + 2 < h.next) (hn : i + 4 ≤ n) :
    ∃ h', drop arc n (2 * i + 2) h = .done h' (i + 1) 2 ∧ h'.next = h.next + (i + 1) * perTake arc ∧ ∀ j, h'.cell j = none := by
  obtain ⟨n, rfl⟩ : ∃ m, n = m + 2 := ⟨n - 2, by omega⟩
  have node : ∀ c, c ≤ i → h.cell (2 * c + 2) = some ⟨some (.branch (2 * c + 1) (2 * c)), 1, 0⟩ := fun c hc' => by
    rw [hc, plainCells, if_neg (by omega), if_neg (by omega), if_neg (by omega)]; rfl
  have elem : ∀ c, c ≤ i → h.cell (2 * c + 1) = some ⟨some (.extra none), 1, 0⟩ := fun c hc' => by
    rw [hc, plainCells, if_neg (by omega), if_neg (by omega), if_pos (by omega)]
  have free : ∀ j, 2 * i + 2 < j → h.cell j = none := fun j hj => by
    rw [hc, plainCells, if_neg (by omega), if_pos (by omega)]
  obtain ⟨h1, t1, n1, c1⟩ := take_plain (arc := arc) (node i (le_refl _)) hx
  have mv : moved arc (2 * i + 2) h = 2 * i + 2 ∨ moved arc (2 * i + 2) h = h.next ∧ h1.next = h.next + 1 := by
    cases arc
    · exact Or.inl rfl
    · exact Or.inr ⟨rfl, n1⟩
  generalize moved arc (2 * i + 2) h = r at t1 c1 mv
  have low : ∀ j, j < 2 * i + 2 → h1.cell j = h.cell j := fun j hj => by rw [c1, if_neg (by omega), if_neg (by omega)]
  have o1 : OpenedPlain h1 i := by
    refine ⟨?_, fun c hc => ?_, fun c hc => ?_, by omega, fun j hj => ?_⟩
    · rw [low _ (by omega), hc]; rfl
    · rw [low _ (by omega)]; exact elem c hc
    · rw [low _ (by omega)]; exact node c (by omega)
    · rw [c1, if_neg (by omega), if_neg (by omega)]; exact free j (by omega)
  obtain ⟨h2, l2, n2, c2⟩ := loop_plain (arc := arc) i (n + 1) h1 o1 (by omega)
  have top : h2.cell r = some ⟨some .temp, 1, 0⟩ := by
    rw [c2, if_neg (by omega), c1, if_pos rfl]
  refine ⟨h2.put r none, ?_, by rw [put_next, n2, n1]; ring, fun j => ?_⟩
  · rw [drop]
    simp only [RcCell.get, node i (le_refl _), Option.bind_some, Dat.cls, t1, l2, Res.andThen, release, top, if_true, tidy, put_cell, Heap.store,
      Res.call]
    congr 1
    simp only [Heap.put, Heap.mk.injEq, and_true]
    funext j
    grind
  · rw [put_cell, c2, c1]
    have := free j
    grind

/-! ## Making such a list -/

theorem makeLoop_spec : ∀ (t c : Nat) (h : Heap Dat), (∀ k, h.cell k = weakCells (fun _ => 0) c k) → h.next = 2 * c + 1 →
    (makeLoop t (2 * c) h).1 = 2 * (c + t) ∧ (makeLoop t (2 * c) h).2.next = 2 * (c + t) + 1 ∧
      ∀ k, (makeLoop t (2 * c) h).2.cell k = weakCells (fun _ => 0) (c + t) k
  | 0, c, h, hc, hx => ⟨rfl, hx, hc⟩
  | t + 1, c, h, hc, hx => by
    rw [makeLoop]
    simp only [RcCell.new, hx]
    have ih := makeLoop_spec t (c + 1) (RcCell.assign (2 * c + 1) (.extra (some (2 * c + 2))) (RcCell.downgrade (2 * c + 2)
      ⟨fun j => if j = 2 * c + 2 then some ⟨some (.branch (2 * c + 1) (2 * c)), 1, 0⟩
        else if j = 2 * c + 1 then some ⟨some (.extra none), 1, 0⟩ else h.cell j, 2 * c + 3⟩)) (fun k => ?_) ?_
    · rw [show c + (t + 1) = c + 1 + t by ring]
      exact ih
    · simp only [RcCell.assign, RcCell.downgrade, if_true, put_cell, weakCells]
      rw [if_neg (by omega), if_neg (by omega)]
      simp only [put_cell]
      have := hc k
      rw [weakCells] at this
      by_cases k1 : k = 2 * c + 1
      · rw [if_pos k1, if_neg (by omega), if_neg (by omega), if_pos (by omega), k1]
      · rw [if_neg k1]
        by_cases k2 : k = 2 * c + 2
        · rw [if_pos k2, if_neg (by omega), if_neg (by omega), if_neg (by omega), k2]; rfl
        · rw [if_neg k2, if_neg k2, if_neg k1, this]
          simp only [show (2 * c < k) ↔ (2 * (c + 1) < k) by omega]
    · simp only [RcCell.assign, RcCell.downgrade, if_true, put_cell]
      rw [if_neg (by omega), if_neg (by omega)]
      rfl

theorem made_spec (len : Nat) : (makeRcWeakList len).1 = 2 * len ∧ (makeRcWeakList len).2.next = 2 * len + 1 ∧
    ∀ k, (makeRcWeakList len).2.cell k = weakCells (fun _ => 0) len k := by
  have := makeLoop_spec len 0 ⟨fun j => if j = 0 then some ⟨some .plain, 1, 0⟩ else none, 1⟩ (fun k => by
    simp only [weakCells]
    grind) rfl
  simpa [makeRcWeakList, RcCell.new, Heap.put] using this

end Kul.WeakDrop
