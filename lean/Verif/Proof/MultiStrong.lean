import Verif.Spec.MultiStrong
import Mathlib.Tactic.Ring
import Mathlib.Data.List.Range

/-!
# Proofs about lists with additional strong references
-/

namespace Kul.Shapes

open RcHeap (Heap Cell Ev Res)

theorem put_same {L : Type} (h : Heap L) (k : Nat) (c : Option (Cell L)) : h.put k c k = c := by simp [Heap.put]

theorem put_other {L : Type} (h : Heap L) {k j : Nat} (c : Option (Cell L)) (e : j ≠ k) : h.put k c j = h j := by simp [Heap.put, e]

theorem drop_leaf {L : Type} {h : Heap L} {k n : Nat} {x : Option L} (e : h k = some ⟨1, .leaf x⟩) (hn : 2 ≤ n) :
    RcHeap.drop n k h = .done (h.put k none) [.leaf x, .free k] 0 1 := by
  obtain ⟨n, rfl⟩ : ∃ m, n = m + 2 := ⟨n - 2, by omega⟩
  simp [RcHeap.drop, RcHeap.release, RcHeap.Dat.cls, e, Res.ev, Res.call]

theorem drop_two {L : Type} {h : Heap L} {k n l r : Nat} (e : h k = some ⟨2, .branch l r⟩) (hn : 2 ≤ n) :
    RcHeap.drop n k h = .done (h.put k (some ⟨1, .branch l r⟩)) [.giveUp k] 0 1 := by
  obtain ⟨n, rfl⟩ : ∃ m, n = m + 2 := ⟨n - 2, by omega⟩
  simp [RcHeap.drop, RcHeap.release, RcHeap.Dat.cls, RcHeap.tryTake, e, Res.ev, Res.call]

/-- The nodes above node `m`, up to node `m + i + 1` which has been taken apart. -/
structure Tail (h : Heap (Dat Empty)) (m i : Nat) : Prop where
  zero : m = 0 → h 0 = some ⟨1, .leaf (some .emptyList)⟩
  kept : 0 < m → h (2 * m) = some ⟨2, .branch (2 * m - 1) (2 * m - 2)⟩
  elem : ∀ c, c ≤ i → h (2 * (m + c) + 1) = some ⟨1, .leaf (some (.extra (m + c + 1)))⟩
  node : ∀ c, c < i → h (2 * (m + c) + 2) = some ⟨1, .branch (2 * (m + c) + 1) (2 * (m + c))⟩

/-- The heap when these are gone. -/
def without (m i : Nat) (h : Heap (Dat Empty)) : Heap (Dat Empty) := fun j =>
  if 2 * m < j ∧ j < 2 * (m + i) + 2 then none
  else if j = 2 * m then (if m = 0 then none else some ⟨1, .branch (2 * m - 1) (2 * m - 2)⟩)
  else h j

theorem loop_tail (m : Nat) : ∀ (i n : Nat) (h : Heap (Dat Empty)), Tail h m i → i + 3 ≤ n →
    RcHeap.loop n none (.branch (2 * (m + i) + 1) (2 * (m + i))) h = .done (without m i h) (tailEvs m (i + 1)) (i + 1) 1
  | 0, n, h, t, hn => by
    obtain ⟨n, rfl⟩ : ∃ k, n = k + 1 := ⟨n - 1, by omega⟩
    have e := t.elem 0 (le_refl _)
    simp only [Nat.add_zero] at e ⊢
    rcases Nat.eq_zero_or_pos m with h0 | h0
    · subst h0
      have z := t.zero rfl
      simp only [Nat.mul_zero, Nat.zero_add] at e ⊢
      have e' : h.put 0 none 1 = some ⟨1, .leaf (some (.extra 1))⟩ := by rw [put_other _ _ (by omega)]; exact e
      simp [RcHeap.loop, RcHeap.choose, e, z, RcHeap.Dat.cls, drop_leaf z (show 2 ≤ n by omega), drop_leaf e' (show 2 ≤ n by omega),
        Res.andThen, Res.step, tailEvs]
      funext j
      simp only [without, Heap.put]
      grind
    · have z := t.kept h0
      have e' : h.put (2 * m) (some ⟨1, .branch (2 * m - 1) (2 * m - 2)⟩) (2 * m + 1) = some ⟨1, .leaf (some (.extra (m + 1)))⟩ := by
        rw [put_other _ _ (by omega)]; exact e
      simp [RcHeap.loop, RcHeap.choose, e, z, RcHeap.Dat.cls, RcHeap.tryTake, drop_two z (show 2 ≤ n by omega),
        drop_leaf e' (show 2 ≤ n by omega), Res.andThen, Res.step, tailEvs, Nat.ne_of_gt h0]
      funext j
      simp only [without, Heap.put]
      grind
  | i + 1, n, h, t, hn => by
    obtain ⟨n, rfl⟩ : ∃ k, n = k + 1 := ⟨n - 1, by omega⟩
    have e := t.elem (i + 1) (le_refl _)
    have d := t.node i (by omega)
    have e2 : 2 * (m + (i + 1)) = 2 * (m + i) + 2 := by ring
    rw [e2] at e ⊢
    set r := 2 * (m + i) + 2 with hr
    have e1 : h.put r (some ⟨1, .leaf none⟩) (r + 1) = some ⟨1, .leaf (some (.extra (m + (i + 1) + 1)))⟩ := by
      rw [put_other _ _ (by omega)]; exact e
    have e3 : (h.put r (some ⟨1, .leaf none⟩)).put (r + 1) none r = some ⟨1, .leaf none⟩ := by
      rw [put_other _ _ (by omega), put_same]
    set h1 := ((h.put r (some ⟨1, .leaf none⟩)).put (r + 1) none).put r none with hh
    have o : ∀ j, j < r → h1 j = h j := fun j hj => by
      rw [hh, put_other _ _ (by omega), put_other _ _ (by omega), put_other _ _ (by omega)]
    have t1 : Tail h1 m i := by
      refine ⟨fun h0 => ?_, fun h0 => ?_, fun c hc => ?_, fun c hc => ?_⟩
      · rw [o _ (by omega)]; exact t.zero h0
      · rw [o _ (by omega)]; exact t.kept h0
      · rw [o _ (by omega)]; exact t.elem c (by omega)
      · rw [o _ (by omega)]; exact t.node c (by omega)
    have ih := loop_tail m i n h1 t1 (by omega)
    simp only [RcHeap.loop, RcHeap.choose, e, d, RcHeap.Dat.cls, RcHeap.tryTake, if_true, drop_leaf e1 (show 2 ≤ n by omega), Res.andThen,
      drop_leaf e3 (show 2 ≤ n by omega), ← hh, ih, Res.step, Res.done.injEq]
    refine ⟨?_, ?_, by omega, by omega⟩
    · funext j
      simp only [without, hh, Heap.put]
      grind
    · rw [tailEvs]
      simp [hr, Nat.add_assoc]

/-- Dropping of a reference to node `m + i + 1`. -/
theorem drop_tail {m i n : Nat} {h : Heap (Dat Empty)} (t : Tail h m i)
    (d : h (2 * (m + i) + 2) = some ⟨1, .branch (2 * (m + i) + 1) (2 * (m + i))⟩) (hn : i + 4 ≤ n) :
    RcHeap.drop n (2 * (m + i) + 2) h = .done ((without m i h).put (2 * (m + i) + 2) none) (listEvs m (i + 1)) (i + 1) 2 := by
  obtain ⟨n, rfl⟩ : ∃ k, n = k + 1 := ⟨n - 1, by omega⟩
  set r := 2 * (m + i) + 2 with hr
  have o : ∀ j, j < r → h.put r (some ⟨1, .leaf none⟩) j = h j := fun j hj => put_other _ _ (by omega)
  have t1 : Tail (h.put r (some ⟨1, .leaf none⟩)) m i := by
    refine ⟨fun h0 => ?_, fun h0 => ?_, fun c hc => ?_, fun c hc => ?_⟩
    · rw [o _ (by omega)]; exact t.zero h0
    · rw [o _ (by omega)]; exact t.kept h0
    · rw [o _ (by omega)]; exact t.elem c (by omega)
    · rw [o _ (by omega)]; exact t.node c (by omega)
  have l := loop_tail m i n _ t1 (by omega)
  obtain ⟨k, rfl⟩ : ∃ k, n = k + 1 := ⟨n - 1, by omega⟩
  have w : without m i (h.put r (some ⟨1, .leaf none⟩)) r = some ⟨1, .leaf none⟩ := by
    simp only [without]
    rw [if_neg (by omega), if_neg (by omega), put_same]
  simp only [RcHeap.drop, d, RcHeap.Dat.cls, RcHeap.tryTake, if_true, l, Res.andThen, RcHeap.release, w, Res.ev, Res.call, Res.done.injEq]
  refine ⟨?_, ?_, by simp, by simp⟩
  · funext j
    simp only [without, Heap.put]
    grind
  · rw [listEvs, if_neg (by omega)]
    simp [hr]
    ring_nf

/-- Dropping of a reference to the last node of a list to none of whose nodes there are other references, or to the empty list. -/
theorem drop_all {i n : Nat} {h : Heap (Dat Empty)} (z : h 0 = some ⟨1, .leaf (some .emptyList)⟩)
    (e : ∀ c, c < i → h (2 * c + 1) = some ⟨1, .leaf (some (.extra (c + 1)))⟩)
    (d : ∀ c, c < i → h (2 * c + 2) = some ⟨1, .branch (2 * c + 1) (2 * c)⟩) (hn : i + 3 ≤ n) :
    RcHeap.drop n (2 * i) h = .done (fun j => if j ≤ 2 * i then none else h j) (listEvs 0 i) i (min (i + 1) 2) := by
  rcases i with _ | i
  · rw [drop_leaf (by simpa using z) (by omega)]
    simp only [Res.done.injEq]
    refine ⟨?_, by simp [listEvs], by simp, by simp⟩
    funext j
    simp only [Heap.put]
    grind
  · have t : Tail h 0 i := ⟨fun _ => z, fun h => absurd h (by omega), fun c hc => by simpa using e c (by omega),
      fun c hc => by simpa using d c (by omega)⟩
    have := drop_tail (n := n) t (by simpa using d i (by omega)) (by omega)
    rw [show 2 * (i + 1) = 2 * (0 + i) + 2 by ring, this]
    simp only [Res.done.injEq]
    refine ⟨?_, trivial, trivial, by omega⟩
    funext j
    simp only [without, Heap.put]
    grind

/-! ## Making such a list -/

/-- The state after `c` turns. -/
def after (len step c : Nat) : Multi :=
  ⟨listHeap c (strongs len step), 2 * c + 1, c, ((List.range (c + 1)).filter fun c => decide (Kept len step c)).map (2 * ·)⟩

theorem turn {len step c : Nat} (hc : c < len) :
    (let (elem, s) := newMulti len step (.extra (c + 1)) (after len step c)
     newMulti len step (.list elem (2 * c)) s) = (2 * (c + 1), after len step (c + 1)) := by
  have ex : newMulti len step (.extra (c + 1)) (after len step c)
      = (2 * c + 1, { after len step c with
          heap := (listHeap c (strongs len step)).put (2 * c + 1) (some ⟨1, .leaf (some (.extra (c + 1)))⟩), cells := 2 * c + 2 }) := rfl
  rw [ex]
  have k : (c + 1 ≠ len ∧ (c + 1) % step = 0) ↔ Kept len step (c + 1) := by
    rw [Kept, Nat.dvd_iff_mod_eq_zero]; omega
  have hh : (((listHeap c (strongs len step)).put (2 * c + 1) (some ⟨1, .leaf (some (.extra (c + 1)))⟩)).put (2 * c + 2)
      (some ⟨strongs len step (c + 1), .branch (2 * c + 1) (2 * c)⟩)) = listHeap (c + 1) (strongs len step) := by
    funext j
    simp only [Heap.put, listHeap]
    split
    · subst_vars
      rw [if_neg (by omega), if_neg (by omega), if_neg (by omega), show (2 * c + 2) / 2 = c + 1 by omega]
      simp
    · split
      · subst_vars
        rw [if_neg (by omega), if_neg (by omega), if_pos (by omega), show (2 * c + 1 + 1) / 2 = c + 1 by omega]
      · split
        · rfl
        · simp only [show (2 * c < j) ↔ (2 * (c + 1) < j) by omega]
  simp only [newMulti, newRc, cloneRc, Dat.inCell, after, put_same]
  rw [← hh, List.range_succ (n := c + 1), List.filter_append, List.map_append]
  by_cases q : Kept len step (c + 1)
  · rw [if_pos (k.2 q)]
    simp only [Prod.mk.injEq, Multi.mk.injEq]
    refine ⟨by ring, ?_, by ring, trivial, ?_⟩
    · funext j
      simp only [Heap.put, strongs, if_pos q]
      grind
    · simp [q, Nat.mul_add]
  · rw [if_neg (fun x => q (k.1 x))]
    simp only [Prod.mk.injEq, Multi.mk.injEq]
    refine ⟨by ring, ?_, by ring, trivial, ?_⟩
    · simp only [strongs, if_neg q]
    · simp [q]

theorem turns {len step : Nat} : ∀ (t c : Nat), c + t = len →
    makeListLoopMut (newMulti len step) (fun cnt => newMulti len step (.extra cnt)) t (c + 1) (2 * c) (after len step c)
      = (2 * len, after len step len)
  | 0, c, h => by
    simp only [Nat.add_zero] at h
    subst h; rfl
  | t + 1, c, h => by
    have := turn (step := step) (show c < len by omega)
    simp only at this
    rw [makeListLoopMut]
    simp only [this]
    exact turns t (c + 1) (by omega)

theorem start (len step : Nat) : newMulti len step .emptyList ⟨fun _ => none, 0, 0, []⟩ = (0, after len step 0) := by
  simp only [newMulti, newRc, Dat.inCell, after, Prod.mk.injEq, Multi.mk.injEq, true_and]
  refine ⟨?_, by simp [Kept]⟩
  funext j
  simp only [Heap.put, listHeap]
  grind

theorem made {len step : Nat} (hs : 0 < step) : makeRcMultiStrongList len step
    = some (2 * len, ((List.range (len + 1)).filter fun c => decide (Kept len step c)).map (2 * ·), listHeap len (strongs len step)) := by
  rw [makeRcMultiStrongList, if_neg (by omega)]
  simp only [makeBasicListMut, makeListMut, start]
  have := turns (len := len) (step := step) len 0 (by omega)
  simp only [Nat.zero_add, Nat.mul_zero] at this
  rw [this]
  rfl

/-! ## Dropping it -/

theorem lastKept_spec {len step : Nat} (hl : 0 < len) (hs : 0 < step) :
    lastKept len step < len ∧ (0 < lastKept len step → Kept len step (lastKept len step)) ∧
    ∀ c, lastKept len step < c → ¬ Kept len step c := by
  have h1 : lastKept len step ≤ len - 1 := Nat.div_mul_le_self _ _
  refine ⟨by omega, fun h => ⟨h, by omega, Nat.dvd_mul_left _ _⟩, fun c hc k => ?_⟩
  obtain ⟨_, h2, q, rfl⟩ := k
  have : q ≤ (len - 1) / step := (Nat.le_div_iff_mul_le hs).2 (by rw [Nat.mul_comm]; omega)
  have := Nat.mul_le_mul_right step this
  rw [lastKept, Nat.mul_comm step q] at hc
  omega

theorem listHeap_elem {len c : Nat} (s : Nat → Nat) (h : c < len) : listHeap len s (2 * c + 1) = some ⟨1, .leaf (some (.extra (c + 1)))⟩ := by
  simp only [listHeap]
  rw [if_neg (by omega), if_neg (by omega), if_pos (by omega), show (2 * c + 1 + 1) / 2 = c + 1 by omega]

theorem listHeap_node {len c : Nat} (s : Nat → Nat) (h : c < len) :
    listHeap len s (2 * c + 2) = some ⟨s (c + 1), .branch (2 * c + 1) (2 * c)⟩ := by
  simp only [listHeap]
  rw [if_neg (by omega), if_neg (by omega), if_neg (by omega), show (2 * c + 2) / 2 = c + 1 by omega]
  rfl

theorem first {len step n : Nat} (hl : 0 < len) (hs : 0 < step) (hn : len - lastKept len step + 3 ≤ n) :
    RcHeap.drop n (2 * len) (listHeap len (strongs len step))
      = .done (rest len step) (listEvs (lastKept len step) (len - lastKept len step)) (len - lastKept len step) 2 := by
  obtain ⟨h1, h2, h3⟩ := lastKept_spec hl hs
  rw [rest]
  generalize lastKept len step = m at *
  obtain ⟨i, rfl⟩ : ∃ i, len = m + i + 1 := ⟨len - m - 1, by omega⟩
  have one : ∀ c, m < c → strongs (m + i + 1) step c = 1 := fun c hc => if_neg (h3 c hc)
  have t : Tail (listHeap (m + i + 1) (strongs (m + i + 1) step)) m i := by
    refine ⟨fun _ => by simp [listHeap], fun h0 => ?_, fun c hc => listHeap_elem _ (by omega), fun c hc => ?_⟩
    · obtain ⟨k, rfl⟩ : ∃ k, m = k + 1 := ⟨m - 1, by omega⟩
      have := listHeap_node (len := k + 1 + i + 1) (c := k) (strongs (k + 1 + i + 1) step) (by omega)
      rw [show 2 * (k + 1) = 2 * k + 2 by ring, this, strongs, if_pos (h2 h0)]
      simp
    · rw [listHeap_node _ (by omega), one _ (by omega)]
  have d := drop_tail (n := n) t (by rw [listHeap_node _ (by omega), one _ (by omega)]) (by omega)
  rw [show 2 * (m + i + 1) = 2 * (m + i) + 2 by ring, d, show m + i + 1 - m = i + 1 by omega]
  congr 1
  funext j
  simp only [Heap.put, without]
  by_cases j1 : j = 2 * (m + i) + 2
  · rw [if_pos j1]
    split
    · rfl
    · simp only [listHeap]; rw [if_neg (by omega), if_pos (by omega)]
  rw [if_neg j1]
  by_cases j2 : 2 * m < j ∧ j < 2 * (m + i) + 2
  · rw [if_pos j2]
    split
    · rfl
    · simp only [listHeap]; rw [if_neg (by omega), if_pos (by omega)]
  rw [if_neg j2]
  by_cases j3 : j = 2 * m
  · rw [if_pos j3]
    split
    · rfl
    · simp only [listHeap]
      rw [if_neg (by omega), if_neg (by omega), if_neg (by omega), if_pos (by omega), j3]
  rw [if_neg j3]
  by_cases j4 : 2 * m < j
  · simp only [listHeap]
    rw [if_neg (by omega), if_pos (by omega)]
    split
    · rfl
    · simp only [listHeap]; rw [if_neg (by omega), if_pos (by omega)]
  · rw [if_neg (show ¬ m = 0 by omega)]
    simp only [listHeap]
    split
    · rfl
    · rw [if_neg (show ¬ 2 * (m + i + 1) < j by omega)]
      split
      · rfl
      · rw [if_neg (show ¬ j / 2 = m by omega)]

theorem giveUps {m n : Nat} (more : List Nat) (hn : 1 ≤ n) : ∀ (cs : List Nat) (s : Nat → Nat), cs.Nodup →
    (∀ c ∈ cs, 0 < c ∧ c ≤ m ∧ s c = 2) →
    dropVec n (cs.map (2 * ·) ++ more) (listHeap m s)
      = (Res.ev (listHeap m fun c => if c ∈ cs then 1 else s c) (cs.map fun c => .giveUp (2 * c))).andThen (dropVec n more)
  | [], s, _, _ => by
    simp only [List.map_nil, List.nil_append, Res.ev, Res.andThen, List.not_mem_nil, if_false]
    cases dropVec n more (listHeap m s) <;> simp
  | c :: cs, s, nd, hc => by
    obtain ⟨c0, cm, c2⟩ := hc c (by simp)
    obtain ⟨n, rfl⟩ : ∃ k, n = k + 1 := ⟨n - 1, by omega⟩
    obtain ⟨c, rfl⟩ : ∃ k, c = k + 1 := ⟨c - 1, by omega⟩
    obtain ⟨hx, nd'⟩ := List.nodup_cons.1 nd
    have e := listHeap_node (len := m) (c := c) s (by omega)
    rw [c2] at e
    have hp : (listHeap m s).put (2 * c + 2) (some ⟨1, .branch (2 * c + 1) (2 * c)⟩) = listHeap m fun x => if x = c + 1 then 1 else s x := by
      funext j
      simp only [Heap.put]
      split
      · rename_i hj
        rw [hj, listHeap_node _ (by omega)]; simp
      · simp only [listHeap]
        split
        · rfl
        · split
          · rfl
          · split
            · rfl
            · rw [if_neg (by omega)]
    have ih := giveUps more hn cs (fun x => if x = c + 1 then 1 else s x) nd' fun x h => by
      have hne : x ≠ c + 1 := fun h' => hx (h' ▸ h)
      simpa [hne] using hc x (by simp [h])
    simp only [List.map_cons, List.cons_append, dropVec, RcHeap.release, show 2 * (c + 1) = 2 * c + 2 by ring, e]
    simp only [show ¬ (2 = 1) by omega, if_false, hp, Nat.add_one_sub_one, Res.ev]
    simp only [Res.andThen]
    rw [ih]
    have hs : (fun x => if x ∈ cs then 1 else if x = c + 1 then 1 else s x) = fun x => if x ∈ (c + 1) :: cs then 1 else s x := by
      funext x
      simp only [List.mem_cons]
      grind
    rw [hs]
    simp only [Res.ev, Res.andThen]
    cases dropVec (n + 1) more (listHeap m fun x => if x ∈ (c + 1) :: cs then 1 else s x) <;> simp

theorem listHeap_one_release {m n : Nat} (hm : 0 < m) (hn : m + 3 ≤ n) (s : Nat → Nat) (hs : ∀ c, 0 < c → c ≤ m → s c = 1) :
    RcHeap.release n (2 * m) (listHeap m s)
      = .done (fun _ => none) ([.leaf (some (.extra m)), .free (2 * m - 1)] ++ listEvs 0 (m - 1) ++ [.free (2 * m)]) (m - 1) (min m 2) := by
  obtain ⟨n, rfl⟩ : ∃ k, n = k + 1 := ⟨n - 1, by omega⟩
  obtain ⟨m, rfl⟩ : ∃ k, m = k + 1 := ⟨m - 1, by omega⟩
  have e := listHeap_node (len := m + 1) (c := m) s (by omega)
  rw [hs _ (by omega) (by omega)] at e
  have e1 : (listHeap (m + 1) s).put (2 * m + 2) none (2 * m + 1) = some ⟨1, .leaf (some (.extra (m + 1)))⟩ := by
    rw [put_other _ _ (by omega)]; exact listHeap_elem _ (by omega)
  have o : ∀ j, j < 2 * m + 1 → (((listHeap (m + 1) s).put (2 * m + 2) none).put (2 * m + 1) none) j = listHeap (m + 1) s j := fun j hj => by
    rw [put_other _ _ (by omega), put_other _ _ (by omega)]
  have d := drop_all (i := m) (n := n) (h := ((listHeap (m + 1) s).put (2 * m + 2) none).put (2 * m + 1) none)
    (by rw [o _ (by omega)]; simp [listHeap])
    (fun c hc => by rw [o _ (by omega)]; exact listHeap_elem _ (by omega))
    (fun c hc => by rw [o _ (by omega), listHeap_node _ (by omega), hs _ (by omega) (by omega)]) (by omega)
  simp only [RcHeap.release, show 2 * (m + 1) = 2 * m + 2 by ring, e, if_true, drop_leaf e1 (show 2 ≤ n by omega), d, Res.andThen, Res.ev,
    Res.done.injEq]
  refine ⟨?_, by simp, by simp, by omega⟩
  funext j
  simp only [Heap.put, listHeap]
  grind

theorem kept_split {len step : Nat} (hl : 0 < len) (hs : 0 < step) :
    ((List.range (len + 1)).filter fun c => decide (Kept len step c))
      = ((List.range (lastKept len step)).filter fun c => decide (Kept len step c))
        ++ if lastKept len step = 0 then [] else [lastKept len step] := by
  obtain ⟨h1, h2, h3⟩ := lastKept_spec hl hs
  generalize lastKept len step = m at *
  have : List.range (len + 1) = List.range (m + 1) ++ (List.range (len - m)).map (m + 1 + ·) := by
    rw [← List.range_add]; congr 1; omega
  rw [this, List.filter_append, List.range_succ, List.filter_append]
  have z : ((List.range (len - m)).map (m + 1 + ·)).filter (fun c => decide (Kept len step c)) = [] := by
    rw [List.filter_eq_nil_iff]
    intro c hc
    obtain ⟨x, _, rfl⟩ := List.mem_map.1 hc
    simpa using h3 _ (by omega)
  rw [z, List.append_nil]
  congr 1
  split
  · subst_vars; simp [Kept]
  · simp [h2 (by omega)]

theorem then_rest {len step n : Nat} (hl : 0 < len) (hs : 0 < step) (hn : lastKept len step + 3 ≤ n) :
    dropVec n (((List.range (len + 1)).filter fun c => decide (Kept len step c)).map (2 * ·)) (rest len step)
      = .done (fun _ => none)
        ((((List.range (lastKept len step)).filter fun c => decide (Kept len step c)).map fun c => .giveUp (2 * c))
          ++ if lastKept len step = 0 then []
            else [.leaf (some (.extra (lastKept len step))), .free (2 * lastKept len step - 1)] ++ listEvs 0 (lastKept len step - 1)
              ++ [.free (2 * lastKept len step)])
        (lastKept len step - 1) (min (lastKept len step) 2) := by
  obtain ⟨h1, h2, h3⟩ := lastKept_spec hl hs
  rw [kept_split hl hs, rest]
  generalize lastKept len step = m at *
  rcases Nat.eq_zero_or_pos m with h0 | h0
  · subst h0
    simp [dropVec, Res.ev]
  have hne : ¬ m = 0 := by omega
  simp only [hne, if_false]
  rw [List.map_append, List.map_singleton, giveUps [2 * m] (by omega) _ _ (List.nodup_range.filter _) (fun c hc => by
    simp only [List.mem_filter, List.mem_range, decide_eq_true_eq] at hc
    refine ⟨hc.2.1, by omega, ?_⟩
    rw [if_neg (by omega), strongs, if_pos hc.2])]
  have r := listHeap_one_release (n := n) h0 hn
    (fun c => if c ∈ (List.range m).filter (fun c => decide (Kept len step c)) then 1 else if c = m then 1 else strongs len step c)
    (fun c c0 cm => by
      simp only [List.mem_filter, List.mem_range, decide_eq_true_eq, strongs]
      by_cases k : Kept len step c
      · rcases Nat.lt_or_eq_of_le cm with h | h
        · rw [if_pos ⟨h, k⟩]
        · simp [h]
      · simp [k])
  simp only [dropVec, Res.ev, Res.andThen, r]
  simp

end Kul.Shapes
