import Verif.Model.RcCell
import Mathlib.Data.List.Count
import Mathlib.Data.List.Perm.Basic

/-! # Facts about counted references -/

namespace Kul.RcCell

variable {V : Type}

/-- The counts are the numbers of references, and the value is there as long as there is a strong one. -/
def CellOk (c : Option (Cell V)) (s w : Nat) : Prop :=
  match c with
  | none => s = 0 ∧ w = 0
  | some c => c.strong = s ∧ c.weak = w ∧ (c.val.isSome = true ↔ 0 < s) ∧ 0 < s + w

/-- The references are those of the world and those in `mine`. -/
structure Inv (mine : List Nat) (a : World V) : Prop where
  ok : ∀ i, CellOk (a.heap.cell i) (mine.count i + a.strong.count i) (a.weak.count i)
  next : ∀ i, a.heap.next ≤ i → a.heap.cell i = none

theorem Heap.put_cell (h : Heap V) (i j : Nat) (c) :
    (h.put i c).cell j = if j = i then c else h.cell j := rfl

theorem Heap.store_cell (h : Heap V) (i j : Nat) (c) : (h.store i c).cell j =
    if j = i then (if c.strong = 0 ∧ c.weak = 0 then none else some c) else h.cell j := rfl

theorem Inv.cell {mine : List Nat} {a : World V} (h : Inv mine a) {i : Nat}
    (hi : i ∈ mine ∨ i ∈ a.strong) : ∃ v, a.heap.cell i =
      some ⟨some v, mine.count i + a.strong.count i, a.weak.count i⟩ := by
  have := h.ok i
  have h1 : 0 < mine.count i + a.strong.count i := by
    rcases hi with hi | hi <;> have := List.count_pos_iff.mpr hi <;> omega
  cases hc : a.heap.cell i with
  | none => rw [hc] at this; simp only [CellOk] at this; omega
  | some c =>
    rw [hc] at this
    obtain ⟨h2, h3, h4, h5⟩ := this
    obtain ⟨v, hv⟩ := Option.isSome_iff_exists.mp (h4.mpr h1)
    refine ⟨v, ?_⟩
    rw [← h2, ← h3, ← hv]

theorem Inv.cell_weak {mine : List Nat} {a : World V} (h : Inv mine a) {i : Nat}
    (hi : i ∈ a.weak) : ∃ c, a.heap.cell i = some c ∧ c.strong = mine.count i + a.strong.count i ∧
      c.weak = a.weak.count i ∧ (c.val.isSome = true ↔ 0 < c.strong) := by
  have := h.ok i
  have h1 := List.count_pos_iff.mpr hi
  cases hc : a.heap.cell i with
  | none => rw [hc] at this; simp only [CellOk] at this; omega
  | some c =>
    rw [hc] at this
    obtain ⟨h2, h3, h4, h5⟩ := this
    exact ⟨c, rfl, h2, h3, by rw [h2]; exact h4⟩

theorem Inv.fresh {mine : List Nat} {a : World V} (h : Inv mine a) :
    a.heap.next ∉ mine ∧ a.heap.next ∉ a.strong ∧ a.heap.next ∉ a.weak := by
  have h1 := h.ok a.heap.next
  rw [h.next _ (Nat.le_refl _)] at h1
  simp only [CellOk] at h1
  refine ⟨?_, ?_, ?_⟩ <;> rw [← List.count_eq_zero] <;> omega

theorem Inv.lt {mine : List Nat} {a : World V} (h : Inv mine a) {i : Nat}
    (hi : i ∈ mine ∨ i ∈ a.strong ∨ i ∈ a.weak) : i < a.heap.next := by
  by_contra hn
  have h1 := h.ok i
  rw [h.next _ (Nat.le_of_not_lt hn)] at h1
  simp only [CellOk] at h1
  rcases hi with hi | hi | hi <;> have := List.count_pos_iff.mpr hi <;> omega

/-- Changing one cell. -/
theorem Inv.update {mine mine' : List Nat} {h : Heap V} {s s' w w' : List Nat} (hi : Inv mine ⟨h, s, w⟩)
    {i : Nat} (hlt : i < h.next) {c : Option (Cell V)}
    (hc : CellOk c (mine'.count i + s'.count i) (w'.count i))
    (hs : ∀ j, j ≠ i → mine'.count j + s'.count j = mine.count j + s.count j)
    (hw : ∀ j, j ≠ i → w'.count j = w.count j) : Inv mine' ⟨h.put i c, s', w'⟩ := by
  constructor
  · intro j
    simp only [Heap.put_cell]
    split
    · next h => subst h; exact hc
    · next hj =>
      rw [hs j hj, hw j hj]
      exact hi.ok j
  · intro j hj
    simp only [Heap.put_cell]
    rw [if_neg (by intro e; subst e; exact absurd hlt (Nat.not_lt.mpr hj))]
    exact hi.next j hj

theorem count_perm {s s' : List Nat} {i : Nat} (h : s.Perm (i :: s')) (j : Nat) :
    s.count j = s'.count j + if i = j then 1 else 0 := by
  rw [h.count_eq, List.count_cons]
  simp

theorem tryUnwrap_some {i : Nat} {h h' : Heap V} {v : V} (hu : tryUnwrap i h = (some v, h')) :
    ∃ w, h.cell i = some ⟨some v, 1, w⟩ ∧ h' = h.store i ⟨none, 0, w⟩ := by
  unfold tryUnwrap at hu
  split at hu
  · next e => cases hu; exact ⟨_, e, rfl⟩
  · cases hu

theorem tryUnwrap_none {i : Nat} {h h' : Heap V} (hu : tryUnwrap i h = (none, h')) : h' = h := by
  unfold tryUnwrap at hu
  split at hu
  · cases hu
  · cases hu; rfl

theorem Inv.unwrap {mine mine' : List Nat} {h h' : Heap V} {s s' w : List Nat} (hi : Inv mine ⟨h, s, w⟩)
    {i : Nat} {v : V} (hu : tryUnwrap i h = (some v, h'))
    (hc : ∀ j, mine.count j + s.count j = mine'.count j + s'.count j + if i = j then 1 else 0) :
    Inv mine' ⟨h', s', w⟩ ∧ i ∉ mine' ∧ i ∉ s' := by
  obtain ⟨n, h1, rfl⟩ := tryUnwrap_some hu
  have h2 := hi.ok i
  simp only [h1, CellOk] at h2
  have h3 := hc i
  simp only [if_true] at h3
  have hlt : i < h.next := by
    by_contra hn
    have := hi.next i (Nat.le_of_not_lt hn)
    simp only at this
    rw [this] at h1
    cases h1
  refine ⟨?_, by rw [← List.count_eq_zero]; omega, by rw [← List.count_eq_zero]; omega⟩
  refine hi.update hlt ?_ ?_ fun _ _ => rfl
  · by_cases h4 : (0 : Nat) = 0 ∧ n = 0
    · rw [if_pos h4]
      simp only [CellOk]
      omega
    · rw [if_neg h4]
      simp only [CellOk]
      refine ⟨by omega, by omega, ?_, by omega⟩
      simp
      omega
  · intro j hj
    have := hc j
    rw [if_neg (Ne.symm hj)] at this
    omega

theorem Inv.new {mine : List Nat} {h : Heap V} {s w : List Nat} (hi : Inv mine ⟨h, s, w⟩) (v : V) :
    Inv (h.next :: mine) ⟨(new v h).2, s, w⟩ := by
  obtain ⟨f1, f2, f3⟩ := hi.fresh
  simp only at f1 f2 f3
  constructor
  · intro j
    simp only [RcCell.new, Heap.put_cell]
    split
    · next e =>
      subst e
      simp [CellOk, List.count_eq_zero.mpr f1, List.count_eq_zero.mpr f2,
        List.count_eq_zero.mpr f3]
    · next e =>
      rw [List.count_cons_of_ne (Ne.symm e)]
      exact hi.ok j
  · intro j hj
    simp only [RcCell.new] at hj
    simp only [RcCell.new, Heap.put_cell]
    rw [if_neg (by omega)]
    exact hi.next j (by simp only; omega)

theorem Inv.step {mine : List Nat} {a b : World V} (hi : Inv mine a) (h : Step a b) : Inv mine b := by
  cases h with
  | @new h s w v =>
    obtain ⟨f1, f2, f3⟩ := hi.fresh
    simp only at f1 f2 f3
    constructor
    · intro j
      simp only [RcCell.new, Heap.put_cell]
      split
      · next e =>
        subst e
        simp [CellOk, List.count_eq_zero.mpr f1, List.count_eq_zero.mpr f2,
          List.count_eq_zero.mpr f3]
      · next e =>
        rw [List.count_cons_of_ne (Ne.symm e)]
        exact hi.ok j
    · intro j hj
      simp only [RcCell.new] at hj
      simp only [RcCell.new, Heap.put_cell]
      rw [if_neg (by omega)]
      exact hi.next j (by simp only; omega)
  | @clone h s w i hm =>
    obtain ⟨v, hc⟩ := hi.cell (Or.inr hm)
    simp only at hc
    simp only [RcCell.clone, hc]
    refine hi.update (hi.lt (Or.inr (Or.inl hm))) ?_ ?_ ?_
    · simp [CellOk]; omega
    · intro j hj; rw [List.count_cons_of_ne (Ne.symm hj)]
    · intro j hj; rfl
  | @drop h s s' w i hp =>
    have hm : i ∈ s := hp.symm.subset (by simp)
    obtain ⟨v, hc⟩ := hi.cell (Or.inr hm)
    simp only at hc
    simp only [RcCell.dropStrong, hc, Heap.store]
    refine hi.update (hi.lt (Or.inr (Or.inl hm))) ?_ ?_ ?_
    · have := count_perm hp i
      simp only [if_true] at this
      by_cases h1 : mine.count i + s.count i - 1 = 0 ∧ w.count i = 0
      · rw [if_pos h1]
        simp only [CellOk]
        omega
      · rw [if_neg h1]
        simp only [CellOk]
        refine ⟨by omega, trivial, ?_, by omega⟩
        split
        · simp; omega
        · simp; omega
    · intro j hj
      have := count_perm hp j
      rw [if_neg (Ne.symm hj)] at this
      omega
    · intro j hj; rfl
  | @downgrade h s w i hm =>
    obtain ⟨v, hc⟩ := hi.cell (Or.inr hm)
    simp only at hc
    simp only [RcCell.downgrade, hc]
    refine hi.update (hi.lt (Or.inr (Or.inl hm))) ?_ ?_ ?_
    · have := List.count_pos_iff.mpr hm
      simp [CellOk]; omega
    · intro j hj; rfl
    · intro j hj; rw [List.count_cons_of_ne (Ne.symm hj)]
  | @upgrade h s w i hm hu =>
    obtain ⟨c, hc, h1, h2, h3⟩ := hi.cell_weak hm
    simp only at hc
    simp only [RcCell.canUpgrade, hc, ne_eq, decide_eq_true_eq] at hu
    simp only [RcCell.clone, hc]
    refine hi.update (hi.lt (Or.inr (Or.inr hm))) ?_ ?_ ?_
    · simp only [CellOk, List.count_cons_self]
      simp only at h1 h2
      exact ⟨by omega, h2, ⟨fun _ => by omega, fun _ => h3.mpr (by omega)⟩, by omega⟩
    · intro j hj; rw [List.count_cons_of_ne (Ne.symm hj)]
    · intro j hj; rfl
  | @dropWeak h s w w' i hp =>
    have hm : i ∈ w := hp.symm.subset (by simp)
    obtain ⟨c, hc, h1, h2, h3⟩ := hi.cell_weak hm
    simp only at hc h1 h2
    simp only [RcCell.dropWeak, hc, Heap.store]
    refine hi.update (hi.lt (Or.inr (Or.inr hm))) ?_ ?_ ?_
    · have := count_perm hp i
      simp only [if_true] at this
      by_cases h4 : c.strong = 0 ∧ c.weak - 1 = 0
      · rw [if_pos h4]
        simp only [CellOk]
        omega
      · rw [if_neg h4]
        simp only [CellOk]
        exact ⟨by omega, by omega, by rw [h3, h1], by omega⟩
    · intro j hj; rfl
    · intro j hj
      have := count_perm hp j
      rw [if_neg (Ne.symm hj)] at this
      omega
  | @assign h s w i v hm hu =>
    obtain ⟨v', hc⟩ := hi.cell (Or.inr hm)
    simp only at hc
    simp only [RcCell.assign, hc]
    refine hi.update (hi.lt (Or.inr (Or.inl hm))) ?_ (fun _ _ => rfl) (fun _ _ => rfl)
    have := List.count_pos_iff.mpr hm
    simp [CellOk]; omega
  | @unwrap h s s' w i v h' hp hu =>
    refine (hi.unwrap hu ?_).1
    intro j
    have := count_perm hp j
    omega

theorem Inv.steps {mine : List Nat} {a b : World V} (hi : Inv mine a) (h : Steps a b) : Inv mine b := by
  induction h with
  | refl => exact hi
  | step _ h ih => exact ih.step h

theorem Inv.init : Inv [] (World.init : World V) :=
  ⟨fun _ => ⟨rfl, rfl⟩, fun _ _ => rfl⟩

/-! ## What others can do -/

/-- Others cannot change the value in a cell to which I have a reference. -/
theorem Step.get {mine : List Nat} {a b : World V} (hi : Inv mine a) (h : Step a b) {i : Nat} (hm : i ∈ mine) :
    get i b.heap = get i a.heap := by
  have hlt := hi.lt (Or.inl hm)
  obtain ⟨v₀, hc₀⟩ := hi.cell (Or.inl hm)
  have hpos := List.count_pos_iff.mpr hm
  have key : ∀ (j : Nat) (c : Cell V) (c' : Option (Cell V)), a.heap.cell j = some c →
      (j = i → (c'.bind (·.val)) = c.val) → RcCell.get i (a.heap.put j c') = RcCell.get i a.heap := by
    intro j c c' h1 h2
    simp only [RcCell.get, Heap.put_cell]
    split
    · next e => subst e; rw [h2 rfl, h1]; rfl
    · rfl
  cases h with
  | @new h s w v =>
    simp only [RcCell.new, RcCell.get, Heap.put_cell]
    simp only at hlt
    rw [if_neg (by omega)]
  | @clone h s w j hj =>
    obtain ⟨v, hc⟩ := hi.cell (Or.inr hj)
    simp only at hc
    simp only [RcCell.clone, hc]
    exact key _ _ _ hc fun _ => rfl
  | @drop h s s' w j hp =>
    have hj : j ∈ s := hp.symm.subset (by simp)
    obtain ⟨v, hc⟩ := hi.cell (Or.inr hj)
    simp only at hc
    simp only [RcCell.dropStrong, hc, Heap.store]
    refine key _ _ _ hc ?_
    intro e
    subst e
    have := List.count_pos_iff.mpr hj
    rw [if_neg (by omega), if_neg (by omega)]
    rfl
  | @downgrade h s w j hj =>
    obtain ⟨v, hc⟩ := hi.cell (Or.inr hj)
    simp only at hc
    simp only [RcCell.downgrade, hc]
    exact key _ _ _ hc fun _ => rfl
  | @upgrade h s w j hj hu =>
    obtain ⟨c, hc, h1, h2, h3⟩ := hi.cell_weak hj
    simp only at hc
    simp only [RcCell.clone, hc]
    exact key _ _ _ hc fun _ => rfl
  | @dropWeak h s w w' j hp =>
    have hj : j ∈ w := hp.symm.subset (by simp)
    obtain ⟨c, hc, h1, h2, h3⟩ := hi.cell_weak hj
    simp only at hc h1
    simp only [RcCell.dropWeak, hc, Heap.store]
    refine key _ _ _ hc ?_
    intro e
    subst e
    rw [if_neg (by omega)]
    rfl
  | @assign h s w j v hj hu =>
    obtain ⟨v', hc⟩ := hi.cell (Or.inr hj)
    simp only at hc
    simp only [RcCell.assign, hc]
    refine key _ _ _ hc ?_
    intro e
    subst e
    have := List.count_pos_iff.mpr hj
    simp only [RcCell.canMut, hc] at hu
    split at hu
    · next e =>
      simp only [Option.some.injEq, Cell.mk.injEq] at e
      omega
    · cases hu
  | @unwrap h s s' w j v h' hp hu =>
    obtain ⟨n, h1, rfl⟩ := tryUnwrap_some hu
    simp only [Heap.store]
    refine key _ _ _ h1 ?_
    intro e
    subst e
    have hj : j ∈ s := hp.symm.subset (by simp)
    have := List.count_pos_iff.mpr hj
    simp only at hc₀
    rw [hc₀] at h1
    simp only [Option.some.injEq, Cell.mk.injEq] at h1
    omega

theorem Steps.get {mine : List Nat} {a b : World V} (hi : Inv mine a) (h : Steps a b) {i : Nat} (hm : i ∈ mine) :
    get i b.heap = get i a.heap := by
  induction h with
  | refl => rfl
  | step h1 h2 ih => exact (h2.get (hi.steps h1) hm).trans ih

/-- Nobody else can get a reference to a cell to which only I have references. -/
theorem Step.private {mine : List Nat} {a b : World V} (hi : Inv mine a) (h : Step a b) {i : Nat} (hm : i ∈ mine)
    (hs : i ∉ a.strong) (hw : i ∉ a.weak) : i ∉ b.strong ∧ i ∉ b.weak := by
  have hlt := hi.lt (Or.inl hm)
  cases h with
  | new =>
    simp only [RcCell.new] at *
    refine ⟨?_, hw⟩
    simp only [List.mem_cons, not_or]
    exact ⟨by omega, hs⟩
  | clone hj =>
    refine ⟨?_, hw⟩
    simp only [List.mem_cons, not_or]
    exact ⟨fun e => hs (e ▸ hj), hs⟩
  | drop hp => exact ⟨fun h => hs (hp.symm.subset (by simp [h])), hw⟩
  | downgrade hj =>
    refine ⟨hs, ?_⟩
    simp only [List.mem_cons, not_or]
    exact ⟨fun e => hs (e ▸ hj), hw⟩
  | upgrade hj =>
    refine ⟨?_, hw⟩
    simp only [List.mem_cons, not_or]
    exact ⟨fun e => hw (e ▸ hj), hs⟩
  | dropWeak hp => exact ⟨hs, fun h => hw (hp.symm.subset (by simp [h]))⟩
  | assign => exact ⟨hs, hw⟩
  | unwrap hp => exact ⟨fun h => hs (hp.symm.subset (by simp [h])), hw⟩

theorem Steps.private {mine : List Nat} {a b : World V} (hi : Inv mine a) (h : Steps a b) {i : Nat} (hm : i ∈ mine)
    (hs : i ∉ a.strong) (hw : i ∉ a.weak) : i ∉ b.strong ∧ i ∉ b.weak := by
  induction h with
  | refl => exact ⟨hs, hw⟩
  | step h1 h2 ih => exact h2.private (hi.steps h1) hm ih.1 ih.2

/-- References can be handed to another list. -/
theorem Inv.move {mine mine' s s' w : List Nat} {h : Heap V} (hi : Inv mine ⟨h, s, w⟩)
    (hc : ∀ j, mine.count j + s.count j = mine'.count j + s'.count j) : Inv mine' ⟨h, s', w⟩ :=
  ⟨fun i => by rw [← hc]; exact hi.ok i, hi.next⟩

end Kul.RcCell
