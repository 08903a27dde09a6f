import Verif.Spec.RcCell
import Verif.Proof.RcCell

/-! # Taking a datum out of a counted reference: C45 -/

namespace Kul.RcCell

variable {V : Type}

theorem canMut_eq {h : Heap V} {i : Nat} {v : V} (hc : h.cell i = some ⟨some v, 1, 0⟩) : canMut i h = true := by
  simp [canMut, hc]

theorem set_ok {h : Heap V} {i : Nat} {u : V} (hc : h.cell i = some ⟨some u, 1, 0⟩) (v : V) :
    ∃ h'', RcCell.set i v h = some h'' ∧ get i h'' = some v ∧ ∀ j, j ≠ i → h''.cell j = h.cell j := by
  refine ⟨assign i v h, by simp [RcCell.set, canMut_eq hc], ?_, ?_⟩
  · simp [assign, hc, get, Heap.put]
  · intro j hj
    simp [assign, hc, Heap.put, hj]

theorem tryReplace_inv {h : Heap V} {s w : List Nat} (hi : Inv [] ⟨h, s, w⟩) {this : Nat} (ht : this ∈ s) (val : V) :
    (s.count this = 1 → ∃ old this' h', tryReplace this val h = .ok old this' h' ∧
      TakenOut this val h old this' h' s w) ∧
    (s.count this ≠ 1 → ∃ h', tryReplace this val h = .err val this h' ∧ h'.cell = h.cell) := by
  obtain ⟨v, hc⟩ := hi.cell (Or.inr ht)
  simp only [List.count_nil, Nat.zero_add] at hc
  have hlt : this < h.next := hi.lt (Or.inr (Or.inl ht))
  obtain ⟨-, f2, f3⟩ := hi.fresh
  simp only at f2 f3
  have hc1 : (new val h).2.cell this = some ⟨some v, s.count this, w.count this⟩ := by
    simp only [new, Heap.put_cell]
    rw [if_neg (by omega)]
    exact hc
  constructor
  · intro h1
    rw [h1] at hc1
    have hu : tryUnwrap this (new val h).2 = (some v, (new val h).2.store this ⟨none, 0, w.count this⟩) := by
      simp [tryUnwrap, hc1]
    refine ⟨v, h.next, _, by simp only [tryReplace]; rw [hu]; rfl, ?_⟩
    have hn : ((new val h).2.store this ⟨none, 0, w.count this⟩).cell h.next = some ⟨some val, 1, 0⟩ := by
      simp only [Heap.store_cell, new, Heap.put_cell]
      rw [if_neg (by omega)]
      simp
    refine ⟨by simp [get, hc], by simp [get, hn], ?_, ?_, ?_, fun v => set_ok hn v, ?_⟩
    · exact ⟨fun h => f2 (List.mem_of_mem_erase h), f3⟩
    · rintro i - rfl
      simp only [canUpgrade, Heap.store_cell, if_true]
      split <;> rename_i e <;> split at e <;> simp_all
      cases e
      rfl
    · intro i h2 h3
      simp only [Heap.store_cell, new, Heap.put_cell]
      rw [if_neg h2, if_neg h3]
    · refine ⟨h.next :: s.erase this, .step (.step .refl .new) (.unwrap ?_ hu), .refl _⟩
      simp only [new]
      exact (List.Perm.cons _ (List.perm_cons_erase ht)).trans (List.Perm.swap _ _ _)
  · intro h1
    have hu : tryUnwrap this (new val h).2 = (none, (new val h).2) := by
      unfold tryUnwrap
      rw [hc1]
      split
      · next e => simp_all
      · rfl
    have hn : (new val h).2.cell h.next = some ⟨some val, 1, 0⟩ := by simp [new, Heap.put]
    have hu2 : tryUnwrap h.next (new val h).2 = (some val, (new val h).2.store h.next ⟨none, 0, 0⟩) := by
      simp [tryUnwrap, hn]
    refine ⟨_, by simp only [tryReplace]; rw [hu]; simp only; rw [show (new val h).1 = h.next from rfl, hu2], ?_⟩
    funext j
    simp only [Heap.store_cell, new, Heap.put_cell]
    split
    · next e => subst e; simp; exact (hi.next _ (Nat.le_refl _)).symm
    · rfl

theorem tryReplaceOptim_inv {h : Heap V} {s w : List Nat} (hi : Inv [] ⟨h, s, w⟩) {this : Nat} (ht : this ∈ s)
    (val : V) :
    (s.count this = 1 → ∃ old this' h', tryReplaceOptim this val h = .ok old this' h' ∧
      TakenOut this val h old this' h' s w) ∧
    (s.count this ≠ 1 → ∃ h', tryReplaceOptim this val h = .err val this h' ∧ h'.cell = h.cell) := by
  obtain ⟨v, hc⟩ := hi.cell (Or.inr ht)
  simp only [List.count_nil, Nat.zero_add] at hc
  have h1 := tryReplace_inv hi ht val
  constructor
  · intro hs
    rw [hs] at hc
    by_cases hw : w.count this = 0
    · rw [hw] at hc
      have hm := canMut_eq hc
      refine ⟨v, this, assign this val h, by simp [tryReplaceOptim, counts, hc, hm, get], ?_⟩
      have hn : (assign this val h).cell this = some ⟨some val, 1, 0⟩ := by simp [assign, hc, Heap.put]
      refine ⟨by simp [get, hc], by simp [get, hn], ⟨?_, List.count_eq_zero.mp hw⟩, ?_, ?_, fun v => set_ok hn v, ?_⟩
      · rw [← List.count_eq_zero, List.count_erase_self]; omega
      · rintro i hi rfl; exact absurd hi (List.count_eq_zero.mp hw)
      · intro i h2 _
        simp [assign, hc, Heap.put, h2]
      · exact ⟨s, .step .refl (.assign ht hm), List.perm_cons_erase ht⟩
    · have : tryReplaceOptim this val h = tryReplace this val h := by
        simp only [tryReplaceOptim, counts, hc]
      rw [this]
      exact h1.1 hs
  · intro hs
    refine ⟨h, ?_, rfl⟩
    simp only [tryReplaceOptim, counts, hc]
    split
    · next e => simp_all
    · next e => simp_all
    · rfl

/-- C45 for `DatumRc`: in every state that a program can reach, taking out the datum behind a reference
succeeds exactly if it is the only strong one; otherwise nothing is changed and the passed-in value is given
back. There are no panics. -/
theorem C45_rc {h : Heap V} {s w : List Nat} (hist : Steps .init ⟨h, s, w⟩) {this : Nat} (ht : this ∈ s) (val : V) :
    (s.count this = 1 → ∃ old this' h', tryReplaceOptim this val h = .ok old this' h' ∧
      TakenOut this val h old this' h' s w) ∧
    (s.count this ≠ 1 → ∃ h', tryReplaceOptim this val h = .err val this h' ∧ h'.cell = h.cell) :=
  tryReplaceOptim_inv (Inv.init.steps hist) ht val

/-- C45, `DerefTryMut::get_mut` and what uses it (`RcLike::set`): in every state that a program can reach there is a
mutable reference exactly if there are no other references, strong or weak. Setting then changes the datum of this
reference and no other, and otherwise panics. -/
theorem C45_get_mut {h : Heap V} {s w : List Nat} (hist : Steps .init ⟨h, s, w⟩) {this : Nat} (ht : this ∈ s) :
    (canMut this h = true ↔ s.count this = 1 ∧ this ∉ w) ∧
    ∀ val, (s.count this = 1 ∧ this ∉ w → ∃ h', RcCell.set this val h = some h' ∧ get this h' = some val ∧
        ∀ j, j ≠ this → h'.cell j = h.cell j) ∧
      (¬ (s.count this = 1 ∧ this ∉ w) → RcCell.set this val h = none) := by
  obtain ⟨v, hc⟩ := (Inv.init.steps hist).cell (Or.inr ht)
  simp only [List.count_nil, Nat.zero_add] at hc
  have hw : w.count this = 0 ↔ this ∉ w := List.count_eq_zero
  have key : canMut this h = true ↔ s.count this = 1 ∧ this ∉ w := by
    rw [← hw]
    simp only [canMut, hc]
    constructor
    · intro e
      split at e
      · next e' => simp only [Option.some.injEq, Cell.mk.injEq] at e'; exact e'.2
      · cases e
    · rintro ⟨e1, e2⟩
      rw [e1, e2]
      rfl
  refine ⟨key, fun val => ⟨fun hu => ?_, fun hu => ?_⟩⟩
  · rw [hu.1, hw.mpr hu.2] at hc
    exact set_ok hc val
  · simp [RcCell.set, mt key.mp hu]

/-- The same for the implementation that `DatumArc` uses, without other threads. -/
theorem C45_basic {h : Heap V} {s w : List Nat} (hist : Steps .init ⟨h, s, w⟩) {this : Nat} (ht : this ∈ s)
    (val : V) :
    (s.count this = 1 → ∃ old this' h', tryReplace this val h = .ok old this' h' ∧
      TakenOut this val h old this' h' s w) ∧
    (s.count this ≠ 1 → ∃ h', tryReplace this val h = .err val this h' ∧ h'.cell = h.cell) :=
  tryReplace_inv (Inv.init.steps hist) ht val

/-- C45 for `DatumArc`: `this` is the reference of one thread, the others have the references `s` and `w`, and
do with them whatever they like all the time. There is no panic. If the datum is taken out then nobody else has a
strong reference to it, weak references do not upgrade, and setting cannot fail, even after others have done more.
If not then the passed-in value is given back, and the reference and its datum are unchanged. -/
theorem C45_arc {h : Heap V} {s₀ s w : List Nat} (hist : Steps .init ⟨h, s₀, w⟩) {this : Nat}
    (ht : s₀.Perm (this :: s)) (val : V) {r : Replaced V} {b : World V} (hr : TryReplaceArc this val ⟨h, s, w⟩ r b) :
    ArcOutcome this val h b r := by
  have hi : Inv [this] ⟨h, s, w⟩ := by
    refine (Inv.init.steps hist).move ?_
    intro j
    rw [ht.count_eq]
    simp only [List.count_nil, List.count_cons, Nat.zero_add]
    omega
  have hnew : ∀ {b c : World V}, Steps ⟨h, s, w⟩ b → Steps ⟨(new val b.heap).2, b.strong, b.weak⟩ c →
      Inv [b.heap.next, this] c ∧ get this c.heap = get this h ∧ get b.heap.next c.heap = some val ∧
      b.heap.next ∉ c.strong ∧ b.heap.next ∉ c.weak ∧ b.heap.next ≠ this := by
    intro b c h1 h2
    have i1 := hi.steps h1
    have i2 := i1.new val
    obtain ⟨f1, f2, f3⟩ := i1.fresh
    obtain ⟨p1, p2⟩ := h2.private i2 (by simp) f2 f3
    refine ⟨i2.steps h2, ?_, ?_, p1, p2, fun e => f1 (by simp [e])⟩
    · rw [h2.get i2 (by simp), ← h1.get hi (by simp)]
      simp only [new, get, Heap.put_cell]
      rw [if_neg]
      have := i1.lt (i := this) (Or.inl (by simp))
      omega
    · rw [h2.get i2 (by simp)]
      simp [new, get, Heap.put]
  cases hr with
  | @ok b c old h' h1 h2 h3 =>
    obtain ⟨i2, g1, g2, n1, n2, n3⟩ := hnew h1 h2
    obtain ⟨i3, m1, m2⟩ := i2.unwrap (mine' := [b.heap.next]) (s' := c.strong) h3
      (by intro j; simp only [List.count_cons, List.count_nil, beq_iff_eq]; omega)
    obtain ⟨n, hc, rfl⟩ := tryUnwrap_some h3
    have hg : get b.heap.next (c.heap.store this ⟨none, 0, n⟩) = some val := by
      rw [← g2]
      simp only [get, Heap.store_cell]
      rw [if_neg n3]
    refine ⟨rfl, ?_, m2, ?_, hg, n1, n2, ?_⟩
    · rw [← g1]; simp [get, hc]
    · simp only [canUpgrade, Heap.store_cell, if_true]
      split <;> rename_i e <;> split at e <;> simp_all
      cases e
      rfl
    · intro d hd v
      obtain ⟨q1, q2⟩ := hd.private i3 (i := b.heap.next) (by simp) n1 n2
      obtain ⟨u, hu⟩ := (i3.steps hd).cell (i := b.heap.next) (Or.inl (by simp))
      rw [List.count_eq_zero.mpr q1, List.count_eq_zero.mpr q2] at hu
      simp only [List.count_singleton_self] at hu
      obtain ⟨h'', e1, e2, _⟩ := set_ok hu v
      exact ⟨h'', e1, e2⟩
  | @err b c d _ h' v h1 h2 h3 h4 h5 =>
    obtain ⟨i2, g1, g2, n1, n2, n3⟩ := hnew h1 h2
    cases tryUnwrap_none h3
    have g3 := h4.get i2 (i := this) (by simp)
    have g4 := h4.get i2 (i := b.heap.next) (by simp)
    obtain ⟨n, hc, rfl⟩ := tryUnwrap_some h5
    refine ⟨rfl, ?_, rfl, ?_⟩
    · have : get (new val b.heap).1 d.heap = some v := by simp [get, hc]
      rw [show (new val b.heap).1 = b.heap.next from rfl] at this
      rw [g4, g2] at this
      cases this
      rfl
    · rw [← g1, ← g3]
      simp only [get, Heap.store_cell]
      rw [if_neg (show this ≠ (new val b.heap).1 from Ne.symm n3)]
  | @panic b c d _ h' h1 h2 h3 h4 h5 =>
    obtain ⟨i2, g1, g2, n1, n2, n3⟩ := hnew h1 h2
    cases tryUnwrap_none h3
    obtain ⟨q1, q2⟩ := h4.private i2 (i := b.heap.next) (by simp) n1 n2
    obtain ⟨u, hu⟩ := (i2.steps h4).cell (i := b.heap.next) (Or.inl (by simp))
    rw [List.count_eq_zero.mpr q1, List.count_eq_zero.mpr q2] at hu
    rw [List.count_cons_self, List.count_eq_zero.mpr (by simpa using n3)] at hu
    rw [show (new val b.heap).1 = b.heap.next from rfl] at h5
    simp [tryUnwrap, hu] at h5

/-- When no other thread has any reference to the datum, taking it out succeeds. -/
theorem C45_arc_sole {h : Heap V} {s₀ s w : List Nat} (hist : Steps .init ⟨h, s₀, w⟩) {this : Nat}
    (ht : s₀.Perm (this :: s)) (hs : this ∉ s) (hw : this ∉ w) (val : V) {r : Replaced V} {b : World V}
    (hr : TryReplaceArc this val ⟨h, s, w⟩ r b) : ∃ old this' h', r = .ok old this' h' := by
  have hi : Inv [this] ⟨h, s, w⟩ := by
    refine (Inv.init.steps hist).move ?_
    intro j
    rw [ht.count_eq]
    simp only [List.count_nil, List.count_cons, Nat.zero_add]
    omega
  have hno : ∀ {b c : World V} {h'}, Steps ⟨h, s, w⟩ b → Steps ⟨(new val b.heap).2, b.strong, b.weak⟩ c →
      tryUnwrap this c.heap ≠ (none, h') := by
    intro b c h' h1 h2 h3
    have i1 := hi.steps h1
    have i2 := i1.new val
    obtain ⟨p1, p2⟩ := h1.private hi (i := this) (by simp) hs hw
    obtain ⟨q1, q2⟩ := h2.private i2 (i := this) (by simp) p1 p2
    obtain ⟨u, hu⟩ := (i2.steps h2).cell (i := this) (Or.inl (by simp))
    rw [List.count_eq_zero.mpr q1, List.count_eq_zero.mpr q2] at hu
    have : b.heap.next ≠ this := fun e => i1.fresh.1 (by simp [e])
    rw [List.count_cons_of_ne this, List.count_singleton_self] at hu
    simp [tryUnwrap, hu] at h3
  cases hr with
  | ok h1 h2 h3 => exact ⟨_, _, _, rfl⟩
  | err h1 h2 h3 => exact absurd h3 (hno h1 h2)
  | panic h1 h2 h3 => exact absurd h3 (hno h1 h2)

/-! ## Examples -/

/-- A history: two datums; the first has two strong references, the second one strong and one weak. -/
def exWorld : World String :=
  ⟨downgrade 1 (new "b" (clone 0 (new "a" World.init.heap).2)).2, [1, 0, 0], [1]⟩

theorem exWorld_reached : Steps .init exWorld :=
  .step (.step (.step (.step .refl .new) (.clone (by decide))) .new) (.downgrade (by decide))

/-- The hypotheses are met by both, one taken out and the other not. -/
example : (1 ∈ exWorld.strong ∧ exWorld.strong.count 1 = 1 ∧ 1 ∈ exWorld.weak) ∧
    (0 ∈ exWorld.strong ∧ exWorld.strong.count 0 ≠ 1) := by decide

/-- The second is replaced: it is now at a new address. -/
example : (match tryReplaceOptim 1 "c" exWorld.heap with
    | .ok old this h => (old, this, get this h, canUpgrade 1 h)
    | _ => ("", 0, none, true)) = ("b", 2, some "c", false) := by decide +kernel

/-- The first is not. -/
example : (match tryReplaceOptim 0 "c" exWorld.heap with
    | .err v this h => (v, this, get this h)
    | _ => ("", 0, none)) = ("c", 0, some "a") := by decide +kernel

/-- Another thread has the other strong reference to the first datum, and drops it just before the attempt. -/
example : ∃ h, TryReplaceArc 0 "c" ⟨exWorld.heap, [1, 0], [1]⟩ (.ok "a" 2 h) ⟨h, [1], [1]⟩ ∧
    exWorld.strong.Perm (0 :: [1, 0]) :=
  ⟨_, .ok (b := ⟨exWorld.heap, [1, 0], [1]⟩) (c := ⟨dropStrong 0 (new "c" exWorld.heap).2, [1], [1]⟩) .refl
    (.step .refl (.drop (by decide))) rfl, by decide⟩

end Kul.RcCell
