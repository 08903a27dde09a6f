import Verif.Props.DropTime
import Verif.Spec.RcHeap

/-! # Dropping with counts, when all are one, is as if all references were the only ones -/

namespace Kul.RcHeap

open Drop (Ref Side)

variable {L : Type}

/-- All references are the only ones. -/
def ones : Drop.Oracle (Nat → Nat) Nat := ⟨fun ω _ => (true, ω), fun ω _ => (true, ω)⟩

theorem ones_steady : ones.Steady fun _ => false := fun _ _ => ⟨rfl, rfl⟩

/-- The state stays. -/
def Stays (ω : Nat → Nat) (r : Drop.Res Nat L (Nat → Nat)) : Prop := ∀ e s d ω', r = .done e s d ω' → ω' = ω

theorem Stays.andThen {ω : Nat → Nat} {r : Drop.Res Nat L (Nat → Nat)} {f} (a : Stays ω r) (b : Stays ω (f ω)) :
    Stays ω (r.andThen f) := by
  intro e s d ω' h
  cases r with
  | done e1 s1 d1 ω1 =>
    have := a _ _ _ _ rfl
    subst this
    simp only [Drop.Res.andThen] at h
    cases hf : f ω1 with
    | done e2 s2 d2 ω2 =>
      rw [hf] at h
      cases h
      exact b _ _ _ _ hf
    | _ => rw [hf] at h; cases h
  | _ => cases h

theorem Stays.call {ω : Nat → Nat} {r : Drop.Res Nat L (Nat → Nat)} (a : Stays ω r) : Stays ω r.call := by
  intro e s d ω' h
  cases r with
  | done => cases h; exact a _ _ _ _ rfl
  | _ => cases h

theorem Stays.step {ω : Nat → Nat} {r : Drop.Res Nat L (Nat → Nat)} (a : Stays ω r) : Stays ω r.step := by
  intro e s d ω' h
  cases r with
  | done => cases h; exact a _ _ _ _ rfl
  | _ => cases h

theorem Stays.ev (ω : Nat → Nat) (e : List (Drop.Ev Nat L)) : Stays ω (.ev e ω) := by
  intro _ _ _ _ h; cases h; rfl

theorem andThen_congr {ω : Nat → Nat} {r : Drop.Res Nat L (Nat → Nat)} {f g} (hr : Stays ω r) (h : f ω = g ω) :
    r.andThen f = r.andThen g := by
  cases r with
  | done e s d ω' =>
    have := hr _ _ _ _ rfl
    subst this
    simp only [Drop.Res.andThen, h]
  | _ => rfl

/-- The four things that an iteration can do, the same for both. -/
theorem loop_ones (n : Nat) (lock : Option Side) (l r : Ref Nat L) (ω : Nat → Nat)
    (hl : ∀ k ∈ l.cells, ω k = 1) (hr : ∀ k ∈ r.cells, ω k = 1) :
    (∀ O ∈ [counts, ones], Drop.loop O (n + 1) lock (.branch l r) ω = .step ((Drop.drop O n r ω).andThen (Drop.drop O n l))) ∨
    (∃ lock' l' r', (∀ k, k ∈ l'.cells ++ r'.cells → k ∈ l.cells ++ r.cells) ∧
      ∀ O ∈ [counts, ones], Drop.loop O (n + 1) lock (.branch l r) ω = .step (Drop.loop O n lock' (.branch l' r') ω)) ∨
    (∃ k a b x, (∀ j, j ∈ (Ref.branch k a b).cells ++ x.cells → j ∈ l.cells ++ r.cells) ∧
      ∀ O ∈ [counts, ones], Drop.loop O (n + 1) lock (.branch l r) ω =
        .step (((Drop.drop O n x ω).andThen (Drop.drop O n (.leaf k none))).andThen (Drop.loop O n none (.branch a b)))) := by
  have tt : ∀ (t : Ref Nat L), (∀ k ∈ t.cells, ω k = 1) → ∀ O ∈ [counts, ones],
      Drop.tryTake O t ω = (some (t.datum, .of t.cell Drop.tempLeaf), ω) := by
    intro t ht O hO
    have : ω t.cell = 1 := ht _ (by cases t <;> simp [Ref.cells, Ref.cell])
    simp only [List.mem_cons, List.not_mem_nil, or_false] at hO
    rcases hO with rfl | rfl
    · simp [Drop.tryTake, counts, this]
    · rfl
  cases l with
  | leaf kl xl =>
    cases r with
    | leaf kr xr =>
      refine Or.inl fun O _ => ?_
      rw [Drop.loop]
      rcases lock with _ | _ | _ <;> rfl
    | branch k a b =>
      refine Or.inr (Or.inr ⟨k, a, b, .leaf kl xl, fun j hj => ?_, fun O hO => ?_⟩)
      · simp only [List.mem_append] at hj ⊢; tauto
      · have := tt _ hr O hO
        rw [Drop.loop]
        rcases lock with _ | _ | _ <;>
          simp [Drop.choose, Ref.cls, this, Ref.cell, Ref.datum, Ref.of, Drop.tempLeaf]
  | branch k a b =>
    cases r with
    | leaf kr xr =>
      refine Or.inr (Or.inr ⟨k, a, b, .leaf kr xr, fun j hj => hj, fun O hO => ?_⟩)
      have := tt _ hl O hO
      rw [Drop.loop]
      rcases lock with _ | _ | _ <;>
        simp [Drop.choose, Ref.cls, this, Ref.cell, Ref.datum, Ref.of, Drop.tempLeaf]
    | branch kr ar br =>
      by_cases h : lock = some .right
      · subst h
        refine Or.inr (Or.inl ⟨some .right, .branch kr (.branch k a b) ar, br, fun j hj => ?_, fun O hO => ?_⟩)
        · simp only [Ref.cells, List.mem_append, List.mem_cons] at hj ⊢; tauto
        · have := tt _ hr O hO
          rw [Drop.loop]
          simp [Drop.choose, Ref.cls, this, Ref.cell, Ref.datum, Ref.of, Drop.tempLeaf, Drop.tempBranch]
      · refine Or.inr (Or.inl ⟨some .left, a, .branch k b (.branch kr ar br), fun j hj => ?_, fun O hO => ?_⟩)
        · simp only [Ref.cells, List.mem_append, List.mem_cons] at hj ⊢; tauto
        · have := tt _ hl O hO
          rw [Drop.loop]
          rcases lock with _ | _ | _
          · simp [Drop.choose, Ref.cls, this, Ref.cell, Ref.datum, Ref.of, Drop.tempLeaf, Drop.tempBranch]
          · simp [Drop.choose, Ref.cls, this, Ref.cell, Ref.datum, Ref.of, Drop.tempLeaf, Drop.tempBranch]
          · exact absurd rfl h

theorem drop_ones (n : Nat) :
    (∀ (t : Ref Nat L) (ω : Nat → Nat), (∀ k ∈ t.cells, ω k = 1) →
      Drop.drop counts n t ω = Drop.drop ones n t ω ∧ Stays ω (Drop.drop ones n t ω)) ∧
    (∀ (lock : Option Side) (l r : Ref Nat L) (ω : Nat → Nat), (∀ k ∈ l.cells ++ r.cells, ω k = 1) →
      Drop.loop counts n lock (.branch l r) ω = Drop.loop ones n lock (.branch l r) ω ∧
        Stays ω (Drop.loop ones n lock (.branch l r) ω)) := by
  induction n with
  | zero =>
    refine ⟨fun t ω _ => ⟨rfl, ?_⟩, fun lock l r ω _ => ⟨rfl, ?_⟩⟩
    · intro _ _ _ _ h; rw [Drop.drop] at h; cases h
    · intro _ _ _ _ h; rw [Drop.loop] at h; cases h
  | succ n ih =>
    obtain ⟨ihd, ihl⟩ := ih
    refine ⟨fun t ω ht => ?_, fun lock l r ω h => ?_⟩
    · cases t with
      | leaf k x =>
        have : ω k = 1 := ht k (by simp [Ref.cells])
        rw [Drop.drop, Drop.drop]
        simp only [counts, ones, this, if_true]
        exact ⟨trivial, (Stays.ev _ _).call⟩
      | branch k l r =>
        have : ω k = 1 := ht k (by simp [Ref.cells])
        obtain ⟨h1, h2⟩ := ihl none l r ω fun j hj => ht j (by simp only [Ref.cells]; exact List.mem_cons_of_mem _ hj)
        have e1 : Drop.tryTake counts (.branch k l r) ω = (some (.branch l r, .leaf k none), ω) := by
          simp [Drop.tryTake, counts, Ref.cell, this, Ref.datum, Ref.of, Drop.tempLeaf]
        have e2 : Drop.tryTake ones (.branch k l r) ω = (some (.branch l r, .leaf k none), ω) := rfl
        rw [Drop.drop, Drop.drop]
        simp only [e1, e2, h1]
        exact ⟨trivial, (h2.andThen (Stays.ev _ _)).call⟩
    · rcases loop_ones n lock l r ω (fun k hk => h k (by simp [hk])) (fun k hk => h k (by simp [hk])) with
        e | ⟨lock', l', r', hc, e⟩ | ⟨k, a, b, x, hc, e⟩
      · rw [e counts (by simp), e ones (by simp)]
        obtain ⟨h1, h2⟩ := ihd r ω fun k hk => h k (by simp [hk])
        obtain ⟨h3, h4⟩ := ihd l ω fun k hk => h k (by simp [hk])
        rw [h1, andThen_congr h2 h3]
        exact ⟨rfl, (h2.andThen h4).step⟩
      · rw [e counts (by simp), e ones (by simp)]
        obtain ⟨h1, h2⟩ := ihl lock' l' r' ω fun k hk => h k (hc k hk)
        rw [h1]
        exact ⟨rfl, h2.step⟩
      · rw [e counts (by simp), e ones (by simp)]
        have hx : ∀ j ∈ (Ref.branch k a b).cells ++ x.cells, ω j = 1 := fun j hj => h j (hc j hj)
        obtain ⟨h1, h2⟩ := ihd x ω fun j hj => hx j (by simp [hj])
        obtain ⟨h3, h4⟩ := ihd (.leaf k none) ω fun j hj => hx j (by simp only [Ref.cells] at hj ⊢; simp at hj ⊢; tauto)
        obtain ⟨h5, h6⟩ := ihl none a b ω fun j hj => hx j (by simp only [Ref.cells] at hj ⊢; simp at hj ⊢; tauto)
        rw [h1, andThen_congr h2 h3, andThen_congr (h2.andThen h4) h5]
        exact ⟨rfl, ((h2.andThen h4).andThen h6).step⟩

theorem Rep.live {h : Heap L} {t : Ref Nat L} (ht : Rep h t) : ∀ k ∈ t.cells, ∃ c, h k = some c := by
  have hd : ∀ {k d}, h.dat k = some d → ∃ c, h k = some c := fun {k d} e => by
    unfold Heap.dat at e
    cases hc : h k with
    | none => rw [hc] at e; cases e
    | some c => exact ⟨c, rfl⟩
  induction t with
  | leaf k x =>
    intro j hj
    simp only [Ref.cells, List.mem_singleton] at hj
    subst hj
    exact hd ht
  | branch k l r ihl ihr =>
    obtain ⟨h1, h2, h3⟩ := ht
    intro j hj
    simp only [Ref.cells, List.mem_cons, List.mem_append] at hj
    rcases hj with rfl | hj | hj
    · exact hd h1
    · exact ihl h2 j hj
    · exact ihr h3 j hj

end Kul.RcHeap
