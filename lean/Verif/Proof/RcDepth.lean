import Verif.Proof.RcHeap
import Verif.Spec.Drop

/-! # How deep the calls of `drop` are nested, with counts that change while dropping -/

namespace Kul.RcHeap

open Drop (Ref Side)

variable {L : Type}

/-- What one iteration does, when the counts give the answers. -/
theorem counts_iter (n : Nat) (lock : Option Side) (l r : Ref Nat L) (ω : Nat → Nat) :
    ((l.cls = .leaf ∧ r.cls = .leaf ∨ ∃ k a b, (l = .branch k a b ∨ r = .branch k a b) ∧ ω k ≠ 1) ∧
      Drop.loop counts (n + 1) lock (.branch l r) ω =
        .step ((Drop.drop counts n r ω).andThen (Drop.drop counts n l))) ∨
    (∃ k a b, ω k = 1 ∧ l = .branch k a b ∧ lock ≠ some .right ∧
      Drop.loop counts (n + 1) lock (.branch l r) ω =
        .step (Drop.loop counts n (some .left) (.branch a (.branch k b r)) ω)) ∨
    (∃ k a b, ω k = 1 ∧ r = .branch k a b ∧ lock ≠ some .left ∧
      Drop.loop counts (n + 1) lock (.branch l r) ω =
        .step (Drop.loop counts n (some .right) (.branch (.branch k l a) b) ω)) ∨
    (∃ k a b x, ω k = 1 ∧ (l = .branch k a b ∧ r = x ∨ r = .branch k a b ∧ l = x) ∧ x.cls = .leaf ∧
      Drop.loop counts (n + 1) lock (.branch l r) ω =
        .step (((Drop.drop counts n x ω).andThen (Drop.drop counts n (.leaf k none))).andThen
          (Drop.loop counts n none (.branch a b)))) := by
  rw [Drop.loop_succ]
  cases l with
  | leaf kl xl =>
    cases r with
    | leaf kr xr => exact Or.inl ⟨Or.inl ⟨rfl, rfl⟩, by rcases lock with _ | _ | _ <;> rfl⟩
    | branch k a b =>
      by_cases hk : ω k = 1
      · refine Or.inr (Or.inr (Or.inr ⟨k, a, b, .leaf kl xl, hk, Or.inr ⟨rfl, rfl⟩, rfl, ?_⟩))
        rcases lock with _ | _ | _ <;>
          simp [Drop.choose, Ref.cls, takes (t := .branch k a b) hk, Ref.cell, Ref.datum, Ref.of, Drop.tempLeaf]
      · refine Or.inl ⟨Or.inr ⟨k, a, b, Or.inr rfl, hk⟩, ?_⟩
        rcases lock with _ | _ | _ <;> simp [Drop.choose, Ref.cls, takes_not (t := .branch k a b) hk]
  | branch k a b =>
    cases r with
    | leaf kr xr =>
      by_cases hk : ω k = 1
      · refine Or.inr (Or.inr (Or.inr ⟨k, a, b, .leaf kr xr, hk, Or.inl ⟨rfl, rfl⟩, rfl, ?_⟩))
        rcases lock with _ | _ | _ <;>
          simp [Drop.choose, Ref.cls, takes (t := .branch k a b) hk, Ref.cell, Ref.datum, Ref.of, Drop.tempLeaf]
      · refine Or.inl ⟨Or.inr ⟨k, a, b, Or.inl rfl, hk⟩, ?_⟩
        rcases lock with _ | _ | _ <;> simp [Drop.choose, Ref.cls, takes_not (t := .branch k a b) hk]
    | branch kr ar br =>
      by_cases hk : ω k = 1 <;> by_cases hr : ω kr = 1 <;> rcases lock with _ | _ | _
      all_goals first
        | (refine Or.inr (Or.inl ⟨k, a, b, hk, rfl, by decide, ?_⟩)
           simp [Drop.choose, Ref.cls, takes (t := .branch k a b) hk, Ref.cell, Ref.datum, Ref.of, Drop.tempLeaf]
           done)
        | (refine Or.inr (Or.inr (Or.inl ⟨kr, ar, br, hr, rfl, by decide, ?_⟩))
           simp [Drop.choose, Ref.cls, takes (t := .branch kr ar br) hr, Ref.cell, Ref.datum, Ref.of, Drop.tempLeaf]
           done)
        | (refine Or.inr (Or.inr (Or.inl ⟨kr, ar, br, hr, rfl, by decide, ?_⟩))
           simp [Drop.choose, Ref.cls, takes_not (t := .branch k a b) hk, takes (t := .branch kr ar br) hr, Ref.cell,
             Ref.datum, Ref.of, Drop.tempLeaf]
           done)
        | (refine Or.inl ⟨Or.inr ⟨k, a, b, Or.inl rfl, hk⟩, ?_⟩
           simp [Drop.choose, Ref.cls, takes_not (t := .branch k a b) hk]
           done)
        | (refine Or.inl ⟨Or.inr ⟨kr, ar, br, Or.inr rfl, hr⟩, ?_⟩
           simp [Drop.choose, Ref.cls, takes_not (t := .branch kr ar br) hr]
           done)
        | (refine Or.inl ⟨Or.inr ⟨k, a, b, Or.inl rfl, hk⟩, ?_⟩
           simp [Drop.choose, Ref.cls, takes_not (t := .branch k a b) hk, takes_not (t := .branch kr ar br) hr])

/-! ## What has happened -/

/-- The cells of references that were given up. -/
def gives : List (Drop.Ev Nat L) → List Nat := List.filterMap fun | .giveUp r => some r.cell | _ => none

theorem gives_append (e e' : List (Drop.Ev Nat L)) : gives (e ++ e') = gives e ++ gives e' := by simp [gives]

theorem freed_append (e e' : List (Drop.Ev Nat L)) : Drop.freed (e ++ e') = Drop.freed e ++ Drop.freed e' := by
  simp [Drop.freed]

/-- The branches have cells in `B`. -/
def In (B : Nat → Prop) : Ref Nat L → Prop
  | .leaf .. => True
  | .branch k l r => B k ∧ In B l ∧ In B r

/-- Counts went down by what was given up, and each level of depth, but `c`, is on account of a reference to a cell in `B`
that was shared at first, and which was given up or was the last. -/
structure Did (B : Nat → Prop) (ω : Nat → Nat) (e : List (Drop.Ev Nat L)) (d c : Nat) (ω' : Nat → Nat) : Prop where
  count : ∀ k, 1 ≤ ω k → 1 ≤ ω' k ∧ ω' k + (gives e).count k = ω k
  free : ∀ k, k ∈ Drop.freed e → ω' k = 1
  depth : ∃ A : List Nat, d ≤ A.length + c ∧ (∀ k ∈ A, B k ∧ ω k ≠ 1) ∧
    ∀ k, A.count k ≤ (gives e).count k + (Drop.freed e).count k

variable {B : Nat → Prop}

theorem Did.stays {ω : Nat → Nat} {e : List (Drop.Ev Nat L)} {d c ω'} (a : Did B ω e d c ω') {k : Nat} (h : ω k = 1) :
    ω' k = 1 := by
  obtain ⟨h1, h2⟩ := a.count k (by omega)
  omega

theorem Did.trans {ω : Nat → Nat} {e e' : List (Drop.Ev Nat L)} {d d' c ω₁ ω₂} (a : Did B ω e d c ω₁)
    (b : Did B ω₁ e' d' c ω₂) : Did B ω (e ++ e') (max d d') c ω₂ := by
  refine ⟨fun k h => ?_, fun k h => ?_, ?_⟩
  · obtain ⟨h1, h2⟩ := a.count k h
    obtain ⟨h3, h4⟩ := b.count k h1
    rw [gives_append, List.count_append]
    omega
  · rw [freed_append, List.mem_append] at h
    exact h.elim (fun h => b.stays (a.free k h)) (b.free k)
  · obtain ⟨A, h1, h2, h3⟩ := a.depth
    obtain ⟨A', h1', h2', h3'⟩ := b.depth
    simp only [gives_append, freed_append, List.count_append]
    rcases Nat.le_total d d' with h | h
    · refine ⟨A', by omega, fun k hk => ⟨(h2' k hk).1, fun h1 => (h2' k hk).2 (a.stays h1)⟩, fun k => ?_⟩
      have := h3' k
      omega
    · refine ⟨A, by omega, h2, fun k => ?_⟩
      have := h3 k
      omega

/-- The same, but with less room. -/
theorem Did.small {ω : Nat → Nat} {e : List (Drop.Ev Nat L)} {d c c' ω'} (a : Did B ω e d c ω') (h : d ≤ c') :
    Did B ω e d c' ω' := ⟨a.count, a.free, [], by simpa using h, by simp, by simp⟩

/-- A reference is dropped. -/
structure DidDrop (B : Nat → Prop) (t : Ref Nat L) (ω : Nat → Nat) (e : List (Drop.Ev Nat L)) (d : Nat) (ω' : Nat → Nat) :
    Prop where
  did : Did B ω e d 2 ω'
  leaf : t.cls = .leaf → d ≤ 1
  shared : ω t.cell ≠ 1 → d ≤ 1 ∧ t.cell ∈ gives e
  sole : ω t.cell = 1 → t.cell ∈ Drop.freed e

/-- A reference to a shared cell. -/
theorem did_give (t : Ref Nat L) {ω : Nat → Nat} (h : ω t.cell ≠ 1) :
    DidDrop B t ω [.giveUp t] 1 (fun j => if j = t.cell then ω t.cell - 1 else ω j) := by
  refine ⟨⟨fun k hk => ?_, fun k hk => by simp [Drop.freed] at hk, [], by simp, by simp, by simp⟩, fun _ => Nat.le_refl _,
    fun _ => ⟨Nat.le_refl _, by simp [gives]⟩, fun h' => absurd h' h⟩
  simp only [gives, List.filterMap_cons, List.filterMap_nil]
  by_cases e : k = t.cell
  · subst e
    simp
    omega
  · rw [if_neg e, List.count_cons_of_ne (Ne.symm e)]
    simpa using hk

theorem did (n : Nat) :
    (∀ (t : Ref Nat L) ω e s d ω', In B t → Drop.drop counts n t ω = .done e s d ω' → DidDrop B t ω e d ω') ∧
    (∀ lock (l r : Ref Nat L) ω e s d ω', In B l → In B r → Drop.loop counts n lock (.branch l r) ω = .done e s d ω' →
      Did B ω e d 1 ω') := by
  induction n with
  | zero =>
    exact ⟨fun t ω e s d ω' _ h => (by unfold Drop.drop at h; cases h),
      fun lock l r ω e s d ω' _ _ h => (by unfold Drop.loop at h; cases h)⟩
  | succ n ih =>
    obtain ⟨ihd, ihl⟩ := ih
    constructor
    · intro t ω e s d ω' hb h
      cases t with
      | leaf k x =>
        rw [Drop.drop_leaf] at h
        by_cases hk : ω k = 1
        · simp only [counts, hk, if_true] at h
          cases h
          refine ⟨⟨fun j hj => by simpa [gives] using hj, fun j hj => ?_, [], by simp, by simp, by simp⟩,
            fun _ => Nat.le_refl _, fun h => absurd hk h, fun _ => by simp [Drop.freed, Ref.cell]⟩
          simp [Drop.freed] at hj
          rw [hj, hk]
        · simp only [counts, hk, if_false] at h
          cases h
          exact did_give (.leaf k x) hk
      | branch k l r =>
        by_cases hk : ω k = 1
        · unfold Drop.drop at h
          simp only [takes (t := .branch k l r) hk, Ref.datum] at h
          rw [Drop.Res.call_done] at h
          obtain ⟨d, h, rfl⟩ := h
          obtain ⟨_, _, _, _, _, _, _, h3, h4, rfl, rfl, rfl⟩ := Drop.Res.andThen_done.mp h
          cases h4
          have a := ihl _ _ _ _ _ _ _ _ hb.2.1 hb.2.2 h3
          rw [Nat.max_zero]
          refine ⟨⟨?_, ?_, ?_⟩, nofun, fun h => absurd hk h, fun _ => by simp [Drop.freed, Ref.cell]⟩
          · simpa [gives] using a.count
          · intro j hj
            simp [Drop.freed] at hj
            rcases hj with hj | hj
            · exact a.free j (by simpa [Drop.freed] using hj)
            · rw [hj]
              exact a.stays hk
          · obtain ⟨A, h1, h2, h3⟩ := a.depth
            refine ⟨A, by omega, h2, fun j => ?_⟩
            have := h3 j
            simp only [gives_append, freed_append, List.count_append]
            omega
        · unfold Drop.drop at h
          simp only [takes_not (t := .branch k l r) hk] at h
          simp only [counts, hk, if_false] at h
          cases h
          exact did_give (.branch k l r) hk
    · intro lock l r ω e s d ω' hbl hbr h
      rcases counts_iter n lock l r ω with ⟨h1, h2⟩ | ⟨k, a, b, h1, rfl, _, h2⟩ | ⟨k, a, b, h1, rfl, _, h2⟩ |
        ⟨k, a, b, x, h1, h2, h3, h4⟩
      · rw [h2, Drop.Res.step_done] at h
        obtain ⟨s, h, rfl⟩ := h
        obtain ⟨e₁, _, d₁, ω₁, e₂, _, d₂, h4, h5, rfl, rfl, rfl⟩ := Drop.Res.andThen_done.mp h
        have ar := ihd _ _ _ _ _ _ hbr h4
        have al := ihd _ _ _ _ _ _ hbl h5
        have key := ar.did.trans al.did
        rcases h1 with ⟨h1, h1'⟩ | ⟨k, a, b, rfl | rfl, hk⟩
        · have := ar.leaf h1'
          have := al.leaf h1
          exact key.small (by omega)
        · refine ⟨key.count, key.free, ?_⟩
          simp only [gives_append, freed_append, List.count_append]
          rcases Nat.lt_or_ge d₁ d₂ with hd | hd
          · by_cases h1 : ω₁ k = 1
            · obtain ⟨A, h6, h7, h8⟩ := al.did.depth
              have hf := List.count_pos_iff.mpr (al.sole h1)
              refine ⟨k :: A, by simp; omega, fun j hj => ?_, fun j => ?_⟩
              · rcases List.mem_cons.mp hj with rfl | hj
                · exact ⟨hbl.1, hk⟩
                · exact ⟨(h7 j hj).1, fun h1 => (h7 j hj).2 (ar.did.stays h1)⟩
              · by_cases e : j = k
                · subst e
                  have : A.count j = 0 := List.count_eq_zero.mpr fun hm => (h7 j hm).2 h1
                  rw [List.count_cons_self, this]
                  simp only [Ref.cell] at hf
                  omega
                · rw [List.count_cons_of_ne (Ne.symm e)]
                  have := h8 j
                  omega
            · have := (al.shared h1).1
              exact ⟨[], by simp; omega, by simp, by simp⟩
          · obtain ⟨A, h6, h7, h8⟩ := ar.did.depth
            have hf : 1 ≤ (gives e₂).count k + (Drop.freed e₂).count k := by
              by_cases h1 : ω₁ k = 1
              · have := List.count_pos_iff.mpr (al.sole h1)
                simp only [Ref.cell] at this
                omega
              · have := List.count_pos_iff.mpr (al.shared h1).2
                simp only [Ref.cell] at this
                omega
            refine ⟨k :: A, by simp; omega, fun j hj => ?_, fun j => ?_⟩
            · rcases List.mem_cons.mp hj with rfl | hj
              · exact ⟨hbl.1, hk⟩
              · exact h7 j hj
            · have := h8 j
              by_cases e : j = k
              · subst e
                rw [List.count_cons_self]
                omega
              · rw [List.count_cons_of_ne (Ne.symm e)]
                omega
        · refine ⟨key.count, key.free, ?_⟩
          simp only [gives_append, freed_append, List.count_append]
          obtain ⟨hd, hg⟩ := ar.shared hk
          have hf := List.count_pos_iff.mpr hg
          simp only [Ref.cell] at hf
          obtain ⟨A, h6, h7, h8⟩ := al.did.depth
          refine ⟨k :: A, by simp; omega, fun j hj => ?_, fun j => ?_⟩
          · rcases List.mem_cons.mp hj with rfl | hj
            · exact ⟨hbr.1, hk⟩
            · exact ⟨(h7 j hj).1, fun h1 => (h7 j hj).2 (ar.did.stays h1)⟩
          · have := h8 j
            by_cases e : j = k
            · subst e
              rw [List.count_cons_self]
              omega
            · rw [List.count_cons_of_ne (Ne.symm e)]
              omega
      · rw [h2, Drop.Res.step_done] at h
        obtain ⟨s, h, rfl⟩ := h
        exact ihl _ a (.branch k b r) _ _ _ _ _ hbl.2.1 ⟨hbl.1, hbl.2.2, hbr⟩ h
      · rw [h2, Drop.Res.step_done] at h
        obtain ⟨s, h, rfl⟩ := h
        exact ihl _ (.branch k l a) b _ _ _ _ _ ⟨hbr.1, hbl, hbr.2.1⟩ hbr.2.2 h
      · rw [h4, Drop.Res.step_done] at h
        obtain ⟨s, h, rfl⟩ := h
        obtain ⟨_, _, _, _, _, _, _, h5, h6, rfl, rfl, rfl⟩ := Drop.Res.andThen_done.mp h
        obtain ⟨_, _, _, _, _, _, _, h7, h8, rfl, rfl, rfl⟩ := Drop.Res.andThen_done.mp h5
        have hx : In B x ∧ In B a ∧ In B b := by
          rcases h2 with ⟨rfl, rfl⟩ | ⟨rfl, rfl⟩
          · exact ⟨hbr, hbl.2⟩
          · exact ⟨hbl, hbr.2⟩
        have a1 := ihd _ _ _ _ _ _ hx.1 h7
        have a2 := ihd (.leaf k none) _ _ _ _ _ trivial h8
        have a3 := ihl _ _ _ _ _ _ _ _ hx.2.1 hx.2.2 h6
        exact ((a1.did.small (a1.leaf h3)).trans (a2.did.small (a2.leaf rfl))).trans a3

end Kul.RcHeap
