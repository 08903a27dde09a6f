import Verif.Proof.RcDepth

/-! # Counts, when each cell is reached in one way only, are as good as sharing that stays as it is -/

namespace Kul.RcHeap

open Drop (Ref Side)

variable {L : Type}

/-- What one iteration does, when the counts give the answers, and when these answers stay. -/
theorem both_iter {shared : Nat → Bool} (n : Nat) (lock : Option Side) (l r : Ref Nat L) (ω : Nat → Nat)
    (hl : ∀ k a b, l = .branch k a b → shared k = (ω k != 1))
    (hr : ∀ k a b, r = .branch k a b → shared k = (ω k != 1)) :
    (Drop.loop counts (n + 1) lock (.branch l r) ω = .step ((Drop.drop counts n r ω).andThen (Drop.drop counts n l)) ∧
      Drop.loop (.steady shared) (n + 1) lock (.branch l r) () =
        .step ((Drop.drop (.steady shared) n r ()).andThen (Drop.drop (.steady shared) n l))) ∨
    (∃ k a b, ω k = 1 ∧ l = .branch k a b ∧
      Drop.loop counts (n + 1) lock (.branch l r) ω =
        .step (Drop.loop counts n (some .left) (.branch a (.branch k b r)) ω) ∧
      Drop.loop (.steady shared) (n + 1) lock (.branch l r) () =
        .step (Drop.loop (.steady shared) n (some .left) (.branch a (.branch k b r)) ())) ∨
    (∃ k a b, ω k = 1 ∧ r = .branch k a b ∧
      Drop.loop counts (n + 1) lock (.branch l r) ω =
        .step (Drop.loop counts n (some .right) (.branch (.branch k l a) b) ω) ∧
      Drop.loop (.steady shared) (n + 1) lock (.branch l r) () =
        .step (Drop.loop (.steady shared) n (some .right) (.branch (.branch k l a) b) ())) ∨
    (∃ k a b o x, ω k = 1 ∧ (l = .branch k a b ∧ r = .leaf o x ∨ r = .branch k a b ∧ l = .leaf o x) ∧
      Drop.loop counts (n + 1) lock (.branch l r) ω =
        .step (((Drop.drop counts n (.leaf o x) ω).andThen (Drop.drop counts n (.leaf k none))).andThen
          (Drop.loop counts n none (.branch a b))) ∧
      Drop.loop (.steady shared) (n + 1) lock (.branch l r) () =
        .step (((Drop.drop (.steady shared) n (.leaf o x) ()).andThen (Drop.drop (.steady shared) n (.leaf k none))).andThen
          (Drop.loop (.steady shared) n none (.branch a b)))) := by
  have st : ∀ {t : Ref Nat L}, shared t.cell = (ω t.cell != 1) → ω t.cell = 1 →
      Drop.tryTake (.steady shared) t () = (some (t.datum, .of t.cell Drop.tempLeaf), ()) := by
    intro t h h1
    simp [Drop.tryTake, Drop.Oracle.steady, h, h1]
  have sn : ∀ {t : Ref Nat L}, shared t.cell = (ω t.cell != 1) → ω t.cell ≠ 1 →
      Drop.tryTake (.steady shared) t () = (none, ()) := by
    intro t h h1
    have : (ω t.cell != 1) = true := by simpa using h1
    simp [Drop.tryTake, Drop.Oracle.steady, h, this]
  simp only [Drop.loop_succ]
  cases l with
  | leaf kl xl =>
    cases r with
    | leaf kr xr => exact Or.inl ⟨by rcases lock with _ | _ | _ <;> rfl, by rcases lock with _ | _ | _ <;> rfl⟩
    | branch k a b =>
      by_cases hk : ω k = 1
      · have s1 := takes (t := .branch k a b) hk
        have s2 := st (t := .branch k a b) (hr _ _ _ rfl) hk
        refine Or.inr (Or.inr (Or.inr ⟨k, a, b, kl, xl, hk, Or.inr ⟨rfl, rfl⟩, ?_, ?_⟩)) <;>
        rcases lock with _ | _ | _ <;>
          simp [Drop.choose, Ref.cls, s1, s2, Ref.cell, Ref.datum, Ref.of, Drop.tempLeaf]
      · have s1 := takes_not (t := .branch k a b) hk
        have s2 := sn (t := .branch k a b) (hr _ _ _ rfl) hk
        refine Or.inl ⟨?_, ?_⟩ <;> rcases lock with _ | _ | _ <;> simp [Drop.choose, Ref.cls, s1, s2]
  | branch k a b =>
    cases r with
    | leaf kr xr =>
      by_cases hk : ω k = 1
      · have s1 := takes (t := .branch k a b) hk
        have s2 := st (t := .branch k a b) (hl _ _ _ rfl) hk
        refine Or.inr (Or.inr (Or.inr ⟨k, a, b, kr, xr, hk, Or.inl ⟨rfl, rfl⟩, ?_, ?_⟩)) <;>
        rcases lock with _ | _ | _ <;>
          simp [Drop.choose, Ref.cls, s1, s2, Ref.cell, Ref.datum, Ref.of, Drop.tempLeaf]
      · have s1 := takes_not (t := .branch k a b) hk
        have s2 := sn (t := .branch k a b) (hl _ _ _ rfl) hk
        refine Or.inl ⟨?_, ?_⟩ <;> rcases lock with _ | _ | _ <;> simp [Drop.choose, Ref.cls, s1, s2]
    | branch kr ar br =>
      by_cases h1 : ω k = 1 <;> by_cases h2 : ω kr = 1
      · have s1 := takes (t := .branch k a b) h1
        have s2 := st (t := .branch k a b) (hl _ _ _ rfl) h1
        have s3 := takes (t := .branch kr ar br) h2
        have s4 := st (t := .branch kr ar br) (hr _ _ _ rfl) h2
        rcases lock with _ | _ | _
        · refine Or.inr (Or.inl ⟨k, a, b, h1, rfl, ?_, ?_⟩) <;>
            simp [Drop.choose, Ref.cls, s1, s2, Ref.cell, Ref.datum, Ref.of, Drop.tempLeaf]
        · refine Or.inr (Or.inl ⟨k, a, b, h1, rfl, ?_, ?_⟩) <;>
            simp [Drop.choose, Ref.cls, s1, s2, Ref.cell, Ref.datum, Ref.of, Drop.tempLeaf]
        · refine Or.inr (Or.inr (Or.inl ⟨kr, ar, br, h2, rfl, ?_, ?_⟩)) <;>
            simp [Drop.choose, Ref.cls, s3, s4, Ref.cell, Ref.datum, Ref.of, Drop.tempLeaf]
      · have s1 := takes (t := .branch k a b) h1
        have s2 := st (t := .branch k a b) (hl _ _ _ rfl) h1
        have s3 := takes_not (t := .branch kr ar br) h2
        have s4 := sn (t := .branch kr ar br) (hr _ _ _ rfl) h2
        rcases lock with _ | _ | _
        · refine Or.inr (Or.inl ⟨k, a, b, h1, rfl, ?_, ?_⟩) <;>
            simp [Drop.choose, Ref.cls, s1, s2, Ref.cell, Ref.datum, Ref.of, Drop.tempLeaf]
        · refine Or.inr (Or.inl ⟨k, a, b, h1, rfl, ?_, ?_⟩) <;>
            simp [Drop.choose, Ref.cls, s1, s2, Ref.cell, Ref.datum, Ref.of, Drop.tempLeaf]
        · refine Or.inl ⟨?_, ?_⟩ <;> simp [Drop.choose, Ref.cls, s3, s4]
      · have s1 := takes_not (t := .branch k a b) h1
        have s2 := sn (t := .branch k a b) (hl _ _ _ rfl) h1
        have s3 := takes (t := .branch kr ar br) h2
        have s4 := st (t := .branch kr ar br) (hr _ _ _ rfl) h2
        rcases lock with _ | _ | _
        · refine Or.inr (Or.inr (Or.inl ⟨kr, ar, br, h2, rfl, ?_, ?_⟩)) <;>
            simp [Drop.choose, Ref.cls, s1, s2, s3, s4, Ref.cell, Ref.datum, Ref.of, Drop.tempLeaf]
        · refine Or.inl ⟨?_, ?_⟩ <;> simp [Drop.choose, Ref.cls, s1, s2]
        · refine Or.inr (Or.inr (Or.inl ⟨kr, ar, br, h2, rfl, ?_, ?_⟩)) <;>
            simp [Drop.choose, Ref.cls, s3, s4, Ref.cell, Ref.datum, Ref.of, Drop.tempLeaf]
      · have s1 := takes_not (t := .branch k a b) h1
        have s2 := sn (t := .branch k a b) (hl _ _ _ rfl) h1
        have s3 := takes_not (t := .branch kr ar br) h2
        have s4 := sn (t := .branch kr ar br) (hr _ _ _ rfl) h2
        refine Or.inl ⟨?_, ?_⟩ <;> rcases lock with _ | _ | _ <;> simp [Drop.choose, Ref.cls, s1, s2, s3, s4]

/-! ## Dropping -/

/-- The leaves that are seen. -/
def lc (shared : Nat → Bool) : Ref Nat L → List Nat
  | .leaf k _ => [k]
  | .branch k l r => if shared k then [] else lc shared l ++ lc shared r

/-- The counts of the branches that are seen are so. -/
def Sees (shared : Nat → Bool) (ω : Nat → Nat) : Ref Nat L → Prop
  | .leaf .. => True
  | .branch k l r => shared k = (ω k != 1) ∧ (shared k = false → Sees shared ω l ∧ Sees shared ω r)

variable {shared : Nat → Bool}

/-- Only these counts change, and none that is one. -/
def Only (ω ω' : Nat → Nat) (A : List Nat) : Prop := ∀ k, ω' k = ω k ∨ k ∈ A ∧ ω k ≠ 1

theorem Only.refl (ω : Nat → Nat) (A : List Nat) : Only ω ω A := fun _ => Or.inl rfl

theorem Only.trans {ω ω₁ ω₂ : Nat → Nat} {A B C : List Nat} (a : Only ω ω₁ A) (b : Only ω₁ ω₂ B)
    (hA : ∀ k ∈ A, k ∈ C) (hB : ∀ k ∈ B, k ∈ C) : Only ω ω₂ C := by
  intro k
  rcases a k with h | ⟨h, h'⟩
  · rcases b k with h1 | ⟨h1, h2⟩
    · exact Or.inl (h1.trans h)
    · exact Or.inr ⟨hB k h1, h ▸ h2⟩
  · exact Or.inr ⟨hA k h, h'⟩

theorem Only.give (ω : Nat → Nat) {k : Nat} (h : ω k ≠ 1) {A : List Nat} (hk : k ∈ A) :
    Only ω (fun j => if j = k then ω k - 1 else ω j) A := by
  intro j
  by_cases e : j = k
  · exact Or.inr ⟨e ▸ hk, e ▸ h⟩
  · exact Or.inl (by simp [e])

theorem Sees.only {ω ω' : Nat → Nat} {A : List Nat} (o : Only ω ω' A) {t : Ref Nat L} (h : Sees shared ω t)
    (hA : ∀ k ∈ sharedMet shared t, k ∉ A) : Sees shared ω' t := by
  induction t with
  | leaf => trivial
  | branch k l r ihl ihr =>
    obtain ⟨h1, h2⟩ := h
    simp only [sharedMet] at hA
    by_cases hk : shared k = true
    · rw [if_pos hk] at hA
      rcases o k with h3 | ⟨h3, _⟩
      · exact ⟨by rw [h3]; exact h1, fun h => absurd hk (by simp [h])⟩
      · exact absurd h3 (hA k (by simp))
    · rw [if_neg hk] at hA
      have hk : shared k = false := by simpa using hk
      obtain ⟨h3, h4⟩ := h2 hk
      refine ⟨?_, fun _ => ⟨ihl h3 fun j hj => hA j (by simp [hj]), ihr h4 fun j hj => hA j (by simp [hj])⟩⟩
      rcases o k with h5 | ⟨_, h5⟩
      · rw [h5]; exact h1
      · rw [hk] at h1
        simp at h1
        exact absurd h1.symm (fun h => h5 h.symm)

theorem Sees.here {ω : Nat → Nat} {t : Ref Nat L} (h : Sees shared ω t) :
    ∀ k a b, t = .branch k a b → shared k = (ω k != 1) := by
  rintro k a b rfl
  exact h.1

theorem Sees.own {ω : Nat → Nat} {k : Nat} {l r : Ref Nat L} (h : Sees shared ω (.branch k l r)) (hk : ω k = 1) :
    shared k = false := by rw [h.1, hk]; rfl

theorem steady_run (n : Nat) :
    (∀ (t : Ref Nat L) ω e s d ω', (sharedMet shared t).Nodup → (∀ k ∈ lc shared t, k ∉ sharedMet shared t) → Sees shared ω t →
      Drop.drop counts n t ω = .done e s d ω' →
      (∃ e', Drop.drop (.steady shared) n t () = .done e' s d ()) ∧ Only ω ω' (sharedMet shared t ++ lc shared t)) ∧
    (∀ lock (l r : Ref Nat L) ω e s d ω', (sharedMet shared l ++ sharedMet shared r).Nodup →
      (∀ k ∈ lc shared l ++ lc shared r, k ∉ sharedMet shared l ++ sharedMet shared r) → Sees shared ω l → Sees shared ω r →
      Drop.loop counts n lock (.branch l r) ω = .done e s d ω' →
      (∃ e', Drop.loop (.steady shared) n lock (.branch l r) () = .done e' s d ()) ∧
        Only ω ω' (sharedMet shared l ++ sharedMet shared r ++ (lc shared l ++ lc shared r))) := by
  induction n with
  | zero =>
    exact ⟨fun t ω e s d ω' _ _ _ h => (by unfold Drop.drop at h; cases h),
      fun lock l r ω e s d ω' _ _ _ _ h => (by unfold Drop.loop at h; cases h)⟩
  | succ n ih =>
    obtain ⟨ihd, ihl⟩ := ih
    constructor
    · intro t ω e s d ω' hn hc hs h
      cases t with
      | leaf k x =>
        rw [Drop.drop_leaf] at h
        have h2 : ∃ e', Drop.drop (.steady shared) (n + 1) (.leaf k x) () = .done e' 0 1 () := by
          rw [Drop.drop_leaf]
          cases hk : shared k <;> simp [Drop.Oracle.steady, hk]
        by_cases hk : ω k = 1
        · simp only [counts, hk, if_true] at h
          cases h
          exact ⟨h2, .refl _ _⟩
        · simp only [counts, hk, if_false] at h
          cases h
          exact ⟨h2, .give ω hk (by simp [lc])⟩
      | branch k l r =>
        by_cases hk : ω k = 1
        · have hk' := hs.own hk
          obtain ⟨hs1, hs2⟩ := hs.2 hk'
          simp only [sharedMet, lc, hk', Bool.false_eq_true, if_false] at hn hc ⊢
          unfold Drop.drop at h
          simp only [takes (t := .branch k l r) hk, Ref.datum] at h
          rw [Drop.Res.call_done] at h
          obtain ⟨d, h, rfl⟩ := h
          obtain ⟨_, _, _, _, _, _, _, h3, h4, rfl, rfl, rfl⟩ := Drop.Res.andThen_done.mp h
          cases h4
          obtain ⟨⟨e', h5⟩, h6⟩ := ihl _ _ _ _ _ _ _ _ hn hc hs1 hs2 h3
          refine ⟨⟨e' ++ [.leaf none, .free k], ?_⟩, h6⟩
          unfold Drop.drop
          simp only [Drop.tryTake, Drop.Oracle.steady, Ref.cell, hk', Bool.not_false, Ref.datum]
          simp only [Drop.Oracle.steady] at h5
          rw [h5]
          rfl
        · have hk' : shared k = true := by rw [hs.1]; simpa using hk
          unfold Drop.drop at h
          simp only [takes_not (t := .branch k l r) hk] at h
          simp only [counts, hk, if_false] at h
          cases h
          refine ⟨⟨[.giveUp (.branch k l r)], ?_⟩, .give ω hk (by simp [sharedMet, hk'])⟩
          unfold Drop.drop
          simp [Drop.tryTake, Drop.Oracle.steady, Ref.cell, hk', Drop.Res.call, Drop.Res.ev]
    · intro lock l r ω e s d ω' hn hc hsl hsr h
      rcases both_iter (shared := shared) n lock l r ω hsl.here hsr.here with ⟨h1, h2⟩ | ⟨k, a, b, hk, rfl, h1, h2⟩ |
        ⟨k, a, b, hk, rfl, h1, h2⟩ | ⟨k, a, b, o, x, hk, hx, h1, h2⟩
      · rw [h1, Drop.Res.step_done] at h
        obtain ⟨s, h, rfl⟩ := h
        obtain ⟨_, _, _, ω₁, _, _, _, h4, h5, rfl, rfl, rfl⟩ := Drop.Res.andThen_done.mp h
        obtain ⟨hnl, hnr, hd⟩ := List.nodup_append.mp hn
        obtain ⟨⟨e₁, k1⟩, o1⟩ := ihd _ _ _ _ _ _ hnr
          (fun k hk hk' => hc k (by simp [hk]) (by simp [hk'])) hsr h4
        obtain ⟨⟨e₂, k2⟩, o2⟩ := ihd _ _ _ _ _ _ hnl
          (fun k hk hk' => hc k (by simp [hk]) (by simp [hk']))
          (hsl.only o1 fun k hk hk' => by
            rcases List.mem_append.mp hk' with hk' | hk'
            · exact hd k hk k hk' rfl
            · exact hc k (by simp [hk']) (by simp [hk])) h5
        refine ⟨⟨e₁ ++ e₂, ?_⟩, o1.trans o2 (by simp; tauto) (by simp; tauto)⟩
        rw [h2, Drop.Res.step_done]
        exact ⟨_, Drop.Res.andThen_done.mpr ⟨_, _, _, _, _, _, _, k1, k2, rfl, rfl, rfl⟩, rfl⟩
      · rw [h1, Drop.Res.step_done] at h
        obtain ⟨s, h, rfl⟩ := h
        have hk' := hsl.own hk
        obtain ⟨hs1, hs2⟩ := hsl.2 hk'
        simp only [sharedMet, lc, hk', Bool.false_eq_true, if_false] at hn hc ⊢
        obtain ⟨⟨e', k1⟩, o1⟩ := ihl (some .left) a (.branch k b r) ω _ _ _ _
          (by simpa [sharedMet, lc, hk', List.append_assoc] using hn)
          (by simpa only [sharedMet, lc, hk', Bool.false_eq_true, if_false, List.append_assoc] using hc) hs1
          ⟨hsl.1, fun _ => ⟨hs2, hsr⟩⟩ h
        refine ⟨⟨e', ?_⟩, by simpa only [sharedMet, lc, hk', Bool.false_eq_true, if_false, List.append_assoc] using o1⟩
        rw [h2, Drop.Res.step_done]
        exact ⟨_, k1, rfl⟩
      · rw [h1, Drop.Res.step_done] at h
        obtain ⟨s, h, rfl⟩ := h
        have hk' := hsr.own hk
        obtain ⟨hs1, hs2⟩ := hsr.2 hk'
        simp only [sharedMet, lc, hk', Bool.false_eq_true, if_false] at hn hc ⊢
        obtain ⟨⟨e', k1⟩, o1⟩ := ihl (some .right) (.branch k l a) b ω _ _ _ _
          (by simpa [sharedMet, lc, hk', List.append_assoc] using hn)
          (by simpa only [sharedMet, lc, hk', Bool.false_eq_true, if_false, List.append_assoc] using hc)
          ⟨hsr.1, fun _ => ⟨hsl, hs1⟩⟩ hs2 h
        refine ⟨⟨e', ?_⟩, by simpa only [sharedMet, lc, hk', Bool.false_eq_true, if_false, List.append_assoc] using o1⟩
        rw [h2, Drop.Res.step_done]
        exact ⟨_, k1, rfl⟩
      · rw [h1, Drop.Res.step_done] at h
        obtain ⟨s, h, rfl⟩ := h
        obtain ⟨_, _, _, ω₂, _, _, _, h5, h6, rfl, rfl, rfl⟩ := Drop.Res.andThen_done.mp h
        obtain ⟨_, _, _, ω₁, _, _, _, h7, h8, rfl, rfl, rfl⟩ := Drop.Res.andThen_done.mp h5
        have key : shared k = false ∧ Sees shared ω a ∧ Sees shared ω b ∧ (sharedMet shared a ++ sharedMet shared b).Nodup ∧
            (∀ k ∈ lc shared a ++ lc shared b, k ∉ sharedMet shared a ++ sharedMet shared b) ∧ o ∉ sharedMet shared a ++ sharedMet shared b ∧
            ∀ j, j ∈ sharedMet shared a ++ sharedMet shared b ++ (lc shared a ++ lc shared b) ∨ j = o →
              j ∈ sharedMet shared l ++ sharedMet shared r ++ (lc shared l ++ lc shared r) := by
          rcases hx with ⟨rfl, rfl⟩ | ⟨rfl, rfl⟩
          · have hk' := hsl.own hk
            simp only [sharedMet, lc, hk', Bool.false_eq_true, if_false, List.append_nil] at hn hc ⊢
            exact ⟨trivial, (hsl.2 hk').1, (hsl.2 hk').2, hn, fun j hj => hc j (by simp at hj ⊢; tauto), hc o (by simp),
              by simp; tauto⟩
          · have hk' := hsr.own hk
            simp only [sharedMet, lc, hk', Bool.false_eq_true, if_false, List.nil_append] at hn hc ⊢
            exact ⟨trivial, (hsr.2 hk').1, (hsr.2 hk').2, hn, fun j hj => hc j (by simp at hj ⊢; tauto), hc o (by simp),
              by simp; tauto⟩
        obtain ⟨hk', hsa, hsb, hn', hc', ho, hsub⟩ := key
        obtain ⟨⟨e₁, k1⟩, o1⟩ := ihd (.leaf o x) _ _ _ _ _ (by simp [sharedMet]) (by simp [sharedMet]) trivial h7
        obtain ⟨⟨e₂, k2⟩, o2⟩ := ihd (.leaf k none) _ _ _ _ _ (by simp [sharedMet]) (by simp [sharedMet]) trivial h8
        simp only [sharedMet, lc, List.nil_append] at o1 o2
        have hk1 : ω₁ k = 1 := by
          rcases o1 k with h | ⟨_, h⟩
          · rw [h, hk]
          · exact absurd hk h
        have o12 : Only ω ω₂ [o] := by
          intro j
          rcases o2 j with h | ⟨h, h'⟩
          · rw [h]
            exact o1 j
          · simp at h
            subst h
            exact absurd hk1 h'
        have ho' : ∀ j, j ∈ sharedMet shared a ++ sharedMet shared b → j ∉ [o] := by
          intro j hj hj'
          simp only [List.mem_singleton] at hj'
          exact ho (hj' ▸ hj)
        obtain ⟨⟨e₃, k3⟩, o3⟩ := ihl none a b _ _ _ _ _ hn' hc' (hsa.only o12 fun j hj => ho' j (by simp [hj]))
          (hsb.only o12 fun j hj => ho' j (by simp [hj])) h6
        refine ⟨⟨e₁ ++ e₂ ++ e₃, ?_⟩, o12.trans o3 (fun j hj => hsub j (Or.inr (by simpa using hj)))
          fun j hj => hsub j (Or.inl hj)⟩
        rw [h2, Drop.Res.step_done]
        exact ⟨_, Drop.Res.andThen_done.mpr ⟨_, _, _, _, _, _, _,
          Drop.Res.andThen_done.mpr ⟨_, _, _, _, _, _, _, k1, k2, rfl, rfl, rfl⟩, k3, rfl, rfl, rfl⟩, rfl⟩

end Kul.RcHeap
