import Verif.Proof.RcDepth

/-! # How long dropping takes, with counts that change while dropping -/

namespace Kul.RcHeap

open Drop (Ref Side)

variable {L : Type} {B : Nat → Bool}

/-- The branches that are reached through references that are the only ones. -/
def own (ω : Nat → Nat) : Ref Nat L → Nat
  | .leaf .. => 0
  | .branch k l r => if ω k = 1 then own ω l + own ω r + 1 else 0

/-- Such branches on the way to the left. -/
def lway (ω : Nat → Nat) : Ref Nat L → Nat
  | .leaf .. => 0
  | .branch k l _ => if ω k = 1 then lway ω l + 1 else 0

/-- Such branches on the way to the right. -/
def rway (ω : Nat → Nat) : Ref Nat L → Nat
  | .leaf .. => 0
  | .branch k _ r => if ω k = 1 then rway ω r + 1 else 0

theorem lway_le (ω : Nat → Nat) (t : Ref Nat L) : lway ω t ≤ own ω t := by
  induction t with
  | leaf => exact Nat.le_refl _
  | branch k l r ihl ihr => simp only [lway, own]; split <;> omega

theorem rway_le (ω : Nat → Nat) (t : Ref Nat L) : rway ω t ≤ own ω t := by
  induction t with
  | leaf => exact Nat.le_refl _
  | branch k l r ihl ihr => simp only [rway, own]; split <;> omega

theorem own_mono {ω ω' : Nat → Nat} (h : ∀ k, ω k = 1 → ω' k = 1) (t : Ref Nat L) : own ω t ≤ own ω' t := by
  induction t with
  | leaf => exact Nat.le_refl _
  | branch k l r ihl ihr =>
    simp only [own]
    split
    · next hk => rw [if_pos (h k hk)]; omega
    · exact Nat.zero_le _

/-- How far the loop can go on restructuring. -/
def way (lock : Option Side) (ω : Nat → Nat) (l r : Ref Nat L) : Nat :=
  match lock with
  | none => max (lway ω l) (rway ω r)
  | some .left => lway ω l
  | some .right => rway ω r

theorem way_le (lock : Option Side) (ω : Nat → Nat) (l r : Ref Nat L) : way lock ω l r ≤ own ω l + own ω r := by
  have := lway_le ω l
  have := rway_le ω r
  rcases lock with _ | _ | _ <;> simp only [way] <;> omega

/-- The number of cells in `B` that were freed. -/
def freedIn (B : Nat → Bool) (e : List (Drop.Ev Nat L)) : Nat := ((Drop.freed e).filter B).length

theorem freedIn_append (e e' : List (Drop.Ev Nat L)) : freedIn B (e ++ e') = freedIn B e + freedIn B e' := by
  simp [freedIn, freed_append]

/-- The branches have cells in `B`. -/
theorem In.any {t : Ref Nat L} : In (fun _ => True) t := by
  induction t with
  | leaf => trivial
  | branch k l r ihl ihr => exact ⟨trivial, ihl, ihr⟩

theorem drop_stays {n : Nat} {t : Ref Nat L} {ω e s d ω'} (h : Drop.drop counts n t ω = .done e s d ω') :
    ∀ k, ω k = 1 → ω' k = 1 := fun _ => (((did n).1 t ω e s d ω' In.any h).did).stays

theorem drop_leaf_time {n : Nat} {t : Ref Nat L} {ω e s d ω'} (ht : t.cls = .leaf)
    (h : Drop.drop counts n t ω = .done e s d ω') : s = 0 := by
  cases t with
  | branch => cases ht
  | leaf k x =>
    cases n with
    | zero => unfold Drop.drop at h; cases h
    | succ n => rw [Drop.drop_leaf] at h; cases h; rfl

/-- Lengths of one loop after the other. -/
def tri : Nat → Nat
  | 0 => 0
  | n + 1 => tri n + n + 1

theorem tri_add (a b : Nat) : tri a + tri b ≤ tri (a + b) := by
  induction b with
  | zero => exact Nat.le_refl _
  | succ b ih => rw [← Nat.add_assoc]; simp only [tri]; omega

theorem tri_eq (n : Nat) : 2 * tri n = n * (n + 1) := by
  induction n with
  | zero => rfl
  | succ n ih => simp only [tri, Nat.mul_add, ih, Nat.add_mul]; omega

theorem tri_mono {a b : Nat} (h : a ≤ b) : tri a ≤ tri b := by
  obtain ⟨c, rfl⟩ := Nat.exists_eq_add_of_le h
  have := tri_add a c
  omega

theorem timed (n : Nat) :
    (∀ (t : Ref Nat L) ω e s d ω', In (fun k => B k = true) t → Drop.drop counts n t ω = .done e s d ω' →
      own ω t ≤ freedIn B e ∧ s ≤ tri (freedIn B e)) ∧
    (∀ lock (l r : Ref Nat L) ω e s d ω', In (fun k => B k = true) l → In (fun k => B k = true) r →
      Drop.loop counts n lock (.branch l r) ω = .done e s d ω' →
      own ω l + own ω r ≤ freedIn B e ∧ s ≤ way lock ω l r + 1 + tri (freedIn B e)) := by
  induction n with
  | zero =>
    exact ⟨fun t ω e s d ω' _ h => (by unfold Drop.drop at h; cases h),
      fun lock l r ω e s d ω' _ _ h => (by unfold Drop.loop at h; cases h)⟩
  | succ n ih =>
    obtain ⟨ihd, ihl⟩ := ih
    constructor
    · intro t ω e s d ω' hb h
      cases t with
      | leaf k x => rw [drop_leaf_time rfl h]; exact ⟨Nat.zero_le _, Nat.zero_le _⟩
      | branch k l r =>
        by_cases hk : ω k = 1
        · unfold Drop.drop at h
          simp only [takes (t := .branch k l r) hk, Ref.datum] at h
          rw [Drop.Res.call_done] at h
          obtain ⟨d, h, rfl⟩ := h
          obtain ⟨e₁, _, _, _, _, _, _, h3, h4, rfl, rfl, rfl⟩ := Drop.Res.andThen_done.mp h
          cases h4
          obtain ⟨h5, h6⟩ := ihl _ _ _ _ _ _ _ _ hb.2.1 hb.2.2 h3
          have hw := way_le none ω l r
          have : freedIn B (e₁ ++ [.leaf none, .free k]) = freedIn B e₁ + 1 := by
            rw [freedIn_append]
            simp [freedIn, Drop.freed, hb.1]
          rw [this]
          simp only [own, hk, if_true, tri]
          omega
        · unfold Drop.drop at h
          simp only [takes_not (t := .branch k l r) hk] at h
          simp only [counts, hk, if_false] at h
          cases h
          simp [own, hk]
    · intro lock l r ω e s d ω' hbl hbr h
      rcases counts_iter n lock l r ω with ⟨h1, h2⟩ | ⟨k, a, b, h1, rfl, hlk, h2⟩ | ⟨k, a, b, h1, rfl, hlk, h2⟩ |
        ⟨k, a, b, x, h1, h2, h3, h4⟩
      · rw [h2, Drop.Res.step_done] at h
        obtain ⟨s, h, rfl⟩ := h
        obtain ⟨e₁, _, d₁, ω₁, e₂, _, d₂, h4, h5, rfl, rfl, rfl⟩ := Drop.Res.andThen_done.mp h
        obtain ⟨a1, a2⟩ := ihd _ _ _ _ _ _ hbr h4
        obtain ⟨b1, b2⟩ := ihd _ _ _ _ _ _ hbl h5
        have := own_mono (drop_stays h4) l
        have := tri_add (freedIn B e₁) (freedIn B e₂)
        rw [freedIn_append]
        omega
      · rw [h2, Drop.Res.step_done] at h
        obtain ⟨s, h, rfl⟩ := h
        obtain ⟨a1, a2⟩ := ihl _ a (.branch k b r) _ _ _ _ _ hbl.2.1 ⟨hbl.1, hbl.2.2, hbr⟩ h
        have hw : way (some .left) ω a (.branch k b r) + 1 ≤ way lock ω (.branch k a b) r := by
          rcases lock with _ | _ | _
          · simp only [way, lway, h1, if_true]; omega
          · simp only [way, lway, h1, if_true]; omega
          · exact absurd rfl hlk
        simp only [own, h1, if_true] at a1 ⊢
        omega
      · rw [h2, Drop.Res.step_done] at h
        obtain ⟨s, h, rfl⟩ := h
        obtain ⟨a1, a2⟩ := ihl _ (.branch k l a) b _ _ _ _ _ ⟨hbr.1, hbl, hbr.2.1⟩ hbr.2.2 h
        have hw : way (some .right) ω (.branch k l a) b + 1 ≤ way lock ω l (.branch k a b) := by
          rcases lock with _ | _ | _
          · simp only [way, rway, h1, if_true]; omega
          · exact absurd rfl hlk
          · simp only [way, rway, h1, if_true]; omega
        simp only [own, h1, if_true] at a1 ⊢
        omega
      · rw [h4, Drop.Res.step_done] at h
        obtain ⟨s, h, rfl⟩ := h
        obtain ⟨e₁₂, _, _, ω₂, e₃, _, _, h5, h6, rfl, rfl, rfl⟩ := Drop.Res.andThen_done.mp h
        obtain ⟨e₁, _, _, ω₁, e₂, _, _, h7, h8, rfl, rfl, rfl⟩ := Drop.Res.andThen_done.mp h5
        have hx : In (fun k => B k = true) a ∧ In (fun k => B k = true) b ∧ B k = true ∧
            own ω l + own ω r = own ω a + own ω b + 1 := by
          rcases h2 with ⟨rfl, rfl⟩ | ⟨rfl, rfl⟩
          · refine ⟨hbl.2.1, hbl.2.2, hbl.1, ?_⟩
            cases r with
            | branch => cases h3
            | leaf => simp [own, h1]
          · refine ⟨hbr.2.1, hbr.2.2, hbr.1, ?_⟩
            cases l with
            | branch => cases h3
            | leaf => simp [own, h1]
        obtain ⟨c1, c2⟩ := ihl _ _ _ _ _ _ _ _ hx.1 hx.2.1 h6
        have hs1 := drop_stays h7
        have hs2 := drop_stays h8
        have ha := own_mono (fun k hk => hs2 k (hs1 k hk)) a
        have hb := own_mono (fun k hk => hs2 k (hs1 k hk)) b
        have z1 := drop_leaf_time h3 h7
        have z2 := drop_leaf_time (t := .leaf k none) rfl h8
        have hf : 1 ≤ freedIn B e₂ := by
          have := ((did n).1 _ _ _ _ _ _ (In.any (t := .leaf k none)) h8).sole (hs1 k h1)
          exact List.length_pos_iff.mpr (List.ne_nil_of_mem (List.mem_filter.mpr ⟨this, hx.2.2.1⟩))
        have hw := way_le none ω₂ a b
        have ht := tri_mono (show freedIn B e₃ + 1 ≤ freedIn B (e₁ ++ e₂ ++ e₃) by
          rw [freedIn_append, freedIn_append]; omega)
        simp only [tri] at ht
        rw [freedIn_append, freedIn_append] at *
        omega

end Kul.RcHeap
