import Verif.Proof.EvalFacts

/-! # The big-step rules are deterministic -/

namespace Kul

variable {P τ ε α CE : Type} {cc : Classifier} {X : TextSem P τ α} {al : AllocOps τ ε α}
  {lookup : Datum τ ε → Option (Combiner τ ε α P CE)}

/-- A text type in which texts with the same items are equal, and whose operations
neither fail nor touch the allocator. -/
structure TextSem.Func (X : TextSem P τ α) : Prop where
  rt : ∀ t t' c, X.RT t c → X.RT t' c → t = t'
  ra : ∀ a a', X.RA a a' → a = a'
  f : ¬ X.F

theorem TextEv.det (hX : X.Func) {m : Mode} {top : Bool} {r r' r2 : List (Item P)} {a a' a2 : α}
    {o o2 : Except (Err P CE) τ} (h : TextEv cc X m top r a o r' a')
    (h2 : TextEv cc X m top r a o2 r2 a2) : o = o2 ∧ r' = r2 ∧ a' = a2 := by
  obtain ⟨ha, h⟩ := h
  obtain ⟨hb, h2⟩ := h2
  cases hX.ra _ _ ha
  cases hX.ra _ _ hb
  rcases h with ⟨t, c, rfl, h, ht⟩ | ⟨rfl, h, rfl⟩ | ⟨p, rfl, h⟩ | ⟨h, _⟩
  · rcases h2 with ⟨t', c', rfl, h', ht'⟩ | ⟨rfl, h', rfl⟩ | ⟨p, rfl, h'⟩ | ⟨h', _⟩
    · rw [h] at h'; cases h'; cases hX.rt _ _ _ ht ht'; exact ⟨rfl, rfl, rfl⟩
    · rw [h] at h'; cases h'
    · rw [h] at h'; cases h'
    · exact absurd h' hX.f
  · rcases h2 with ⟨t', c', rfl, h', ht'⟩ | ⟨rfl, h', rfl⟩ | ⟨p, rfl, h'⟩ | ⟨h', _⟩
    · rw [h] at h'; cases h'
    · exact ⟨rfl, rfl, rfl⟩
    · rw [h] at h'; cases h'
    · exact absurd h' hX.f
  · rcases h2 with ⟨t', c', rfl, h', ht'⟩ | ⟨rfl, h', rfl⟩ | ⟨p, rfl, h'⟩ | ⟨h', _⟩
    · rw [h] at h'; cases h'
    · rw [h] at h'; cases h'
    · rw [h] at h'; cases h'; exact ⟨rfl, rfl, rfl⟩
    · exact absurd h' hX.f
  · exact absurd h hX.f

theorem TextForm.det (hX : X.Func) {m : Mode} {top : Bool} {r r' r2 : List (Item P)} {a a' a2 : α}
    {o o2 : Except (Err P CE) (List (Datum τ ε))} (h : TextForm cc X m top r a o r' a')
    (h2 : TextForm cc X m top r a o2 r2 a2) : o = o2 ∧ r' = r2 ∧ a' = a2 := by
  rcases h with ⟨t, h, rfl⟩ | ⟨e, h, rfl⟩ <;> rcases h2 with ⟨t', h', rfl⟩ | ⟨e', h', rfl⟩
  all_goals
    obtain ⟨h1, h2, h3⟩ := h.det hX h'
    cases h1 <;> exact ⟨rfl, h2, h3⟩

theorem OperEv.det (hX : X.Func) {f} {h : Datum τ ε} {r r' r2 : List (Item P)} {a a' a2 : α}
    {o o2 : Except (Err P CE) (List (Datum τ ε))} (H : OperEv cc X f h r a o r' a')
    (H2 : OperEv cc X f h r a o2 r2 a2) : o = o2 ∧ r' = r2 ∧ a' = a2 := by
  rcases H with ⟨t, e, a1, h, rfl, rfl⟩ | ⟨t, h, rfl, rfl⟩ | ⟨e, h, rfl⟩ <;>
  rcases H2 with ⟨t', e', a1', h', rfl, rfl⟩ | ⟨t', h', rfl, rfl⟩ | ⟨e', h', rfl⟩ <;>
  · obtain ⟨h1, h2, h3⟩ := h.det hX h'
    cases h1 <;> cases h2 <;> cases h3 <;> exact ⟨rfl, rfl, rfl⟩

theorem ArgComb.det {h : Datum τ ε} {c c'} (h1 : ArgComb lookup h c) (h2 : ArgComb lookup h c') :
    c = c' := by
  cases h1 <;> cases h2 <;> simp_all

theorem Eval.det (hX : X.Func) {j r a o r' a'} (h : Eval cc X al lookup j r a o r' a') :
    ∀ {o2 r2 a2}, Eval cc X al lookup j r a o2 r2 a2 → o = o2 ∧ r' = r2 ∧ a' = a2 := by
  induction h with
  | next_eof h1 h2 => intro o2 r2 a2 H; cases H <;> simp_all
  | next_nest h1 h2 h3 h4 ih =>
    intro o2 r2 a2 H
    cases H with
    | next_eof g1 g2 => simp_all
    | next_nest g1 g2 g3 g4 => rw [h1] at g1; cases g1; exact ih g3
    | next_removed g1 g2 g3 g4 => rw [h1] at g1; cases g1; exact absurd (ih g3).1 h4
    | next_end g1 g2 g3 => rw [h1] at g1; cases g1; rw [h2] at g2; cases g2
    | next_text g1 g2 g3 => rw [h1] at g1; cases g1; rw [h2] at g2; cases g2
  | next_removed h1 h2 h3 h4 ih1 ih2 =>
    intro o2 r2 a2 H
    cases H with
    | next_eof g1 g2 => simp_all
    | next_nest g1 g2 g3 g4 => rw [h1] at g1; cases g1; exact absurd (ih1 g3).1.symm g4
    | next_removed g1 g2 g3 g4 =>
      rw [h1] at g1; cases g1
      obtain ⟨-, rfl, rfl⟩ := ih1 g3
      exact ih2 g4
    | next_end g1 g2 g3 => rw [h1] at g1; cases g1; rw [h2] at g2; cases g2
    | next_text g1 g2 g3 => rw [h1] at g1; cases g1; rw [h2] at g2; cases g2
  | next_end h1 h2 h3 h4 =>
    intro o2 r2 a2 H
    cases H with
    | next_eof g1 g2 => simp_all
    | next_nest g1 g2 g3 g4 => rw [h1] at g1; cases g1; rw [h2] at g2; cases g2
    | next_removed g1 g2 g3 g4 => rw [h1] at g1; cases g1; rw [h2] at g2; cases g2
    | next_end g1 g2 g3 g4 => rw [h1] at g1; cases g1; rw [h4] at g4; cases g4; exact ⟨rfl, rfl, rfl⟩
    | next_text g1 g2 g3 => rw [h1] at g1; cases g1; rw [h3] at g3; cases g3
  | next_text h1 h2 h3 h4 =>
    intro o2 r2 a2 H
    cases H with
    | next_eof g1 g2 => simp_all
    | next_nest g1 g2 g3 g4 => rw [h1] at g1; cases g1; rw [h2] at g2; cases g2
    | next_removed g1 g2 g3 g4 => rw [h1] at g1; cases g1; rw [h2] at g2; cases g2
    | next_end g1 g2 g3 g4 => rw [h1] at g1; cases g1; rw [h3] at g3; cases g3
    | next_text g1 g2 g3 g4 => rw [h1] at g1; cases g1; exact h4.det hX g4
  | nested_head_err h1 ih =>
    intro o2 r2 a2 H
    cases H with
    | nested_head_err g1 => exact ih g1
    | nested_empty g1 => cases (ih g1).1
    | nested_operative g1 => cases (ih g1).1
    | nested_args_err g1 => cases (ih g1).1
    | nested_args g1 => cases (ih g1).1
  | nested_empty h1 h2 ih =>
    intro o2 r2 a2 H
    cases H with
    | nested_head_err g1 => cases (ih g1).1
    | nested_empty g1 g2 =>
      obtain ⟨-, rfl, rfl⟩ := ih g1
      rw [h2] at g2; cases g2; exact ⟨rfl, rfl, rfl⟩
    | nested_operative g1 => cases (ih g1).1
    | nested_args_err g1 => cases (ih g1).1
    | nested_args g1 => cases (ih g1).1
  | nested_operative h1 h2 h3 ih =>
    intro o2 r2 a2 H
    cases H with
    | nested_head_err g1 => cases (ih g1).1
    | nested_empty g1 g2 => cases (ih g1).1
    | nested_operative g1 g2 g3 =>
      obtain ⟨hh, rfl, rfl⟩ := ih g1
      cases hh
      rw [h2] at g2; cases g2
      exact h3.det hX g3
    | nested_args_err g1 g2 =>
      obtain ⟨hh, rfl, rfl⟩ := ih g1
      cases hh
      cases g2 <;> simp_all
    | nested_args g1 g2 =>
      obtain ⟨hh, rfl, rfl⟩ := ih g1
      cases hh
      cases g2 <;> simp_all
  | nested_args_err h1 h2 h3 ih ih2 =>
    intro o2 r2 a2 H
    cases H with
    | nested_head_err g1 => cases (ih g1).1
    | nested_empty g1 g2 => cases (ih g1).1
    | nested_operative g1 g2 g3 =>
      obtain ⟨hh, rfl, rfl⟩ := ih g1
      cases hh
      cases h2 <;> simp_all
    | nested_args_err g1 g2 g3 =>
      obtain ⟨hh, rfl, rfl⟩ := ih g1
      exact ih2 g3
    | nested_args g1 g2 g3 =>
      obtain ⟨hh, rfl, rfl⟩ := ih g1
      cases (ih2 g3).1
  | nested_args h1 h2 h3 h4 ih ih2 =>
    intro o2 r2 a2 H
    cases H with
    | nested_head_err g1 => cases (ih g1).1
    | nested_empty g1 g2 => cases (ih g1).1
    | nested_operative g1 g2 g3 =>
      obtain ⟨hh, rfl, rfl⟩ := ih g1
      cases hh
      cases h2 <;> simp_all
    | nested_args_err g1 g2 g3 =>
      obtain ⟨hh, rfl, rfl⟩ := ih g1
      cases (ih2 g3).1
    | nested_args g1 g2 g3 g4 =>
      obtain ⟨hh, rfl, rfl⟩ := ih g1
      cases hh
      obtain ⟨hh, rfl, rfl⟩ := ih2 g3
      cases hh
      cases h2.det g2
      rw [h4] at g4; cases g4; exact ⟨rfl, rfl, rfl⟩
  | all_err h1 ih =>
    intro o2 r2 a2 H
    cases H with
    | all_err g1 => exact ih g1
    | all_nil g1 => exact ih g1
    | all_alloc_err g1 => cases (ih g1).1
    | all_cons_err g1 => cases (ih g1).1
    | all_cons g1 => cases (ih g1).1
  | all_nil h1 ih =>
    intro o2 r2 a2 H
    cases H with
    | all_err g1 => exact ih g1
    | all_nil g1 => exact ih g1
    | all_alloc_err g1 => cases (ih g1).1
    | all_cons_err g1 => cases (ih g1).1
    | all_cons g1 => cases (ih g1).1
  | all_alloc_err h1 h2 ih =>
    intro o2 r2 a2 H
    cases H with
    | all_err g1 => cases (ih g1).1
    | all_nil g1 => cases (ih g1).1
    | all_alloc_err g1 g2 =>
      obtain ⟨hh, rfl, rfl⟩ := ih g1; cases hh; rw [h2] at g2; cases g2; exact ⟨rfl, rfl, rfl⟩
    | all_cons_err g1 g2 => obtain ⟨hh, rfl, rfl⟩ := ih g1; cases hh; rw [h2] at g2; cases g2
    | all_cons g1 g2 => obtain ⟨hh, rfl, rfl⟩ := ih g1; cases hh; rw [h2] at g2; cases g2
  | all_cons_err h1 h2 h3 ih ih2 =>
    intro o2 r2 a2 H
    cases H with
    | all_err g1 => cases (ih g1).1
    | all_nil g1 => cases (ih g1).1
    | all_alloc_err g1 g2 => obtain ⟨hh, rfl, rfl⟩ := ih g1; cases hh; rw [h2] at g2; cases g2
    | all_cons_err g1 g2 g3 =>
      obtain ⟨hh, rfl, rfl⟩ := ih g1; cases hh; rw [h2] at g2; cases g2; exact ih2 g3
    | all_cons g1 g2 g3 =>
      obtain ⟨hh, rfl, rfl⟩ := ih g1; cases hh; rw [h2] at g2; cases g2; cases (ih2 g3).1
  | all_cons h1 h2 h3 ih ih2 =>
    intro o2 r2 a2 H
    cases H with
    | all_err g1 => cases (ih g1).1
    | all_nil g1 => cases (ih g1).1
    | all_alloc_err g1 g2 => obtain ⟨hh, rfl, rfl⟩ := ih g1; cases hh; rw [h2] at g2; cases g2
    | all_cons_err g1 g2 g3 =>
      obtain ⟨hh, rfl, rfl⟩ := ih g1; cases hh; rw [h2] at g2; cases g2; cases (ih2 g3).1
    | all_cons g1 g2 g3 =>
      obtain ⟨hh, rfl, rfl⟩ := ih g1; cases hh; rw [h2] at g2; cases g2
      obtain ⟨hh, rfl, rfl⟩ := ih2 g3; cases hh; exact ⟨rfl, rfl, rfl⟩

end Kul
