import Verif.Proof.Yields

/-! # What is consumed: a prefix, and nothing after it matters but one item -/

namespace Kul

variable {σ P τ ε α CE : Type} {cc : Classifier} {X : TextSem P τ α} {al : AllocOps τ ε α}
  {lookup : Datum τ ε → Option (Combiner τ ε α P CE)}

/-- The rest left by a text. -/
def TextRes.rest : TextRes P → List (Item P)
  | .ok _ r => r
  | .missing => []
  | .unbalanced _ r => r

theorem TextRes.rest_cons (it : Item P) (t : TextRes P) : (t.cons it).rest = t.rest := by
  cases t <;> rfl

theorem scanText_suffix (m : Mode) (top : Bool) (r : List (Item P)) :
    ∀ nl, (scanText cc m top nl r).rest <:+ r := by
  induction h : r.length using Nat.strongRecOn generalizing r with
  | ind n ih =>
    intro nl
    subst h
    match r with
    | [] => unfold scanText; split <;> exact List.nil_suffix
    | it :: r =>
      rw [scanText_cons]
      split
      · exact List.suffix_rfl
      · split
        · match r with
          | [] => simp only; split <;> exact List.nil_suffix
          | x :: r' =>
            simp only
            rw [TextRes.rest_cons]
            exact (ih r'.length (by simp; omega) r' rfl nl).trans
              ((List.suffix_cons x r').trans (List.suffix_cons it _))
        · split
          · rw [TextRes.rest_cons]
            exact (ih r.length (by simp) r rfl _).trans (List.suffix_cons _ _)
          · split
            · split
              · rw [TextRes.rest_cons]
                exact (ih r.length (by simp) r rfl _).trans (List.suffix_cons _ _)
              · split
                · exact List.suffix_cons _ _
                · exact List.suffix_rfl
            · rw [TextRes.rest_cons]
              exact (ih r.length (by simp) r rfl _).trans (List.suffix_cons _ _)

theorem TextEv.suffix {m : Mode} {top : Bool} {r r' : List (Item P)} {a a' : α}
    {o : Except (Err P CE) τ} (h : TextEv cc X m top r a o r' a') : r' <:+ r := by
  have h1 := scanText_suffix (cc := cc) m top r 0
  rcases h.2 with ⟨_, _, _, h2, _⟩ | ⟨_, h2, rfl⟩ | ⟨_, _, h2⟩ | ⟨_, _, h2, _⟩
  · rw [h2] at h1; exact h1
  · exact List.nil_suffix
  · rw [h2] at h1; exact h1
  · exact h2

theorem lead_suffix (m : Mode) (r : List (Item P)) : lead cc m r <:+ r := by
  unfold lead
  split
  · exact List.dropWhile_suffix _
  · exact List.suffix_rfl

theorem dropSep_suffix (r : List (Item P)) : dropSep cc r <:+ r := by
  cases r with
  | nil => exact List.suffix_rfl
  | cons it r => simp only [dropSep]; split; exact List.suffix_cons _ _; exact List.suffix_rfl

theorem OperEv.suffix {f} {h : Datum τ ε} {r r' : List (Item P)} {a a' : α}
    {o : Except (Err P CE) (List (Datum τ ε))} (H : OperEv cc X f h r a o r' a') : r' <:+ r := by
  rcases H with ⟨t, e, a1, h1, _⟩ | ⟨t, _, _, rfl⟩ | ⟨e, h1, _⟩
  · exact (List.suffix_cons _ _).trans h1.suffix
  · exact List.nil_suffix
  · exact h1.suffix

theorem finishNest_suffix {c} {h : Datum τ ε} {ds} {r : List (Item P)} {a : α} {o r' a'}
    (H : finishNest (CE := CE) al c h ds r a = (o, r', a')) : r' <:+ r := by
  rcases finishNest_cases H with ⟨_, _, rfl, _⟩ | ⟨e, f, rfl, _⟩ | ⟨e, rfl, _⟩
  · exact List.nil_suffix
  · exact List.suffix_cons _ _
  · exact List.suffix_cons _ _

/-- Every job consumes a prefix of what remains. -/
theorem Eval.suffix {j r a o r' a'} (h : Eval cc X al lookup j r a o r' a') : r' <:+ r := by
  induction h with
  | next_eof => exact List.nil_suffix
  | next_nest h1 _ _ _ ih => exact (h1 ▸ ih).trans (lead_suffix _ _)
  | next_removed h1 _ _ _ ih1 ih2 => exact (ih2.trans (h1 ▸ ih1)).trans (lead_suffix _ _)
  | next_end h1 _ _ ho =>
    rcases endForm_cases ho with ⟨_, _, rfl⟩ | ⟨_, _, rfl⟩
    · exact (List.suffix_cons _ _).trans (h1 ▸ lead_suffix _ _)
    · exact h1 ▸ lead_suffix _ _
  | next_text h1 _ _ ho =>
    obtain ⟨o', ho'⟩ := ho.ev
    exact (h1 ▸ ho'.suffix).trans (lead_suffix _ _)
  | nested_head_err _ ih => exact ih.trans (List.suffix_cons _ _)
  | @nested_empty d it r a r1 a1 o r' _ ho ih =>
    have : r' <:+ dropSep cc r1 := by
      rcases finishEmpty_cases ho with ⟨_, _, rfl⟩ | ⟨e, he, _⟩
      · exact List.nil_suffix
      · exact he ▸ List.suffix_cons _ _
    exact ((this.trans (dropSep_suffix _)).trans ih).trans (List.suffix_cons _ _)
  | nested_operative _ _ ho ih =>
    exact ((ho.suffix.trans (dropSep_suffix _)).trans ih).trans (List.suffix_cons _ _)
  | nested_args_err _ _ _ ih1 ih2 =>
    exact ((ih2.trans (dropSep_suffix _)).trans ih1).trans (List.suffix_cons _ _)
  | nested_args _ _ _ ho ih1 ih2 =>
    exact (((finishNest_suffix ho).trans ih2).trans (dropSep_suffix _)).trans (ih1.trans (List.suffix_cons _ _))
  | all_err _ ih => exact ih
  | all_nil _ ih => exact ih
  | all_alloc_err _ _ ih => exact ih
  | all_cons_err _ _ _ ih1 ih2 => exact ih2.trans ih1
  | all_cons _ _ _ ih1 ih2 => exact ih2.trans ih1

/-! ## Locality -/

/-- `r` ends in `x :: t` and `r₂` is the same with `t` replaced by `t₂`. -/
def Repl (x : Item P) (t t₂ : List (Item P)) (r r₂ : List (Item P)) : Prop :=
  ∃ c, r = c ++ x :: t ∧ r₂ = c ++ x :: t₂

theorem Repl.of_suffix {x : Item P} {t t₂ r r₂ r' : List (Item P)} (h : Repl x t t₂ r r₂)
    (hs : r' <:+ r) (hl : t.length < r'.length) : ∃ r₂', Repl x t t₂ r' r₂' ∧ r₂' <:+ r₂ ∧
      r₂.length - r₂'.length = r.length - r'.length := by
  obtain ⟨c, rfl, rfl⟩ := h
  obtain ⟨u, hu⟩ := hs
  rw [List.append_eq_append_iff] at hu
  rcases hu with ⟨v, hv1, hv2⟩ | ⟨v, hv1, hv2⟩
  · subst hv1 hv2
    exact ⟨_, ⟨v, rfl, rfl⟩, ⟨u, by simp⟩, by simp⟩
  · cases v with
    | nil =>
      simp only [List.append_nil, List.nil_append] at hv1 hv2
      subst hv1 hv2
      exact ⟨_, ⟨[], rfl, rfl⟩, ⟨u, by simp⟩, by simp⟩
    | cons y v =>
      simp only [List.cons_append, List.cons.injEq] at hv2
      rw [hv2.2] at hl
      simp only [List.length_append] at hl
      omega

theorem Repl.cons_cases {x : Item P} {t t₂ r r₂ : List (Item P)} {it : Item P}
    (h : Repl x t t₂ (it :: r) r₂) :
    (it = x ∧ r = t ∧ r₂ = x :: t₂) ∨ ∃ r₂', r₂ = it :: r₂' ∧ Repl x t t₂ r r₂' := by
  obtain ⟨c, h1, rfl⟩ := h
  cases c with
  | nil => cases h1; exact Or.inl ⟨rfl, rfl, rfl⟩
  | cons y c => cases h1; exact Or.inr ⟨_, rfl, c, rfl, rfl⟩

theorem Repl.cons {x : Item P} {t t₂ r r₂ : List (Item P)} (it : Item P)
    (h : Repl x t t₂ r r₂) : Repl x t t₂ (it :: r) (it :: r₂) := by
  obtain ⟨c, rfl, rfl⟩ := h
  exact ⟨it :: c, rfl, rfl⟩

theorem Repl.refl (x : Item P) (t t₂ : List (Item P)) : Repl x t t₂ (x :: t) (x :: t₂) :=
  ⟨[], rfl, rfl⟩

theorem Repl.length {x : Item P} {t t₂ r r₂ : List (Item P)} (h : Repl x t t₂ r r₂) :
    t.length < r.length := by
  obtain ⟨c, rfl, _⟩ := h
  simp only [List.length_append, List.length_cons]
  omega

/-- The replacement of a suffix is unique. -/
theorem Repl.unique {x : Item P} {t t₂ r r₂ r₂' : List (Item P)} (h : Repl x t t₂ r r₂)
    (h' : Repl x t t₂ r r₂') : r₂ = r₂' := by
  obtain ⟨c, rfl, rfl⟩ := h
  obtain ⟨c', h1, rfl⟩ := h'
  rw [List.append_cancel_right h1]

/-- The item at the head is the same. -/
theorem Repl.head {x : Item P} {t t₂ r r₂ : List (Item P)} {it : Item P}
    (h : Repl x t t₂ (it :: r) r₂) : ∃ r₂', r₂ = it :: r₂' := by
  rcases h.cons_cases with ⟨rfl, _, rfl⟩ | ⟨r₂', rfl, _⟩
  · exact ⟨_, rfl⟩
  · exact ⟨_, rfl⟩

/-- If something after the head is left, the tail is replaced. -/
theorem Repl.tail {x : Item P} {t t₂ r r₂ : List (Item P)} {it : Item P}
    (h : Repl x t t₂ (it :: r) r₂) (hl : t.length < r.length) :
    ∃ r₂', r₂ = it :: r₂' ∧ Repl x t t₂ r r₂' := by
  rcases h.cons_cases with ⟨_, rfl, _⟩ | h
  · omega
  · exact h

theorem scanText_local {m : Mode} {top : Bool} {x : Item P} {t t₂ : List (Item P)} :
    ∀ {r r₂ : List (Item P)} {nl : Nat}, Repl x t t₂ r r₂ →
      t.length < (scanText cc m top nl r).rest.length →
      ∃ r₂', Repl x t t₂ (scanText cc m top nl r).rest r₂' ∧
        (∀ c r', scanText cc m top nl r = .ok c r' → scanText cc m top nl r₂ = .ok c r₂') ∧
        (∀ p r', scanText cc m top nl r = .unbalanced p r' → scanText cc m top nl r₂ = .unbalanced p r₂') := by
  intro r
  induction h : r.length using Nat.strongRecOn generalizing r with
  | ind n ih =>
    subst h
    have cons : ∀ {T T₂ : TextRes P} {y : Item P},
        (∃ r₂', Repl x t t₂ T.rest r₂' ∧ (∀ c r', T = .ok c r' → T₂ = .ok c r₂') ∧
          (∀ p r', T = .unbalanced p r' → T₂ = .unbalanced p r₂')) →
        (∃ r₂', Repl x t t₂ (T.cons y).rest r₂' ∧ (∀ c r', T.cons y = .ok c r' → T₂.cons y = .ok c r₂') ∧
          (∀ p r', T.cons y = .unbalanced p r' → T₂.cons y = .unbalanced p r₂')) := by
      rintro T T₂ y ⟨r₂', h1, h2, h3⟩
      refine ⟨r₂', by rwa [TextRes.rest_cons], ?_, ?_⟩
      · intro c r' hc
        cases T with
        | ok c' r'' => cases hc; rw [h2 _ _ rfl]; rfl
        | missing => cases hc
        | unbalanced => cases hc
      · intro c r' hc
        cases T with
        | ok c' r'' => cases hc
        | missing => cases hc
        | unbalanced => cases hc; rw [h3 _ _ rfl]; rfl
    intro r₂ nl hr hl
    match r with
    | [] => exact absurd hr.length (by simp)
    | it :: r =>
      obtain ⟨r₃, rfl⟩ := hr.head
      have tl : t.length < r.length → Repl x t t₂ r r₃ := fun h => by
        obtain ⟨r₂', h1, h2⟩ := hr.tail h
        cases h1; exact h2
      rw [scanText_cons, scanText_cons] at *
      by_cases hend : nl = 0 ∧ isEndChar cc m it.ch
      · simp only [if_pos hend] at hl ⊢
        exact ⟨_, hr, by rintro _ _ ⟨⟩; rfl, by rintro _ _ ⟨⟩⟩
      simp only [if_neg hend] at hl ⊢
      by_cases hesc : cc.isNestEscape it.ch
      · simp only [if_pos hesc] at hl ⊢
        match r with
        | [] =>
          exfalso
          simp only at hl
          by_cases h0 : nl = 0
          · simp [h0, TextRes.rest] at hl
          · simp [h0, TextRes.rest] at hl
        | y :: r' =>
          simp only [TextRes.rest_cons] at hl
          have := (scanText_suffix (cc := cc) m top r' nl).length_le
          obtain ⟨r₄, rfl⟩ := (tl (by simp; omega)).head
          have h4 : Repl x t t₂ r' r₄ := by
            obtain ⟨_, h1, h2⟩ := (tl (by simp; omega)).tail (by omega)
            cases h1; exact h2
          exact cons (ih r'.length (by simp; omega) rfl h4 hl)
      simp only [if_neg hesc] at hl ⊢
      by_cases hst : cc.isNestStart it.ch
      · simp only [if_pos hst] at hl ⊢
        rw [TextRes.rest_cons] at hl
        have := (scanText_suffix (cc := cc) m top r (nl + 1)).length_le
        exact cons (ih r.length (by simp) rfl (tl (by omega)) hl)
      simp only [if_neg hst] at hl ⊢
      by_cases hfin : cc.isNestEnd it.ch
      · simp only [if_pos hfin] at hl ⊢
        by_cases hnl : nl > 0
        · simp only [if_pos hnl] at hl ⊢
          rw [TextRes.rest_cons] at hl
          have := (scanText_suffix (cc := cc) m top r (nl - 1)).length_le
          exact cons (ih r.length (by simp) rfl (tl (by omega)) hl)
        · simp only [if_neg hnl] at hl ⊢
          cases top with
          | true => exact ⟨_, tl hl, by rintro _ _ ⟨⟩, by rintro _ _ ⟨⟩; rfl⟩
          | false => exact ⟨_, hr, by rintro _ _ ⟨⟩; rfl, by rintro _ _ ⟨⟩⟩
      · simp only [if_neg hfin] at hl ⊢
        rw [TextRes.rest_cons] at hl
        have := (scanText_suffix (cc := cc) m top r nl).length_le
        exact cons (ih r.length (by simp) rfl (tl (by omega)) hl)

theorem lead_local {m : Mode} {x : Item P} {t t₂ r r₂ : List (Item P)} (h : Repl x t t₂ r r₂)
    (hl : t.length < (lead cc m r).length) : Repl x t t₂ (lead cc m r) (lead cc m r₂) := by
  unfold lead at hl ⊢
  split
  · rename_i hm
    rw [if_pos hm] at hl
    induction r generalizing r₂ with
    | nil => exact absurd hl (by simp)
    | cons it r ih =>
      obtain ⟨r₃, rfl⟩ := h.head
      simp only [List.dropWhile_cons] at hl ⊢
      split
      · rename_i hw
        rw [if_pos hw] at hl
        have := (List.dropWhile_suffix (l := r) (fun it => cc.isWhitespace it.ch)).length_le
        obtain ⟨_, h1, h2⟩ := h.tail (by omega)
        cases h1
        exact ih h2 hl
      · exact h
  · exact h

theorem dropSep_local {x : Item P} {t t₂ r r₂ : List (Item P)} (h : Repl x t t₂ r r₂)
    (hl : t.length < (dropSep cc r).length) : Repl x t t₂ (dropSep cc r) (dropSep cc r₂) := by
  cases r with
  | nil => exact absurd hl (by simp [dropSep])
  | cons it r =>
    obtain ⟨r₃, rfl⟩ := h.head
    simp only [dropSep] at hl ⊢
    split
    · rename_i hw
      rw [if_pos hw] at hl
      obtain ⟨_, h1, h2⟩ := h.tail hl
      cases h1
      exact h2
    · exact h

theorem TextEv.local {m : Mode} {top : Bool} {x : Item P} {t t₂ r r₂ r' : List (Item P)} {a a' : α}
    {o : Except (Err P CE) τ} (h : TextEv cc X m top r a o r' a') (hr : Repl x t t₂ r r₂)
    (hl : t.length < r'.length) :
    ∃ r₂', Repl x t t₂ r' r₂' ∧ TextEv cc X m top r₂ a o r₂' a' := by
  obtain ⟨hra, h⟩ := h
  rcases h with ⟨v, c, rfl, h2, h3⟩ | ⟨_, h2, rfl⟩ | ⟨p, rfl, h2⟩ | ⟨hF, he, h2, h3⟩
  · obtain ⟨r₂', h4, h5, _⟩ := scanText_local (cc := cc) (m := m) (top := top) (nl := 0) hr
      (by rw [h2]; exact hl)
    rw [h2] at h4 h5
    exact ⟨r₂', h4, hra, Or.inl ⟨v, c, rfl, h5 _ _ rfl, h3⟩⟩
  · simp at hl
  · obtain ⟨r₂', h4, _, h5⟩ := scanText_local (cc := cc) (m := m) (top := top) (nl := 0) hr
      (by rw [h2]; exact hl)
    rw [h2] at h4 h5
    exact ⟨r₂', h4, hra, Or.inr (Or.inr (Or.inl ⟨p, rfl, h5 _ _ rfl⟩))⟩
  · obtain ⟨r₂', h4, h5, h6⟩ := hr.of_suffix h2 hl
    have := hr.length
    refine ⟨r₂', h4, hra, Or.inr (Or.inr (Or.inr ⟨hF, he, h5, fun _ => ?_⟩))⟩
    have := h3 (by intro h; simp [h] at this)
    have := h5.length_le
    omega

theorem OperEv.local {f} {h : Datum τ ε} {x : Item P} {t t₂ r r₂ r' : List (Item P)} {a a' : α}
    {o : Except (Err P CE) (List (Datum τ ε))} (H : OperEv cc X f h r a o r' a')
    (hr : Repl x t t₂ r r₂) (hl : t.length < r'.length) :
    ∃ r₂', Repl x t t₂ r' r₂' ∧ OperEv cc X f h r₂ a o r₂' a' := by
  rcases H with ⟨v, e, a1, h1, h2, h3⟩ | ⟨t, _, _, rfl⟩ | ⟨e, h1, h2⟩
  · obtain ⟨r₃, h4, h5⟩ := h1.local hr (by simp; omega)
    obtain ⟨r₄, rfl, h6⟩ := h4.tail hl
    exact ⟨r₄, h6, Or.inl ⟨v, e, a1, h5, h2, h3⟩⟩
  · simp at hl
  · obtain ⟨r₃, h4, h5⟩ := h1.local hr hl
    exact ⟨r₃, h4, Or.inr (Or.inr ⟨e, h5, h2⟩)⟩

theorem TextForm.local {m : Mode} {top : Bool} {x : Item P} {t t₂ r r₂ r' : List (Item P)} {a a' : α}
    {o : Except (Err P CE) (List (Datum τ ε))} (H : TextForm cc X m top r a o r' a')
    (hr : Repl x t t₂ r r₂) (hl : t.length < r'.length) :
    ∃ r₂', Repl x t t₂ r' r₂' ∧ TextForm cc X m top r₂ a o r₂' a' := by
  rcases H with ⟨v, h1, h2⟩ | ⟨e, h1, h2⟩
  · obtain ⟨r₃, h4, h5⟩ := h1.local hr hl
    exact ⟨r₃, h4, Or.inl ⟨v, h5, h2⟩⟩
  · obtain ⟨r₃, h4, h5⟩ := h1.local hr hl
    exact ⟨r₃, h4, Or.inr ⟨e, h5, h2⟩⟩

/-- What follows the next unread item does not matter. -/
theorem Eval.local {x : Item P} {t t₂ : List (Item P)} {j r a o r' a'}
    (h : Eval cc X al lookup j r a o r' a') : ∀ {r₂}, Repl x t t₂ r r₂ → t.length < r'.length →
    ∃ r₂', Repl x t t₂ r' r₂' ∧ Eval cc X al lookup j r₂ a o r₂' a' := by
  induction h with
  | next_eof => intro _ _ hl; simp at hl
  | @next_nest m d r a it r1 o r' a' h1 h2 h3 h4 ih =>
    intro r₂ hr hl
    have := h3.suffix.length_le
    have hr1 := lead_local (cc := cc) (m := m) hr (by rw [h1]; omega)
    rw [h1] at hr1
    obtain ⟨r₃, h5⟩ := hr1.head
    obtain ⟨r₂', h6, h7⟩ := ih hr1 hl
    rw [h5] at h7
    exact ⟨r₂', h6, .next_nest h5 h2 h7 h4⟩
  | @next_removed m d r a it r1 r2 a2 o r' a' h1 h2 h3 h4 ih1 ih2 =>
    intro r₂ hr hl
    have := h3.suffix.length_le
    have := h4.suffix.length_le
    have hr1 := lead_local (cc := cc) (m := m) hr (by rw [h1]; omega)
    rw [h1] at hr1
    obtain ⟨r₃, h5⟩ := hr1.head
    obtain ⟨r₂', h6, h7⟩ := ih1 hr1 (by omega)
    obtain ⟨r₂'', h8, h9⟩ := ih2 h6 hl
    rw [h5] at h7
    exact ⟨r₂'', h8, .next_removed h5 h2 h7 h9⟩
  | @next_end m d r a it r1 o r' h1 h2 h3 ho =>
    intro r₂ hr hl
    have hl2 : t.length < (it :: r1).length := by
      rcases endForm_cases ho with ⟨_, _, rfl⟩ | ⟨_, _, rfl⟩
      · simp; omega
      · exact hl
    have hr1 := lead_local (cc := cc) (m := m) hr (by rw [h1]; exact hl2)
    rw [h1] at hr1
    rcases endForm_cases ho with ⟨rfl, rfl, rfl⟩ | ⟨hd, rfl, rfl⟩
    · obtain ⟨r₃, h5, h6⟩ := hr1.tail hl
      exact ⟨r₃, h6, .next_end h5 h2 h3 rfl⟩
    · obtain ⟨r₃, h5⟩ := hr1.head
      rw [h5] at hr1
      exact ⟨_, hr1, .next_end h5 h2 h3 (by simp [endForm, hd])⟩
  | @next_text m d r a it r1 o r' a' h1 h2 h3 ho =>
    intro r₂ hr hl
    have : r'.length ≤ (it :: r1).length := by
      obtain ⟨o', ho'⟩ := ho.ev
      exact ho'.length
    have hr1 := lead_local (cc := cc) (m := m) hr (by rw [h1]; omega)
    rw [h1] at hr1
    obtain ⟨r₃, h5⟩ := hr1.head
    obtain ⟨r₂', h6, h7⟩ := ho.local hr1 hl
    rw [h5] at h7
    exact ⟨r₂', h6, .next_text h5 h2 h3 h7⟩
  | @nested_head_err d it r a e r' a' h1 ih =>
    intro r₂ hr hl
    have := h1.suffix.length_le
    obtain ⟨r₃, rfl, h2⟩ := hr.tail (by omega)
    obtain ⟨r₄, h3, h4⟩ := ih h2 hl
    exact ⟨r₄, h3, .nested_head_err h4⟩
  | @nested_empty d it r a r1 a1 o r' h1 ho ih =>
    intro r₂ hr hl
    have := h1.suffix.length_le
    have := dropSep_length cc r1
    rcases finishEmpty_cases ho with ⟨_, _, rfl⟩ | ⟨e, he, rfl⟩
    · simp at hl
    · have hle : (dropSep cc r1).length = r'.length + 1 := by rw [he]; simp
      obtain ⟨r₃, rfl, h2⟩ := hr.tail (by omega)
      obtain ⟨r₄, h3, h4⟩ := ih h2 (by omega)
      have h5 := dropSep_local (cc := cc) h3 (by omega)
      rw [he] at h5
      obtain ⟨r₅, h6, h7⟩ := h5.tail hl
      exact ⟨r₅, h7, .nested_empty h4 (by rw [h6]; rfl)⟩
  | @nested_operative d it r a h r1 a1 f o r' a' h1 h2 ho ih =>
    intro r₂ hr hl
    have := h1.suffix.length_le
    have := dropSep_length cc r1
    have := ho.length
    obtain ⟨r₃, rfl, h2'⟩ := hr.tail (by omega)
    obtain ⟨r₄, h3, h4⟩ := ih h2' (by omega)
    have h5 := dropSep_local (cc := cc) h3 (by omega)
    obtain ⟨r₅, h6, h7⟩ := ho.local h5 hl
    exact ⟨r₅, h6, .nested_operative h4 h2 h7⟩
  | @nested_args_err d it r a h r1 a1 c e r' a' h1 h2 h3 ih1 ih2 =>
    intro r₂ hr hl
    have := h1.suffix.length_le
    have := dropSep_length cc r1
    have := h3.suffix.length_le
    obtain ⟨r₃, rfl, h2'⟩ := hr.tail (by omega)
    obtain ⟨r₄, h3', h4⟩ := ih1 h2' (by omega)
    have h5 := dropSep_local (cc := cc) h3' (by omega)
    obtain ⟨r₅, h6, h7⟩ := ih2 h5 hl
    exact ⟨r₅, h6, .nested_args_err h4 h2 h7⟩
  | @nested_args d it r a h r1 a1 c ds r2 a2 o r' a' h1 h2 h3 ho ih1 ih2 =>
    intro r₂ hr hl
    have := h1.suffix.length_le
    have := dropSep_length cc r1
    have := h3.suffix.length_le
    have := (finishNest_suffix ho).length_le
    obtain ⟨r₃, rfl, h2'⟩ := hr.tail (by omega)
    obtain ⟨r₄, h3', h4⟩ := ih1 h2' (by omega)
    have h5 := dropSep_local (cc := cc) h3' (by omega)
    obtain ⟨r₅, h6, h7⟩ := ih2 h5 (by omega)
    have key : ∀ e, r2 = e :: r' → ∃ r₆, r₅ = e :: r₆ ∧ Repl x t t₂ r' r₆ := by
      rintro e rfl
      exact h6.tail hl
    rcases finishNest_cases ho with ⟨_, _, rfl, _⟩ | ⟨e, f, rfl, rfl, h8, h9⟩ | ⟨e, rfl, rfl, h8, h9⟩
    · simp at hl
    · obtain ⟨r₆, rfl, h10⟩ := key e rfl
      exact ⟨r₆, h10, .nested_args h4 h2 h7 (by rw [h8, h9]; rfl)⟩
    · obtain ⟨r₆, rfl, h10⟩ := key e rfl
      exact ⟨r₆, h10, .nested_args h4 h2 h7 (by rw [h8, h9]; rfl)⟩
  | all_err _ ih =>
    intro r₂ hr hl
    obtain ⟨r₃, h1, h2⟩ := ih hr hl
    exact ⟨r₃, h1, .all_err h2⟩
  | all_nil _ ih =>
    intro r₂ hr hl
    obtain ⟨r₃, h1, h2⟩ := ih hr hl
    exact ⟨r₃, h1, .all_nil h2⟩
  | all_alloc_err _ h ih =>
    intro r₂ hr hl
    obtain ⟨r₃, h1, h2⟩ := ih hr hl
    exact ⟨r₃, h1, .all_alloc_err h2 h⟩
  | all_cons_err _ h h' ih1 ih2 =>
    intro r₂ hr hl
    have := h'.suffix.length_le
    obtain ⟨r₃, h1, h2⟩ := ih1 hr (by omega)
    obtain ⟨r₄, h3, h4⟩ := ih2 h1 hl
    exact ⟨r₄, h3, .all_cons_err h2 h h4⟩
  | all_cons _ h h' ih1 ih2 =>
    intro r₂ hr hl
    have := h'.suffix.length_le
    obtain ⟨r₃, h1, h2⟩ := ih1 hr (by omega)
    obtain ⟨r₄, h3, h4⟩ := ih2 h1 hl
    exact ⟨r₄, h3, .all_cons h2 h h4⟩

end Kul
