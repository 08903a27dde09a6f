import Verif.Proof.Eval

/-! # Basic facts about the big-step rules -/

namespace Kul

variable {P τ ε α CE : Type}

/-! ## Texts -/

section
variable (cc : Classifier)

/-- How much a text consumes. -/
def TextRes.restLen : TextRes P → Nat
  | .ok _ r => r.length
  | .missing => 0
  | .unbalanced _ r => r.length

theorem TextRes.restLen_cons (it : Item P) (t : TextRes P) : (t.cons it).restLen = t.restLen := by
  cases t <;> rfl

theorem scanText_restLen (m : Mode) (top : Bool) (r : List (Item P)) :
    ∀ nl, (scanText cc m top nl r).restLen ≤ r.length := by
  induction h : r.length using Nat.strongRecOn generalizing r with
  | ind n ih =>
    intro nl
    subst h
    match r with
    | [] => unfold scanText; split <;> simp [TextRes.restLen]
    | it :: r =>
      have ih1 : ∀ nl, (scanText cc m top nl r).restLen ≤ r.length :=
        ih r.length (by simp) r rfl
      unfold scanText
      split
      · simp [TextRes.restLen]
      split
      · cases r with
        | nil => simp only; split <;> simp [TextRes.restLen]
        | cons x r' =>
          have := ih r'.length (by simp; omega) r' rfl nl
          simp only [TextRes.restLen_cons, List.length_cons]; omega
      split
      · have := ih1 (nl + 1); simp only [TextRes.restLen_cons, List.length_cons]; omega
      split
      · split
        · have := ih1 (nl - 1); simp only [TextRes.restLen_cons, List.length_cons]; omega
        · split <;> simp [TextRes.restLen]
      · have := ih1 nl; simp only [TextRes.restLen_cons, List.length_cons]; omega

/-- A text that does not start at an end character consumes something. -/
theorem scanText_progress (m : Mode) (top : Bool) (it : Item P) (r : List (Item P))
    (h : isEndChar cc m it.ch = false) (h' : cc.isNestEnd it.ch = false) :
    (scanText cc m top 0 (it :: r)).restLen < (it :: r).length := by
  unfold scanText
  rw [if_neg (by simp [h])]
  split
  · cases r with
    | nil => simp [TextRes.restLen]
    | cons x r' =>
      have := scanText_restLen cc m top r' 0
      simp only [TextRes.restLen_cons, List.length_cons]; omega
  split
  · have := scanText_restLen cc m top r 1
    simp only [TextRes.restLen_cons, List.length_cons, Nat.zero_add]; omega
  rw [if_neg (by simp [h'])]
  have := scanText_restLen cc m top r 0
  simp only [TextRes.restLen_cons, List.length_cons]; omega

theorem lead_length (m : Mode) (r : List (Item P)) : (lead cc m r).length ≤ r.length := by
  unfold lead
  split
  · exact (List.dropWhile_suffix _).length_le
  · exact Nat.le_refl _

theorem lead_head {m : Mode} {r : List (Item P)} {it : Item P} {r1 : List (Item P)}
    (h : lead cc m r = it :: r1) : m = .operator → cc.isWhitespace it.ch = false := by
  intro hm
  unfold lead at h
  rw [if_pos hm] at h
  have hne : r.dropWhile (fun it => cc.isWhitespace it.ch) ≠ [] := by rw [h]; simp
  have := List.head_dropWhile_not (fun it : Item P => cc.isWhitespace it.ch) hne
  simpa [h] using this

theorem lead_base (r : List (Item P)) : lead cc .base r = r := rfl

theorem dropSep_length (r : List (Item P)) : (dropSep cc r).length ≤ r.length := by
  cases r with
  | nil => simp [dropSep]
  | cons it r => simp only [dropSep]; split <;> simp

theorem isEndChar_of_lead {m : Mode} {r : List (Item P)} {it : Item P} {r1 : List (Item P)}
    (hm : m ≠ .operands)
    (h : lead cc m r = it :: r1) (hs : cc.isNestStart it.ch = false)
    (he : cc.isNestEnd it.ch = false) : isEndChar cc m it.ch = false := by
  cases m with
  | base => simp [isEndChar, hs]
  | operator => simp [isEndChar, hs, he, lead_head cc h rfl]
  | operands => exact absurd rfl hm

end

variable {cc : Classifier} {X : TextSem P τ α} {al : AllocOps τ ε α}
  {lookup : Datum τ ε → Option (Combiner τ ε α P CE)}

/-! ## Results are as long as they should be -/

theorem optRes_length {E A : Type} {x : Except E (Option A)} {l : List A} (h : optRes x = .ok l) :
    l.length ≤ 1 := by
  unfold optRes at h
  split at h
  · injection h with h; subst h; rename_i o; cases o <;> simp
  · cases h

/-- Inversion of `finishNest`. -/
theorem finishNest_cases {c} {h : Datum τ ε} {ds} {r : List (Item P)} {a : α} {o r' a'}
    (H : finishNest (CE := CE) al c h ds r a = (o, r', a')) :
    (r = [] ∧ o = .error .missingEndChar ∧ r' = [] ∧ a' = a) ∨
    (∃ e f, r = e :: r' ∧ c = some f ∧ o = optRes (f h (mkList ds) a).1 ∧
      a' = (f h (mkList ds) a).2) ∨
    (∃ e, r = e :: r' ∧ c = none ∧ o = (allocComb al h (mkList ds) a).1 ∧
      a' = (allocComb (P := P) (CE := CE) al h (mkList ds) a).2) := by
  unfold finishNest at H
  split at H
  · cases H; exact Or.inl ⟨rfl, rfl, rfl, rfl⟩
  · split at H
    · cases H; exact Or.inr (Or.inl ⟨_, _, rfl, rfl, rfl, rfl⟩)
    · cases H; exact Or.inr (Or.inr ⟨_, rfl, rfl, rfl, rfl⟩)

/-- Inversion of `allocComb`. -/
theorem allocComb_cases {h l : Datum τ ε} {a : α} {o a'}
    (H : allocComb (P := P) (CE := CE) al h l a = (o, a')) :
    (∃ e, o = .error (.failedAlloc e)) ∨ o = .ok [.combination h l] := by
  unfold allocComb at H
  split at H
  · cases H; exact Or.inl ⟨_, rfl⟩
  · split at H
    · cases H; exact Or.inl ⟨_, rfl⟩
    · cases H; exact Or.inr rfl

/-- Inversion of `allocCell`. -/
theorem allocCell_cases {d : Datum τ ε} {a : α} {o a'}
    (H : allocCell (P := P) (CE := CE) al d a = (o, a')) :
    (∃ e, o = .error (.failedAlloc e)) ∨ (o = .error .failedDerefTryMut) ∨ o = .ok () := by
  unfold allocCell at H
  split at H
  · cases H; exact Or.inl ⟨_, rfl⟩
  · split at H
    · cases H; exact Or.inl ⟨_, rfl⟩
    · split at H
      · cases H; exact Or.inr (Or.inr rfl)
      · cases H; exact Or.inr (Or.inl rfl)

/-- Inversion of `endForm`. -/
theorem endForm_cases {d : Nat} {it : Item P} {r r' : List (Item P)}
    {o : Except (Err P CE) (List (Datum τ ε))} (H : endForm d it r = (o, r')) :
    (d = 0 ∧ o = .error (.unbalancedEndChar it.pos) ∧ r' = r) ∨
    (d ≠ 0 ∧ o = .ok [] ∧ r' = it :: r) := by
  unfold endForm at H
  split at H <;> cases H
  · exact Or.inl ⟨by assumption, rfl, rfl⟩
  · exact Or.inr ⟨by assumption, rfl, rfl⟩

/-- Inversion of `eofForm`. -/
theorem eofForm_cases {d : Nat} {o : Except (Err P CE) (List (Datum τ ε))} (H : eofForm d = o) :
    (d = 0 ∧ o = .ok []) ∨ (d ≠ 0 ∧ o = .error .missingEndChar) := by
  unfold eofForm at H
  split at H <;> cases H
  · exact Or.inl ⟨by assumption, rfl⟩
  · exact Or.inr ⟨by assumption, rfl⟩

/-- Inversion of `finishEmpty`. -/
theorem finishEmpty_cases {r r' : List (Item P)} {o : Except (Err P CE) (List (Datum τ ε))}
    (H : finishEmpty r = (o, r')) :
    (r = [] ∧ o = .error .missingEndChar ∧ r' = []) ∨ (∃ e, r = e :: r' ∧ o = .ok [.emptyNest]) := by
  unfold finishEmpty at H
  split at H <;> cases H
  · exact Or.inl ⟨rfl, rfl, rfl⟩
  · exact Or.inr ⟨_, rfl, rfl⟩

theorem TextEv.length {m : Mode} {top : Bool} {r r' : List (Item P)} {a a' : α}
    {o : Except (Err P CE) τ} (h : TextEv cc X m top r a o r' a') : r'.length ≤ r.length := by
  have h1 := scanText_restLen cc m top r 0
  rcases h.2 with ⟨_, _, _, h2, _⟩ | ⟨_, h2, rfl⟩ | ⟨_, _, h2⟩ | ⟨_, _, h2, _⟩
  · rw [h2] at h1; exact h1
  · simp
  · rw [h2] at h1; exact h1
  · exact h2.length_le

theorem TextForm.ev {m : Mode} {top : Bool} {r r' : List (Item P)} {a a' : α}
    {o : Except (Err P CE) (List (Datum τ ε))} (h : TextForm cc X m top r a o r' a') :
    ∃ o' : Except (Err P CE) τ, TextEv cc X m top r a o' r' a' := by
  rcases h with ⟨t, h, _⟩ | ⟨e, h, _⟩
  · exact ⟨_, h⟩
  · exact ⟨_, h⟩

theorem TextEv.progress {m : Mode} {top : Bool} {it : Item P} {r r' : List (Item P)} {a a' : α}
    {o : Except (Err P CE) τ} (h : TextEv cc X m top (it :: r) a o r' a')
    (h1 : isEndChar cc m it.ch = false) (h2 : cc.isNestEnd it.ch = false) :
    r'.length < (it :: r).length := by
  have h3 := scanText_progress cc m top it r h1 h2
  rcases h.2 with ⟨_, _, _, h2, _⟩ | ⟨_, h2, rfl⟩ | ⟨_, _, h2⟩ | ⟨_, _, h2, h4⟩
  · rw [h2] at h3; exact h3
  · simp
  · rw [h2] at h3; exact h3
  · exact h4 (by simp)

theorem OperEv.length {f} {h : Datum τ ε} {r r' : List (Item P)} {a a' : α}
    {o : Except (Err P CE) (List (Datum τ ε))} (H : OperEv cc X f h r a o r' a') :
    r'.length ≤ r.length := by
  rcases H with ⟨t, e, a1, h1, _⟩ | ⟨t, _, _, rfl⟩ | ⟨e, h1, _⟩
  · have := h1.length; simp only [List.length_cons] at this; omega
  · simp
  · exact h1.length

def LeOne (j : Job) (o : Except (Err P CE) (List (Datum τ ε))) : Prop :=
  match j with
  | .all _ => True
  | _ => ∀ l, o = .ok l → l.length ≤ 1

/-- `next` and `nested` yield at most one datum. -/
theorem Eval.le_one {j r a o r' a'} (h : Eval cc X al lookup j r a o r' a') : LeOne j o := by
  induction h with
  | next_eof h ho => rcases eofForm_cases ho with ⟨_, rfl⟩ | ⟨_, rfl⟩ <;> intro l hl <;> cases hl; simp
  | next_nest _ _ _ _ ih => exact ih
  | next_removed _ _ _ _ _ ih => exact ih
  | next_end _ _ _ ho =>
    rcases endForm_cases ho with ⟨_, rfl, _⟩ | ⟨_, rfl, _⟩ <;> intro l hl <;> cases hl; simp
  | next_text _ _ _ ho =>
    rcases ho with ⟨_, _, rfl⟩ | ⟨_, _, rfl⟩ <;> intro l hl <;> cases hl; simp
  | nested_head_err => intro l hl; cases hl
  | nested_empty _ ho =>
    rcases finishEmpty_cases ho with ⟨_, rfl, _⟩ | ⟨_, _, rfl⟩ <;> intro l hl <;> cases hl; simp
  | nested_operative _ _ ho =>
    intro l hl
    rcases ho with ⟨t, e, _, _, rfl, _⟩ | ⟨t, _, rfl, _⟩ | ⟨_, _, rfl⟩
    · exact optRes_length hl
    all_goals cases hl
  | nested_args_err => intro l hl; cases hl
  | nested_args _ _ _ ho =>
    intro l hl
    rcases finishNest_cases ho with ⟨_, rfl, _⟩ | ⟨e, f, _, _, rfl, _⟩ | ⟨e, _, _, ho, _⟩
    · cases hl
    · exact optRes_length hl
    · rcases allocComb_cases (Prod.ext ho.symm rfl) with ⟨e, rfl⟩ | rfl <;> cases hl; simp
  | all_err => trivial
  | all_nil => trivial
  | all_alloc_err => trivial
  | all_cons_err => trivial
  | all_cons => trivial

def LenP (j : Job) (r : List (Item P)) (o : Except (Err P CE) (List (Datum τ ε)))
    (r' : List (Item P)) : Prop :=
  match j with
  | .next m _ => m ≠ .operands → r'.length ≤ r.length ∧ (∀ x, o = .ok [x] → r'.length < r.length)
  | .nested _ => r'.length < r.length
  | .all _ => r'.length ≤ r.length

/-- The items left are fewer, strictly when a datum was produced. -/
theorem Eval.length {j r a o r' a'} (h : Eval cc X al lookup j r a o r' a') : LenP j r o r' := by
  induction h with
  | @next_eof m d r a o h ho =>
    intro _
    refine ⟨by simp, fun x hx => ?_⟩
    rcases eofForm_cases ho with ⟨_, rfl⟩ | ⟨_, rfl⟩ <;> cases hx
  | @next_nest m d r a it r1 o r' a' h1 h2 h3 h4 ih =>
    intro _
    have := lead_length cc m r
    rw [h1] at this
    simp only [LenP] at ih
    exact ⟨by omega, fun _ _ => by omega⟩
  | @next_removed m d r a it r1 r2 a2 o r' a' h1 h2 h3 h4 ih1 ih2 =>
    intro hm
    have := lead_length cc m r
    rw [h1] at this
    simp only [LenP] at ih1 ih2
    have := ih2 hm
    exact ⟨by omega, fun _ _ => by omega⟩
  | @next_end m d r a it r1 o r' h1 h2 h3 ho =>
    intro _
    have := lead_length cc m r
    rw [h1] at this
    simp only [List.length_cons] at this
    rcases endForm_cases ho with ⟨_, rfl, rfl⟩ | ⟨_, rfl, rfl⟩
    · exact ⟨by omega, fun _ h => by cases h⟩
    · exact ⟨by simp only [List.length_cons]; omega, fun _ h => by cases h⟩
  | @next_text m d r a it r1 o r' a' h1 h2 h3 ho =>
    intro hm
    have := lead_length cc m r
    rw [h1] at this
    obtain ⟨o', ho'⟩ := ho.ev
    have hp := ho'.progress (isEndChar_of_lead cc hm h1 h2 h3) h3
    exact ⟨by omega, fun _ _ => by omega⟩
  | nested_head_err _ ih =>
    have := ih (by simp)
    simp only [LenP, List.length_cons]; omega
  | @nested_empty d it r a r1 a1 o r' _ ho ih =>
    have := ih (by simp)
    have h2 := dropSep_length cc r1
    rcases finishEmpty_cases ho with ⟨_, _, rfl⟩ | ⟨e, h, _⟩
    · simp [LenP]
    · rw [h] at h2; simp only [LenP, List.length_cons] at h2 ⊢; omega
  | @nested_operative d it r a h r1 a1 f o r' a' _ _ ho ih =>
    have := (ih (by simp)).2 h rfl
    have h2 := dropSep_length cc r1
    have h3 := ho.length
    simp only [LenP, List.length_cons] at h3 ⊢; omega
  | @nested_args_err d it r a h r1 a1 c e r' a' _ _ _ ih1 ih2 =>
    simp only [LenP] at ih2
    have := (ih1 (by simp)).2 h rfl
    have h2 := dropSep_length cc r1
    simp only [LenP, List.length_cons]; omega
  | @nested_args d it r a h r1 a1 c ds r2 a2 o r' a' _ _ _ ho ih1 ih2 =>
    simp only [LenP] at ih2
    have := (ih1 (by simp)).2 h rfl
    have h2 := dropSep_length cc r1
    rcases finishNest_cases ho with ⟨_, _, rfl, _⟩ | ⟨e, f, rfl, _⟩ | ⟨e, rfl, _⟩
    all_goals simp only [LenP, List.length_cons, List.length_nil] at ih2 ⊢; omega
  | all_err _ ih => exact (ih (by simp)).1
  | all_nil _ ih => exact (ih (by simp)).1
  | all_alloc_err _ _ ih => exact (ih (by simp)).1
  | all_cons_err _ _ _ ih1 ih2 =>
    simp only [LenP] at ih2 ⊢
    have := (ih1 (by simp)).1
    omega
  | all_cons _ _ _ ih1 ih2 =>
    simp only [LenP] at ih2 ⊢
    have := (ih1 (by simp)).1
    omega

def AtEnd (cc : Classifier) (j : Job) (o : Except (Err P CE) (List (Datum τ ε)))
    (r' : List (Item P)) : Prop :=
  match j with
  | .next m d => o = .ok [] → (d = 0 ∧ r' = []) ∨ (d ≠ 0 ∧ ∃ e r1, r' = e :: r1 ∧
      cc.isNestEnd e.ch = true ∧ cc.isNestStart e.ch = false ∧
      (m = .operator → cc.isWhitespace e.ch = false))
  | .nested _ => True
  | .all d => ∀ ds, o = .ok ds → (d = 0 ∧ r' = []) ∨ (d ≠ 0 ∧ ∃ e r1, r' = e :: r1 ∧
      cc.isNestEnd e.ch = true ∧ cc.isNestStart e.ch = false)

/-- Where a missing form leaves the source: at the end of the source at depth 0,
before an end character otherwise. -/
theorem Eval.at_end {j r a o r' a'} (h : Eval cc X al lookup j r a o r' a') : AtEnd cc j o r' := by
  induction h with
  | next_eof h ho =>
    intro h'
    rcases eofForm_cases ho with ⟨hd, rfl⟩ | ⟨_, rfl⟩
    · exact Or.inl ⟨hd, rfl⟩
    · cases h'
  | next_nest _ _ _ hne => intro ho; exact absurd ho hne
  | next_removed _ _ _ _ _ ih => exact ih
  | next_end h1 h2 h3 ho =>
    intro h'
    rcases endForm_cases ho with ⟨_, rfl, rfl⟩ | ⟨hd, rfl, rfl⟩
    · cases h'
    · exact Or.inr ⟨hd, _, _, rfl, h3, h2, lead_head cc h1⟩
  | next_text _ _ _ ho =>
    intro h'
    rcases ho with ⟨_, _, rfl⟩ | ⟨_, _, rfl⟩ <;> cases h'
  | nested_head_err => trivial
  | nested_empty => trivial
  | nested_operative => trivial
  | nested_args_err => trivial
  | nested_args => trivial
  | all_err => intro ds h; cases h
  | all_nil _ ih =>
    intro ds _
    rcases ih rfl with h | ⟨h1, e, r1, h2, h3, h4, _⟩
    · exact Or.inl h
    · exact Or.inr ⟨h1, e, r1, h2, h3, h4⟩
  | all_alloc_err => intro ds h; cases h
  | all_cons_err => intro ds h; cases h
  | all_cons _ _ _ _ ih =>
    intro ds _
    exact ih _ rfl

end Kul
