import Verif.Spec.Spacing
import Verif.Proof.Balance

/-! # Whitespace before heads does not matter -/

namespace Kul

variable {P τ ε α CE : Type} {cc : Classifier} {X : TextSem P τ α} {al : AllocOps τ ε α}
  {lookup : Datum τ ε → Option (Combiner τ ε α P CE)}

/-- The same after leading whitespace. -/
def HeadSpacedOp (cc : Classifier) (r r₂ : List (Item P)) : Prop :=
  ∃ ws ws₂ r' r₂', r = ws ++ r' ∧ r₂ = ws₂ ++ r₂' ∧ AllWs cc ws ∧ AllWs cc ws₂ ∧ HeadSpaced cc r' r₂'

theorem dropWhile_allWs {ws : List (Item P)} (h : AllWs cc ws) (r : List (Item P)) :
    (ws ++ r).dropWhile (fun it => cc.isWhitespace it.ch) =
      r.dropWhile (fun it => cc.isWhitespace it.ch) := by
  induction ws with
  | nil => rfl
  | cons w ws ih =>
    rw [List.cons_append, List.dropWhile_cons, if_pos (h w (by simp))]
    exact ih fun i hi => h i (by simp [hi])

theorem HeadSpaced.dropWhile (D : cc.Disjoint) {r r₂ : List (Item P)} (h : HeadSpaced cc r r₂) :
    HeadSpaced cc (r.dropWhile (fun it => cc.isWhitespace it.ch))
      (r₂.dropWhile (fun it => cc.isWhitespace it.ch)) := by
  induction h with
  | nil => exact .nil
  | @plain it r r₂ h1 h2 ih =>
    simp only [List.dropWhile_cons]
    split
    · exact ih
    · exact .plain h1 h2
  | escaped h1 h2 _ =>
    simp only [List.dropWhile_cons, D.esc_ws _ h1]
    exact .escaped h1 h2
  | dangling h1 =>
    simp only [List.dropWhile_cons, D.esc_ws _ h1]
    exact .dangling h1
  | start h1 h2 h3 h4 _ =>
    simp only [List.dropWhile_cons, D.start_ws _ h1]
    exact .start h1 h2 h3 h4

theorem HeadSpacedOp.lead (D : cc.Disjoint) {r r₂ : List (Item P)} (h : HeadSpacedOp cc r r₂) :
    HeadSpaced cc (lead cc .operator r) (lead cc .operator r₂) := by
  obtain ⟨ws, ws₂, r', r₂', rfl, rfl, h1, h2, h3⟩ := h
  simp only [Kul.lead, if_true, dropWhile_allWs h1, dropWhile_allWs h2]
  exact h3.dropWhile D

theorem HeadSpaced.op {r r₂ : List (Item P)} (h : HeadSpaced cc r r₂) : HeadSpacedOp cc r r₂ :=
  ⟨[], [], r, r₂, rfl, rfl, (by intro _ h; cases h), (by intro _ h; cases h), h⟩

/-- The relation after the first item. -/
theorem HeadSpaced.head {it : Item P} {r r₂ : List (Item P)} (h : HeadSpaced cc (it :: r) r₂) :
    ∃ r₃, r₂ = it :: r₃ ∧ (cc.isNestStart it.ch = true → cc.isNestEscape it.ch = false → HeadSpacedOp cc r r₃) ∧
      (cc.isNestStart it.ch = false → cc.isNestEscape it.ch = false → HeadSpaced cc r r₃) := by
  cases h with
  | plain h1 h2 => exact ⟨_, rfl, fun _ _ => h2.op, fun _ _ => h2⟩
  | escaped h1 h2 => exact ⟨_, rfl, fun _ h => by simp [h1] at h, fun _ h => by simp [h1] at h⟩
  | dangling h1 => exact ⟨_, rfl, fun _ h => by simp [h1] at h, fun _ h => by simp [h1] at h⟩
  | start h1 h2 h3 h4 =>
    exact ⟨_, rfl, fun _ _ => ⟨_, _, _, _, rfl, rfl, h2, h3, h4⟩, fun h => by simp [h1] at h⟩

theorem HeadSpaced.nil_left {r₂ : List (Item P)} (h : HeadSpaced cc [] r₂) : r₂ = [] := by
  cases h; rfl

theorem HeadSpaced.dropSep (D : cc.Disjoint) {r r₂ : List (Item P)} (h : HeadSpaced cc r r₂) :
    HeadSpaced cc (dropSep cc r) (dropSep cc r₂) := by
  cases h with
  | nil => exact .nil
  | @plain it r r₂ h1 h2 =>
    simp only [Kul.dropSep]
    split
    · exact h2
    · exact .plain h1 h2
  | escaped h1 h2 => simp only [Kul.dropSep, D.esc_ws _ h1]; exact .escaped h1 h2
  | dangling h1 => simp only [Kul.dropSep, D.esc_ws _ h1]; exact .dangling h1
  | start h1 h2 h3 h4 => simp only [Kul.dropSep, D.start_ws _ h1]; exact .start h1 h2 h3 h4

/-- Results of texts with related rests. -/
def TextRes.Rel (cc : Classifier) : TextRes P → TextRes P → Prop
  | .ok c r, .ok c₂ r₂ => c = c₂ ∧ HeadSpaced cc r r₂
  | .missing, .missing => True
  | .unbalanced p r, .unbalanced p₂ r₂ => p = p₂ ∧ HeadSpaced cc r r₂
  | _, _ => False

theorem TextRes.Rel.cons {T T₂ : TextRes P} (h : TextRes.Rel cc T T₂) (it : Item P) :
    TextRes.Rel cc (T.cons it) (T₂.cons it) := by
  cases T <;> cases T₂ <;> simp_all [TextRes.Rel, TextRes.cons]

theorem scanText_spaced (D : cc.Disjoint) {m : Mode} (hm : m ≠ .operands) {top : Bool}
    {r r₂ : List (Item P)} (h : HeadSpaced cc r r₂) :
    TextRes.Rel cc (scanText cc m top 0 r) (scanText cc m top 0 r₂) := by
  have hstart : ∀ c, cc.isNestStart c = true → isEndChar cc m c = true := by
    intro c hc
    cases m with
    | base => simp [isEndChar, hc]
    | operator => simp [isEndChar, hc]
    | operands => exact absurd rfl hm
  have stop : ∀ (it : Item P) r, isEndChar cc m it.ch = true →
      scanText cc m top 0 (it :: r) = .ok [] (it :: r) := by
    intro it r h; rw [scanText_cons, if_pos ⟨rfl, h⟩]
  induction h with
  | nil => simp [scanText, TextRes.Rel, HeadSpaced.nil]
  | @plain it r r₂ h1 h2 ih =>
    by_cases hend : isEndChar cc m it.ch = true
    · rw [stop _ _ hend, stop _ _ hend]; exact ⟨rfl, .plain h1 h2⟩
    have hst : cc.isNestStart it.ch = false := by
      cases hs : cc.isNestStart it.ch with
      | false => rfl
      | true => exact absurd (hstart _ hs) hend
    have go : ∀ r, scanText cc m top 0 (it :: r) =
        if cc.isNestEnd it.ch then (if top then .unbalanced it.pos r else .ok [] (it :: r))
        else (scanText cc m top 0 r).cons it := by
      intro r
      rw [scanText_cons, if_neg (fun h => hend h.2)]
      simp [h1, hst]
    rw [go, go]
    by_cases hfin : cc.isNestEnd it.ch
    · simp only [hfin, if_true]
      cases top with
      | true => exact ⟨rfl, h2⟩
      | false => exact ⟨rfl, .plain h1 h2⟩
    · simp only [hfin, if_false]
      exact ih.cons it
  | @escaped e it r r₂ h1 h2 ih =>
    by_cases hend : isEndChar cc m e.ch = true
    · rw [stop _ _ hend, stop _ _ hend]; exact ⟨rfl, .escaped h1 h2⟩
    have go : ∀ r, scanText cc m top 0 (e :: it :: r) = (scanText cc m top 0 r).cons it := by
      intro r
      rw [scanText_cons, if_neg (fun h => hend h.2), if_pos h1]
    rw [go, go]
    exact ih.cons it
  | @dangling e h1 =>
    by_cases hend : isEndChar cc m e.ch = true
    · rw [stop _ _ hend]; exact ⟨rfl, .dangling h1⟩
    rw [scanText_cons, if_neg (fun h => hend h.2), if_pos h1]
    exact ⟨rfl, .nil⟩
  | start h1 h2 h3 h4 _ =>
    rw [stop _ _ (hstart _ h1), stop _ _ (hstart _ h1)]
    exact ⟨rfl, .start h1 h2 h3 h4⟩

theorem TextEv.spaced (D : cc.Disjoint) (hF : ¬ X.F) {m : Mode} (hm : m ≠ .operands) {top : Bool}
    {r r₂ r' : List (Item P)} {a a' : α} {o : Except (Err P CE) τ} (hr : HeadSpaced cc r r₂)
    (h : TextEv cc X m top r a o r' a') :
    ∃ r₂', TextEv cc X m top r₂ a o r₂' a' ∧ HeadSpaced cc r' r₂' := by
  obtain ⟨hra, h⟩ := h
  have hs := scanText_spaced D hm (top := top) hr
  rcases h with ⟨v, c, rfl, h2, h3⟩ | ⟨rfl, h2, rfl⟩ | ⟨p, rfl, h2⟩ | ⟨h, _⟩
  · rw [h2] at hs
    cases h4 : scanText cc m top 0 r₂ with
    | ok c₂ r₂' => rw [h4] at hs; obtain ⟨rfl, hs⟩ := hs; exact ⟨_, ⟨hra, Or.inl ⟨v, c, rfl, h4, h3⟩⟩, hs⟩
    | missing => rw [h4] at hs; cases hs
    | unbalanced => rw [h4] at hs; cases hs
  · rw [h2] at hs
    cases h4 : scanText cc m top 0 r₂ with
    | ok c₂ r₂' => rw [h4] at hs; cases hs
    | missing => exact ⟨[], ⟨hra, Or.inr (Or.inl ⟨rfl, h4, rfl⟩)⟩, .nil⟩
    | unbalanced => rw [h4] at hs; cases hs
  · rw [h2] at hs
    cases h4 : scanText cc m top 0 r₂ with
    | ok c₂ r₂' => rw [h4] at hs; cases hs
    | missing => rw [h4] at hs; cases hs
    | unbalanced =>
      rw [h4] at hs; obtain ⟨rfl, hs⟩ := hs
      exact ⟨_, ⟨hra, Or.inr (Or.inr (Or.inl ⟨p, rfl, h4⟩))⟩, hs⟩
  · exact absurd h hF

theorem TextForm.spaced (D : cc.Disjoint) (hF : ¬ X.F) {m : Mode} (hm : m ≠ .operands) {top : Bool}
    {r r₂ r' : List (Item P)} {a a' : α} {o : Except (Err P CE) (List (Datum τ ε))}
    (hr : HeadSpaced cc r r₂) (h : TextForm cc X m top r a o r' a') :
    ∃ r₂', TextForm cc X m top r₂ a o r₂' a' ∧ HeadSpaced cc r' r₂' := by
  rcases h with ⟨t, h, h2⟩ | ⟨e, h, h2⟩
  · obtain ⟨r₂', h3, h4⟩ := h.spaced D hF hm hr
    exact ⟨r₂', Or.inl ⟨t, h3, h2⟩, h4⟩
  · obtain ⟨r₂', h3, h4⟩ := h.spaced D hF hm hr
    exact ⟨r₂', Or.inr ⟨e, h3, h2⟩, h4⟩

/-- How the rests of a job may differ at its start. -/
def JobSpaced (cc : Classifier) (j : Job) (r r₂ : List (Item P)) : Prop :=
  match j with
  | .next .operator _ => HeadSpacedOp cc r r₂
  | .next .operands _ => False
  | .nested d => d ≠ 0 ∧ HeadSpaced cc r r₂ ∧ ∀ it, r.head? = some it → cc.isNestStart it.ch = true
  | _ => HeadSpaced cc r r₂

theorem JobSpaced.lead (D : cc.Disjoint) {m : Mode} {d : Nat} {r r₂ : List (Item P)}
    (h : JobSpaced cc (.next m d) r r₂) : HeadSpaced cc (lead cc m r) (lead cc m r₂) := by
  cases m with
  | base => exact h
  | operator => exact HeadSpacedOp.lead D h
  | operands => exact h.elim

theorem JobSpaced.next {m : Mode} {d : Nat} {r r₂ r1 r3 : List (Item P)}
    (h : JobSpaced cc (.next m d) r r₂) (h2 : HeadSpaced cc r1 r3) : JobSpaced cc (.next m d) r1 r3 := by
  cases m with
  | base => exact h2
  | operator => exact h2.op
  | operands => exact h.elim

theorem Eval.spaced (D : cc.Disjoint) (hF : ¬ X.F) (hb : ∀ d f, lookup d ≠ some (.operative f))
    {j r a o r' a'} (h : Eval cc X al lookup j r a o r' a') : ∀ {r₂}, JobSpaced cc j r r₂ →
    ∃ r₂', Eval cc X al lookup j r₂ a o r₂' a' ∧ HeadSpaced cc r' r₂' := by
  induction h with
  | @next_eof m d r a o h ho =>
    intro r₂ hr
    have h2 := hr.lead D
    rw [h] at h2
    exact ⟨[], .next_eof h2.nil_left ho, .nil⟩
  | @next_nest m d r a it r1 o r' a' h1 h2 h3 h4 ih =>
    intro r₂ hr
    have h5 := hr.lead D
    rw [h1] at h5
    obtain ⟨r₃, h6, _⟩ := h5.head
    rw [h6] at h5
    obtain ⟨r₄, h7, h8⟩ := ih ⟨by omega, h5, by rintro _ ⟨⟩; exact h2⟩
    exact ⟨r₄, .next_nest h6 h2 h7 h4, h8⟩
  | @next_removed m d r a it r1 r2 a2 o r' a' h1 h2 h3 h4 ih1 ih2 =>
    intro r₂ hr
    have h5 := hr.lead D
    rw [h1] at h5
    obtain ⟨r₃, h6, _⟩ := h5.head
    rw [h6] at h5
    obtain ⟨r₄, h7, h8⟩ := ih1 ⟨by omega, h5, by rintro _ ⟨⟩; exact h2⟩
    obtain ⟨r₅, h9, h10⟩ := ih2 (hr.next h8)
    exact ⟨r₅, .next_removed h6 h2 h7 h9, h10⟩
  | @next_end m d r a it r1 o r' h1 h2 h3 ho =>
    intro r₂ hr
    have h5 := hr.lead D
    rw [h1] at h5
    obtain ⟨r₃, h6, _, h7⟩ := h5.head
    rw [h6] at h5
    rcases endForm_cases ho with ⟨rfl, rfl, rfl⟩ | ⟨hd, rfl, rfl⟩
    · exact ⟨r₃, .next_end h6 h2 h3 rfl, h7 h2 (D.end_esc _ h3)⟩
    · exact ⟨it :: r₃, .next_end h6 h2 h3 (by simp [endForm, hd]), h5⟩
  | @next_text m d r a it r1 o r' a' h1 h2 h3 ho =>
    intro r₂ hr
    have h5 := hr.lead D
    rw [h1] at h5
    obtain ⟨r₃, h6, _⟩ := h5.head
    rw [h6] at h5
    have hm : m ≠ .operands := by rintro rfl; exact hr.elim
    obtain ⟨r₄, h7, h8⟩ := ho.spaced D hF hm h5
    exact ⟨r₄, .next_text h6 h2 h3 h7, h8⟩
  | @nested_head_err d it r a e r' a' h1 ih =>
    rintro r₂ ⟨hd, hr, hst⟩
    obtain ⟨r₃, rfl, h2, _⟩ := hr.head
    obtain ⟨r₄, h3, h4⟩ := ih (h2 (hst it rfl) (D.start_esc _ (hst it rfl)))
    exact ⟨r₄, .nested_head_err h3, h4⟩
  | @nested_empty d it r a r1 a1 o r' h1 ho ih =>
    rintro r₂ ⟨hd, hr, hst⟩
    obtain ⟨r₃, rfl, h2, _⟩ := hr.head
    obtain ⟨r₄, h3, h4⟩ := ih (h2 (hst it rfl) (D.start_esc _ (hst it rfl)))
    have h5 := h4.dropSep D
    rcases finishEmpty_cases ho with ⟨he, rfl, rfl⟩ | ⟨e, he, rfl⟩
    · rw [he] at h5
      exact ⟨[], .nested_empty h3 (by rw [h5.nil_left]; rfl), .nil⟩
    · have hend : cc.isNestEnd e.ch = true := by
        rcases h1.at_end rfl with ⟨h, _⟩ | ⟨_, e', r2, rfl, h2, h3, h4⟩
        · exact absurd h hd
        · have : Kul.dropSep cc (e' :: r2) = e' :: r2 := by simp [Kul.dropSep, h4 rfl]
          rw [this] at he
          cases he
          exact h2
      rw [he] at h5
      obtain ⟨r₅, h6, _, h7⟩ := h5.head
      exact ⟨r₅, .nested_empty h3 (by rw [h6]; rfl), h7 (end_not_start D hend) (D.end_esc _ hend)⟩
  | nested_operative _ h2 _ _ => exact absurd h2 (hb _ _)
  | @nested_args_err d it r a h r1 a1 c e r' a' h1 h2 h3 ih1 ih2 =>
    rintro r₂ ⟨hd, hr, hst⟩
    obtain ⟨r₃, rfl, h4, _⟩ := hr.head
    obtain ⟨r₄, h5, h6⟩ := ih1 (h4 (hst it rfl) (D.start_esc _ (hst it rfl)))
    obtain ⟨r₅, h7, h8⟩ := ih2 (h6.dropSep D)
    exact ⟨r₅, .nested_args_err h5 h2 h7, h8⟩
  | @nested_args d it r a h r1 a1 c ds r2 a2 o r' a' h1 h2 h3 ho ih1 ih2 =>
    rintro r₂ ⟨hd, hr, hst⟩
    obtain ⟨r₃, rfl, h4, _⟩ := hr.head
    obtain ⟨r₄, h5, h6⟩ := ih1 (h4 (hst it rfl) (D.start_esc _ (hst it rfl)))
    obtain ⟨r₅, h7, h8⟩ := ih2 (h6.dropSep D)
    have key : ∀ e, r2 = e :: r' → ∃ r₆, r₅ = e :: r₆ ∧ HeadSpaced cc r' r₆ := by
      rintro e rfl
      have hend : cc.isNestEnd e.ch = true := by
        rcases h3.at_end _ rfl with ⟨h, _⟩ | ⟨_, e', r2, hr, h4, h5⟩
        · exact absurd h hd
        · cases hr; exact h4
      obtain ⟨r₆, h9, _, h10⟩ := h8.head
      exact ⟨r₆, h9, h10 (end_not_start D hend) (D.end_esc _ hend)⟩
    rcases finishNest_cases ho with ⟨rfl, rfl, rfl, rfl⟩ | ⟨e, f, he, rfl, h9, h10⟩ | ⟨e, he, rfl, h9, h10⟩
    · have := h8.nil_left
      subst this
      exact ⟨[], .nested_args h5 h2 h7 rfl, .nil⟩
    · obtain ⟨r₆, rfl, h11⟩ := key e he
      exact ⟨r₆, .nested_args h5 h2 h7 (by rw [h9, h10]; rfl), h11⟩
    · obtain ⟨r₆, rfl, h11⟩ := key e he
      exact ⟨r₆, .nested_args h5 h2 h7 (by rw [h9, h10]; rfl), h11⟩
  | all_err _ ih =>
    intro r₂ hr
    obtain ⟨r₃, h1, h2⟩ := ih hr
    exact ⟨r₃, .all_err h1, h2⟩
  | all_nil _ ih =>
    intro r₂ hr
    obtain ⟨r₃, h1, h2⟩ := ih hr
    exact ⟨r₃, .all_nil h1, h2⟩
  | all_alloc_err _ h ih =>
    intro r₂ hr
    obtain ⟨r₃, h1, h2⟩ := ih hr
    exact ⟨r₃, .all_alloc_err h1 h, h2⟩
  | all_cons_err _ h _ ih1 ih2 =>
    intro r₂ hr
    obtain ⟨r₃, h1, h2⟩ := ih1 hr
    obtain ⟨r₄, h3, h4⟩ := ih2 h2
    exact ⟨r₄, .all_cons_err h1 h h3, h4⟩
  | all_cons _ h _ ih1 ih2 =>
    intro r₂ hr
    obtain ⟨r₃, h1, h2⟩ := ih1 hr
    obtain ⟨r₄, h3, h4⟩ := ih2 h2
    exact ⟨r₄, .all_cons h1 h h3, h4⟩

theorem Run.spaced (D : cc.Disjoint) (hF : ¬ X.F) (hb : ∀ d f, lookup d ≠ some (.operative f))
    {r a l r' a'} (h : Run cc X al lookup r a l r' a') : ∀ {r₂}, HeadSpaced cc r r₂ →
    ∃ r₂', Run cc X al lookup r₂ a l r₂' a' := by
  induction h with
  | done h =>
    intro r₂ hr
    obtain ⟨r₃, h1, _⟩ := h.spaced D hF hb hr
    exact ⟨r₃, .done h1⟩
  | datum h _ ih =>
    intro r₂ hr
    obtain ⟨r₃, h1, h2⟩ := h.spaced D hF hb hr
    obtain ⟨r₄, h3⟩ := ih h2
    exact ⟨r₄, .datum h1 h3⟩
  | error h _ ih =>
    intro r₂ hr
    obtain ⟨r₃, h1, h2⟩ := h.spaced D hF hb hr
    obtain ⟨r₄, h3⟩ := ih h2
    exact ⟨r₄, .error h1 h3⟩

end Kul
