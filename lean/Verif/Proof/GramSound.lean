import Verif.Proof.GramText
import Verif.Spec.Failing

/-! # What the parser accepts is written in the grammar -/

namespace Kul

variable {P τ ε α CE : Type} {cc : Classifier} {X : TextSem P τ α} {al : AllocOps τ ε α}
  {lookup : Datum τ ε → Option (Combiner τ ε α P CE)} {Mem : α → α → Prop}

theorem mkList_eq_listOf (ds : List (Datum τ ε)) : mkList ds = listOf ds := by
  induction ds with
  | nil => rfl
  | cons d ds ih => simp [mkList, listOf, ih]

theorem MemOk.cell (M : MemOk X al Mem) {d a u a'}
    (h : allocCell (P := P) (CE := CE) al d a = (.ok u, a')) : Mem a a' := by
  unfold allocCell at h
  have h1 := M.alloc d a
  rcases h2 : al.newDatum d a with ⟨_ | _, b⟩ <;> rw [h2] at h h1 <;> simp only at h h1
  · cases h
  have h3 := M.alloc .emptyList b
  rcases h4 : al.newDatum .emptyList b with ⟨_ | _, c⟩ <;> rw [h4] at h h3 <;> simp only at h h3
  · cases h
  split at h
  · cases h; exact M.trans _ _ _ h1 h3
  · cases h

theorem MemOk.comb (M : MemOk X al Mem) {d l a ds a'}
    (h : allocComb (P := P) (CE := CE) al d l a = (.ok ds, a')) : Mem a a' ∧ ds = [.combination d l] := by
  unfold allocComb at h
  have h1 := M.alloc d a
  rcases h2 : al.newDatum d a with ⟨_ | _, b⟩ <;> rw [h2] at h h1 <;> simp only at h h1
  · cases h
  have h3 := M.alloc l b
  rcases h4 : al.newDatum l b with ⟨_ | _, c⟩ <;> rw [h4] at h h3 <;> simp only at h h3
  · cases h
  · cases h; exact ⟨M.trans _ _ _ h1 h3, rfl⟩

/-- The next item, if any, ends a text that is not a head. -/
def AtDelim (cc : Classifier) (r : List (Item P)) : Prop := ∀ it, r.head? = some it → cc.delim it.ch = true

/-- The next item, if any, ends a text that is a head. -/
def AtHeadDelim (cc : Classifier) (r : List (Item P)) : Prop :=
  ∀ it, r.head? = some it → cc.headDelim it.ch = true

variable (cc X lookup Mem)

/-- Meaning of a successful job. -/
def Sound (j : Job) (r : List (Item P)) (a : α) (o : Except (Err P CE) (List (Datum τ ε)))
    (r' : List (Item P)) (a' : α) : Prop :=
  match j with
  | .nested d => ∀ l, o = .ok l → d ≠ 0 → (∀ it, r.head? = some it → cc.isNestStart it.ch = true) →
      ∃ s, r = s ++ r' ∧ Reads cc X.RT Mem lookup .nest s a l a'
  | .all d => ∀ ds, o = .ok ds → d ≠ 0 → r' ≠ [] →
      ∃ s, r = s ++ r' ∧
        ∀ b, (b = true → AtDelim cc r) → Reads cc X.RT Mem lookup (.forms false b) s a ds a'
  | .next .operator d => ∀ l, o = .ok l → d ≠ 0 → r' ≠ [] →
      ∃ s k, r = s ++ r' ∧ Reads cc X.RT Mem lookup (.head k) s a l a' ∧
        (k = true → AtHeadDelim cc r') ∧ (l = [] → k = false)
  | .next .base d => ∀ l, o = .ok l → (d ≠ 0 → r' ≠ []) →
      (l = [] → ∃ s, r = s ++ r' ∧ ∀ b, (b = true → AtDelim cc r) →
        Reads cc X.RT Mem lookup (.forms (d == 0) b) s a [] a') ∧
      (∀ x, l = [x] → (∃ s k, r = s ++ r' ∧ (k = true → AtDelim cc r') ∧
          ∀ b, (b = true → AtDelim cc r) → ∀ rest a₁ ds a₂, Mem a' a₁ →
            Reads cc X.RT Mem lookup (.forms (d == 0) k) rest a₁ ds a₂ →
            Reads cc X.RT Mem lookup (.forms (d == 0) b) (s ++ rest) a (x :: ds) a₂) ∨
        (d = 0 ∧ r' = [] ∧ ∀ b, (b = true → AtDelim cc r) → ∀ a₁, Mem a' a₁ →
          Reads cc X.RT Mem lookup (.forms true b) r a [x] a₁))
  | .next .operands _ => True

variable {cc X lookup Mem}

theorem AtDelim.not_text {it : Item P} {r : List (Item P)} (h : AtDelim cc (it :: r))
    (h1 : cc.isNestStart it.ch = false) (h2 : cc.isNestEnd it.ch = false) : False := by
  have := h it rfl
  simp [Classifier.delim, h1, h2] at this

theorem lead_split {m : Mode} {r r1 : List (Item P)} (hm : m = .operator) (h : lead cc m r = r1) :
    ∃ ws, r = ws ++ r1 ∧ AllWs cc ws := by
  subst hm h
  refine ⟨r.takeWhile (fun it => cc.isWhitespace it.ch), ?_, ?_⟩
  · simp [lead]
  · intro it hit
    exact List.all_eq_true.mp (List.all_takeWhile (p := fun it : Item P => cc.isWhitespace it.ch)) it hit

theorem AllWs.nil : AllWs cc ([] : List (Item P)) := by intro _ h; cases h

theorem Reads.nest_cons {Mem : α → α → Prop} {RT : τ → List (Item P) → Prop} {c s a ds a'}
    (h : Reads cc RT Mem lookup c s a ds a') (hc : c = .nest) :
    ∃ it r, s = it :: r ∧ cc.isNestStart it.ch = true := by
  cases h <;> first | exact ⟨_, _, rfl, by assumption⟩ | cases hc

theorem TextOf.head_not_delim (D : cc.Disjoint) {it : Item P} {s c : List (Item P)}
    (h : TextOf cc cc.delim (it :: s) c) : cc.delim it.ch = false := by
  cases h with
  | plain h => exact h
  | escaped h => exact stop_not_esc D h (m := .base)

theorem Reads.head_not_end (D : cc.Disjoint) {RT : τ → List (Item P) → Prop} {c it s s' a ds a'}
    (h : Reads cc RT Mem lookup c s' a ds a') (hc : ∃ b, c = .forms false b) (hs : s' = it :: s) :
    cc.isNestEnd it.ch = false := by
  obtain ⟨b, hc⟩ := hc
  cases h with
  | nil => cases hs
  | @text _ s0 _ _ _ _ _ _ _ h1 h2 =>
    cases s0 with
    | nil => exact absurd rfl h1
    | cons x s0 =>
      cases hs
      exact (delim_false (h2.head_not_delim D)).2
  | form h1 =>
    obtain ⟨x, r, rfl, h⟩ := h1.nest_cons rfl
    cases hs
    exact D.start_end _ h
  | removed h1 =>
    obtain ⟨x, r, rfl, h⟩ := h1.nest_cons rfl
    cases hs
    exact D.start_end _ h
  | _ => cases hc

theorem RawOf.head_not_end (D : cc.Disjoint) {it : Item P} {s c : List (Item P)}
    (h : RawOf cc (it :: s) c) : cc.isNestEnd it.ch = false := by
  cases h with
  | plain h => exact (delim_false h).2
  | escaped h => exact stop_not_esc D h (m := .operands)
  | nest h => exact D.start_end _ h

/-- After a head, one whitespace character is dropped. -/
theorem dropSep_sep {r1 s e r' : List (Item P)} {k : Bool} (h : dropSep cc r1 = s ++ r')
    (hk : k = true → AtHeadDelim cc r1) (he : r' = e)
    (hs : ∀ it s', s = it :: s' → cc.isNestEnd it.ch = false) :
    ∃ sep, r1 = sep ++ s ++ r' ∧ Sep cc k sep s := by
  cases r1 with
  | nil =>
    simp only [dropSep] at h
    obtain ⟨rfl, rfl⟩ := List.append_eq_nil_iff.mp h.symm
    exact ⟨[], rfl, .empty⟩
  | cons it r =>
    simp only [dropSep] at h
    split at h
    · rename_i hw
      subst h
      exact ⟨[it], by simp, .one hw⟩
    · rename_i hw
      simp only [Bool.not_eq_true] at hw
      cases s with
      | nil => exact ⟨[], by simpa using h, .empty⟩
      | cons x s =>
        simp only [List.cons_append, List.cons.injEq] at h
        obtain ⟨rfl, rfl⟩ := h
        refine ⟨[], by simp, .none hw fun hk' => ?_⟩
        have h1 := hk hk' it rfl
        have h2 := hs it s rfl
        simpa [Classifier.headDelim, Classifier.delim, hw, h2] using h1

theorem dropSep_ne_nil {r : List (Item P)} (h : dropSep cc r ≠ []) : r ≠ [] := by
  rintro rfl
  exact h rfl

/-- Successful jobs read what is written. -/
theorem Eval.sound (D : cc.Disjoint) (M : MemOk X al Mem) {j r a o r' a'}
    (h : Eval cc X al lookup j r a o r' a') : Sound cc X lookup Mem j r a o r' a' := by
  induction h with
  | @next_eof m d r a o h ho =>
    cases m with
    | operands => trivial
    | base =>
      intro l hl hd
      subst h
      rcases eofForm_cases ho with ⟨rfl, rfl⟩ | ⟨_, rfl⟩
      · cases hl
        exact ⟨fun _ => ⟨[], rfl, fun _ _ => .nil⟩, fun _ h => by cases h⟩
      · cases hl
    | operator =>
      intro l hl hd
      rcases eofForm_cases ho with ⟨rfl, rfl⟩ | ⟨_, rfl⟩
      · exact absurd rfl hd
      · cases hl
  | @next_nest m d r a it r1 o r' a' h1 h2 h3 h4 ih =>
    have hle := h3.le_one
    cases m with
    | operands => trivial
    | base =>
      intro l hl hd
      subst hl
      refine ⟨fun h => absurd (by rw [h]) h4, ?_⟩
      rintro x rfl
      rw [lead_base] at h1
      subst h1
      obtain ⟨s, hs, hr⟩ := ih _ rfl (by omega) (by rintro _ ⟨⟩; exact h2)
      exact Or.inl ⟨s, false, hs, fun h => (by cases h), fun b _ rest a₁ ds a₂ hm hrest =>
        .form hr hm hrest⟩
    | operator =>
      intro l hl hd hne
      subst hl
      obtain ⟨ws, rfl, hws⟩ := lead_split rfl h1
      obtain ⟨s, hs, hr⟩ := ih _ rfl (by omega) (by rintro _ ⟨⟩; exact h2)
      match l, hle _ rfl, h4 with
      | [x], _, _ =>
        exact ⟨ws ++ s, false, by rw [hs, List.append_assoc], .nestHead hws hr,
          fun h => (by cases h), fun h => (by cases h)⟩
      | [], _, h4 => exact absurd rfl h4
  | @next_removed m d r a it r1 r2 a2 o r' a' h1 h2 h3 h4 ih1 ih2 =>
    cases m with
    | operands => trivial
    | base =>
      intro l hl hd
      rw [lead_base] at h1
      subst h1
      obtain ⟨s, hs, hr⟩ := ih1 _ rfl (by omega) (by rintro _ ⟨⟩; exact h2)
      obtain ⟨ih3, ih4⟩ := ih2 l hl hd
      rw [hs]
      refine ⟨fun hnil => ?_, fun x hx => ?_⟩
      · obtain ⟨s2, rfl, h5⟩ := ih3 hnil
        exact ⟨s ++ s2, by simp, fun b _ => .removed hr (h5 false (fun h => (by cases h)))⟩
      · rcases ih4 x hx with ⟨s2, k, rfl, h5, h6⟩ | ⟨hd, hr', h6⟩
        · refine Or.inl ⟨s ++ s2, k, by simp, h5, fun b _ rest a₁ ds a₂ hm hrest => ?_⟩
          rw [List.append_assoc]
          exact .removed hr (h6 false (fun h => (by cases h)) _ _ _ _ hm hrest)
        · exact Or.inr ⟨hd, hr', fun b _ a₁ hm => .removed hr (h6 false (fun h => (by cases h)) _ hm)⟩
    | operator =>
      intro l hl hd hne
      obtain ⟨ws, rfl, hws⟩ := lead_split rfl h1
      obtain ⟨s, hs, hr⟩ := ih1 _ rfl (by omega) (by rintro _ ⟨⟩; exact h2)
      obtain ⟨s2, k, rfl, h5, h6⟩ := ih2 l hl hd hne
      exact ⟨ws ++ s ++ s2, k, by rw [hs]; simp, .removedHead hws hr h5, h6⟩
  | @next_end m d r a it r1 o r' h1 h2 h3 ho =>
    rcases endForm_cases ho with ⟨rfl, rfl, rfl⟩ | ⟨hd, rfl, rfl⟩
    · cases m with
      | operands => trivial
      | base => intro l hl; cases hl
      | operator => intro l hl; cases hl
    · cases m with
      | operands => trivial
      | base =>
        intro l hl _
        cases hl
        rw [lead_base] at h1
        subst h1
        exact ⟨fun _ => ⟨[], rfl, fun _ _ => .nil⟩, fun _ h => by cases h⟩
      | operator =>
        intro l hl _ _
        cases hl
        obtain ⟨ws, rfl, hws⟩ := lead_split rfl h1
        exact ⟨ws, false, rfl, .noHead hws, fun h => (by cases h), fun _ => rfl⟩
  | @next_text m d r a it r1 o r' a' h1 h2 h3 ho =>
    rcases ho with ⟨t, ⟨hra, hev⟩, rfl⟩ | ⟨e, _, rfl⟩
    · rcases hev with ⟨t', c, ht, hsc, hrt⟩ | ⟨h, _⟩ | ⟨_, h, _⟩ | ⟨_, ⟨_, h⟩, _⟩
      · cases ht
        cases m with
        | operands => trivial
        | base =>
          intro l hl hd
          cases hl
          refine ⟨fun h => (by cases h), fun x hx => ?_⟩
          cases hx
          rw [lead_base] at h1
          subst h1
          have hb : ∀ b, (b = true → AtDelim cc (it :: r1)) → b = false := by
            intro b hb
            cases b with
            | false => rfl
            | true => exact ((hb rfl).not_text h2 h3).elim
          rcases scanText_textOf (by simp) hsc with ⟨s, hs, hto, hst⟩ | ⟨s, e, hs, rfl, he, hto⟩
          · refine Or.inl ⟨s, true, hs, ?_, ?_⟩
            · intro _ x hx
              rcases hst with rfl | ⟨y, r2, rfl, h, _⟩
              · cases hx
              · cases hx; exact h
            · intro b hb' rest a₁ ds a₂ hm hrest
              cases hb b hb'
              refine .text ?_ hto hrt (M.trans _ _ _ (M.text _ _ hra) hm) hrest
              rintro rfl
              simp only [List.nil_append] at hs
              subst hs
              rcases hst with h | ⟨y, r2, h, h', _⟩
              · cases h
              · cases h; simp [stopOf, Classifier.delim, h2, h3] at h'
          · refine Or.inr ⟨?_, rfl, fun b hb' a₁ hm => ?_⟩
            · by_cases h0 : d = 0
              · exact h0
              · exact absurd rfl (hd h0)
            · cases hb b hb'
              rw [hs]
              exact .dangling hto he hrt (M.trans _ _ _ (M.text _ _ hra) hm)
        | operator =>
          intro l hl hd hne
          cases hl
          have hws1 := lead_head cc h1 rfl
          obtain ⟨ws, rfl, hws⟩ := lead_split rfl h1
          rcases scanText_textOf (by simp) hsc with ⟨s, hs, hto, hst⟩ | ⟨s, e, hs, rfl, he, hto⟩
          · refine ⟨ws ++ s, true, by rw [hs, List.append_assoc], .textHead hws ?_ hto hrt
              (M.text _ _ hra), ?_, fun h => (by cases h)⟩
            · rintro rfl
              simp only [List.nil_append] at hs
              subst hs
              rcases hst with h | ⟨y, r2, h, h', _⟩
              · cases h
              · cases h; simp [stopOf, Classifier.headDelim, Classifier.delim, h2, h3, hws1] at h'
            · intro _ x hx
              rcases hst with rfl | ⟨y, r2, rfl, h, _⟩
              · cases hx
              · cases hx; exact h
          · exact absurd rfl hne
      all_goals cases h
    · cases m with
      | operands => trivial
      | base => intro l hl; cases hl
      | operator => intro l hl; cases hl
  | nested_head_err => intro l hl; cases hl
  | @nested_empty d it r a r1 a1 o r' h1 ho ih =>
    intro l hl hd hst
    rcases finishEmpty_cases ho with ⟨_, rfl, _⟩ | ⟨e, he, rfl⟩
    · cases hl
    cases hl
    rcases h1.at_end rfl with ⟨h, _⟩ | ⟨_, e', r2, rfl, h2, h3, h4⟩
    · exact absurd h hd
    have : dropSep cc (e' :: r2) = e' :: r2 := by simp [dropSep, h4 rfl]
    rw [this] at he
    cases he
    obtain ⟨s, k, rfl, h5, _, h6⟩ := ih _ rfl hd (by simp)
    cases h6 rfl
    exact ⟨it :: (s ++ [e]), by simp, .emptyNest (hst it rfl) h2 h5⟩
  | @nested_operative d it r a h r1 a1 f o r' a' h1 h2 ho ih =>
    intro l hl hd hst
    subst hl
    rcases ho with ⟨t, e, a2, ⟨hra, hev⟩, ho, rfl⟩ | ⟨t, _, h, _⟩ | ⟨e, _, h⟩
    · rcases hev with ⟨t', c, ht, hsc, hrt⟩ | ⟨h, _⟩ | ⟨_, h, _⟩ | ⟨_, ⟨_, h⟩, _⟩
      · cases ht
        obtain ⟨he, s2, h3, h4⟩ := scanText_rawOf hsc
        obtain ⟨s, k, rfl, h5, h6, _⟩ := ih _ rfl hd (dropSep_ne_nil (by rw [h3]; simp))
        obtain ⟨sep, rfl, h7⟩ := dropSep_sep h3 h6 rfl
          (fun x s' hx => by subst hx; exact RawOf.head_not_end D h4)
        rcases hf : f h t a2 with ⟨o' | o', a3⟩
        · rw [hf] at ho; cases ho
        · rw [hf] at ho
          cases ho
          exact ⟨it :: (s ++ sep ++ s2 ++ [e]), by simp,
            .operative (hst it rfl) he h5 h7 h2 h4 hrt (M.text _ _ hra) hf⟩
      all_goals cases h
    all_goals cases h
  | nested_args_err => intro l hl; cases hl
  | @nested_args d it r a h r1 a1 c ds r2 a2 o r' a' h1 h2 h3 ho ih1 ih2 =>
    intro l hl hd hst
    subst hl
    have hend := h3.at_end
    rcases finishNest_cases ho with ⟨_, h, _⟩ | ⟨e, f, rfl, rfl, ho', rfl⟩ | ⟨e, rfl, rfl, ho', rfl⟩
    · cases h
    all_goals
      rcases hend _ rfl with ⟨h, _⟩ | ⟨_, e', r2, hr, h4, h5⟩
      · exact absurd h hd
      cases hr
      obtain ⟨s2, hs2, h6⟩ := ih2 _ rfl hd (by simp)
      have h7 := h6 false (fun h => (by cases h))
      obtain ⟨s, k, rfl, h8, h9, _⟩ := ih1 _ rfl hd (dropSep_ne_nil (by rw [hs2]; simp))
      obtain ⟨sep, rfl, h10⟩ := dropSep_sep hs2 h9 rfl
        (fun x s' hx => h7.head_not_end D ⟨_, rfl⟩ hx)
      refine ⟨it :: (s ++ sep ++ s2 ++ [e]), by simp, ?_⟩
    · cases h2 with
      | applicative h2 =>
        rw [mkList_eq_listOf] at ho' ⊢
        rcases hf : f h (listOf ds) a2 with ⟨o' | o', a3⟩
        · rw [hf] at ho'; cases ho'
        · rw [hf] at ho'
          cases ho'
          exact .applicative (hst it rfl) h4 h8 h10 h2 h7 hf
    · cases h2 with
      | unbound h2 =>
        obtain ⟨h11, rfl⟩ := M.comb (Prod.ext ho'.symm rfl)
        rw [mkList_eq_listOf] at h11 ⊢
        exact .combination (hst it rfl) h4 h8 h10 h2 h7 h11
  | all_err => intro l hl; cases hl
  | @all_nil d r a r' a' h1 ih =>
    intro l hl hd hne
    cases hl
    obtain ⟨s, hs, h2⟩ := (ih _ rfl (fun _ => hne)).1 rfl
    have : (d == 0) = false := by simpa using hd
    rw [this] at h2
    exact ⟨s, hs, h2⟩
  | all_alloc_err => intro l hl; cases hl
  | all_cons_err => intro l hl; cases hl
  | @all_cons d r a x r1 a1 u a2 ds r' a' h1 h2 h3 ih1 ih2 =>
    intro l hl hd hne
    cases hl
    have hlen := h3.length
    simp only [LenP] at hlen
    have hne1 : r1 ≠ [] := by
      rintro rfl
      simp only [List.length_nil, Nat.le_zero_eq, List.length_eq_zero_iff] at hlen
      exact hne hlen
    have hd0 : (d == 0) = false := by simpa using hd
    rcases (ih1 _ rfl (fun _ => hne1)).2 _ rfl with ⟨s, k, rfl, h4, h5⟩ | ⟨h, _⟩
    · obtain ⟨s2, rfl, h6⟩ := ih2 _ rfl hd hne
      rw [hd0] at h5
      exact ⟨s ++ s2, by simp, fun b hb => h5 b hb _ _ _ _ (M.cell h2) (h6 k h4)⟩
    · exact absurd h hd

end Kul
