import Verif.Proof.Balance
import Verif.Proof.Yields

/-! # Errors of the parser are failures of reading -/

namespace Kul

variable {P τ ε α CE : Type} {cc : Classifier} {X : TextSem P τ α} {al : AllocOps τ ε α}
  {lookup : Datum τ ε → Option (Combiner τ ε α P CE)} {Mem : α → α → Prop}

theorem TextRes.cons_unbalanced {it : Item P} {t : TextRes P} {p r}
    (h : t.cons it = .unbalanced p r) : t = .unbalanced p r := by
  cases t <;> simp only [TextRes.cons, reduceCtorEq] at h
  exact h

/-- A text that runs into an unbalanced end. -/
theorem scanText_unbalanced {m : Mode} (hm : m ≠ .operands) {top : Bool} {r r' : List (Item P)} {p : P}
    (h : scanText cc m top 0 r = .unbalanced p r') :
    top = true ∧ ∃ s c x, r = s ++ x :: r' ∧ TextOf cc (stopOf cc m) s c ∧ cc.isNestEnd x.ch = true ∧
      x.pos = p := by
  induction hn : r.length using Nat.strongRecOn generalizing r with
  | ind n ih =>
    subst hn
    match r with
    | [] => unfold scanText at h; simp at h
    | it :: r =>
      rw [scanText_cons] at h
      split at h
      · cases h
      rename_i hend
      simp only [true_and, Bool.not_eq_true] at hend
      split at h
      · rename_i hesc
        cases r with
        | nil => simp at h
        | cons x r2 =>
          obtain ⟨h0, s, c, y, rfl, h1, h2⟩ := ih r2.length (by simp; omega) (TextRes.cons_unbalanced h) rfl
          exact ⟨h0, it :: x :: s, _, y, rfl, .escaped hesc h1, h2⟩
      rename_i hesc
      simp only [Bool.not_eq_true] at hesc
      split at h
      · rename_i hst
        exfalso
        cases m with
        | base => simp [isEndChar, hst] at hend
        | operator => simp [isEndChar, hst] at hend
        | operands => exact hm rfl
      rename_i hst
      simp only [Bool.not_eq_true] at hst
      split at h
      · rename_i hfin
        rw [if_neg (by omega)] at h
        split at h
        · rename_i htop
          cases h
          exact ⟨htop, [], [], it, rfl, .nil, hfin, rfl⟩
        · cases h
      · rename_i hfin
        simp only [Bool.not_eq_true] at hfin
        obtain ⟨h0, s, c, y, rfl, h1, h2⟩ := ih r.length (by simp) (TextRes.cons_unbalanced h) rfl
        refine ⟨h0, it :: s, _, y, rfl, .plain ?_ hesc h1, h2⟩
        cases m with
        | base => simp [stopOf, Classifier.delim, hst, hfin]
        | operator =>
          simp only [isEndChar, Bool.or_eq_false_iff] at hend
          simp [stopOf, Classifier.headDelim, Classifier.delim, hst, hfin, hend]
        | operands => exact absurd rfl hm

theorem neverClosed_of_scan (D : cc.Disjoint) {top : Bool} {r : List (Item P)}
    (h : ∀ c e r', scanText cc .operands top 0 r ≠ .ok c (e :: r')) : NeverClosed cc r := by
  rintro s₁ x s₂ c rfl hx hr
  exact h _ _ _ (scanText_of_raw D hr hx s₂)

theorem MemOk.cell_err (M : MemOk X al Mem) {d a e a'}
    (h : allocCell (P := P) (CE := CE) al d a = (.error e, a')) : Mem a a' := by
  unfold allocCell at h
  have h1 := M.alloc d a
  rcases h2 : al.newDatum d a with ⟨_ | _, b⟩ <;> rw [h2] at h h1 <;> simp only at h h1
  · cases h; exact h1
  have h3 := M.alloc .emptyList b
  rcases h4 : al.newDatum .emptyList b with ⟨_ | _, c⟩ <;> rw [h4] at h h3 <;> simp only at h h3
  · cases h; exact M.trans _ _ _ h1 h3
  split at h
  · cases h
  · cases h; exact M.trans _ _ _ h1 h3

theorem MemOk.comb_err (M : MemOk X al Mem) {d l a e a'}
    (h : allocComb (P := P) (CE := CE) al d l a = (.error e, a')) : Mem a a' := by
  unfold allocComb at h
  have h1 := M.alloc d a
  rcases h2 : al.newDatum d a with ⟨_ | _, b⟩ <;> rw [h2] at h h1 <;> simp only at h h1
  · cases h; exact h1
  have h3 := M.alloc l b
  rcases h4 : al.newDatum l b with ⟨_ | _, c⟩ <;> rw [h4] at h h3 <;> simp only at h h3
  · cases h; exact M.trans _ _ _ h1 h3
  · cases h

/-- The next item, if any, ends a text that is not a head, without an error. -/
def AtNext (cc : Classifier) (top : Bool) (r : List (Item P)) : Prop :=
  ∀ it, r.head? = some it → cc.delim it.ch = true ∧ (top = true → cc.isNestStart it.ch = true)

theorem AtNext.not_text {top : Bool} {it : Item P} {r : List (Item P)} (h : AtNext cc top (it :: r))
    (h1 : cc.isNestStart it.ch = false) (h2 : cc.isNestEnd it.ch = false) : False := by
  have := (h it rfl).1
  simp [Classifier.delim, h1, h2] at this

variable (cc X al lookup Mem)

/-- The failures of reading with the memory errors of the parser. -/
abbrev FailsAt := Fails cc X.RT Mem (MemoryError (P := P) (CE := CE) X.F al) lookup

/-- Meaning of a failed job, and of a successful one that is followed by a failure. -/
def FailSound (j : Job) (r : List (Item P)) (a : α) (o : Except (Err P CE) (List (Datum τ ε)))
    (r' : List (Item P)) (a' : α) : Prop :=
  match j with
  | .nested d => ∀ e, o = .error e → d ≠ 0 →
      (∀ it, r.head? = some it → cc.isNestStart it.ch = true) →
      ∃ s, r = s ++ r' ∧ FailsAt cc X al lookup Mem .nest s r' a [] e a'
  | .all d => ∀ e, o = .error e → d ≠ 0 →
      ∃ s ds, r = s ++ r' ∧ ∀ b, (b = true → AtNext cc false r) →
        FailsAt cc X al lookup Mem (.forms false b) s r' a ds e a'
  | .next .operator d =>
      (∀ e, o = .error e → d ≠ 0 →
        ∃ s, r = s ++ r' ∧ FailsAt cc X al lookup Mem (.head false) s r' a [] e a') ∧
      (∀ l, o = .ok l → d ≠ 0 → r' = [] →
        (∃ k, Reads cc X.RT Mem lookup (.head k) r a l a') ∨
        (∀ a₁ e, Mem a' a₁ → (e = .missingEndChar ∨ MemoryError X.F al e) →
          FailsAt cc X al lookup Mem (.head false) r [] a [] e a₁))
  | .next .base d =>
      (∀ e, o = .error e → ∃ s, r = s ++ r' ∧ ∀ b, (b = true → AtNext cc (d == 0) r) →
        FailsAt cc X al lookup Mem (.forms (d == 0) b) s r' a [] e a') ∧
      (∀ x, o = .ok [x] →
        (∃ s k, r = s ++ r' ∧ (k = true → AtNext cc (d == 0) r') ∧
          (∀ b, (b = true → AtNext cc (d == 0) r) → ∀ r₁ rest a₁ ds e a₂, Mem a' a₁ →
            FailsAt cc X al lookup Mem (.forms (d == 0) k) r₁ rest a₁ ds e a₂ →
            FailsAt cc X al lookup Mem (.forms (d == 0) b) (s ++ r₁) rest a (x :: ds) e a₂) ∧
          (d ≠ 0 → ∀ b, (b = true → AtNext cc false r) → ∀ rest a₁ e, Mem a' a₁ →
            MemoryError X.F al e → FailsAt cc X al lookup Mem (.forms false b) s rest a [] e a₁)) ∨
        (r' = [] ∧ (d ≠ 0 → ∀ b, (b = true → AtNext cc false r) → ∀ a₁, Mem a' a₁ →
          FailsAt cc X al lookup Mem (.forms false b) r [] a [x] .missingEndChar a₁ ∧
          ∀ e, MemoryError X.F al e → FailsAt cc X al lookup Mem (.forms false b) r [] a [] e a₁)))
  | .next .operands _ => True

variable {cc X al lookup Mem}

theorem StartsText.of_suffix {it : Item P} {r1 r' : List (Item P)} (h2 : cc.isNestStart it.ch = false)
    (h3 : cc.isNestEnd it.ch = false) (hs : r' <:+ it :: r1) (hl : r'.length < (it :: r1).length) :
    ∃ s, it :: r1 = s ++ r' ∧ StartsText cc s := by
  obtain ⟨s, hs⟩ := hs
  cases s with
  | nil => simp only [List.nil_append] at hs; subst hs; omega
  | cons x s =>
    simp only [List.cons_append, List.cons.injEq] at hs
    obtain ⟨rfl, rfl⟩ := hs
    exact ⟨x :: s, rfl, x, s, rfl, by simp [Classifier.delim, h2, h3]⟩

/-- At the end of the source inside a nest. -/
theorem Eval.all_of_nil {d a e r' a'} (h : Eval cc X al lookup (.all d) [] a (.error e) r' a') :
    e = .missingEndChar ∧ r' = [] ∧ a' = a ∧ d ≠ 0 := by
  have key : ∀ {o r' a'}, Eval cc X al lookup (.next .base d) [] a o r' a' →
      eofForm d = o ∧ r' = [] ∧ a' = a := by
    intro o r' a' h
    cases h with
    | next_eof _ ho => exact ⟨ho, rfl, rfl⟩
    | next_nest h => cases h
    | next_removed h => cases h
    | next_end h => cases h
    | next_text h => cases h
  cases h with
  | all_err h =>
    obtain ⟨h4, rfl, rfl⟩ := key h
    rcases eofForm_cases h4 with ⟨_, h5⟩ | ⟨hd, h5⟩
    · cases h5
    · cases h5; exact ⟨rfl, rfl, rfl, hd⟩
  | all_alloc_err h =>
    obtain ⟨h, _⟩ := key h
    rcases eofForm_cases h with ⟨_, h⟩ | ⟨hd, h⟩ <;> cases h
  | all_cons_err h =>
    obtain ⟨h, _⟩ := key h
    rcases eofForm_cases h with ⟨_, h⟩ | ⟨hd, h⟩ <;> cases h

theorem Fails.head_not_end (D : cc.Disjoint) {RT : τ → List (Item P) → Prop} {MF : Err P CE → Prop}
    {c it s s' rest a ds e a'}
    (h : Fails cc RT Mem MF lookup c s' rest a ds e a') (hc : ∃ b, c = .forms false b ∨ c = .nest)
    (hs : s' = it :: s) : cc.isNestEnd it.ch = false := by
  obtain ⟨b, hc⟩ := hc
  induction h generalizing b it s with
  | @afterText _ s0 _ _ _ _ _ _ _ _ _ h1 h2 =>
    cases s0 with
    | nil => exact absurd rfl h1
    | cons x s0 => cases hs; exact (delim_false (h2.head_not_delim D)).2
  | afterForm h1 =>
    obtain ⟨x, r, rfl, h⟩ := h1.nest_cons rfl
    cases hs; exact D.start_end _ h
  | afterRemoved h1 =>
    obtain ⟨x, r, rfl, h⟩ := h1.nest_cons rfl
    cases hs; exact D.start_end _ h
  | inNest _ ih => exact ih hs b (Or.inr rfl)
  | formsOpen => cases hs
  | @formsOpenEscape s0 _ _ _ _ _ h1 h2 =>
    cases s0 with
    | nil => cases hs; exact stop_not_esc D h2 (m := .operands)
    | cons x s0 => cases hs; exact (delim_false (h1.head_not_delim D)).2
  | textMemory h1 =>
    obtain ⟨x, s0, rfl, h⟩ := h1
    cases hs; exact (delim_false h).2
  | formMemory h1 =>
    obtain ⟨x, r, rfl, h⟩ := h1.nest_cons rfl
    cases hs; exact D.start_end _ h
  | unbalanced => rcases hc with h | h <;> cases h
  | textUnbalanced => rcases hc with h | h <;> cases h
  | headOpen => rcases hc with h | h <;> cases h
  | headOpenEscape => rcases hc with h | h <;> cases h
  | headNest => rcases hc with h | h <;> cases h
  | headRemoved => rcases hc with h | h <;> cases h
  | headMemory => rcases hc with h | h <;> cases h
  | _ => cases hs; exact D.start_end _ (by assumption)


/-- The head of a nest was read, whether or not something follows it; or the source ended in it. -/
theorem Eval.head_cases (D : cc.Disjoint) (M : MemOk X al Mem) {d r a h r1 a1}
    (h1 : Eval cc X al lookup (.next .operator d) r a (.ok [h]) r1 a1)
    (ih : FailSound cc X al lookup Mem (.next .operator d) r a (.ok [h]) r1 a1) (hd : d ≠ 0) :
    (∃ s k, r = s ++ r1 ∧ Reads cc X.RT Mem lookup (.head k) s a [h] a1 ∧
        (k = true → AtHeadDelim cc r1)) ∨
      (r1 = [] ∧ ∀ a₁ e, Mem a1 a₁ → (e = .missingEndChar ∨ MemoryError X.F al e) →
        FailsAt cc X al lookup Mem (.head false) r [] a [] e a₁) := by
  by_cases hr1 : r1 = []
  · subst hr1
    rcases ih.2 _ rfl hd rfl with ⟨k, h5⟩ | h5
    · exact Or.inl ⟨r, k, by simp, h5, fun _ _ h => by cases h⟩
    · exact Or.inr ⟨rfl, h5⟩
  · have hsd : Sound cc X lookup Mem (.next .operator d) _ _ _ _ _ := h1.sound D M
    obtain ⟨s, k, h5, h6, h7, _⟩ := hsd _ rfl hd hr1
    exact Or.inl ⟨s, k, h5, h6, h7⟩

theorem ArgComb.not_operative {h : Datum τ ε} {c} (H : ArgComb lookup h c) :
    ∀ f, lookup h ≠ some (.operative f) := by
  intro f hf
  cases H with
  | unbound h => rw [h] at hf; cases hf
  | applicative h => rw [h] at hf; cases hf

/-- Failed jobs fail as the specification says. -/
theorem Eval.fail_sound (D : cc.Disjoint) (M : MemOk X al Mem) {j r a o r' a'}
    (h : Eval cc X al lookup j r a o r' a') : FailSound cc X al lookup Mem j r a o r' a' := by
  induction h with
  | @next_eof m d r a o h ho =>
    cases m with
    | operands => trivial
    | base =>
      rw [lead_base] at h
      subst h
      rcases eofForm_cases ho with ⟨rfl, rfl⟩ | ⟨hd, rfl⟩
      · exact ⟨fun e h => (by cases h), fun x h => (by cases h)⟩
      · refine ⟨fun e h => ?_, fun x h => (by cases h)⟩
        cases h
        have hd0 : (d == 0) = false := by simpa using hd
        rw [hd0]
        exact ⟨[], rfl, fun _ _ => .formsOpen⟩
    | operator =>
      obtain ⟨ws, rfl, hws⟩ := lead_split rfl h
      rcases eofForm_cases ho with ⟨rfl, rfl⟩ | ⟨hd, rfl⟩
      · exact ⟨fun e h => (by cases h), fun l _ h => absurd rfl h⟩
      · refine ⟨fun e h _ => ?_, fun l h => by cases h⟩
        cases h
        exact ⟨ws, rfl, .headOpen hws⟩
  | @next_nest m d r a it r1 o r' a' h1 h2 h3 h4 ih =>
    have hle := h3.le_one
    have hsd := h3.sound D M
    have hst : ∀ x, (it :: r1).head? = some x → cc.isNestStart x.ch = true := by rintro _ ⟨⟩; exact h2
    cases m with
    | operands => trivial
    | base =>
      rw [lead_base] at h1
      subst h1
      refine ⟨fun e he => ?_, fun x hx => ?_⟩
      · obtain ⟨s, hs, hf⟩ := ih e he (by omega) hst
        exact ⟨s, hs, fun b _ => .inNest hf⟩
      · obtain ⟨s, hs, hr⟩ := hsd _ hx (by omega) hst
        exact Or.inl ⟨s, false, hs, fun h => (by cases h),
          fun b _ r₁ rest a₁ ds e a₂ hm hf => .afterForm hr hm hf,
          fun _ b _ rest a₁ e hm he => .formMemory hr hm he⟩
    | operator =>
      obtain ⟨ws, rfl, hws⟩ := lead_split rfl h1
      refine ⟨fun e he hd => ?_, fun l hl hd hne => ?_⟩
      · obtain ⟨s, hs, hf⟩ := ih e he (by omega) hst
        exact ⟨ws ++ s, by rw [hs, List.append_assoc], .headNest hws hf⟩
      · subst hl
        obtain ⟨s, hs, hr⟩ := hsd _ rfl (by omega) hst
        subst hne
        rw [List.append_nil] at hs
        subst hs
        match l, hle _ rfl, h4 with
        | [x], _, _ => exact Or.inl ⟨false, .nestHead hws hr⟩
        | [], _, h4 => exact absurd rfl h4
  | @next_removed m d r a it r1 r2 a2 o r' a' h1 h2 h3 h4 ih1 ih2 =>
    have hst : ∀ x, (it :: r1).head? = some x → cc.isNestStart x.ch = true := by rintro _ ⟨⟩; exact h2
    obtain ⟨s, hs, hr⟩ := (h3.sound D M : Sound cc X lookup Mem _ _ _ _ _ _) _ rfl (by omega) hst
    cases m with
    | operands => trivial
    | base =>
      rw [lead_base] at h1
      subst h1
      obtain ⟨ih3, ih4⟩ := ih2
      rw [hs]
      refine ⟨fun e he => ?_, fun x hx => ?_⟩
      · obtain ⟨s2, rfl, h5⟩ := ih3 e he
        exact ⟨s ++ s2, by simp, fun b _ => .afterRemoved hr (h5 false (fun h => (by cases h)))⟩
      · rcases ih4 x hx with ⟨s2, k, rfl, h5, h6, h7⟩ | ⟨hr', h6⟩
        · refine Or.inl ⟨s ++ s2, k, by simp, h5, fun b _ r₁ rest a₁ ds e a₂ hm hrest => ?_,
            fun hd b _ rest a₁ e hm he => ?_⟩
          · rw [List.append_assoc]
            exact .afterRemoved hr (h6 false (fun h => (by cases h)) _ _ _ _ _ _ hm hrest)
          · exact .afterRemoved hr (h7 hd false (fun h => (by cases h)) _ _ _ hm he)
        · exact Or.inr ⟨hr', fun hd b _ a₁ hm =>
            ⟨.afterRemoved hr (h6 hd false (fun h => (by cases h)) _ hm).1,
              fun e he => .afterRemoved hr ((h6 hd false (fun h => (by cases h)) _ hm).2 e he)⟩⟩
    | operator =>
      obtain ⟨ws, rfl, hws⟩ := lead_split rfl h1
      obtain ⟨ih3, ih4⟩ := ih2
      refine ⟨fun e he hd => ?_, fun l hl hd hne => ?_⟩
      · obtain ⟨s2, rfl, h5⟩ := ih3 e he hd
        exact ⟨ws ++ s ++ s2, by rw [hs]; simp, .headRemoved hws hr h5⟩
      · rw [hs, ← List.append_assoc]
        rcases ih4 l hl hd hne with ⟨k, h5⟩ | h5
        · exact Or.inl ⟨k, .removedHead hws hr h5⟩
        · exact Or.inr fun a₁ e hm he => .headRemoved hws hr (h5 a₁ e hm he)
  | @next_end m d r a it r1 o r' h1 h2 h3 ho =>
    rcases endForm_cases ho with ⟨rfl, rfl, rfl⟩ | ⟨hd, rfl, rfl⟩
    · cases m with
      | operands => trivial
      | base =>
        rw [lead_base] at h1
        subst h1
        refine ⟨fun e he => ?_, fun x h => (by cases h)⟩
        cases he
        refine ⟨[it], rfl, fun b hb => ?_⟩
        cases b with
        | false => exact .unbalanced h3
        | true => exact absurd ((hb rfl it rfl).2 rfl) (by simp [end_not_start D h3])
      | operator => exact ⟨fun e _ h => absurd rfl h, fun l h => by cases h⟩
    · cases m with
      | operands => trivial
      | base => exact ⟨fun e h => (by cases h), fun x h => (by cases h)⟩
      | operator => exact ⟨fun e h => (by cases h), fun l _ _ h => by cases h⟩
  | @next_text m d r a it r1 o r' a' h1 h2 h3 ho =>
    have hb : ∀ top b, (b = true → AtNext cc top (it :: r1)) → b = false := by
      intro top b hb
      cases b with
      | false => rfl
      | true => exact ((hb rfl).not_text h2 h3).elim
    rcases ho with ⟨t, ⟨hra, hev⟩, rfl⟩ | ⟨e, ⟨hra, hev⟩, rfl⟩
    · -- the text is complete
      rcases hev with ⟨t', c, ht, hsc, hrt⟩ | ⟨h, _⟩ | ⟨_, h, _⟩ | ⟨_, ⟨_, h⟩, _⟩
      · cases ht
        cases m with
        | operands => trivial
        | base =>
          refine ⟨fun e h => (by cases h), fun x hx => ?_⟩
          cases hx
          rw [lead_base] at h1
          subst h1
          rcases scanText_textOf (by simp) hsc with ⟨s, hs, hto, hst⟩ | ⟨s, e, hs, rfl, he, hto⟩
          · have hne : s ≠ [] := by
              rintro rfl
              simp only [List.nil_append] at hs
              subst hs
              rcases hst with h | ⟨y, r2, h, h', _⟩
              · cases h
              · cases h; simp [stopOf, Classifier.delim, h2, h3] at h'
            refine Or.inl ⟨s, true, hs, ?_, ?_, ?_⟩
            · intro _ x hx
              rcases hst with rfl | ⟨y, r2, rfl, h, h'⟩
              · cases hx
              · cases hx; exact ⟨h, fun h0 => h' h0 rfl⟩
            · intro b hb' r₁ rest a₁ ds e a₂ hm hrest
              cases hb _ b hb'
              exact .afterText hne hto hrt (M.trans _ _ _ (M.text _ _ hra) hm) hrest
            · intro hd b hb' rest a₁ e hm he
              cases hb _ b hb'
              refine .textMemory ?_ (M.trans _ _ _ (M.text _ _ hra) hm) he
              cases s with
              | nil => exact absurd rfl hne
              | cons x s =>
                cases hs
                exact ⟨it, s, rfl, by simp [Classifier.delim, h2, h3]⟩
          · refine Or.inr ⟨rfl, fun hd b hb' a₁ hm => ?_⟩
            cases hb _ b hb'
            have hm' := M.trans _ _ _ (M.text _ _ hra) hm
            refine ⟨?_, fun e he => ?_⟩
            · rw [hs]
              exact .formsOpenEscape hto he hrt hm'
            · exact .textMemory ⟨it, r1, rfl, by simp [Classifier.delim, h2, h3]⟩ hm' he
        | operator =>
          refine ⟨fun e h => (by cases h), fun l hl hd hne => ?_⟩
          cases hl
          subst hne
          have hws1 := lead_head cc h1 rfl
          obtain ⟨ws, rfl, hws⟩ := lead_split rfl h1
          rcases scanText_textOf (by simp) hsc with ⟨s, hs, hto, hst⟩ | ⟨s, e, hs, _, he, hto⟩
          · rw [List.append_nil] at hs
            subst hs
            exact Or.inl ⟨true, .textHead hws (by simp) hto hrt (M.text _ _ hra)⟩
          · refine Or.inr fun a₁ e' hm he' => ?_
            have hm' := M.trans _ _ _ (M.text _ _ hra) hm
            rcases he' with rfl | he'
            · rw [hs, ← List.append_assoc]
              exact .headOpenEscape hws hto he hm'
            · exact .headMemory hws ⟨it, r1, rfl, by simp [Classifier.delim, h2, h3]⟩ hm' he'
      all_goals cases h
    · -- the text failed
      have hm := M.text _ _ hra
      rcases hev with ⟨_, _, h, _⟩ | ⟨_, h, _⟩ | ⟨p, h, hsc⟩ | ⟨hF, ⟨e', h⟩, hsuf, hlen⟩
      · cases h
      · have hmo : m = .operands := by
          by_contra hmo
          exact scanText_ne_missing cc m hmo _ _ h
        subst hmo
        trivial
      · cases h
        cases m with
        | operands => trivial
        | base =>
          rw [lead_base] at h1
          subst h1
          refine ⟨fun e h => ?_, fun x h => (by cases h)⟩
          cases h
          obtain ⟨htop, s, c, x, hs, hto, hx, rfl⟩ := scanText_unbalanced (by simp) hsc
          refine ⟨s ++ [x], by simpa using hs, fun b hb' => ?_⟩
          cases hb _ b hb'
          rw [htop]
          refine .textUnbalanced ?_ hto hx hm
          rintro rfl
          cases hs
          simp [h3] at hx
        | operator =>
          refine ⟨fun e h hd => ?_, fun l h => by cases h⟩
          obtain ⟨htop, _⟩ := scanText_unbalanced (by simp) hsc
          exact absurd (by simpa using htop) hd
      · cases h
        obtain ⟨s, hs, hst⟩ := StartsText.of_suffix h2 h3 hsuf (hlen (by simp))
        have hme : MemoryError (P := P) (CE := CE) X.F al (.failedAlloc e') := Or.inl ⟨⟨_, rfl⟩, Or.inl hF⟩
        cases m with
        | operands => trivial
        | base =>
          rw [lead_base] at h1
          subst h1
          refine ⟨fun e h => ?_, fun x h => (by cases h)⟩
          cases h
          refine ⟨s, hs, fun b hb' => ?_⟩
          cases hb _ b hb'
          exact .textMemory hst hm hme
        | operator =>
          refine ⟨fun e h hd => ?_, fun l h => by cases h⟩
          cases h
          obtain ⟨ws, rfl, hws⟩ := lead_split rfl h1
          exact ⟨ws ++ s, by rw [hs, List.append_assoc], .headMemory hws hst hm hme⟩
  | @nested_head_err d it r a e r' a' h1 ih =>
    intro e' he hd hst
    cases he
    obtain ⟨s, rfl, hf⟩ := ih.1 _ rfl hd
    exact ⟨it :: s, rfl, .inHead (hst it rfl) hf⟩
  | @nested_empty d it r a r1 a1 o r' h1 ho ih =>
    intro e he hd hst
    subst he
    exfalso
    rcases finishEmpty_cases ho with ⟨h, _⟩ | ⟨_, _, h⟩
    · rcases h1.at_end rfl with ⟨h, _⟩ | ⟨_, e', r2, rfl, h2, h3, h4⟩
      · exact hd h
      · simp [dropSep, h4 rfl] at h
    · cases h
  | @nested_operative d it r a h r1 a1 f o r' a' h1 h2 ho ih =>
    intro e he hd hst
    subst he
    have hhead := h1.head_cases D M ih hd
    rcases ho with ⟨t, x, a2, ⟨hra, hev⟩, ho, rfl⟩ | ⟨t, ⟨hra, hev⟩, ho, rfl⟩ | ⟨e', ⟨hra, hev⟩, ho⟩
    · rcases hev with ⟨t', c, ht, hsc, hrt⟩ | ⟨h, _⟩ | ⟨_, h, _⟩ | ⟨_, ⟨_, h⟩, _⟩
      · cases ht
        obtain ⟨hx, s2, h3, h4⟩ := scanText_rawOf hsc
        rcases hhead with ⟨s, k, rfl, h5, h6⟩ | ⟨rfl, _⟩
        · obtain ⟨sep, rfl, h7⟩ := dropSep_sep h3 h6 rfl
            (fun y s' hy => by subst hy; exact RawOf.head_not_end D h4)
          rcases hf : f h t a2 with ⟨e' | o', a3⟩
          · rw [hf] at ho
            cases ho
            exact ⟨it :: (s ++ sep ++ s2 ++ [x]), by simp,
              .operative (hst it rfl) hx h5 h7 h2 h4 hrt (M.text _ _ hra) hf⟩
          · rw [hf] at ho; cases ho
        · simp [dropSep] at h3
      all_goals cases h
    · cases ho
      have hm := M.text _ _ hra
      rcases hev with ⟨t', c, ht, hsc, hrt⟩ | ⟨h, _⟩ | ⟨_, h, _⟩ | ⟨_, ⟨_, h⟩, _⟩
      · cases ht
        have hnc : NeverClosed cc (dropSep cc r1) := neverClosed_of_scan D (by rw [hsc]; simp)
        rcases hhead with ⟨s, k, rfl, h5, h6⟩ | ⟨rfl, h5⟩
        · obtain ⟨sep, h8, h7⟩ := dropSep_sep (r' := []) (e := []) (s := dropSep cc r1) (by simp) h6 rfl
            (fun y s' hy => by
              cases hye : cc.isNestEnd y.ch with
              | false => rfl
              | true => exact absurd .nil (hnc [] y s' [] hy hye))
          exact ⟨it :: (s ++ sep ++ dropSep cc r1), by
            rw [List.append_nil] at h8 ⊢
            rw [List.append_assoc, ← h8], .rawOpen (hst it rfl) h5 h7 h2 hnc hm⟩
        · exact ⟨it :: r, by simp, .inHead (hst it rfl) (h5 _ _ hm (Or.inl rfl))⟩
      all_goals cases h
    · cases ho
      have hm := M.text _ _ hra
      rcases hev with ⟨_, _, h, _⟩ | ⟨h, hsc, rfl⟩ | ⟨p, h, hsc⟩ | ⟨hF, ⟨e', h⟩, hsuf, hlen⟩
      · cases h
      · cases h
        have hnc : NeverClosed cc (dropSep cc r1) := neverClosed_of_scan D (by rw [hsc]; simp)
        rcases hhead with ⟨s, k, rfl, h5, h6⟩ | ⟨rfl, h5⟩
        · obtain ⟨sep, h8, h7⟩ := dropSep_sep (r' := []) (e := []) (s := dropSep cc r1) (by simp) h6 rfl
            (fun y s' hy => by
              cases hye : cc.isNestEnd y.ch with
              | false => rfl
              | true => exact absurd .nil (hnc [] y s' [] hy hye))
          exact ⟨it :: (s ++ sep ++ dropSep cc r1), by
            rw [List.append_nil] at h8 ⊢
            rw [List.append_assoc, ← h8], .rawOpen (hst it rfl) h5 h7 h2 hnc hm⟩
        · exact ⟨it :: r, by simp, .inHead (hst it rfl) (h5 _ _ hm (Or.inl rfl))⟩
      · exfalso
        rcases scanText_operands (cc := cc) false (dropSep cc r1) 0 with ⟨_, _, _, h', _⟩ | ⟨_, h'⟩ | h' <;>
          rw [h'] at hsc <;> cases hsc
      · cases h
        have hme : MemoryError (P := P) (CE := CE) X.F al (.failedAlloc e') := Or.inl ⟨⟨_, rfl⟩, Or.inl hF⟩
        rcases hhead with ⟨s, k, rfl, h5, h6⟩ | ⟨rfl, h5⟩
        · obtain ⟨u, hu⟩ : r' <:+ r1 := hsuf.trans (by
            cases r1 with
            | nil => exact List.suffix_rfl
            | cons y r1 =>
              simp only [dropSep]
              split
              · exact List.suffix_cons _ _
              · exact List.suffix_rfl)
          subst hu
          exact ⟨it :: (s ++ u), by simp, .rawMemory (hst it rfl) h5 h2 hm hme⟩
        · have : r' = [] := by simpa [dropSep] using hsuf
          subst this
          exact ⟨it :: r, by simp, .inHead (hst it rfl) (h5 _ _ hm (Or.inr hme))⟩
  | @nested_args_err d it r a h r1 a1 c e r' a' h1 h2 h3 ih1 ih2 =>
    intro e' he hd hst
    cases he
    rcases h1.head_cases D M ih1 hd with ⟨s, k, rfl, h5, h6⟩ | ⟨rfl, h5⟩
    · obtain ⟨s2, ds, hs2, h7⟩ := ih2 _ rfl hd
      have h8 := h7 false (fun h => (by cases h))
      obtain ⟨sep, rfl, h10⟩ := dropSep_sep hs2 h6 rfl
        (fun x s' hx => h8.head_not_end D ⟨_, Or.inl rfl⟩ hx)
      exact ⟨it :: (s ++ sep ++ s2), by simp, .inOperands (hst it rfl) h5 h10 h2.not_operative h8⟩
    · simp only [dropSep] at h3
      obtain ⟨rfl, rfl, rfl, _⟩ := h3.all_of_nil
      exact ⟨it :: r, by simp, .inHead (hst it rfl) (h5 _ _ (M.refl _) (Or.inl rfl))⟩
  | @nested_args d it r a h r1 a1 c ds r2 a2 o r' a' h1 h2 h3 ho ih1 ih2 =>
    intro e he hd hst
    subst he
    have hend := h3.at_end
    have hsd : Sound cc X lookup Mem (.all d) _ _ _ _ _ := h3.sound D M
    rcases finishNest_cases ho with ⟨rfl, h, _⟩ | ⟨x, f, rfl, rfl, ho', rfl⟩ | ⟨x, rfl, rfl, ho', rfl⟩
    · rcases hend _ rfl with ⟨h, _⟩ | ⟨_, _, _, hr, _⟩
      · exact absurd h hd
      · cases hr
    all_goals
      rcases hend _ rfl with ⟨h, _⟩ | ⟨_, e', r2, hr, h4, h5⟩
      · exact absurd h hd
      cases hr
      obtain ⟨s2, hs2, h6⟩ := hsd _ rfl hd (by simp)
      have h7 := h6 false (fun h => (by cases h))
      obtain ⟨s, k, rfl, h8, h9⟩ | ⟨rfl, _⟩ := h1.head_cases D M ih1 hd
      swap
      · simp [dropSep] at hs2
      obtain ⟨sep, rfl, h10⟩ := dropSep_sep hs2 h9 rfl
        (fun x s' hx => h7.head_not_end D ⟨_, rfl⟩ hx)
      refine ⟨it :: (s ++ sep ++ s2 ++ [x]), by simp, ?_⟩
    · cases h2 with
      | applicative h2 =>
        rw [mkList_eq_listOf] at ho' ⊢
        rcases hf : f h (listOf ds) a2 with ⟨o' | o', a3⟩
        · rw [hf] at ho'
          cases ho'
          exact .applicative (hst it rfl) h4 h8 h10 h2 h7 hf
        · rw [hf] at ho'; cases ho'
    · cases h2 with
      | unbound h2 =>
        have h11 : allocComb al h (mkList ds) a2 = (.error e, _) := Prod.ext ho'.symm rfl
        exact .combinationMemory (hst it rfl) h4 h8 h10 h2 h7 (M.comb_err h11) (allocComb_error _ h11)
  | @all_err d r a e r' a' h1 ih =>
    intro e' he hd
    cases he
    have hd0 : (d == 0) = false := by simpa using hd
    obtain ⟨s, hs, h2⟩ := ih.1 _ rfl
    rw [hd0] at h2
    exact ⟨s, [], hs, h2⟩
  | all_nil => intro e h; cases h
  | @all_alloc_err d r a x r1 a1 e a2 h1 h2 ih =>
    intro e' he hd
    cases he
    rcases ih.2 _ rfl with ⟨s, k, rfl, _, _, h5⟩ | ⟨rfl, h5⟩
    · exact ⟨s, [], rfl, fun b hb => h5 hd b hb _ _ _ (M.cell_err h2) (allocCell_error _ h2)⟩
    · exact ⟨r, [], by simp, fun b hb => (h5 hd b hb _ (M.cell_err h2)).2 _ (allocCell_error _ h2)⟩
  | @all_cons_err d r a x r1 a1 u a2 e r' a' h1 h2 h3 ih1 ih2 =>
    intro e' he hd
    cases he
    have hd0 : (d == 0) = false := by simpa using hd
    rcases ih1.2 _ rfl with ⟨s, k, rfl, h4, h5, _⟩ | ⟨rfl, h5⟩
    · obtain ⟨s2, ds, rfl, h6⟩ := ih2 _ rfl hd
      rw [hd0] at h5 h4
      exact ⟨s ++ s2, x :: ds, by simp, fun b hb => h5 b hb _ _ _ _ _ _ (M.cell h2) (h6 k h4)⟩
    · obtain ⟨rfl, rfl, rfl, _⟩ := h3.all_of_nil
      exact ⟨r, [x], by simp, fun b hb => (h5 hd b hb _ (M.cell h2)).1⟩
  | all_cons => intro e h; cases h

end Kul
