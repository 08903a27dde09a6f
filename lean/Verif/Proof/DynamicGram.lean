import Verif.Proof.Dynamic

/-!
# Whole parses and grammar, for a parser whose bindings may change

What `Proof/Yields.lean`, `Proof/GramSound.lean` and `Proof/GramComplete.lean` prove, again for the rules of
`Proof/Dynamic.lean` and the meanings of `Spec/Dynamic.lean`.
-/

namespace Kul.Dyn

variable {P τ ε α CE : Type} {cc : Classifier} {X : TextSem P τ α} {al : AllocOps τ ε α}
  {lookup : Datum τ ε → α → Option (Combiner τ ε α P CE) × α} {Mem : α → α → Prop}

/-! ## Whole parses -/

theorem Eval.top_progress {j r a o r' a'} (h : Eval cc X al lookup j r a o r' a') :
    TopProgress j r o r' := by
  induction h with
  | @next_eof m d r a o h ho =>
    cases m <;> cases d <;> first | trivial | (intro h'; exact absurd ho.symm h')
  | @next_nest m d r a it r1 o r' a' h1 h2 h3 h4 ih =>
    cases m <;> cases d <;> try trivial
    rw [lead_base] at h1
    intro _
    rw [h1]; exact h3.length
  | @next_removed m d r a it r1 r2 a2 o r' a' h1 h2 h3 h4 ih1 ih2 =>
    cases m <;> cases d <;> try trivial
    rw [lead_base] at h1
    intro ho
    have := h3.length
    have h5 := ih2 ho
    simp only [LenP] at this
    rw [h1]; omega
  | @next_end m d r a it r1 o r' h1 h2 h3 ho =>
    cases m <;> cases d <;> try trivial
    rw [lead_base] at h1
    intro _
    rcases endForm_cases ho with ⟨_, _, rfl⟩ | ⟨h, _⟩
    · rw [h1]; simp
    · exact absurd rfl h
  | @next_text m d r a it r1 o r' a' h1 h2 h3 ho =>
    cases m <;> cases d <;> try trivial
    intro _
    obtain ⟨o', ho'⟩ := ho.ev
    have := ho'.progress (isEndChar_of_lead cc (by simp) h1 h2 h3) h3
    rw [lead_base] at h1
    rw [h1]; exact this
  | _ => trivial

variable (cc X al lookup)

/-- Successive results at top level, to the end of the source. -/
inductive TopEval : List (Item P) → α → List (Datum τ ε) → List (Item P) → α → Prop where
  | done {r a r' a'} : Eval cc X al lookup (.next .base 0) r a (.ok []) r' a' → TopEval r a [] r' a'
  | step {r a d r₁ a₁ ds r' a'} : Eval cc X al lookup (.next .base 0) r a (.ok [d]) r₁ a₁ →
      TopEval r₁ a₁ ds r' a' → TopEval r a (d :: ds) r' a'

/-- Successive results at top level, errors included, to the end of the source. -/
inductive Run : List (Item P) → α → List (Except (Err P CE) (Datum τ ε)) → List (Item P) → α → Prop where
  | done {r a r' a'} : Eval cc X al lookup (.next .base 0) r a (.ok []) r' a' → Run r a [] r' a'
  | datum {r a d r₁ a₁ l r' a'} : Eval cc X al lookup (.next .base 0) r a (.ok [d]) r₁ a₁ →
      Run r₁ a₁ l r' a' → Run r a (.ok d :: l) r' a'
  | error {r a e r₁ a₁ l r' a'} : Eval cc X al lookup (.next .base 0) r a (.error e) r₁ a₁ →
      Run r₁ a₁ l r' a' → Run r a (.error e :: l) r' a'

variable {cc X al lookup}

theorem TopEval.run {r a ds r' a'} (h : TopEval cc X al lookup r a ds r' a') :
    Run cc X al lookup r a (ds.map .ok) r' a' := by
  induction h with
  | done h => exact .done h
  | step h _ ih => exact .datum h ih

theorem Run.top {r a l r' a'} (h : Run cc X al lookup r a l r' a') :
    ∀ ds, l = ds.map .ok → TopEval cc X al lookup r a ds r' a' := by
  induction h with
  | done h =>
    intro ds hd
    cases ds with
    | nil => exact .done h
    | cons => cases hd
  | datum h _ ih =>
    intro ds hd
    cases ds with
    | nil => cases hd
    | cons d ds =>
      simp only [List.map_cons, List.cons.injEq, Except.ok.injEq] at hd
      obtain ⟨rfl, hd⟩ := hd
      exact .step h (ih ds hd)
  | error h _ ih =>
    intro ds hd
    cases ds <;> cases hd

theorem Run.det (hX : X.Func) {r a l r' a'} (h : Run cc X al lookup r a l r' a') :
    ∀ {l2 r2 a2}, Run cc X al lookup r a l2 r2 a2 → l = l2 ∧ r' = r2 ∧ a' = a2 := by
  induction h with
  | done h =>
    intro l2 r2 a2 h2
    cases h2 with
    | done h' => obtain ⟨_, rfl, rfl⟩ := h.det hX h'; exact ⟨rfl, rfl, rfl⟩
    | datum h' => obtain ⟨h, _⟩ := h.det hX h'; cases h
    | error h' => obtain ⟨h, _⟩ := h.det hX h'; cases h
  | datum h _ ih =>
    intro l2 r2 a2 h2
    cases h2 with
    | done h' => obtain ⟨h, _⟩ := h.det hX h'; cases h
    | datum h' h'' =>
      obtain ⟨h1, rfl, rfl⟩ := h.det hX h'
      cases h1
      obtain ⟨rfl, rfl, rfl⟩ := ih h''
      exact ⟨rfl, rfl, rfl⟩
    | error h' => obtain ⟨h, _⟩ := h.det hX h'; cases h
  | error h _ ih =>
    intro l2 r2 a2 h2
    cases h2 with
    | done h' => obtain ⟨h, _⟩ := h.det hX h'; cases h
    | datum h' => obtain ⟨h, _⟩ := h.det hX h'; cases h
    | error h' h'' =>
      obtain ⟨h1, rfl, rfl⟩ := h.det hX h'
      cases h1
      obtain ⟨rfl, rfl, rfl⟩ := ih h''
      exact ⟨rfl, rfl, rfl⟩

theorem Run.length {r a l r' a'} (h : Run cc X al lookup r a l r' a') : l.length ≤ r.length := by
  induction h with
  | done h => simp
  | datum h _ ih =>
    have : _ < _ := h.top_progress (by simp)
    simp only [List.length_cons]; omega
  | error h _ ih =>
    have : _ < _ := h.top_progress (by simp)
    simp only [List.length_cons]; omega

theorem Run.rest {r a l r' a'} (h : Run cc X al lookup r a l r' a') : r' = [] := by
  induction h with
  | done h =>
    rcases h.at_end rfl with ⟨_, h⟩ | ⟨h, _⟩
    · exact h
    · exact absurd rfl h
  | datum _ _ ih => exact ih
  | error _ _ ih => exact ih

variable {σ : Type} {U : DynEnv σ P τ ε α CE} {RS : σ → Seq P → Prop}

/-- Every parse on a conforming source comes to an end. -/
theorem yields_run (C : Conf U.env RS X) (a : α) : ∀ {s : σ} {r : List (Item P)}, AtItems RS s r →
    ∃ l s' r' a', U.Yields ⟨s, a, 0⟩ l ⟨s', a', 0⟩ ∧ AtItems RS s' r' ∧
      Run U.env.cc X U.env.alloc U.lookup r a l r' a' := by
  suffices H : ∀ n (s : σ) (r : List (Item P)) (a : α), r.length = n → AtItems RS s r →
      ∃ l s' r' a', U.Yields ⟨s, a, 0⟩ l ⟨s', a', 0⟩ ∧ AtItems RS s' r' ∧
        Run U.env.cc X U.env.alloc U.lookup r a l r' a' from fun {s r} h => H _ s r a rfl h
  intro n
  induction n using Nat.strongRecOn with
  | ind n ih =>
    rintro s r a rfl h
    obtain ⟨o, s', r', a', h1, h2, h3⟩ := call C.toJ h a
    have hp : o ≠ .ok [] → r'.length < r.length := h3.top_progress
    have hl : ∀ l, o = .ok l → l.length ≤ 1 := h3.le_one
    match o, hp, hl with
    | .error e, hp, _ =>
      obtain ⟨l, s2, r2, a2, h4, h5, h6⟩ := ih _ (hp (by simp)) s' r' a' rfl h2
      exact ⟨_, s2, r2, a2, .error h1 h4, h5, .error h3 h6⟩
    | .ok [], _, _ => exact ⟨[], s', r', a', .done h1, h2, .done h3⟩
    | .ok [d], hp, _ =>
      obtain ⟨l, s2, r2, a2, h4, h5, h6⟩ := ih _ (hp (by simp)) s' r' a' rfl h2
      exact ⟨_, s2, r2, a2, .datum h1 h4, h5, .datum h3 h6⟩
    | .ok (_ :: _ :: _), _, hl => have := hl _ rfl; simp at this

/-- The items of a parse are a function of the starting state. -/
theorem _root_.Kul.DynEnv.Yields.unique {s : St σ α} {l s'} (h : U.Yields s l s') :
    ∀ {l2 s2}, U.Yields s l2 s2 → l = l2 ∧ s' = s2 := by
  induction h with
  | done h =>
    intro l2 s2 h2
    cases h2 with
    | done h' => exact ⟨rfl, (h.unique h').2⟩
    | datum h' => cases (h.unique h').1
    | error h' => cases (h.unique h').1
  | datum h _ ih =>
    intro l2 s2 h2
    cases h2 with
    | done h' => cases (h.unique h').1
    | datum h' h'' =>
      obtain ⟨h1, rfl⟩ := h.unique h'
      cases h1
      obtain ⟨rfl, rfl⟩ := ih h''
      exact ⟨rfl, rfl⟩
    | error h' => cases (h.unique h').1
  | error h _ ih =>
    intro l2 s2 h2
    cases h2 with
    | done h' => cases (h.unique h').1
    | datum h' => cases (h.unique h').1
    | error h' h'' =>
      obtain ⟨h1, rfl⟩ := h.unique h'
      cases h1
      obtain ⟨rfl, rfl⟩ := ih h''
      exact ⟨rfl, rfl⟩

/-- Every parse on a conforming source follows the rules. -/
theorem yields_inv (C : Conf U.env RS X) {s : σ} {r : List (Item P)} (h : AtItems RS s r) {a : α} {l t}
    (hy : U.Yields ⟨s, a, 0⟩ l t) : ∃ s' a', t = ⟨s', a', 0⟩ ∧ AtItems RS s' [] ∧
      Run U.env.cc X U.env.alloc U.lookup r a l [] a' := by
  obtain ⟨l2, s', r', a', h1, h2, h3⟩ := yields_run C a h
  obtain ⟨rfl, rfl⟩ := hy.unique h1
  have := h3.rest
  subst this
  exact ⟨s', a', rfl, h2, h3⟩

/-! ## Grammar -/

variable (cc X lookup Mem)

/-- Meaning of a successful job. -/
def Sound (j : Job) (r : List (Item P)) (a : α) (o : Except (Err P CE) (List (Datum τ ε)))
    (r' : List (Item P)) (a' : α) : Prop :=
  match j with
  | .nested d => ∀ l, o = .ok l → d ≠ 0 → (∀ it, r.head? = some it → cc.isNestStart it.ch = true) →
      ∃ s, r = s ++ r' ∧ Reads cc X.RT Mem lookup .nest s a l a'
  | .all d => ∀ ds, o = .ok ds → d ≠ 0 → r' ≠ [] →
      ∃ s, r = s ++ r' ∧
        ∀ b, (b = true → AtDelim cc r) → Reads cc X.RT Mem lookup (.forms false b) s a ds a'
  | .next .operator d => ∀ l, o = .ok l → d ≠ 0 → r' ≠ [] →
      ∃ s k, r = s ++ r' ∧ Reads cc X.RT Mem lookup (.head k) s a l a' ∧
        (k = true → AtHeadDelim cc r') ∧ (l = [] → k = false)
  | .next .base d => ∀ l, o = .ok l → (d ≠ 0 → r' ≠ []) →
      (l = [] → ∃ s, r = s ++ r' ∧ ∀ b, (b = true → AtDelim cc r) →
        Reads cc X.RT Mem lookup (.forms (d == 0) b) s a [] a') ∧
      (∀ x, l = [x] → (∃ s k, r = s ++ r' ∧ (k = true → AtDelim cc r') ∧
          ∀ b, (b = true → AtDelim cc r) → ∀ rest a₁ ds a₂, Mem a' a₁ →
            Reads cc X.RT Mem lookup (.forms (d == 0) k) rest a₁ ds a₂ →
            Reads cc X.RT Mem lookup (.forms (d == 0) b) (s ++ rest) a (x :: ds) a₂) ∨
        (d = 0 ∧ r' = [] ∧ ∀ b, (b = true → AtDelim cc r) → ∀ a₁, Mem a' a₁ →
          Reads cc X.RT Mem lookup (.forms true b) r a [x] a₁))
  | .next .operands _ => True

variable {cc X lookup Mem}

theorem Reads.nest_cons {Mem : α → α → Prop} {RT : τ → List (Item P) → Prop} {c s a ds a'}
    (h : Reads cc RT Mem lookup c s a ds a') (hc : c = .nest) :
    ∃ it r, s = it :: r ∧ cc.isNestStart it.ch = true := by
  cases h <;> first | exact ⟨_, _, rfl, by assumption⟩ | cases hc

theorem Reads.head_not_end (D : cc.Disjoint) {RT : τ → List (Item P) → Prop} {c it s s' a ds a'}
    (h : Reads cc RT Mem lookup c s' a ds a') (hc : ∃ b, c = .forms false b) (hs : s' = it :: s) :
    cc.isNestEnd it.ch = false := by
  obtain ⟨b, hc⟩ := hc
  cases h with
  | nil => cases hs
  | @text _ s0 _ _ _ _ _ _ _ h1 h2 =>
    cases s0 with
    | nil => exact absurd rfl h1
    | cons x s0 =>
      cases hs
      exact (delim_false (h2.head_not_delim D)).2
  | form h1 =>
    obtain ⟨x, r, rfl, h⟩ := h1.nest_cons rfl
    cases hs
    exact D.start_end _ h
  | removed h1 =>
    obtain ⟨x, r, rfl, h⟩ := h1.nest_cons rfl
    cases hs
    exact D.start_end _ h
  | _ => cases hc

theorem Eval.sound (D : cc.Disjoint) (M : MemOk X al Mem) {j r a o r' a'}
    (h : Eval cc X al lookup j r a o r' a') : Sound cc X lookup Mem j r a o r' a' := by
  induction h with
  | @next_eof m d r a o h ho =>
    cases m with
    | operands => trivial
    | base =>
      intro l hl hd
      subst h
      rcases eofForm_cases ho with ⟨rfl, rfl⟩ | ⟨_, rfl⟩
      · cases hl
        exact ⟨fun _ => ⟨[], rfl, fun _ _ => .nil⟩, fun _ h => by cases h⟩
      · cases hl
    | operator =>
      intro l hl hd
      rcases eofForm_cases ho with ⟨rfl, rfl⟩ | ⟨_, rfl⟩
      · exact absurd rfl hd
      · cases hl
  | @next_nest m d r a it r1 o r' a' h1 h2 h3 h4 ih =>
    have hle := h3.le_one
    cases m with
    | operands => trivial
    | base =>
      intro l hl hd
      subst hl
      refine ⟨fun h => absurd (by rw [h]) h4, ?_⟩
      rintro x rfl
      rw [lead_base] at h1
      subst h1
      obtain ⟨s, hs, hr⟩ := ih _ rfl (by omega) (by rintro _ ⟨⟩; exact h2)
      exact Or.inl ⟨s, false, hs, fun h => (by cases h), fun b _ rest a₁ ds a₂ hm hrest =>
        .form hr hm hrest⟩
    | operator =>
      intro l hl hd hne
      subst hl
      obtain ⟨ws, rfl, hws⟩ := lead_split rfl h1
      obtain ⟨s, hs, hr⟩ := ih _ rfl (by omega) (by rintro _ ⟨⟩; exact h2)
      match l, hle _ rfl, h4 with
      | [x], _, _ =>
        exact ⟨ws ++ s, false, by rw [hs, List.append_assoc], .nestHead hws hr,
          fun h => (by cases h), fun h => (by cases h)⟩
      | [], _, h4 => exact absurd rfl h4
  | @next_removed m d r a it r1 r2 a2 o r' a' h1 h2 h3 h4 ih1 ih2 =>
    cases m with
    | operands => trivial
    | base =>
      intro l hl hd
      rw [lead_base] at h1
      subst h1
      obtain ⟨s, hs, hr⟩ := ih1 _ rfl (by omega) (by rintro _ ⟨⟩; exact h2)
      obtain ⟨ih3, ih4⟩ := ih2 l hl hd
      rw [hs]
      refine ⟨fun hnil => ?_, fun x hx => ?_⟩
      · obtain ⟨s2, rfl, h5⟩ := ih3 hnil
        exact ⟨s ++ s2, by simp, fun b _ => .removed hr (h5 false (fun h => (by cases h)))⟩
      · rcases ih4 x hx with ⟨s2, k, rfl, h5, h6⟩ | ⟨hd, hr', h6⟩
        · refine Or.inl ⟨s ++ s2, k, by simp, h5, fun b _ rest a₁ ds a₂ hm hrest => ?_⟩
          rw [List.append_assoc]
          exact .removed hr (h6 false (fun h => (by cases h)) _ _ _ _ hm hrest)
        · exact Or.inr ⟨hd, hr', fun b _ a₁ hm => .removed hr (h6 false (fun h => (by cases h)) _ hm)⟩
    | operator =>
      intro l hl hd hne
      obtain ⟨ws, rfl, hws⟩ := lead_split rfl h1
      obtain ⟨s, hs, hr⟩ := ih1 _ rfl (by omega) (by rintro _ ⟨⟩; exact h2)
      obtain ⟨s2, k, rfl, h5, h6⟩ := ih2 l hl hd hne
      exact ⟨ws ++ s ++ s2, k, by rw [hs]; simp, .removedHead hws hr h5, h6⟩
  | @next_end m d r a it r1 o r' h1 h2 h3 ho =>
    rcases endForm_cases ho with ⟨rfl, rfl, rfl⟩ | ⟨hd, rfl, rfl⟩
    · cases m with
      | operands => trivial
      | base => intro l hl; cases hl
      | operator => intro l hl; cases hl
    · cases m with
      | operands => trivial
      | base =>
        intro l hl _
        cases hl
        rw [lead_base] at h1
        subst h1
        exact ⟨fun _ => ⟨[], rfl, fun _ _ => .nil⟩, fun _ h => by cases h⟩
      | operator =>
        intro l hl _ _
        cases hl
        obtain ⟨ws, rfl, hws⟩ := lead_split rfl h1
        exact ⟨ws, false, rfl, .noHead hws, fun h => (by cases h), fun _ => rfl⟩
  | @next_text m d r a it r1 o r' a' h1 h2 h3 ho =>
    rcases ho with ⟨t, ⟨hra, hev⟩, rfl⟩ | ⟨e, _, rfl⟩
    · rcases hev with ⟨t', c, ht, hsc, hrt⟩ | ⟨h, _⟩ | ⟨_, h, _⟩ | ⟨_, ⟨_, h⟩, _⟩
      · cases ht
        cases m with
        | operands => trivial
        | base =>
          intro l hl hd
          cases hl
          refine ⟨fun h => (by cases h), fun x hx => ?_⟩
          cases hx
          rw [lead_base] at h1
          subst h1
          have hb : ∀ b, (b = true → AtDelim cc (it :: r1)) → b = false := by
            intro b hb
            cases b with
            | false => rfl
            | true => exact ((hb rfl).not_text h2 h3).elim
          rcases scanText_textOf (by simp) hsc with ⟨s, hs, hto, hst⟩ | ⟨s, e, hs, rfl, he, hto⟩
          · refine Or.inl ⟨s, true, hs, ?_, ?_⟩
            · intro _ x hx
              rcases hst with rfl | ⟨y, r2, rfl, h, _⟩
              · cases hx
              · cases hx; exact h
            · intro b hb' rest a₁ ds a₂ hm hrest
              cases hb b hb'
              refine .text ?_ hto hrt (M.trans _ _ _ (M.text _ _ hra) hm) hrest
              rintro rfl
              simp only [List.nil_append] at hs
              subst hs
              rcases hst with h | ⟨y, r2, h, h', _⟩
              · cases h
              · cases h; simp [stopOf, Classifier.delim, h2, h3] at h'
          · refine Or.inr ⟨?_, rfl, fun b hb' a₁ hm => ?_⟩
            · by_cases h0 : d = 0
              · exact h0
              · exact absurd rfl (hd h0)
            · cases hb b hb'
              rw [hs]
              exact .dangling hto he hrt (M.trans _ _ _ (M.text _ _ hra) hm)
        | operator =>
          intro l hl hd hne
          cases hl
          have hws1 := lead_head cc h1 rfl
          obtain ⟨ws, rfl, hws⟩ := lead_split rfl h1
          rcases scanText_textOf (by simp) hsc with ⟨s, hs, hto, hst⟩ | ⟨s, e, hs, rfl, he, hto⟩
          · refine ⟨ws ++ s, true, by rw [hs, List.append_assoc], .textHead hws ?_ hto hrt
              (M.text _ _ hra), ?_, fun h => (by cases h)⟩
            · rintro rfl
              simp only [List.nil_append] at hs
              subst hs
              rcases hst with h | ⟨y, r2, h, h', _⟩
              · cases h
              · cases h; simp [stopOf, Classifier.headDelim, Classifier.delim, h2, h3, hws1] at h'
            · intro _ x hx
              rcases hst with rfl | ⟨y, r2, rfl, h, _⟩
              · cases hx
              · cases hx; exact h
          · exact absurd rfl hne
      all_goals cases h
    · cases m with
      | operands => trivial
      | base => intro l hl; cases hl
      | operator => intro l hl; cases hl
  | nested_head_err => intro l hl; cases hl
  | @nested_empty d it r a r1 a1 o r' h1 ho ih =>
    intro l hl hd hst
    rcases finishEmpty_cases ho with ⟨_, rfl, _⟩ | ⟨e, he, rfl⟩
    · cases hl
    cases hl
    rcases h1.at_end rfl with ⟨h, _⟩ | ⟨_, e', r2, rfl, h2, h3, h4⟩
    · exact absurd h hd
    have : dropSep cc (e' :: r2) = e' :: r2 := by simp [dropSep, h4 rfl]
    rw [this] at he
    cases he
    obtain ⟨s, k, rfl, h5, _, h6⟩ := ih _ rfl hd (by simp)
    cases h6 rfl
    exact ⟨it :: (s ++ [e]), by simp, .emptyNest (hst it rfl) h2 h5⟩
  | @nested_operative d it r a h r1 a1 f b1 o r' a' h1 h2 ho ih =>
    intro l hl hd hst
    subst hl
    rcases ho with ⟨t, e, a2, ⟨hra, hev⟩, ho, rfl⟩ | ⟨t, _, h, _⟩ | ⟨e, _, h⟩
    · rcases hev with ⟨t', c, ht, hsc, hrt⟩ | ⟨h, _⟩ | ⟨_, h, _⟩ | ⟨_, ⟨_, h⟩, _⟩
      · cases ht
        obtain ⟨he, s2, h3, h4⟩ := scanText_rawOf hsc
        obtain ⟨s, k, rfl, h5, h6, _⟩ := ih _ rfl hd (dropSep_ne_nil (by rw [h3]; simp))
        obtain ⟨sep, rfl, h7⟩ := dropSep_sep h3 h6 rfl
          (fun x s' hx => by subst hx; exact RawOf.head_not_end D h4)
        rcases hf : f h t a2 with ⟨o' | o', a3⟩
        · rw [hf] at ho; cases ho
        · rw [hf] at ho
          cases ho
          exact ⟨it :: (s ++ sep ++ s2 ++ [e]), by simp,
            .operative (hst it rfl) he h5 h7 h2 h4 hrt (M.text _ _ hra) hf⟩
      all_goals cases h
    all_goals cases h
  | nested_args_err => intro l hl; cases hl
  | @nested_args d it r a h r1 a1 c b1 ds r2 a2 o r' a' h1 h2 h3 ho ih1 ih2 =>
    intro l hl hd hst
    subst hl
    have hend := h3.at_end
    rcases finishNest_cases ho with ⟨_, h, _⟩ | ⟨e, f, rfl, rfl, ho', rfl⟩ | ⟨e, rfl, rfl, ho', rfl⟩
    · cases h
    all_goals
      rcases hend _ rfl with ⟨h, _⟩ | ⟨_, e', r2, hr, h4, h5⟩
      · exact absurd h hd
      cases hr
      obtain ⟨s2, hs2, h6⟩ := ih2 _ rfl hd (by simp)
      have h7 := h6 false (fun h => (by cases h))
      obtain ⟨s, k, rfl, h8, h9, _⟩ := ih1 _ rfl hd (dropSep_ne_nil (by rw [hs2]; simp))
      obtain ⟨sep, rfl, h10⟩ := dropSep_sep hs2 h9 rfl
        (fun x s' hx => h7.head_not_end D ⟨_, rfl⟩ hx)
      refine ⟨it :: (s ++ sep ++ s2 ++ [e]), by simp, ?_⟩
    · cases h2 with
      | applicative h2 =>
        rw [mkList_eq_listOf] at ho' ⊢
        rcases hf : f h (listOf ds) a2 with ⟨o' | o', a3⟩
        · rw [hf] at ho'; cases ho'
        · rw [hf] at ho'
          cases ho'
          exact .applicative (hst it rfl) h4 h8 h10 h2 h7 hf
    · cases h2 with
      | unbound h2 =>
        obtain ⟨h11, rfl⟩ := M.comb (Prod.ext ho'.symm rfl)
        rw [mkList_eq_listOf] at h11 ⊢
        exact .combination (hst it rfl) h4 h8 h10 h2 h7 h11
  | all_err => intro l hl; cases hl
  | @all_nil d r a r' a' h1 ih =>
    intro l hl hd hne
    cases hl
    obtain ⟨s, hs, h2⟩ := (ih _ rfl (fun _ => hne)).1 rfl
    have : (d == 0) = false := by simpa using hd
    rw [this] at h2
    exact ⟨s, hs, h2⟩
  | all_alloc_err => intro l hl; cases hl
  | all_cons_err => intro l hl; cases hl
  | @all_cons d r a x r1 a1 u a2 ds r' a' h1 h2 h3 ih1 ih2 =>
    intro l hl hd hne
    cases hl
    have hlen := h3.length
    simp only [LenP] at hlen
    have hne1 : r1 ≠ [] := by
      rintro rfl
      simp only [List.length_nil, Nat.le_zero_eq, List.length_eq_zero_iff] at hlen
      exact hne hlen
    have hd0 : (d == 0) = false := by simpa using hd
    rcases (ih1 _ rfl (fun _ => hne1)).2 _ rfl with ⟨s, k, rfl, h4, h5⟩ | ⟨h, _⟩
    · obtain ⟨s2, rfl, h6⟩ := ih2 _ rfl hd hne
      rw [hd0] at h5
      exact ⟨s ++ s2, by simp, fun b hb => h5 b hb _ _ _ _ (M.cell h2) (h6 k h4)⟩
    · exact absurd h hd

/-- An accepted source is written in the grammar. -/
theorem TopEval.sound (D : cc.Disjoint) {Mem : α → α → Prop} (M : MemOk X al Mem) {r a ds r' a'}
    (h : TopEval cc X al lookup r a ds r' a') :
    ∀ b, (b = true → AtDelim cc r) → Reads cc X.RT Mem lookup (.forms true b) r a ds a' := by
  induction h with
  | done h =>
    intro b hb
    rcases h.at_end rfl with ⟨_, rfl⟩ | ⟨h, _⟩
    · obtain ⟨s, hs, h2⟩ := (h.sound D M _ rfl (fun h => absurd rfl h)).1 rfl
      rw [List.append_nil] at hs
      subst hs
      exact h2 b hb
    · exact absurd rfl h
  | step h h' ih =>
    intro b hb
    rcases (h.sound D M _ rfl (fun h => absurd rfl h)).2 _ rfl with ⟨s, k, rfl, h4, h5⟩ | ⟨_, rfl, h5⟩
    · exact h5 b hb _ _ _ _ (M.refl _) (ih k h4)
    · cases h' with
      | done h6 =>
        cases h6 with
        | next_eof => exact h5 b hb _ (M.refl _)
        | next_nest h => cases h
        | next_removed h => cases h
        | next_end h => cases h
        | next_text h => cases h
      | step h6 =>
        cases h6 with
        | next_eof _ h => cases h
        | next_nest h => cases h
        | next_removed h => cases h
        | next_end h => cases h
        | next_text h => cases h

variable (cc X al lookup)

def Complete (c : Cat) (s : List (Item P)) (a : α) (ds : List (Datum τ ε)) (a' : α) : Prop :=
  match c with
  | .nest => ∀ rest d, d ≠ 0 → Eval cc X al lookup (.nested d) (s ++ rest) a (.ok ds) rest a'
  | .head k => ∀ e rest d, d ≠ 0 → (ds = [] → cc.isNestEnd e.ch = true) →
      (k = true → cc.headDelim e.ch = true) →
      Eval cc X al lookup (.next .operator d) (s ++ e :: rest) a (.ok ds) (e :: rest) a'
  | .forms false _ => ∀ e rest d, d ≠ 0 → cc.isNestEnd e.ch = true →
      Eval cc X al lookup (.all d) (s ++ e :: rest) a (.ok ds) (e :: rest) a'
  | .forms true _ => TopEval cc X al lookup s a ds [] a'

variable {cc X al lookup}

theorem Reads.afterText {RT : τ → List (Item P) → Prop} {Mem : α → α → Prop} {c top s a ds a'}
    (h : Reads cc RT Mem lookup c s a ds a') (hc : c = .forms top true) {it r} (hs : s = it :: r) :
    cc.isNestStart it.ch = true := by
  cases h with
  | form h1 =>
    obtain ⟨x, r, rfl, h⟩ := h1.nest_cons rfl
    cases hs
    exact h
  | removed h1 =>
    obtain ⟨x, r, rfl, h⟩ := h1.nest_cons rfl
    cases hs
    exact h
  | nil => cases hs
  | _ => cases hc

theorem start_not_ws (D : cc.Disjoint) {s : List (Item P)} {RT : τ → List (Item P) → Prop}
    {Mem : α → α → Prop} {a ds a'}
    (h : Reads cc RT Mem lookup .nest s a ds a') (rest : List (Item P)) : ∃ it r, s ++ rest = it :: r ∧
      cc.isNestStart it.ch = true ∧ cc.isWhitespace it.ch = false := by
  obtain ⟨it, r, rfl, h'⟩ := h.nest_cons rfl
  exact ⟨it, r ++ rest, rfl, h', D.start_ws _ h'⟩

/-- What is written is evaluated. -/
theorem Reads.complete (D : cc.Disjoint) (hX : ∀ a, X.RA a a) (A : al.Free) {c s a ds a'}
    (h : Reads cc X.RT Eq lookup c s a ds a') : Complete cc X al lookup c s a ds a' := by
  induction h with
  | @nil top b a =>
    cases top with
    | true => exact .done (.next_eof rfl rfl)
    | false =>
      intro e rest d hd he
      refine .all_nil (.next_end (it := e) rfl (end_not_start D he) he ?_)
      simp [endForm, hd]
  | @text top s c t r a a₁ ds a' h1 h2 h3 h4 h5 ih =>
    subst h4
    cases s with
    | nil => exact absurd rfl h1
    | cons x s =>
    obtain ⟨h6, h7⟩ := delim_false (h2.head_not_delim D)
    cases top with
    | true =>
      refine .step (.next_text (m := .base) rfl h6 h7 (Or.inl ⟨t, ⟨hX a, Or.inl ⟨t, c, rfl, ?_, h3⟩⟩, rfl⟩)) ih
      exact scanText_of_textOf D (m := .base) (by simp) h2 (fun it hit => by
        cases r with
        | nil => cases hit
        | cons y r =>
          cases hit
          have := h5.afterText rfl rfl
          exact ⟨by simp [stopOf, Classifier.delim, this], fun _ => D.start_end _ this⟩)
    | false =>
      intro e rest d hd he
      have ih' := ih e rest d hd he
      rw [List.append_assoc]
      refine .all_cons (.next_text (m := .base) rfl h6 h7 (Or.inl ⟨t, ⟨hX a, Or.inl ⟨t, c, rfl, ?_, h3⟩⟩, rfl⟩))
        (A.cell _ _) ih'
      exact scanText_of_textOf D (m := .base) (by simp) h2 (fun it hit => by
        refine ⟨?_, by simp [hd]⟩
        cases r with
        | nil => cases hit; simp [stopOf, Classifier.delim, he]
        | cons y r =>
          cases hit
          have := h5.afterText rfl rfl
          simp [stopOf, Classifier.delim, this])
  | @form top b s x r a a₁ a₂ ds a' h1 h2 h3 ih1 ih2 =>
    subst h2
    cases top with
    | true =>
      obtain ⟨it, r1, h4, h5, _⟩ := start_not_ws D h1 r
      have := ih1 r 1 (by simp)
      refine .step (.next_nest (it := it) (r1 := r1) h4 h5 ?_ (by simp)) ih2
      rw [← h4]; exact this
    | false =>
      intro e rest d hd he
      rw [List.append_assoc]
      obtain ⟨it, r1, h4, h5, _⟩ := start_not_ws D h1 (r ++ e :: rest)
      refine .all_cons (.next_nest (it := it) (r1 := r1) h4 h5 ?_ (by simp)) (A.cell _ _) (ih2 e rest d hd he)
      rw [← h4]; exact ih1 _ _ (by omega)
  | @removed top b s r a a₁ ds a' h1 h2 ih1 ih2 =>
    cases top with
    | true =>
      obtain ⟨it, r1, h4, h5, _⟩ := start_not_ws D h1 r
      have := ih1 r 1 (by simp)
      rw [h4] at this
      cases ih2 with
      | done h6 => exact .done (.next_removed h4 h5 this h6)
      | step h6 h7 => exact .step (.next_removed h4 h5 this h6) h7
    | false =>
      intro e rest d hd he
      rw [List.append_assoc]
      obtain ⟨it, r1, h4, h5, _⟩ := start_not_ws D h1 (r ++ e :: rest)
      have := ih1 (r ++ e :: rest) (d + 1) (by omega)
      rw [h4] at this
      cases ih2 e rest d hd he with
      | all_nil h6 => exact .all_nil (.next_removed h4 h5 this h6)
      | all_cons h6 h7 h8 => exact .all_cons (.next_removed h4 h5 this h6) h7 h8
  | @dangling s c t e a a' h1 h2 h3 h4 =>
    subst h4
    obtain ⟨x, r1, h5, h6⟩ : ∃ x r1, s ++ [e] = x :: r1 ∧ cc.delim x.ch = false := by
      cases s with
      | nil => exact ⟨e, [], rfl, stop_not_esc D h2 (m := .base)⟩
      | cons x s => exact ⟨x, _, rfl, h1.head_not_delim D⟩
    obtain ⟨h7, h8⟩ := delim_false h6
    refine .step (.next_text (m := .base) h5 h7 h8 (Or.inl ⟨t, ⟨hX a, Or.inl ⟨t, c, rfl, ?_, h3⟩⟩, rfl⟩))
      (.done (.next_eof rfl rfl))
    rw [← h5]
    exact scanText_of_dangling D (m := .base) (by simp) h1 h2
  | @noHead ws a h1 =>
    intro e rest d hd he _
    have he := he rfl
    refine .next_end (lead_ws h1 (D.end_ws _ he)) (end_not_start D he) he ?_
    simp [endForm, hd]
  | @textHead ws s c t a a' h1 h2 h3 h4 h5 =>
    intro e rest d hd _ he
    subst h5
    cases s with
    | nil => exact absurd rfl h2
    | cons x s =>
    have h6 : cc.headDelim x.ch = false := by
      cases h3 with
      | plain h => exact h
      | escaped h => exact stop_not_esc D h (m := .operator)
    obtain ⟨h7, h8, h9⟩ := headDelim_false h6
    rw [List.append_assoc]
    refine .next_text (lead_ws h1 h7) h8 h9 (Or.inl ⟨t, ⟨hX a, Or.inl ⟨t, c, rfl, ?_, h4⟩⟩, rfl⟩)
    exact scanText_of_textOf D (m := .operator) (by simp) h3 (fun it hit => by
      cases hit; exact ⟨he rfl, by simp [hd]⟩)
  | @nestHead ws s x a a' h1 h2 ih =>
    intro e rest d hd _ _
    rw [List.append_assoc]
    obtain ⟨it, r1, h4, h5, h6⟩ := start_not_ws D h2 (e :: rest)
    have := ih (e :: rest) (d + 1) (by omega)
    rw [h4] at this ⊢
    exact .next_nest (lead_ws h1 h6) h5 this (by simp)
  | @removedHead ws s k h a a₁ ds a' h1 h2 h3 ih1 ih2 =>
    intro e rest d hd he hk
    obtain ⟨it, r1, h4, h5, h6⟩ := start_not_ws D h2 (h ++ e :: rest)
    have := ih1 (h ++ e :: rest) (d + 1) (by omega)
    rw [List.append_assoc, List.append_assoc]
    rw [h4] at this ⊢
    exact .next_removed (lead_ws h1 h6) h5 this (ih2 e rest d hd he hk)
  | @emptyNest b e h a a' h1 h2 h3 ih =>
    intro rest d hd
    have := ih e rest d hd (fun _ => h2) (fun h => by cases h)
    simp only [List.cons_append, List.append_assoc, List.nil_append]
    refine .nested_empty this ?_
    simp [dropSep, D.end_ws _ h2, finishEmpty]
  | @combination b e h k x sep r ds a a₁ b₁ a₂ a' h1 h2 h3 h4 h5 h6 h7 ih1 ih2 =>
    intro rest d hd
    subst h7
    obtain ⟨y, ys, h8, h9, h10⟩ := h4.split D h2 rest
    have ih3 := ih1 y ys d hd (by simp) h9
    rw [← h8] at ih3 h10
    rw [show b :: (h ++ sep ++ r ++ [e]) ++ rest = b :: (h ++ (sep ++ r ++ e :: rest)) by simp]
    have ih4 := ih2 e rest d hd h2
    rw [← h10] at ih4
    refine .nested_args ih3 (.unbound h5) ih4 ?_
    simp [finishNest, A.comb, mkList_eq_listOf]
  | @applicative b e h k x sep r ds a a₁ b₁ a₂ a' f o h1 h2 h3 h4 h5 h6 h7 ih1 ih2 =>
    intro rest d hd
    obtain ⟨y, ys, h8, h9, h10⟩ := h4.split D h2 rest
    have ih3 := ih1 y ys d hd (by simp) h9
    rw [← h8] at ih3 h10
    rw [show b :: (h ++ sep ++ r ++ [e]) ++ rest = b :: (h ++ (sep ++ r ++ e :: rest)) by simp]
    have ih4 := ih2 e rest d hd h2
    rw [← h10] at ih4
    refine .nested_args ih3 (.applicative h5) ih4 ?_
    simp [finishNest, mkList_eq_listOf, h7, optRes]
  | @operative b e h k x sep r c t a a₁ b₁ a₂ a' f o h1 h2 h3 h4 h5 h6 h7 h8 h9 ih1 =>
    intro rest d hd
    subst h8
    obtain ⟨y, ys, h11, h12, h10⟩ := h4.split D h2 rest
    have ih3 := ih1 y ys d hd (by simp) h12
    rw [← h11] at ih3 h10
    rw [show b :: (h ++ sep ++ r ++ [e]) ++ rest = b :: (h ++ (sep ++ r ++ e :: rest)) by simp]
    refine .nested_operative ih3 h5 (Or.inl ⟨t, e, b₁, ⟨hX _, Or.inl ⟨t, c, rfl, ?_, h7⟩⟩, ?_, ?_⟩)
    · rw [h10]; exact scanText_of_raw D h6 h2 rest
    · rw [h9]; rfl
    · rw [h9]

end Kul.Dyn
