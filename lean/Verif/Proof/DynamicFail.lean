import Verif.Proof.DynamicGram
import Verif.Proof.FailSound
import Verif.Props.Balance

/-!
# Balance and errors, for a parser whose bindings may change

What `Proof/Balance.lean` and `Proof/FailSound.lean` prove, again for the rules of
`Proof/Dynamic.lean`.
-/

namespace Kul.Dyn

variable {P τ ε α CE : Type} {cc : Classifier} {X : TextSem P τ α} {al : AllocOps τ ε α}
  {lookup : Datum τ ε → α → Option (Combiner τ ε α P CE) × α} {Mem : α → α → Prop}

variable (cc X al lookup)

/-- Result `o` agrees with the balance of `r` inside `d` nests. -/
def BalOut (d : Nat) (r : List (Item P)) (o : Except (Err P CE) (List (Datum τ ε)))
    (r' : List (Item P)) : Prop :=
  match o with
  | .ok _ => cc.Disjoint → balance cc d r = balance cc d r'
  | .error e => MemoryError X.F al e ∨ CombinerError lookup e ∨
      (e = .missingEndChar ∧ r' = [] ∧ (cc.Disjoint → ∃ k, 0 < k ∧ balance cc d r = .opened k)) ∨
      (∃ it, e = .unbalancedEndChar it.pos ∧ (cc.Disjoint → balance cc d r = .unmatched it r'))

def BalJob (j : Job) (r : List (Item P)) (o : Except (Err P CE) (List (Datum τ ε)))
    (r' : List (Item P)) : Prop :=
  match j with
  | .next _ d => BalOut cc X al lookup d r o r'
  | .all d => BalOut cc X al lookup d r o r'
  | .nested d => d ≠ 0 → (∀ it, r.head? = some it → cc.isNestStart it.ch = true) →
      BalOut cc X al lookup (d - 1) r o r'

variable {cc X al lookup}

/-- The first part of a job keeps the balance. -/
theorem BalOut.trans {d d' : Nat} {r r1 r' : List (Item P)} {o : Except (Err P CE) (List (Datum τ ε))}
    (h : cc.Disjoint → balance cc d r = balance cc d' r1) (h2 : BalOut cc X al lookup d' r1 o r')
    (hok : ∀ l, o = .ok l → cc.Disjoint → balance cc d' r' = balance cc d r') :
    BalOut cc X al lookup d r o r' := by
  cases o with
  | ok l => exact fun D => (h D).trans ((h2 D).trans (hok l rfl D))
  | error e =>
    rcases h2 with h2 | h2 | ⟨h2, h3, h4⟩ | ⟨it, h2, h3⟩
    · exact Or.inl h2
    · exact Or.inr (Or.inl h2)
    · exact Or.inr (Or.inr (Or.inl ⟨h2, h3, fun D => by rw [h D]; exact h4 D⟩))
    · exact Or.inr (Or.inr (Or.inr ⟨it, h2, fun D => by rw [h D]; exact h3 D⟩))

theorem textEv_err {m : Mode} {top : Bool} {d : Nat} (ht : top = (d == 0))
    {r r' : List (Item P)} {a a' : α} {e : Err P CE}
    (h : TextEv cc X m top r a (.error e) r' a') :
    BalOut cc X al lookup d r (.error e) r' := by
  rcases h.2 with ⟨_, _, h1, _⟩ | ⟨h1, h2, h3⟩ | ⟨p, h1, h2⟩ | ⟨hF, ⟨x, h1⟩, _⟩
  · cases h1
  · cases h1
    refine Or.inr (Or.inr (Or.inl ⟨rfl, h3, fun D => ?_⟩))
    have := scanText_balance D (m := m) ht (nl := 0) (r := r)
    rw [h2] at this
    exact this
  · cases h1
    by_cases D : cc.Disjoint
    · have := scanText_balance D (m := m) ht (nl := 0) (r := r)
      rw [h2] at this
      obtain ⟨it, rfl, h3⟩ := this
      exact Or.inr (Or.inr (Or.inr ⟨it, rfl, fun _ => h3⟩))
    · -- the position is that of some item, whatever the classifier
      exact Or.inr (Or.inr (Or.inr ⟨⟨'a', p⟩, rfl, fun D' => absurd D' D⟩))
  · cases h1
    exact Or.inl (Or.inl ⟨⟨x, rfl⟩, Or.inl hF⟩)

theorem textForm_bal {m : Mode} {d : Nat}
    {r r' : List (Item P)} {a a' : α} {o : Except (Err P CE) (List (Datum τ ε))}
    (h : TextForm cc X m (d == 0) r a o r' a') : BalOut cc X al lookup d r o r' := by
  rcases h with ⟨t, h, rfl⟩ | ⟨e, h, rfl⟩
  · exact fun D => h.ok_balance rfl D
  · exact textEv_err rfl h

/-- Results agree with the balance of the source. -/
theorem Eval.bal {j r a o r' a'} (h : Eval cc X al lookup j r a o r' a') :
    BalJob cc X al lookup j r o r' := by
  induction h with
  | @next_eof m d r a o h ho =>
    have hb : cc.Disjoint → balance cc d r = .opened d := fun D => by
      rw [← balance_lead D d m r, h]; rfl
    rcases eofForm_cases ho with ⟨rfl, rfl⟩ | ⟨hd, rfl⟩
    · exact fun D => hb D
    · exact Or.inr (Or.inr (Or.inl ⟨rfl, rfl, fun D => ⟨d, by omega, hb D⟩⟩))
  | @next_nest m d r a it r1 o r' a' h1 h2 h3 h4 ih =>
    refine BalOut.trans (r1 := it :: r1) (d' := d)
      (fun D => by rw [← balance_lead D d m r, h1]) ?_ (fun _ _ _ => rfl)
    exact ih (by omega) (by rintro _ ⟨⟩; exact h2)
  | @next_removed m d r a it r1 r2 a2 o r' a' h1 h2 h3 h4 ih1 ih2 =>
    refine BalOut.trans (r1 := r2) (d' := d) (fun D => ?_) ih2 (fun _ _ _ => rfl)
    rw [← balance_lead D d m r, h1]
    exact ih1 (by omega) (by rintro _ ⟨⟩; exact h2) D
  | @next_end m d r a it r1 o r' h1 h2 h3 ho =>
    refine BalOut.trans (r1 := it :: r1) (d' := d)
      (fun D => by rw [← balance_lead D d m r, h1]) ?_ (fun _ _ _ => rfl)
    rcases endForm_cases ho with ⟨rfl, rfl, rfl⟩ | ⟨hd, rfl, rfl⟩
    · exact Or.inr (Or.inr (Or.inr ⟨it, rfl, fun D => balance_end_zero D h3⟩))
    · exact fun _ => rfl
  | @next_text m d r a it r1 o r' a' h1 h2 h3 ho =>
    exact BalOut.trans (r1 := it :: r1) (d' := d)
      (fun D => by rw [← balance_lead D d m r, h1]) (textForm_bal ho) (fun _ _ _ => rfl)
  | @nested_head_err d it r a e r' a' _ ih =>
    intro hd hst
    obtain ⟨d, rfl⟩ : ∃ k, d = k + 1 := ⟨d - 1, by omega⟩
    exact BalOut.trans (fun D => balance_start D (hst it rfl)) ih (fun _ h => by cases h)
  | @nested_empty d it r a r1 a1 o r' h1 ho ih =>
    intro hd hst
    obtain ⟨d, rfl⟩ : ∃ k, d = k + 1 := ⟨d - 1, by omega⟩
    have hb : cc.Disjoint → balance cc d (it :: r) = balance cc (d + 1) (dropSep cc r1) := fun D => by
      rw [balance_start D (hst it rfl), balance_dropSep D]; exact ih D
    rcases finishEmpty_cases ho with ⟨h, rfl, rfl⟩ | ⟨e, he, rfl⟩
    · rw [h] at hb
      exact Or.inr (Or.inr (Or.inl ⟨rfl, rfl, fun D => ⟨d + 1, by omega, hb D⟩⟩))
    · intro D
      show balance cc d _ = balance cc d _
      rw [hb D, he]
      rcases h1.at_end rfl with ⟨h, _⟩ | ⟨_, e', r2, rfl, h2, h3, h4⟩
      · omega
      · have : dropSep cc (e' :: r2) = e' :: r2 := by simp [dropSep, h4 rfl]
        rw [this] at he
        cases he
        exact balance_end D h2
  | @nested_operative d it r a h r1 a1 f b1 o r' a' h1 h2 ho ih =>
    intro hd hst
    obtain ⟨d, rfl⟩ : ∃ k, d = k + 1 := ⟨d - 1, by omega⟩
    have hb : cc.Disjoint → balance cc d (it :: r) = balance cc (d + 1) (dropSep cc r1) := fun D => by
      rw [balance_start D (hst it rfl), balance_dropSep D]; exact ih D
    rcases ho with ⟨t, e, a2, h3, rfl, rfl⟩ | ⟨t, h3, rfl, rfl⟩ | ⟨e, h3, rfl⟩
    · rcases hf : f h t a2 with ⟨e' | o', a3⟩
      · exact Or.inr (Or.inl (Or.inl ⟨h, a1, f, t, a2, by rw [h2], by rw [hf]⟩))
      · intro D
        show balance cc d _ = balance cc d _
        rw [hb D, h3.ok_balance (d := d + 1) rfl D]
        rcases h3.2 with ⟨_, _, _, hsc, _⟩ | ⟨h, _⟩ | ⟨_, h, _⟩ | ⟨_, ⟨_, h⟩, _⟩
        · exact balance_end D (scanText_rawOf hsc).1
        all_goals cases h
    · refine Or.inr (Or.inr (Or.inl ⟨rfl, rfl, fun D => ⟨d + 1, by omega, ?_⟩⟩))
      show balance cc d _ = _
      rw [hb D, h3.ok_balance (d := d + 1) rfl D]; rfl
    · exact BalOut.trans hb (textEv_err (d := d + 1) rfl h3) (fun _ h => by cases h)
  | @nested_args_err d it r a h r1 a1 c b1 e r' a' h1 h2 h3 ih1 ih2 =>
    intro hd hst
    obtain ⟨d, rfl⟩ : ∃ k, d = k + 1 := ⟨d - 1, by omega⟩
    refine BalOut.trans (fun D => ?_) ih2 (fun _ h => by cases h)
    rw [balance_dropSep D]
    exact (balance_start D (hst it rfl)).trans (ih1 D)
  | @nested_args d it r a h r1 a1 c b1 ds r2 a2 o r' a' h1 h2 h3 ho ih1 ih2 =>
    intro hd hst
    obtain ⟨d, rfl⟩ : ∃ k, d = k + 1 := ⟨d - 1, by omega⟩
    have hb : cc.Disjoint → balance cc d (it :: r) = balance cc (d + 1) r2 := fun D => by
      rw [balance_start D (hst it rfl), ← ih2 D, balance_dropSep D]; exact ih1 D
    rcases finishNest_cases ho with ⟨rfl, rfl, rfl, _⟩ | ⟨e, f, rfl, rfl, rfl, rfl⟩ |
      ⟨e, rfl, rfl, rfl, rfl⟩
    · exact Or.inr (Or.inr (Or.inl ⟨rfl, rfl, fun D => ⟨d + 1, by omega, hb D⟩⟩))
    all_goals
      have hok : cc.Disjoint → balance cc (d + 1) (e :: r') = balance cc d r' := by
        intro D
        rcases h3.at_end _ rfl with ⟨h, _⟩ | ⟨_, e', r2, hr, h4, h5⟩
        · omega
        · cases hr; exact balance_end D h4
    · cases h2 with
      | applicative h2 =>
        rcases hf : f h (mkList ds) a2 with ⟨e' | o', a3⟩
        · exact Or.inr (Or.inl (Or.inr ⟨h, a1, f, _, a2, by rw [h2], by rw [hf]⟩))
        · exact fun D => (hb D).trans (hok D)
    · rcases hf : allocComb (P := P) (CE := CE) al h (mkList ds) a2 with ⟨e' | o', a3⟩
      · exact Or.inl (allocComb_error _ hf)
      · exact fun D => (hb D).trans (hok D)
  | all_err _ ih => exact ih
  | all_nil _ ih => exact ih
  | all_alloc_err _ h2 ih => exact Or.inl (allocCell_error _ h2)
  | all_cons_err _ _ _ ih1 ih2 =>
    exact BalOut.trans (o := .error _) ih1 ih2 (fun _ h => (by cases h))
  | all_cons _ _ _ ih1 ih2 => exact fun D => (ih1 D).trans (ih2 D)

theorem Run.bal_ok {cc : Classifier} {al : AllocOps τ ε α}
    {lookup : Datum τ ε → α → Option (Combiner τ ε α P CE) × α} (D : cc.Disjoint) {r a l r' a'}
    (h : Run cc X al lookup r a l r' a') : ∀ ds : List (Datum τ ε), l = ds.map .ok → balance cc 0 r = .opened 0 := by
  induction h with
  | done h =>
    intro ds _
    have hr := (Run.done h).rest
    have hb := h.bal D
    rw [hb, hr]
    rfl
  | datum h _ ih =>
    intro ds hd
    cases ds with
    | nil => cases hd
    | cons d ds =>
      simp only [List.map_cons, List.cons.injEq] at hd
      exact (h.bal D).trans (ih ds hd.2)
  | error h _ ih =>
    intro ds hd
    cases ds <;> cases hd

theorem Run.bal_err {cc : Classifier} {al : AllocOps τ ε α}
    {lookup : Datum τ ε → α → Option (Combiner τ ε α P CE) × α} (D : cc.Disjoint) {r a l r' a'}
    (h : Run cc X al lookup r a l r' a') : ∀ (ds : List (Datum τ ε)) e l', l = ds.map .ok ++ .error e :: l' →
    MemoryError X.F al e ∨ CombinerError lookup e ∨
    (e = .missingEndChar ∧ l' = [] ∧ ∃ k, 0 < k ∧ balance cc 0 r = .opened k) ∨
    (∃ it r₁ a₁, e = .unbalancedEndChar it.pos ∧ balance cc 0 r = .unmatched it r₁ ∧
      Run cc X al lookup r₁ a₁ l' r' a') := by
  induction h with
  | done h => intro ds e l' hd; cases ds <;> cases hd
  | datum h _ ih =>
    intro ds e l' hd
    cases ds with
    | nil => cases hd
    | cons d ds =>
      simp only [List.map_cons, List.cons_append, List.cons.injEq] at hd
      rw [show balance cc 0 _ = balance cc 0 _ from h.bal D]
      exact ih ds e l' hd.2
  | error h h2 ih =>
    intro ds e l' hd
    cases ds with
    | cons d ds => cases hd
    | nil =>
      simp only [List.map_nil, List.nil_append, List.cons.injEq, Except.error.injEq] at hd
      obtain ⟨rfl, rfl⟩ := hd
      rcases h.bal with h1 | h1 | ⟨h1, h3, h4⟩ | ⟨it, h1, h3⟩
      · exact Or.inl h1
      · exact Or.inr (Or.inl h1)
      · subst h3
        refine Or.inr (Or.inr (Or.inl ⟨h1, ?_, h4 D⟩))
        simpa using h2.length
      · exact Or.inr (Or.inr (Or.inr ⟨it, _, _, h1, h3 D, h2⟩))

variable (cc X al lookup Mem)

/-- The failures of reading with the memory errors of the parser. -/
abbrev FailsAt := Fails cc X.RT Mem (MemoryError (P := P) (CE := CE) X.F al) lookup

/-- Meaning of a failed job, and of a successful one that is followed by a failure. -/
def FailSound (j : Job) (r : List (Item P)) (a : α) (o : Except (Err P CE) (List (Datum τ ε)))
    (r' : List (Item P)) (a' : α) : Prop :=
  match j with
  | .nested d => ∀ e, o = .error e → d ≠ 0 →
      (∀ it, r.head? = some it → cc.isNestStart it.ch = true) →
      ∃ s, r = s ++ r' ∧ FailsAt cc X al lookup Mem .nest s r' a [] e a'
  | .all d => ∀ e, o = .error e → d ≠ 0 →
      ∃ s ds, r = s ++ r' ∧ ∀ b, (b = true → AtNext cc false r) →
        FailsAt cc X al lookup Mem (.forms false b) s r' a ds e a'
  | .next .operator d =>
      (∀ e, o = .error e → d ≠ 0 →
        ∃ s, r = s ++ r' ∧ FailsAt cc X al lookup Mem (.head false) s r' a [] e a') ∧
      (∀ l, o = .ok l → d ≠ 0 → r' = [] →
        (∃ k, Reads cc X.RT Mem lookup (.head k) r a l a') ∨
        (∃ t, l = [.text t] ∧ DanglingHead cc X.RT Mem lookup r a t a'))
  | .next .base d =>
      (∀ e, o = .error e → ∃ s, r = s ++ r' ∧ ∀ b, (b = true → AtNext cc (d == 0) r) →
        FailsAt cc X al lookup Mem (.forms (d == 0) b) s r' a [] e a') ∧
      (∀ x, o = .ok [x] →
        (∃ s k, r = s ++ r' ∧ (k = true → AtNext cc (d == 0) r') ∧
          (∀ b, (b = true → AtNext cc (d == 0) r) → ∀ r₁ rest a₁ ds e a₂, Mem a' a₁ →
            FailsAt cc X al lookup Mem (.forms (d == 0) k) r₁ rest a₁ ds e a₂ →
            FailsAt cc X al lookup Mem (.forms (d == 0) b) (s ++ r₁) rest a (x :: ds) e a₂) ∧
          (d ≠ 0 → ∀ b, (b = true → AtNext cc false r) → ∀ rest a₁ e, Mem a' a₁ →
            MemoryError X.F al e → FailsAt cc X al lookup Mem (.forms false b) s rest a [] e a₁)) ∨
        (r' = [] ∧ (d ≠ 0 → ∀ b, (b = true → AtNext cc false r) → ∀ a₁, Mem a' a₁ →
          FailsAt cc X al lookup Mem (.forms false b) r [] a [x] .missingEndChar a₁ ∧
          ∀ e, MemoryError X.F al e → FailsAt cc X al lookup Mem (.forms false b) r [] a [] e a₁)))
  | .next .operands _ => True

variable {cc X al lookup Mem}

/-- At the end of the source inside a nest. -/
theorem Eval.all_of_nil {d a e r' a'} (h : Eval cc X al lookup (.all d) [] a (.error e) r' a') :
    e = .missingEndChar ∧ r' = [] ∧ a' = a ∧ d ≠ 0 := by
  have key : ∀ {o r' a'}, Eval cc X al lookup (.next .base d) [] a o r' a' →
      eofForm d = o ∧ r' = [] ∧ a' = a := by
    intro o r' a' h
    cases h with
    | next_eof _ ho => exact ⟨ho, rfl, rfl⟩
    | next_nest h => cases h
    | next_removed h => cases h
    | next_end h => cases h
    | next_text h => cases h
  cases h with
  | all_err h =>
    obtain ⟨h4, rfl, rfl⟩ := key h
    rcases eofForm_cases h4 with ⟨_, h5⟩ | ⟨hd, h5⟩
    · cases h5
    · cases h5; exact ⟨rfl, rfl, rfl, hd⟩
  | all_alloc_err h =>
    obtain ⟨h, _⟩ := key h
    rcases eofForm_cases h with ⟨_, h⟩ | ⟨hd, h⟩ <;> cases h
  | all_cons_err h =>
    obtain ⟨h, _⟩ := key h
    rcases eofForm_cases h with ⟨_, h⟩ | ⟨hd, h⟩ <;> cases h

theorem Fails.head_not_end (D : cc.Disjoint) {RT : τ → List (Item P) → Prop} {MF : Err P CE → Prop}
    {c it s s' rest a ds e a'}
    (h : Fails cc RT Mem MF lookup c s' rest a ds e a') (hc : ∃ b, c = .forms false b ∨ c = .nest)
    (hs : s' = it :: s) : cc.isNestEnd it.ch = false := by
  obtain ⟨b, hc⟩ := hc
  induction h generalizing b it s with
  | @afterText _ s0 _ _ _ _ _ _ _ _ _ h1 h2 =>
    cases s0 with
    | nil => exact absurd rfl h1
    | cons x s0 => cases hs; exact (delim_false (h2.head_not_delim D)).2
  | afterForm h1 =>
    obtain ⟨x, r, rfl, h⟩ := h1.nest_cons rfl
    cases hs; exact D.start_end _ h
  | afterRemoved h1 =>
    obtain ⟨x, r, rfl, h⟩ := h1.nest_cons rfl
    cases hs; exact D.start_end _ h
  | inNest _ ih => exact ih hs b (Or.inr rfl)
  | formsOpen => cases hs
  | @formsOpenEscape s0 _ _ _ _ _ h1 h2 =>
    cases s0 with
    | nil => cases hs; exact stop_not_esc D h2 (m := .operands)
    | cons x s0 => cases hs; exact (delim_false (h1.head_not_delim D)).2
  | textMemory h1 =>
    obtain ⟨x, s0, rfl, h⟩ := h1
    cases hs; exact (delim_false h).2
  | formMemory h1 =>
    obtain ⟨x, r, rfl, h⟩ := h1.nest_cons rfl
    cases hs; exact D.start_end _ h
  | unbalanced => rcases hc with h | h <;> cases h
  | textUnbalanced => rcases hc with h | h <;> cases h
  | headOpen => rcases hc with h | h <;> cases h
  | headNest => rcases hc with h | h <;> cases h
  | headRemoved => rcases hc with h | h <;> cases h
  | headMemory => rcases hc with h | h <;> cases h
  | _ => cases hs; exact D.start_end _ (by assumption)


/-- The head of a nest was read, whether or not something follows it; or the source ended in it. -/
theorem Eval.head_cases (D : cc.Disjoint) (M : MemOk X al Mem) {d r a h r1 a1}
    (h1 : Eval cc X al lookup (.next .operator d) r a (.ok [h]) r1 a1)
    (ih : FailSound cc X al lookup Mem (.next .operator d) r a (.ok [h]) r1 a1) (hd : d ≠ 0) :
    (∃ s k, r = s ++ r1 ∧ Reads cc X.RT Mem lookup (.head k) s a [h] a1 ∧
        (k = true → AtHeadDelim cc r1)) ∨
      (r1 = [] ∧ ∃ t, h = .text t ∧ DanglingHead cc X.RT Mem lookup r a t a1) := by
  by_cases hr1 : r1 = []
  · subst hr1
    rcases ih.2 _ rfl hd rfl with ⟨k, h5⟩ | h5
    · exact Or.inl ⟨r, k, by simp, h5, fun _ _ h => by cases h⟩
    · obtain ⟨t, ht, h5⟩ := h5
      cases ht
      exact Or.inr ⟨rfl, t, rfl, h5⟩
  · have hsd : Sound cc X lookup Mem (.next .operator d) _ _ _ _ _ := h1.sound D M
    obtain ⟨s, k, h5, h6, h7, _⟩ := hsd _ rfl hd hr1
    exact Or.inl ⟨s, k, h5, h6, h7⟩

theorem ArgComb.cases {h : Datum τ ε} {a c b} (H : ArgComb lookup h a c b) :
    ∃ k, lookup h a = (k, b) ∧ ∀ f, k ≠ some (.operative f) := by
  cases H with
  | unbound h => exact ⟨_, h, fun _ h => by cases h⟩
  | applicative h => exact ⟨_, h, fun _ h => by cases h⟩

/-- Failed jobs fail as the specification says. -/
theorem Eval.fail_sound (D : cc.Disjoint) (M : MemOk X al Mem) {j r a o r' a'}
    (h : Eval cc X al lookup j r a o r' a') : FailSound cc X al lookup Mem j r a o r' a' := by
  induction h with
  | @next_eof m d r a o h ho =>
    cases m with
    | operands => trivial
    | base =>
      rw [lead_base] at h
      subst h
      rcases eofForm_cases ho with ⟨rfl, rfl⟩ | ⟨hd, rfl⟩
      · exact ⟨fun e h => (by cases h), fun x h => (by cases h)⟩
      · refine ⟨fun e h => ?_, fun x h => (by cases h)⟩
        cases h
        have hd0 : (d == 0) = false := by simpa using hd
        rw [hd0]
        exact ⟨[], rfl, fun _ _ => .formsOpen⟩
    | operator =>
      obtain ⟨ws, rfl, hws⟩ := lead_split rfl h
      rcases eofForm_cases ho with ⟨rfl, rfl⟩ | ⟨hd, rfl⟩
      · exact ⟨fun e h => (by cases h), fun l _ h => absurd rfl h⟩
      · refine ⟨fun e h _ => ?_, fun l h => by cases h⟩
        cases h
        exact ⟨ws, rfl, .headOpen hws⟩
  | @next_nest m d r a it r1 o r' a' h1 h2 h3 h4 ih =>
    have hle := h3.le_one
    have hsd := h3.sound D M
    have hst : ∀ x, (it :: r1).head? = some x → cc.isNestStart x.ch = true := by rintro _ ⟨⟩; exact h2
    cases m with
    | operands => trivial
    | base =>
      rw [lead_base] at h1
      subst h1
      refine ⟨fun e he => ?_, fun x hx => ?_⟩
      · obtain ⟨s, hs, hf⟩ := ih e he (by omega) hst
        exact ⟨s, hs, fun b _ => .inNest hf⟩
      · obtain ⟨s, hs, hr⟩ := hsd _ hx (by omega) hst
        exact Or.inl ⟨s, false, hs, fun h => (by cases h),
          fun b _ r₁ rest a₁ ds e a₂ hm hf => .afterForm hr hm hf,
          fun _ b _ rest a₁ e hm he => .formMemory hr hm he⟩
    | operator =>
      obtain ⟨ws, rfl, hws⟩ := lead_split rfl h1
      refine ⟨fun e he hd => ?_, fun l hl hd hne => ?_⟩
      · obtain ⟨s, hs, hf⟩ := ih e he (by omega) hst
        exact ⟨ws ++ s, by rw [hs, List.append_assoc], .headNest hws hf⟩
      · subst hl
        obtain ⟨s, hs, hr⟩ := hsd _ rfl (by omega) hst
        subst hne
        rw [List.append_nil] at hs
        subst hs
        match l, hle _ rfl, h4 with
        | [x], _, _ => exact Or.inl ⟨false, .nestHead hws hr⟩
        | [], _, h4 => exact absurd rfl h4
  | @next_removed m d r a it r1 r2 a2 o r' a' h1 h2 h3 h4 ih1 ih2 =>
    have hst : ∀ x, (it :: r1).head? = some x → cc.isNestStart x.ch = true := by rintro _ ⟨⟩; exact h2
    obtain ⟨s, hs, hr⟩ := (h3.sound D M : Sound cc X lookup Mem _ _ _ _ _ _) _ rfl (by omega) hst
    cases m with
    | operands => trivial
    | base =>
      rw [lead_base] at h1
      subst h1
      obtain ⟨ih3, ih4⟩ := ih2
      rw [hs]
      refine ⟨fun e he => ?_, fun x hx => ?_⟩
      · obtain ⟨s2, rfl, h5⟩ := ih3 e he
        exact ⟨s ++ s2, by simp, fun b _ => .afterRemoved hr (h5 false (fun h => (by cases h)))⟩
      · rcases ih4 x hx with ⟨s2, k, rfl, h5, h6, h7⟩ | ⟨hr', h6⟩
        · refine Or.inl ⟨s ++ s2, k, by simp, h5, fun b _ r₁ rest a₁ ds e a₂ hm hrest => ?_,
            fun hd b _ rest a₁ e hm he => ?_⟩
          · rw [List.append_assoc]
            exact .afterRemoved hr (h6 false (fun h => (by cases h)) _ _ _ _ _ _ hm hrest)
          · exact .afterRemoved hr (h7 hd false (fun h => (by cases h)) _ _ _ hm he)
        · exact Or.inr ⟨hr', fun hd b _ a₁ hm =>
            ⟨.afterRemoved hr (h6 hd false (fun h => (by cases h)) _ hm).1,
              fun e he => .afterRemoved hr ((h6 hd false (fun h => (by cases h)) _ hm).2 e he)⟩⟩
    | operator =>
      obtain ⟨ws, rfl, hws⟩ := lead_split rfl h1
      obtain ⟨ih3, ih4⟩ := ih2
      refine ⟨fun e he hd => ?_, fun l hl hd hne => ?_⟩
      · obtain ⟨s2, rfl, h5⟩ := ih3 e he hd
        exact ⟨ws ++ s ++ s2, by rw [hs]; simp, .headRemoved hws hr h5⟩
      · rw [hs, ← List.append_assoc]
        rcases ih4 l hl hd hne with ⟨k, h5⟩ | h5
        · exact Or.inl ⟨k, .removedHead hws hr h5⟩
        · obtain ⟨t, ht, h5⟩ := h5
          exact Or.inr ⟨t, ht, .removed hws hr h5⟩
  | @next_end m d r a it r1 o r' h1 h2 h3 ho =>
    rcases endForm_cases ho with ⟨rfl, rfl, rfl⟩ | ⟨hd, rfl, rfl⟩
    · cases m with
      | operands => trivial
      | base =>
        rw [lead_base] at h1
        subst h1
        refine ⟨fun e he => ?_, fun x h => (by cases h)⟩
        cases he
        refine ⟨[it], rfl, fun b hb => ?_⟩
        cases b with
        | false => exact .unbalanced h3
        | true => exact absurd ((hb rfl it rfl).2 rfl) (by simp [end_not_start D h3])
      | operator => exact ⟨fun e _ h => absurd rfl h, fun l h => by cases h⟩
    · cases m with
      | operands => trivial
      | base => exact ⟨fun e h => (by cases h), fun x h => (by cases h)⟩
      | operator => exact ⟨fun e h => (by cases h), fun l _ _ h => by cases h⟩
  | @next_text m d r a it r1 o r' a' h1 h2 h3 ho =>
    have hb : ∀ top b, (b = true → AtNext cc top (it :: r1)) → b = false := by
      intro top b hb
      cases b with
      | false => rfl
      | true => exact ((hb rfl).not_text h2 h3).elim
    rcases ho with ⟨t, ⟨hra, hev⟩, rfl⟩ | ⟨e, ⟨hra, hev⟩, rfl⟩
    · -- the text is complete
      rcases hev with ⟨t', c, ht, hsc, hrt⟩ | ⟨h, _⟩ | ⟨_, h, _⟩ | ⟨_, ⟨_, h⟩, _⟩
      · cases ht
        cases m with
        | operands => trivial
        | base =>
          refine ⟨fun e h => (by cases h), fun x hx => ?_⟩
          cases hx
          rw [lead_base] at h1
          subst h1
          rcases scanText_textOf (by simp) hsc with ⟨s, hs, hto, hst⟩ | ⟨s, e, hs, rfl, he, hto⟩
          · have hne : s ≠ [] := by
              rintro rfl
              simp only [List.nil_append] at hs
              subst hs
              rcases hst with h | ⟨y, r2, h, h', _⟩
              · cases h
              · cases h; simp [stopOf, Classifier.delim, h2, h3] at h'
            refine Or.inl ⟨s, true, hs, ?_, ?_, ?_⟩
            · intro _ x hx
              rcases hst with rfl | ⟨y, r2, rfl, h, h'⟩
              · cases hx
              · cases hx; exact ⟨h, fun h0 => h' h0 rfl⟩
            · intro b hb' r₁ rest a₁ ds e a₂ hm hrest
              cases hb _ b hb'
              exact .afterText hne hto hrt (M.trans _ _ _ (M.text _ _ hra) hm) hrest
            · intro hd b hb' rest a₁ e hm he
              cases hb _ b hb'
              refine .textMemory ?_ (M.trans _ _ _ (M.text _ _ hra) hm) he
              cases s with
              | nil => exact absurd rfl hne
              | cons x s =>
                cases hs
                exact ⟨it, s, rfl, by simp [Classifier.delim, h2, h3]⟩
          · refine Or.inr ⟨rfl, fun hd b hb' a₁ hm => ?_⟩
            cases hb _ b hb'
            have hm' := M.trans _ _ _ (M.text _ _ hra) hm
            refine ⟨?_, fun e he => ?_⟩
            · rw [hs]
              exact .formsOpenEscape hto he hrt hm'
            · exact .textMemory ⟨it, r1, rfl, by simp [Classifier.delim, h2, h3]⟩ hm' he
        | operator =>
          refine ⟨fun e h => (by cases h), fun l hl hd hne => ?_⟩
          cases hl
          subst hne
          have hws1 := lead_head cc h1 rfl
          obtain ⟨ws, rfl, hws⟩ := lead_split rfl h1
          rcases scanText_textOf (by simp) hsc with ⟨s, hs, hto, hst⟩ | ⟨s, e, hs, _, he, hto⟩
          · rw [List.append_nil] at hs
            subst hs
            exact Or.inl ⟨true, .textHead hws (by simp) hto hrt (M.text _ _ hra)⟩
          · refine Or.inr ⟨t, rfl, ?_⟩
            rw [hs, ← List.append_assoc]
            exact .text hws hto he hrt (M.text _ _ hra)
      all_goals cases h
    · -- the text failed
      have hm := M.text _ _ hra
      rcases hev with ⟨_, _, h, _⟩ | ⟨_, h, _⟩ | ⟨p, h, hsc⟩ | ⟨hF, ⟨e', h⟩, hsuf, hlen⟩
      · cases h
      · have hmo : m = .operands := by
          by_contra hmo
          exact scanText_ne_missing cc m hmo _ _ h
        subst hmo
        trivial
      · cases h
        cases m with
        | operands => trivial
        | base =>
          rw [lead_base] at h1
          subst h1
          refine ⟨fun e h => ?_, fun x h => (by cases h)⟩
          cases h
          obtain ⟨htop, s, c, x, hs, hto, hx, rfl⟩ := scanText_unbalanced (by simp) hsc
          refine ⟨s ++ [x], by simpa using hs, fun b hb' => ?_⟩
          cases hb _ b hb'
          rw [htop]
          refine .textUnbalanced ?_ hto hx hm
          rintro rfl
          cases hs
          simp [h3] at hx
        | operator =>
          refine ⟨fun e h hd => ?_, fun l h => by cases h⟩
          obtain ⟨htop, _⟩ := scanText_unbalanced (by simp) hsc
          exact absurd (by simpa using htop) hd
      · cases h
        obtain ⟨s, hs, hst⟩ := StartsText.of_suffix h2 h3 hsuf (hlen (by simp))
        have hme : MemoryError (P := P) (CE := CE) X.F al (.failedAlloc e') := Or.inl ⟨⟨_, rfl⟩, Or.inl hF⟩
        cases m with
        | operands => trivial
        | base =>
          rw [lead_base] at h1
          subst h1
          refine ⟨fun e h => ?_, fun x h => (by cases h)⟩
          cases h
          refine ⟨s, hs, fun b hb' => ?_⟩
          cases hb _ b hb'
          exact .textMemory hst hm hme
        | operator =>
          refine ⟨fun e h hd => ?_, fun l h => by cases h⟩
          cases h
          obtain ⟨ws, rfl, hws⟩ := lead_split rfl h1
          exact ⟨ws ++ s, by rw [hs, List.append_assoc], .headMemory hws hst hm hme⟩
  | @nested_head_err d it r a e r' a' h1 ih =>
    intro e' he hd hst
    cases he
    obtain ⟨s, rfl, hf⟩ := ih.1 _ rfl hd
    exact ⟨it :: s, rfl, .inHead (hst it rfl) hf⟩
  | @nested_empty d it r a r1 a1 o r' h1 ho ih =>
    intro e he hd hst
    subst he
    exfalso
    rcases finishEmpty_cases ho with ⟨h, _⟩ | ⟨_, _, h⟩
    · rcases h1.at_end rfl with ⟨h, _⟩ | ⟨_, e', r2, rfl, h2, h3, h4⟩
      · exact hd h
      · simp [dropSep, h4 rfl] at h
    · cases h
  | @nested_operative d it r a h r1 a1 f b1 o r' a' h1 h2 ho ih =>
    intro e he hd hst
    subst he
    have hhead := h1.head_cases D M ih hd
    rcases ho with ⟨t, x, a2, ⟨hra, hev⟩, ho, rfl⟩ | ⟨t, ⟨hra, hev⟩, ho, rfl⟩ | ⟨e', ⟨hra, hev⟩, ho⟩
    · rcases hev with ⟨t', c, ht, hsc, hrt⟩ | ⟨h, _⟩ | ⟨_, h, _⟩ | ⟨_, ⟨_, h⟩, _⟩
      · cases ht
        obtain ⟨hx, s2, h3, h4⟩ := scanText_rawOf hsc
        rcases hhead with ⟨s, k, rfl, h5, h6⟩ | ⟨rfl, _⟩
        · obtain ⟨sep, rfl, h7⟩ := dropSep_sep h3 h6 rfl
            (fun y s' hy => by subst hy; exact RawOf.head_not_end D h4)
          rcases hf : f h t a2 with ⟨e' | o', a3⟩
          · rw [hf] at ho
            cases ho
            exact ⟨it :: (s ++ sep ++ s2 ++ [x]), by simp,
              .operative (hst it rfl) hx h5 h7 h2 h4 hrt (M.text _ _ hra) hf⟩
          · rw [hf] at ho; cases ho
        · simp [dropSep] at h3
      all_goals cases h
    · cases ho
      have hm := M.text _ _ hra
      rcases hev with ⟨t', c, ht, hsc, hrt⟩ | ⟨h, _⟩ | ⟨_, h, _⟩ | ⟨_, ⟨_, h⟩, _⟩
      · cases ht
        have hnc : NeverClosed cc (dropSep cc r1) := neverClosed_of_scan D (by rw [hsc]; simp)
        rcases hhead with ⟨s, k, rfl, h5, h6⟩ | ⟨rfl, h5⟩
        · obtain ⟨sep, h8, h7⟩ := dropSep_sep (r' := []) (e := []) (s := dropSep cc r1) (by simp) h6 rfl
            (fun y s' hy => by
              cases hye : cc.isNestEnd y.ch with
              | false => rfl
              | true => exact absurd .nil (hnc [] y s' [] hy hye))
          exact ⟨it :: (s ++ sep ++ dropSep cc r1), by
            rw [List.append_nil] at h8 ⊢
            rw [List.append_assoc, ← h8], .rawOpen (hst it rfl) h5 h7 h2 hnc hm⟩
        · obtain ⟨t, rfl, h5⟩ := h5
          exact ⟨it :: r, by simp, .danglingHead (hst it rfl) h5 h2 hm (Or.inl rfl)⟩
      all_goals cases h
    · cases ho
      have hm := M.text _ _ hra
      rcases hev with ⟨_, _, h, _⟩ | ⟨h, hsc, rfl⟩ | ⟨p, h, hsc⟩ | ⟨hF, ⟨e', h⟩, hsuf, hlen⟩
      · cases h
      · cases h
        have hnc : NeverClosed cc (dropSep cc r1) := neverClosed_of_scan D (by rw [hsc]; simp)
        rcases hhead with ⟨s, k, rfl, h5, h6⟩ | ⟨rfl, h5⟩
        · obtain ⟨sep, h8, h7⟩ := dropSep_sep (r' := []) (e := []) (s := dropSep cc r1) (by simp) h6 rfl
            (fun y s' hy => by
              cases hye : cc.isNestEnd y.ch with
              | false => rfl
              | true => exact absurd .nil (hnc [] y s' [] hy hye))
          exact ⟨it :: (s ++ sep ++ dropSep cc r1), by
            rw [List.append_nil] at h8 ⊢
            rw [List.append_assoc, ← h8], .rawOpen (hst it rfl) h5 h7 h2 hnc hm⟩
        · obtain ⟨t, rfl, h5⟩ := h5
          exact ⟨it :: r, by simp, .danglingHead (hst it rfl) h5 h2 hm (Or.inl rfl)⟩
      · exfalso
        rcases scanText_operands (cc := cc) false (dropSep cc r1) 0 with ⟨_, _, _, h', _⟩ | ⟨_, h'⟩ | h' <;>
          rw [h'] at hsc <;> cases hsc
      · cases h
        have hme : MemoryError (P := P) (CE := CE) X.F al (.failedAlloc e') := Or.inl ⟨⟨_, rfl⟩, Or.inl hF⟩
        rcases hhead with ⟨s, k, rfl, h5, h6⟩ | ⟨rfl, h5⟩
        · obtain ⟨u, hu⟩ : r' <:+ r1 := hsuf.trans (by
            cases r1 with
            | nil => exact List.suffix_rfl
            | cons y r1 =>
              simp only [dropSep]
              split
              · exact List.suffix_cons _ _
              · exact List.suffix_rfl)
          subst hu
          exact ⟨it :: (s ++ u), by simp, .rawMemory (hst it rfl) h5 h2 hm hme⟩
        · have : r' = [] := by simpa [dropSep] using hsuf
          subst this
          obtain ⟨t, rfl, h5⟩ := h5
          exact ⟨it :: r, by simp, .danglingHead (hst it rfl) h5 h2 hm (Or.inr ⟨hme, _, rfl⟩)⟩
  | @nested_args_err d it r a h r1 a1 c b1 e r' a' h1 h2 h3 ih1 ih2 =>
    intro e' he hd hst
    cases he
    obtain ⟨k, h2, h2'⟩ := h2.cases
    rcases h1.head_cases D M ih1 hd with ⟨s, k, rfl, h5, h6⟩ | ⟨rfl, h5⟩
    · obtain ⟨s2, ds, hs2, h7⟩ := ih2 _ rfl hd
      have h8 := h7 false (fun h => (by cases h))
      obtain ⟨sep, rfl, h10⟩ := dropSep_sep hs2 h6 rfl
        (fun x s' hx => h8.head_not_end D ⟨_, Or.inl rfl⟩ hx)
      exact ⟨it :: (s ++ sep ++ s2), by simp, .inOperands (hst it rfl) h5 h10 h2 h2' h8⟩
    · simp only [dropSep] at h3
      obtain ⟨rfl, rfl, rfl, _⟩ := h3.all_of_nil
      obtain ⟨t, rfl, h5⟩ := h5
      exact ⟨it :: r, by simp, .danglingHead (hst it rfl) h5 h2 (M.refl _) (Or.inl rfl)⟩
  | @nested_args d it r a h r1 a1 c b1 ds r2 a2 o r' a' h1 h2 h3 ho ih1 ih2 =>
    intro e he hd hst
    subst he
    have hend := h3.at_end
    have hsd : Sound cc X lookup Mem (.all d) _ _ _ _ _ := h3.sound D M
    rcases finishNest_cases ho with ⟨rfl, h, _⟩ | ⟨x, f, rfl, rfl, ho', rfl⟩ | ⟨x, rfl, rfl, ho', rfl⟩
    · rcases hend _ rfl with ⟨h, _⟩ | ⟨_, _, _, hr, _⟩
      · exact absurd h hd
      · cases hr
    all_goals
      rcases hend _ rfl with ⟨h, _⟩ | ⟨_, e', r2, hr, h4, h5⟩
      · exact absurd h hd
      cases hr
      obtain ⟨s2, hs2, h6⟩ := hsd _ rfl hd (by simp)
      have h7 := h6 false (fun h => (by cases h))
      obtain ⟨s, k, rfl, h8, h9⟩ | ⟨rfl, _⟩ := h1.head_cases D M ih1 hd
      swap
      · simp [dropSep] at hs2
      obtain ⟨sep, rfl, h10⟩ := dropSep_sep hs2 h9 rfl
        (fun x s' hx => h7.head_not_end D ⟨_, rfl⟩ hx)
      refine ⟨it :: (s ++ sep ++ s2 ++ [x]), by simp, ?_⟩
    · cases h2 with
      | applicative h2 =>
        rw [mkList_eq_listOf] at ho' ⊢
        rcases hf : f h (listOf ds) a2 with ⟨o' | o', a3⟩
        · rw [hf] at ho'
          cases ho'
          exact .applicative (hst it rfl) h4 h8 h10 h2 h7 hf
        · rw [hf] at ho'; cases ho'
    · cases h2 with
      | unbound h2 =>
        have h11 : allocComb al h (mkList ds) a2 = (.error e, _) := Prod.ext ho'.symm rfl
        exact .combinationMemory (hst it rfl) h4 h8 h10 h2 h7 (M.comb_err h11) (allocComb_error _ h11)
  | @all_err d r a e r' a' h1 ih =>
    intro e' he hd
    cases he
    have hd0 : (d == 0) = false := by simpa using hd
    obtain ⟨s, hs, h2⟩ := ih.1 _ rfl
    rw [hd0] at h2
    exact ⟨s, [], hs, h2⟩
  | all_nil => intro e h; cases h
  | @all_alloc_err d r a x r1 a1 e a2 h1 h2 ih =>
    intro e' he hd
    cases he
    rcases ih.2 _ rfl with ⟨s, k, rfl, _, _, h5⟩ | ⟨rfl, h5⟩
    · exact ⟨s, [], rfl, fun b hb => h5 hd b hb _ _ _ (M.cell_err h2) (allocCell_error _ h2)⟩
    · exact ⟨r, [], by simp, fun b hb => (h5 hd b hb _ (M.cell_err h2)).2 _ (allocCell_error _ h2)⟩
  | @all_cons_err d r a x r1 a1 u a2 e r' a' h1 h2 h3 ih1 ih2 =>
    intro e' he hd
    cases he
    have hd0 : (d == 0) = false := by simpa using hd
    rcases ih1.2 _ rfl with ⟨s, k, rfl, h4, h5, _⟩ | ⟨rfl, h5⟩
    · obtain ⟨s2, ds, rfl, h6⟩ := ih2 _ rfl hd
      rw [hd0] at h5 h4
      exact ⟨s ++ s2, x :: ds, by simp, fun b hb => h5 b hb _ _ _ _ _ _ (M.cell h2) (h6 k h4)⟩
    · obtain ⟨rfl, rfl, rfl, _⟩ := h3.all_of_nil
      exact ⟨r, [x], by simp, fun b hb => (h5 hd b hb _ (M.cell h2)).1⟩
  | all_cons => intro e h; cases h

variable {σ : Type} {U : DynEnv σ P τ ε α CE} {RS : σ → Seq P → Prop}

theorem first_error_at (C : Conf U.env RS X) (D : U.env.cc.Disjoint) {Mem : α → α → Prop}
    (M : MemOk X U.env.alloc Mem) {s : σ} {r : List (Item P)} (hs : AtItems RS s r) {a : α}
    {ds : List (Datum τ ε)} {e after t}
    (hy : U.Yields (St.init s a) (ds.map .ok ++ .error e :: after) t) :
    ∃ r₁ rest s₁ a₁, r = r₁ ++ rest ∧
      Fails U.env.cc X.RT Mem (MemoryError X.F U.env.alloc) U.lookup (.forms true false) r₁ rest a ds e a₁ ∧
      AtItems RS s₁ rest ∧ U.Yields (St.init s₁ a₁) after t := by
  have key : ∀ (ds : List (Datum τ ε)) {s r a}, AtItems RS s r →
      U.Yields (St.init s a) (ds.map .ok ++ .error e :: after) t →
      ∃ r₁ rest s₁ a₁, r = r₁ ++ rest ∧ (∀ b, (b = true → AtNext U.env.cc true r) →
        FailsAt U.env.cc X U.env.alloc U.lookup Mem (.forms true b) r₁ rest a ds e a₁) ∧
        AtItems RS s₁ rest ∧ U.Yields (St.init s₁ a₁) after t := by
    intro ds
    induction ds with
    | nil =>
      intro s r a hs hy
      cases hy with
      | error hc hy =>
        obtain ⟨o, s', r', a', ho, rfl, h2, h3⟩ := call_inv C.toJ hs hc
        rcases o with e' | l
        · cases ho
          obtain ⟨p, rfl, h4⟩ := (h3.fail_sound D M).1 _ rfl
          exact ⟨p, r', s', a', rfl, h4, h2, hy⟩
        · cases ho
    | cons d ds ih =>
      intro s r a hs hy
      cases hy with
      | datum hc hy =>
        obtain ⟨o, s', r', a', ho, rfl, h2, h3⟩ := call_inv C.toJ hs hc
        have : o = .ok [d] := by
          rcases o with e' | l
          · cases ho
          · have := h3.le_one _ rfl
            match l, this with
            | [x], _ => cases ho; rfl
            | [], _ => cases ho
        subst this
        obtain ⟨p₂, rest, s₁, a₁, rfl, h5, h6, h7⟩ := ih h2 hy
        rcases (h3.fail_sound D M).2 _ rfl with ⟨p, k, rfl, h8, h9, _⟩ | ⟨h8, _⟩
        · exact ⟨p ++ p₂, rest, s₁, a₁, by simp,
            fun b hb => h9 b hb _ _ _ _ _ _ (M.refl _) (h5 k h8), h6, h7⟩
        · exfalso
          have hz : p₂ = [] ∧ rest = [] := by simpa using h8
          obtain ⟨rfl, rfl⟩ := hz
          have := (yields_inv C h2 hy).choose_spec.choose_spec.2.2.length
          simp at this
  obtain ⟨r₁, rest, s₁, a₁, h1, h2, h3⟩ := key ds hs hy
  exact ⟨r₁, rest, s₁, a₁, h1, h2 false (fun h => by cases h), h3⟩

end Kul.Dyn
