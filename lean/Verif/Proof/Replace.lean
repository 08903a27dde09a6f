import Verif.Proof.EvalDet
import Verif.Proof.Local
import Verif.Spec.Append

/-! # Replacing a nest by another -/

namespace Kul

variable {P τ ε α CE : Type} {cc : Classifier} {X : TextSem P τ α} {al : AllocOps τ ε α}
  {lookup : Datum τ ε → Option (Combiner τ ε α P CE)}

theorem danglingEscape_tail {x : Item P} {s : List (Item P)} (hx : cc.isNestEscape x.ch = false)
    (h : danglingEscape cc (x :: s) = false) : danglingEscape cc s = false := by
  cases s with
  | nil => rfl
  | cons y s => simpa [danglingEscape, hx] using h

/-- The parts of a source up to a start delimiter, which is the first item of `n` and of `n'`. -/
theorem lead_before (D : cc.Disjoint) (m : Mode) :
    ∀ u : List (Item P), danglingEscape cc u = false → ∃ u2, danglingEscape cc u2 = false ∧
      (∀ x' t', cc.isNestStart x'.ch = true → lead cc m (u ++ x' :: t') = u2 ++ x' :: t') := by
  intro u hu
  unfold lead
  split
  · induction u with
    | nil => exact ⟨[], rfl, fun x' t' hx' => by simp [D.start_ws _ hx']⟩
    | cons y u ih =>
      by_cases hy : cc.isWhitespace y.ch = true
      · have : cc.isNestEscape y.ch = false := by
          cases h : cc.isNestEscape y.ch with
          | false => rfl
          | true => rw [D.esc_ws _ h] at hy; cases hy
        obtain ⟨u2, h1, h2⟩ := ih (danglingEscape_tail this hu)
        refine ⟨u2, h1, fun x' t' hx' => ?_⟩
        simp only [List.cons_append, List.dropWhile_cons, hy, if_true]
        exact h2 x' t' hx'
      · refine ⟨y :: u, hu, fun x' t' _ => ?_⟩
        simp [hy]
  · exact ⟨u, hu, fun _ _ _ => rfl⟩

theorem dropSep_before (D : cc.Disjoint) (u : List (Item P)) (hu : danglingEscape cc u = false) :
    ∃ u2, danglingEscape cc u2 = false ∧
      (∀ x' t', cc.isNestStart x'.ch = true → dropSep cc (u ++ x' :: t') = u2 ++ x' :: t') := by
  cases u with
  | nil => exact ⟨[], rfl, fun x' t' hx' => by simp [dropSep, D.start_ws _ hx']⟩
  | cons y u =>
    by_cases hy : cc.isWhitespace y.ch = true
    · have : cc.isNestEscape y.ch = false := by
        cases h : cc.isNestEscape y.ch with
        | false => rfl
        | true => rw [D.esc_ws _ h] at hy; cases hy
      exact ⟨u, danglingEscape_tail this hu, fun x' t' _ => by simp [dropSep, hy]⟩
    · exact ⟨y :: u, hu, fun x' t' _ => by simp [dropSep, hy]⟩

/-- A text that starts before the start delimiter ends before it. -/
theorem scanText_before {m : Mode} (hm : m ≠ .operands) (top : Bool) :
    ∀ u : List (Item P), danglingEscape cc u = false →
      (∃ c u2, danglingEscape cc u2 = false ∧
        ∀ x' t', cc.isNestStart x'.ch = true → scanText cc m top 0 (u ++ x' :: t') = .ok c (u2 ++ x' :: t')) ∨
      (∃ p u2, danglingEscape cc u2 = false ∧
        ∀ x' t', cc.isNestStart x'.ch = true →
          scanText cc m top 0 (u ++ x' :: t') = .unbalanced p (u2 ++ x' :: t')) := by
  have hend : ∀ c, cc.isNestStart c = true → isEndChar cc m c = true := by
    intro c hc
    cases m with
    | base => exact hc
    | operator => simp [isEndChar, hc]
    | operands => exact absurd rfl hm
  intro u hu
  induction hn : u.length using Nat.strongRecOn generalizing u with
  | ind k ih =>
    subst hn
    match u with
    | [] =>
      refine Or.inl ⟨[], [], rfl, fun x' t' hx' => ?_⟩
      simp [scanText_cons, hend _ hx']
    | y :: u =>
      by_cases h1 : isEndChar cc m y.ch = true
      · exact Or.inl ⟨[], y :: u, hu, fun x' t' _ => by simp [scanText_cons, h1]⟩
      by_cases h2 : cc.isNestEscape y.ch = true
      · match u with
        | [] => simp [danglingEscape, h2] at hu
        | z :: u =>
          have hu' : danglingEscape cc u = false := by simpa [danglingEscape, h2] using hu
          rcases ih u.length (by simp; omega) u hu' rfl with ⟨c, u2, g1, g2⟩ | ⟨p, u2, g1, g2⟩
          · refine Or.inl ⟨z :: c, u2, g1, fun x' t' hx' => ?_⟩
            rw [List.cons_append, scanText_cons, if_neg (by simp [h1]), if_pos h2]
            simp only [List.cons_append]
            rw [g2 x' t' hx']; rfl
          · refine Or.inr ⟨p, u2, g1, fun x' t' hx' => ?_⟩
            rw [List.cons_append, scanText_cons, if_neg (by simp [h1]), if_pos h2]
            simp only [List.cons_append]
            rw [g2 x' t' hx']; rfl
      have hu' : danglingEscape cc u = false := danglingEscape_tail (by simpa using h2) hu
      have h3 : cc.isNestStart y.ch = false := by
        cases h : cc.isNestStart y.ch with
        | false => rfl
        | true => exact absurd (hend _ h) h1
      by_cases h4 : cc.isNestEnd y.ch = true
      · cases top with
        | true =>
          refine Or.inr ⟨y.pos, u, hu', fun x' t' _ => ?_⟩
          rw [List.cons_append, scanText_cons, if_neg (by simp [h1]), if_neg h2, if_neg (by simp [h3]), if_pos h4]
          rfl
        | false =>
          refine Or.inl ⟨[], y :: u, hu, fun x' t' _ => ?_⟩
          rw [List.cons_append, scanText_cons, if_neg (by simp [h1]), if_neg h2, if_neg (by simp [h3]), if_pos h4]
          rfl
      · rcases ih u.length (by simp) u hu' rfl with ⟨c, u2, g1, g2⟩ | ⟨p, u2, g1, g2⟩
        · refine Or.inl ⟨y :: c, u2, g1, fun x' t' hx' => ?_⟩
          rw [List.cons_append, scanText_cons, if_neg (by simp [h1]), if_neg h2, if_neg (by simp [h3]), if_neg h4,
            g2 x' t' hx']; rfl
        · refine Or.inr ⟨p, u2, g1, fun x' t' hx' => ?_⟩
          rw [List.cons_append, scanText_cons, if_neg (by simp [h1]), if_neg h2, if_neg (by simp [h3]), if_neg h4,
            g2 x' t' hx']; rfl

/-- Two lists that differ in one element, as `R` says. -/
def ListR {A : Type} (R : A → A → Prop) (l l' : List A) : Prop :=
  ∃ p x y q, l = p ++ x :: q ∧ l' = p ++ y :: q ∧ R x y

theorem ListR.nil_left {A : Type} {R : A → A → Prop} {l' : List A} : ¬ ListR R [] l' := by
  rintro ⟨p, x, y, q, h, _⟩
  cases p <;> cases h

theorem ListR.single {A : Type} {R : A → A → Prop} {x : A} {l' : List A} (h : ListR R [x] l') :
    ∃ y, l' = [y] ∧ R x y := by
  obtain ⟨p, x', y, q, h1, h2, h3⟩ := h
  cases p with
  | nil => cases h1; exact ⟨y, h2, h3⟩
  | cons z p => cases p <;> cases h1

theorem ListR.here {A : Type} {R : A → A → Prop} {x y : A} (q : List A) (h : R x y) : ListR R (x :: q) (y :: q) :=
  ⟨[], x, y, q, rfl, rfl, h⟩

theorem ListR.later {A : Type} {R : A → A → Prop} (z : A) {l l' : List A} (h : ListR R l l') :
    ListR R (z :: l) (z :: l') := by
  obtain ⟨p, x, y, q, rfl, rfl, h3⟩ := h
  exact ⟨z :: p, x, y, q, rfl, rfl, h3⟩

/-- How the outcomes compare. -/
def OutR (Er : Except (Err P CE) (List (Datum τ ε)) → Prop) (R : Datum τ ε → Datum τ ε → Prop)
    (o o' : Except (Err P CE) (List (Datum τ ε))) : Prop :=
  (o = o' ∧ Er o) ∨ ∃ l l', o = .ok l ∧ o' = .ok l' ∧ ListR R l l'

/-- What is needed of the two nests and of the relations. -/
structure Swap (cc : Classifier) (X : TextSem P τ α) (al : AllocOps τ ε α)
    (lookup : Datum τ ε → Option (Combiner τ ε α P CE))
    (Er : Except (Err P CE) (List (Datum τ ε)) → Prop) (R : Datum τ ε → Datum τ ε → Prop)
    (n n' : List (Item P)) : Prop where
  start : ∃ x t, n = x :: t ∧ cc.isNestStart x.ch = true
  start' : ∃ x t, n' = x :: t ∧ cc.isNestStart x.ch = true
  /-- Both nests are read whatever follows. -/
  read : ∀ a, ∃ l l' a', (∀ rest d, d ≠ 0 → Eval cc X al lookup (.nested d) (n ++ rest) a (.ok l) rest a') ∧
    (∀ rest d, d ≠ 0 → Eval cc X al lookup (.nested d) (n' ++ rest) a (.ok l') rest a') ∧
    OutR (P := P) (CE := CE) Er R (.ok l) (.ok l')
  all_of_ok : ∀ l, Er (.ok l) → ∀ o, Er o
  err : ∀ d r a e r' a', d ≠ 0 → Eval cc X al lookup (.all d) r a (.error e) r' a' → Er (.error e)
  no_operative : ∀ h f, lookup h ≠ some (.operative f)
  head : ∀ h h' c ds (e : Item P) r a o r' a', R h h' → ArgComb lookup h c → finishNest al c h ds (e :: r) a = (o, r', a') →
    ∃ c' o', ArgComb lookup h' c' ∧ finishNest al c' h' ds (e :: r) a = (o', r', a') ∧ OutR Er R o o'
  args : ∀ h c ds ds' (e : Item P) r a o r' a', ListR R ds ds' → ArgComb lookup h c →
    finishNest al c h ds (e :: r) a = (o, r', a') →
    ∃ o', finishNest al c h ds' (e :: r) a = (o', r', a') ∧ OutR Er R o o'

/-- The part before the nest, as far as a job has read. -/
def JobOk (cc : Classifier) : Job → List (Item P) → Prop
  | .next m _, u => m ≠ .operands ∧ danglingEscape cc u = false
  | .nested d, u => d ≠ 0 ∧ ∃ x u', u = x :: u' ∧ danglingEscape cc u' = false
  | .all d, u => d ≠ 0 ∧ danglingEscape cc u = false

/-- The job ends before the nest, or after it. -/
def Passed (cc : Classifier) (X : TextSem P τ α) (al : AllocOps τ ε α)
    (lookup : Datum τ ε → Option (Combiner τ ε α P CE))
    (Er : Except (Err P CE) (List (Datum τ ε)) → Prop) (R : Datum τ ε → Datum τ ε → Prop)
    (n n' post : List (Item P)) (j : Job) (u : List (Item P)) (a : α)
    (o : Except (Err P CE) (List (Datum τ ε))) (r' : List (Item P)) (a' : α) : Prop :=
  (∃ u2, danglingEscape cc u2 = false ∧ r' = u2 ++ (n ++ post) ∧
    Eval cc X al lookup j (u ++ (n' ++ post)) a o (u2 ++ (n' ++ post)) a') ∨
  (∃ o', Eval cc X al lookup j (u ++ (n' ++ post)) a o' r' a' ∧ OutR Er R o o')

theorem argComb_exists (hno : ∀ h f, lookup h ≠ some (.operative f)) (h : Datum τ ε) : ∃ c, ArgComb lookup h c := by
  cases hl : lookup h with
  | none => exact ⟨_, .unbound hl⟩
  | some c =>
    cases c with
    | operative f => exact absurd hl (hno h f)
    | applicative f => exact ⟨_, .applicative hl⟩

theorem Eval.swap {Er : Except (Err P CE) (List (Datum τ ε)) → Prop} {R : Datum τ ε → Datum τ ε → Prop}
    {n n' post : List (Item P)} (D : cc.Disjoint) (hX : X.Func) (A : al.Free)
    (S : Swap cc X al lookup Er R n n') {j r a o r' a'} (h : Eval cc X al lookup j r a o r' a') :
    ∀ u, r = u ++ (n ++ post) → JobOk cc j u → Passed cc X al lookup Er R n n' post j u a o r' a' := by
  obtain ⟨x, n1, hn, hx⟩ := S.start
  obtain ⟨x', n1', hn', hx'⟩ := S.start'
  -- equal outcomes after the nest
  have eqv : ∀ {j u a o r' a'} (ds : List (Datum τ ε)), Er (.ok ds) →
      Eval cc X al lookup j (u ++ (n' ++ post)) a o r' a' → Passed cc X al lookup Er R n n' post j u a o r' a' :=
    fun ds he h => Or.inr ⟨_, h, Or.inl ⟨rfl, S.all_of_ok _ he _⟩⟩
  have notEnd : ∀ {e : Item P} {r1 u2 : List (Item P)}, cc.isNestEnd e.ch = true → e :: r1 = u2 ++ (n ++ post) →
      ∃ u3, u2 = e :: u3 ∧ r1 = u3 ++ (n ++ post) := by
    intro e r1 u2 he hr
    cases u2 with
    | nil =>
      rw [hn] at hr
      simp only [List.nil_append, List.cons_append, List.cons.injEq] at hr
      rw [hr.1, D.start_end _ hx] at he; cases he
    | cons y u3 => simp only [List.cons_append, List.cons.injEq] at hr; exact ⟨u3, by rw [hr.1], hr.2⟩
  have leadn : ∀ m u, danglingEscape cc u = false → ∃ u2, danglingEscape cc u2 = false ∧
      lead cc m (u ++ (n ++ post)) = u2 ++ (n ++ post) ∧ lead cc m (u ++ (n' ++ post)) = u2 ++ (n' ++ post) := by
    intro m u hu
    obtain ⟨u2, h1, h2⟩ := lead_before D m u hu
    refine ⟨u2, h1, ?_, ?_⟩
    · rw [hn]; exact h2 x _ hx
    · rw [hn']; exact h2 x' _ hx'
  have sepn : ∀ u, danglingEscape cc u = false → ∃ u2, danglingEscape cc u2 = false ∧
      dropSep cc (u ++ (n ++ post)) = u2 ++ (n ++ post) ∧ dropSep cc (u ++ (n' ++ post)) = u2 ++ (n' ++ post) := by
    intro u hu
    obtain ⟨u2, h1, h2⟩ := dropSep_before D u hu
    refine ⟨u2, h1, ?_, ?_⟩
    · rw [hn]; exact h2 x _ hx
    · rw [hn']; exact h2 x' _ hx'
  induction h with
  | @next_eof m d r a o h1 h2 =>
    rintro u rfl ⟨_, hu⟩
    obtain ⟨u2, _, g1, _⟩ := leadn m u hu
    rw [g1, hn] at h1
    exact absurd h1 (by simp)
  | @next_nest m d r a it r1 o r' a' h1 h2 h3 h4 ih =>
    rintro u rfl ⟨hm, hu⟩
    obtain ⟨u2, hu2, g1, g2⟩ := leadn m u hu
    rw [g1] at h1
    cases u2 with
    | nil =>
      obtain ⟨l, l', a2, e1, e2, e3⟩ := S.read a
      simp only [List.nil_append] at h1 g2
      rw [← h1] at h3
      obtain ⟨rfl, rfl, rfl⟩ := h3.det hX (e1 post _ (by simp))
      refine Or.inr ⟨.ok l', ?_, e3⟩
      refine .next_nest (by rw [g2, hn']; rfl) hx' ?_ ?_
      · have := e2 r' (d + 1) (by simp)
        rw [hn'] at this
        exact this
      · rcases e3 with ⟨e3, _⟩ | ⟨l1, l2, e3, e4, e5⟩
        · rw [← e3]; exact h4
        · rw [e4]
          rintro h5
          cases h5
          obtain ⟨p, y, z, q, _, e6, _⟩ := e5
          exact absurd e6 (by simp)
    | cons y u3 =>
      simp only [List.cons_append, List.cons.injEq] at h1
      obtain ⟨rfl, rfl⟩ := h1
      have hu3 := danglingEscape_tail (D.start_esc _ h2) hu2
      rcases ih (y :: u3) rfl ⟨by simp, y, u3, rfl, hu3⟩ with ⟨u4, g3, rfl, g5⟩ | ⟨o', g3, g4⟩
      · exact Or.inl ⟨u4, g3, rfl, .next_nest g2 h2 g5 h4⟩
      · refine Or.inr ⟨o', .next_nest g2 h2 g3 ?_, g4⟩
        rcases g4 with ⟨rfl, _⟩ | ⟨l, l', e3, rfl, e5⟩
        · exact h4
        · rintro h5
          cases h5
          obtain ⟨p, y, z, q, _, e6, _⟩ := e5
          exact absurd e6 (by simp)
  | @next_removed m d r a it r1 r2 a2 o r' a' h1 h2 h3 h4 ih1 ih2 =>
    rintro u rfl ⟨hm, hu⟩
    obtain ⟨u2, hu2, g1, g2⟩ := leadn m u hu
    rw [g1] at h1
    cases u2 with
    | nil =>
      obtain ⟨l, l', a3, e1, e2, e3⟩ := S.read a
      simp only [List.nil_append] at h1 g2
      rw [← h1] at h3
      obtain ⟨e4, rfl, rfl⟩ := h3.det hX (e1 post _ (by simp))
      cases e4
      rcases e3 with ⟨e3, e4⟩ | ⟨l1, l2, e3, e4, e5⟩
      · cases e3
        refine eqv [] e4 (.next_removed (by rw [g2, hn']; rfl) hx' ?_ h4)
        have := e2 r2 (d + 1) (by simp)
        rw [hn'] at this
        exact this
      · cases e3; exact absurd e5 ListR.nil_left
    | cons y u3 =>
      simp only [List.cons_append, List.cons.injEq] at h1
      obtain ⟨rfl, rfl⟩ := h1
      have hu3 := danglingEscape_tail (D.start_esc _ h2) hu2
      rcases ih1 (y :: u3) rfl ⟨by simp, y, u3, rfl, hu3⟩ with ⟨u4, g3, rfl, g5⟩ | ⟨o', g3, g4⟩
      · rcases ih2 u4 rfl ⟨hm, g3⟩ with ⟨u5, g6, rfl, g7⟩ | ⟨o', g6, g7⟩
        · exact Or.inl ⟨u5, g6, rfl, .next_removed g2 h2 g5 g7⟩
        · exact Or.inr ⟨o', .next_removed g2 h2 g5 g6, g7⟩
      · rcases g4 with ⟨rfl, e4⟩ | ⟨l, l', e3, rfl, e5⟩
        · exact eqv _ e4 (.next_removed g2 h2 g3 h4)
        · cases e3; exact absurd e5 ListR.nil_left
  | @next_end m d r a it r1 o r' h1 h2 h3 h4 =>
    rintro u rfl ⟨hm, hu⟩
    obtain ⟨u2, hu2, g1, g2⟩ := leadn m u hu
    rw [g1] at h1
    obtain ⟨u3, rfl, rfl⟩ := notEnd h3 h1.symm
    have hu3 := danglingEscape_tail (D.end_esc _ h3) hu2
    rcases endForm_cases h4 with ⟨rfl, rfl, rfl⟩ | ⟨hd, rfl, rfl⟩
    · exact Or.inl ⟨u3, hu3, rfl, .next_end g2 h2 h3 (by simp [endForm])⟩
    · exact Or.inl ⟨it :: u3, hu2, rfl, .next_end g2 h2 h3 (by simp [endForm, hd])⟩
  | @next_text m d r a it r1 o r' a' h1 h2 h3 h4 =>
    rintro u rfl ⟨hm, hu⟩
    obtain ⟨u2, hu2, g1, g2⟩ := leadn m u hu
    rw [g1] at h1
    cases u2 with
    | nil =>
      rw [hn] at h1
      simp only [List.nil_append, List.cons_append, List.cons.injEq] at h1
      rw [← h1.1, hx] at h2; cases h2
    | cons y u3 =>
      simp only [List.cons_append, List.cons.injEq] at h1
      obtain ⟨rfl, rfl⟩ := h1
      have hs := scanText_before hm (d == 0) (y :: u3) hu2
      rcases hs with ⟨c, u4, k1, k2⟩ | ⟨p, u4, k1, k2⟩
      · have k3 := k2 x (n1 ++ post) hx
        have k4 := k2 x' (n1' ++ post) hx'
        rw [← List.cons_append, ← hn] at k3
        rw [← List.cons_append, ← hn'] at k4
        have key : ∀ {o1 : Except (Err P CE) τ}, TextEv cc X m (d == 0) (y :: (u3 ++ (n ++ post))) a o1 r' a' →
            r' = u4 ++ (n ++ post) ∧ TextEv cc X m (d == 0) (y :: (u3 ++ (n' ++ post))) a o1 (u4 ++ (n' ++ post)) a' := by
          rintro o1 ⟨e0, e⟩
          rcases e with ⟨t, c', rfl, e2, e3⟩ | ⟨_, e2, _⟩ | ⟨p, _, e2⟩ | ⟨e, _⟩
          · rw [← List.cons_append, k3] at e2
            cases e2
            exact ⟨rfl, e0, Or.inl ⟨t, c, rfl, k4, e3⟩⟩
          · rw [← List.cons_append, k3] at e2; cases e2
          · rw [← List.cons_append, k3] at e2; cases e2
          · exact absurd e hX.f
        rcases h4 with ⟨t, e1, rfl⟩ | ⟨e, e1, rfl⟩
        · obtain ⟨rfl, e2⟩ := key e1
          exact Or.inl ⟨u4, k1, rfl, .next_text g2 h2 h3 (Or.inl ⟨t, e2, rfl⟩)⟩
        · obtain ⟨rfl, e2⟩ := key e1
          exact Or.inl ⟨u4, k1, rfl, .next_text g2 h2 h3 (Or.inr ⟨e, e2, rfl⟩)⟩
      · have k3 := k2 x (n1 ++ post) hx
        have k4 := k2 x' (n1' ++ post) hx'
        rw [← List.cons_append, ← hn] at k3
        rw [← List.cons_append, ← hn'] at k4
        have key : ∀ {o1 : Except (Err P CE) τ}, TextEv cc X m (d == 0) (y :: (u3 ++ (n ++ post))) a o1 r' a' →
            r' = u4 ++ (n ++ post) ∧ TextEv cc X m (d == 0) (y :: (u3 ++ (n' ++ post))) a o1 (u4 ++ (n' ++ post)) a' := by
          rintro o1 ⟨e0, e⟩
          rcases e with ⟨t, c', rfl, e2, e3⟩ | ⟨_, e2, _⟩ | ⟨p, rfl, e2⟩ | ⟨e, _⟩
          · rw [← List.cons_append, k3] at e2; cases e2
          · rw [← List.cons_append, k3] at e2; cases e2
          · rw [← List.cons_append, k3] at e2
            cases e2
            exact ⟨rfl, e0, Or.inr (Or.inr (Or.inl ⟨p, rfl, k4⟩))⟩
          · exact absurd e hX.f
        rcases h4 with ⟨t, e1, rfl⟩ | ⟨e, e1, rfl⟩
        · obtain ⟨rfl, e2⟩ := key e1
          exact Or.inl ⟨u4, k1, rfl, .next_text g2 h2 h3 (Or.inl ⟨t, e2, rfl⟩)⟩
        · obtain ⟨rfl, e2⟩ := key e1
          exact Or.inl ⟨u4, k1, rfl, .next_text g2 h2 h3 (Or.inr ⟨e, e2, rfl⟩)⟩
  | @nested_head_err d it r a e r' a' h1 ih =>
    rintro u hr ⟨hd, y, u1, rfl, hu1⟩
    simp only [List.cons_append, List.cons.injEq] at hr
    obtain ⟨rfl, rfl⟩ := hr
    rcases ih u1 rfl ⟨by simp, hu1⟩ with ⟨u4, g3, rfl, g5⟩ | ⟨o', g3, g4⟩
    · exact Or.inl ⟨u4, g3, rfl, .nested_head_err g5⟩
    · rcases g4 with ⟨rfl, e4⟩ | ⟨l, l', e3, _⟩
      · exact Or.inr ⟨_, .nested_head_err g3, Or.inl ⟨rfl, e4⟩⟩
      · cases e3
  | @nested_empty d it r a r1 a1 o r' h1 h2 ih =>
    rintro u hr ⟨hd, y, u1, rfl, hu1⟩
    simp only [List.cons_append, List.cons.injEq] at hr
    obtain ⟨rfl, rfl⟩ := hr
    rcases ih u1 rfl ⟨by simp, hu1⟩ with ⟨u4, g3, rfl, g5⟩ | ⟨o', g3, g4⟩
    · rcases h1.at_end rfl with ⟨h3, _⟩ | ⟨_, e, r3, h3, h4, _, _⟩
      · exact absurd h3 hd
      · obtain ⟨u5, rfl, rfl⟩ := notEnd h4 h3.symm
        have h5 := danglingEscape_tail (D.end_esc _ h4) g3
        simp only [List.cons_append, dropSep, D.end_ws _ h4, Bool.false_eq_true, if_false, finishEmpty,
          Prod.mk.injEq] at h2
        obtain ⟨rfl, rfl⟩ := h2
        exact Or.inl ⟨u5, h5, rfl, .nested_empty g5 (by
          simp [List.cons_append, dropSep, D.end_ws _ h4, finishEmpty])⟩
    · rcases g4 with ⟨rfl, e4⟩ | ⟨l, l', e3, _, e5⟩
      · exact eqv _ e4 (.nested_empty g3 h2)
      · cases e3; exact absurd e5 ListR.nil_left
  | nested_operative _ h2 => exact absurd h2 (S.no_operative _ _)
  | @nested_args_err d it r a h r1 a1 c e r' a' h1 h2 h3 ih1 ih2 =>
    rintro u hr ⟨hd, y, u1, rfl, hu1⟩
    simp only [List.cons_append, List.cons.injEq] at hr
    obtain ⟨rfl, rfl⟩ := hr
    rcases ih1 u1 rfl ⟨by simp, hu1⟩ with ⟨u4, g3, rfl, g5⟩ | ⟨o', g3, g4⟩
    · obtain ⟨u5, hu5, k1, k2⟩ := sepn u4 g3
      rcases ih2 u5 k1 ⟨hd, hu5⟩ with ⟨u6, g6, rfl, g7⟩ | ⟨o', g6, g7⟩
      · exact Or.inl ⟨u6, g6, rfl, .nested_args_err g5 h2 (by rw [k2]; exact g7)⟩
      · rcases g7 with ⟨rfl, e4⟩ | ⟨l, l', e3, _⟩
        · exact Or.inr ⟨_, .nested_args_err g5 h2 (by rw [k2]; exact g6), Or.inl ⟨rfl, e4⟩⟩
        · cases e3
    · rcases g4 with ⟨rfl, e4⟩ | ⟨l, l', e3, rfl, e5⟩
      · exact eqv _ e4 (.nested_args_err g3 h2 h3)
      · cases e3
        obtain ⟨h', rfl, e6⟩ := e5.single
        obtain ⟨c', hc'⟩ := argComb_exists S.no_operative h'
        exact Or.inr ⟨_, .nested_args_err g3 hc' h3, Or.inl ⟨rfl, S.err _ _ _ _ _ _ hd h3⟩⟩
  | @nested_args d it r a h r1 a1 c ds r2 a2 o r' a' h1 h2 h3 h4 ih1 ih2 =>
    rintro u hr ⟨hd, y, u1, rfl, hu1⟩
    simp only [List.cons_append, List.cons.injEq] at hr
    obtain ⟨rfl, rfl⟩ := hr
    rcases h3.at_end _ rfl with ⟨h5, _⟩ | ⟨_, e, r3, rfl, h6, _⟩
    · exact absurd h5 hd
    rcases ih1 u1 rfl ⟨by simp, hu1⟩ with ⟨u4, g3, rfl, g5⟩ | ⟨o', g3, g4⟩
    · obtain ⟨u5, hu5, k1, k2⟩ := sepn u4 g3
      rcases ih2 u5 k1 ⟨hd, hu5⟩ with ⟨u6, g6, g8, g7⟩ | ⟨o', g6, g7⟩
      · obtain ⟨u7, rfl, rfl⟩ := notEnd h6 g8
        have h7 := danglingEscape_tail (D.end_esc _ h6) g6
        refine Or.inl ⟨u7, h7, ?_, .nested_args g5 h2 (by rw [k2]; exact g7) ?_⟩
        · simp only [finishNest] at h4
          split at h4 <;> (simp only [Prod.mk.injEq] at h4; exact h4.2.1.symm)
        · simp only [finishNest, List.cons_append] at h4 ⊢
          split at h4 <;> (simp only [Prod.mk.injEq] at h4 ⊢; exact ⟨h4.1, trivial, h4.2.2⟩)
      · rcases g7 with ⟨rfl, e4⟩ | ⟨l, l', e3, rfl, e5⟩
        · exact eqv _ e4 (.nested_args g5 h2 (by rw [k2]; exact g6) h4)
        · cases e3
          obtain ⟨o', e6, e7⟩ := S.args _ _ _ _ _ _ _ _ _ _ e5 h2 h4
          exact Or.inr ⟨o', .nested_args g5 h2 (by rw [k2]; exact g6) e6, e7⟩
    · rcases g4 with ⟨rfl, e4⟩ | ⟨l, l', e3, rfl, e5⟩
      · exact eqv _ e4 (.nested_args g3 h2 h3 h4)
      · cases e3
        obtain ⟨h', rfl, e6⟩ := e5.single
        obtain ⟨c', o', hc', e7, e8⟩ := S.head _ _ _ _ _ _ _ _ _ _ e6 h2 h4
        exact Or.inr ⟨_, .nested_args g3 hc' h3 e7, e8⟩
  | @all_err d r a e r' a' h1 ih =>
    rintro u rfl ⟨hd, hu⟩
    rcases ih u rfl ⟨by simp, hu⟩ with ⟨u4, g3, rfl, g5⟩ | ⟨o', g3, g4⟩
    · exact Or.inl ⟨u4, g3, rfl, .all_err g5⟩
    · rcases g4 with ⟨rfl, e4⟩ | ⟨l, l', e3, _⟩
      · exact Or.inr ⟨_, .all_err g3, Or.inl ⟨rfl, e4⟩⟩
      · cases e3
  | @all_nil d r a r' a' h1 ih =>
    rintro u rfl ⟨hd, hu⟩
    rcases ih u rfl ⟨by simp, hu⟩ with ⟨u4, g3, rfl, g5⟩ | ⟨o', g3, g4⟩
    · exact Or.inl ⟨u4, g3, rfl, .all_nil g5⟩
    · rcases g4 with ⟨rfl, e4⟩ | ⟨l, l', e3, _, e5⟩
      · exact eqv _ e4 (.all_nil g3)
      · cases e3; exact absurd e5 ListR.nil_left
  | all_alloc_err _ h2 => rw [A.cell] at h2; cases h2
  | @all_cons_err d r a y r1 a1 v a2 e r' a' h1 h2 h3 ih1 ih2 =>
    rintro u rfl ⟨hd, hu⟩
    rcases ih1 u rfl ⟨by simp, hu⟩ with ⟨u4, g3, rfl, g5⟩ | ⟨o', g3, g4⟩
    · rcases ih2 u4 rfl ⟨hd, g3⟩ with ⟨u6, g6, rfl, g7⟩ | ⟨o', g6, g7⟩
      · exact Or.inl ⟨u6, g6, rfl, .all_cons_err g5 h2 g7⟩
      · rcases g7 with ⟨rfl, e4⟩ | ⟨l, l', e3, _⟩
        · exact Or.inr ⟨_, .all_cons_err g5 h2 g6, Or.inl ⟨rfl, e4⟩⟩
        · cases e3
    · rcases g4 with ⟨rfl, e4⟩ | ⟨l, l', e3, rfl, e5⟩
      · exact eqv _ e4 (.all_cons_err g3 h2 h3)
      · cases e3
        obtain ⟨y', rfl, e6⟩ := e5.single
        rw [A.cell] at h2
        cases h2
        exact Or.inr ⟨_, .all_cons_err g3 (A.cell _ _) h3, Or.inl ⟨rfl, S.err _ _ _ _ _ _ hd h3⟩⟩
  | @all_cons d r a y r1 a1 v a2 ds r' a' h1 h2 h3 ih1 ih2 =>
    rintro u rfl ⟨hd, hu⟩
    rcases ih1 u rfl ⟨by simp, hu⟩ with ⟨u4, g3, rfl, g5⟩ | ⟨o', g3, g4⟩
    · rcases ih2 u4 rfl ⟨hd, g3⟩ with ⟨u6, g6, rfl, g7⟩ | ⟨o', g6, g7⟩
      · exact Or.inl ⟨u6, g6, rfl, .all_cons g5 h2 g7⟩
      · rcases g7 with ⟨rfl, e4⟩ | ⟨l, l', e3, rfl, e5⟩
        · exact eqv _ e4 (.all_cons g5 h2 g6)
        · cases e3
          exact Or.inr ⟨_, .all_cons g5 h2 g6, Or.inr ⟨_, _, rfl, rfl, e5.later y⟩⟩
    · rcases g4 with ⟨rfl, e4⟩ | ⟨l, l', e3, rfl, e5⟩
      · exact eqv _ e4 (.all_cons g3 h2 h3)
      · cases e3
        obtain ⟨y', rfl, e6⟩ := e5.single
        rw [A.cell] at h2
        cases h2
        exact Or.inr ⟨_, .all_cons g3 (A.cell _ _) h3, Or.inr ⟨_, _, rfl, rfl, .here _ e6⟩⟩

/-- A whole source. -/
theorem Run.swap {Er : Except (Err P CE) (List (Datum τ ε)) → Prop} {R : Datum τ ε → Datum τ ε → Prop}
    {n n' post : List (Item P)} (D : cc.Disjoint) (hX : X.Func) (A : al.Free)
    (S : Swap cc X al lookup Er R n n') {r a l r' a'} (h : Run cc X al lookup r a l r' a') :
    ∀ u, r = u ++ (n ++ post) → danglingEscape cc u = false →
    ∃ l', Run cc X al lookup (u ++ (n' ++ post)) a l' r' a' ∧
      ((l = l' ∧ ((∃ e, .error e ∈ l ∧ Er (.error e)) ∨ Er (.ok []))) ∨
        ∃ p x y q, l = p ++ .ok x :: q ∧ l' = p ++ .ok y :: q ∧ R x y) := by
  induction h with
  | done h1 =>
    rintro u rfl hu
    rcases h1.swap D hX A S u rfl ⟨by simp, hu⟩ with ⟨u4, g3, rfl, g5⟩ | ⟨o', g3, g4⟩
    · rcases h1.at_end rfl with ⟨_, h3⟩ | ⟨h3, _⟩
      · obtain ⟨x, n1, rfl, _⟩ := S.start
        exact absurd h3 (by simp)
      · exact absurd rfl h3
    · rcases g4 with ⟨rfl, e4⟩ | ⟨l, l', e3, _, e5⟩
      · exact ⟨[], .done g3, Or.inl ⟨rfl, Or.inr e4⟩⟩
      · cases e3; exact absurd e5 ListR.nil_left
  | @datum r a d r₁ a₁ l r' a' h1 h2 ih =>
    rintro u rfl hu
    rcases h1.swap D hX A S u rfl ⟨by simp, hu⟩ with ⟨u4, g3, rfl, g5⟩ | ⟨o', g3, g4⟩
    · obtain ⟨l', k1, k2⟩ := ih u4 rfl g3
      refine ⟨_, .datum g5 k1, ?_⟩
      rcases k2 with ⟨rfl, ⟨e, k2, k3⟩ | k2⟩ | ⟨p, x, y, q, rfl, rfl, k2⟩
      · exact Or.inl ⟨rfl, Or.inl ⟨e, List.mem_cons_of_mem _ k2, k3⟩⟩
      · exact Or.inl ⟨rfl, Or.inr k2⟩
      · exact Or.inr ⟨.ok d :: p, x, y, q, rfl, rfl, k2⟩
    · rcases g4 with ⟨rfl, e4⟩ | ⟨l, l', e3, rfl, e5⟩
      · exact ⟨_, .datum g3 h2, Or.inl ⟨rfl, Or.inr (S.all_of_ok _ e4 _)⟩⟩
      · cases e3
        obtain ⟨y', rfl, e6⟩ := e5.single
        exact ⟨_, .datum g3 h2, Or.inr ⟨[], _, _, _, rfl, rfl, e6⟩⟩
  | @error r a e r₁ a₁ l r' a' h1 h2 ih =>
    rintro u rfl hu
    rcases h1.swap D hX A S u rfl ⟨by simp, hu⟩ with ⟨u4, g3, rfl, g5⟩ | ⟨o', g3, g4⟩
    · obtain ⟨l', k1, k2⟩ := ih u4 rfl g3
      refine ⟨_, .error g5 k1, ?_⟩
      rcases k2 with ⟨rfl, ⟨e, k2, k3⟩ | k2⟩ | ⟨p, x, y, q, rfl, rfl, k2⟩
      · exact Or.inl ⟨rfl, Or.inl ⟨e, List.mem_cons_of_mem _ k2, k3⟩⟩
      · exact Or.inl ⟨rfl, Or.inr k2⟩
      · exact Or.inr ⟨.error e :: p, x, y, q, rfl, rfl, k2⟩
    · rcases g4 with ⟨rfl, e4⟩ | ⟨l, l', e3, rfl, e5⟩
      · exact ⟨_, .error g3 h2, Or.inl ⟨rfl, Or.inl ⟨e, List.mem_cons_self, e4⟩⟩⟩
      · cases e3

end Kul
