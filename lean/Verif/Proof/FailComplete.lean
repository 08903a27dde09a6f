import Verif.Proof.FailSound
import Verif.Proof.Transfer
import Verif.Spec.Results

/-! # Failures of reading are errors of the parser -/

namespace Kul

variable {P τ ε α CE : Type} {cc : Classifier} {X : TextSem P τ α} {al : AllocOps τ ε α}
  {lookup : Datum τ ε → Option (Combiner τ ε α P CE)}

variable (cc X al lookup)

/-- Successive results at top level, up to the first error. -/
inductive TopFail : List (Item P) → α → List (Datum τ ε) → Err P CE → List (Item P) → α → Prop where
  | fail {r a e r' a'} : Eval cc X al lookup (.next .base 0) r a (.error e) r' a' → TopFail r a [] e r' a'
  | step {r a d r₁ a₁ ds e r' a'} : Eval cc X al lookup (.next .base 0) r a (.ok [d]) r₁ a₁ →
      TopFail r₁ a₁ ds e r' a' → TopFail r a (d :: ds) e r' a'

def FailComplete (c : Cat) (s rest : List (Item P)) (a : α) (ds : List (Datum τ ε)) (e : Err P CE)
    (a' : α) : Prop :=
  match c with
  | .nest => ∀ d, d ≠ 0 → Eval cc X al lookup (.nested d) (s ++ rest) a (.error e) rest a'
  | .head _ => (∀ d, d ≠ 0 → Eval cc X al lookup (.next .operator d) (s ++ rest) a (.error e) rest a') ∨
      (rest = [] ∧ e = .missingEndChar ∧
        ∃ h, ∀ d, d ≠ 0 → Eval cc X al lookup (.next .operator d) s a (.ok [h]) [] a')
  | .forms false _ => ∀ d, d ≠ 0 → Eval cc X al lookup (.all d) (s ++ rest) a (.error e) rest a'
  | .forms true _ => TopFail cc X al lookup (s ++ rest) a ds e rest a'

variable {cc X al lookup}

theorem TopFail.run {r a ds e r₁ a₁ l r' a'} (h : TopFail cc X al lookup r a ds e r₁ a₁)
    (h' : Run cc X al lookup r₁ a₁ l r' a') :
    Run cc X al lookup r a (ds.map .ok ++ .error e :: l) r' a' := by
  induction h with
  | fail h => exact .error h h'
  | step h _ ih => exact .datum h (ih h')

theorem Fails.nest_cons {RT : τ → List (Item P) → Prop} {Mem : α → α → Prop} {MF : Err P CE → Prop}
    {c s rest a ds e a'} (h : Fails cc RT Mem MF lookup c s rest a ds e a') (hc : c = .nest) :
    ∃ it r, s = it :: r ∧ cc.isNestStart it.ch = true := by
  cases h <;> first | cases hc; done | exact ⟨_, _, rfl, by assumption⟩

/-- After a text, the next item is a start delimiter, if there is any. -/
theorem Fails.afterText' {RT : τ → List (Item P) → Prop} {Mem : α → α → Prop} {MF : Err P CE → Prop}
    {c top s rest a ds e a'} (h : Fails cc RT Mem MF lookup c s rest a ds e a')
    (hc : c = .forms top true) {it r} (hs : s ++ rest = it :: r) (hm : ∀ e, ¬ MF e) :
    cc.isNestStart it.ch = true := by
  cases h with
  | afterForm h1 =>
    obtain ⟨x, r, rfl, h⟩ := h1.nest_cons rfl
    cases hs
    exact h
  | afterRemoved h1 =>
    obtain ⟨x, r, rfl, h⟩ := h1.nest_cons rfl
    cases hs
    exact h
  | inNest h1 =>
    obtain ⟨x, r, rfl, h⟩ := h1.nest_cons rfl
    cases hs
    exact h
  | formsOpen => cases hs
  | formMemory _ _ h => exact absurd h (hm _)
  | _ => cases hc

theorem scanText_of_stray {top : Bool} (D : cc.Disjoint) {s c : List (Item P)}
    (h : TextOf cc cc.delim s c) {x : Item P} (hx : cc.isNestEnd x.ch = true) (ht : top = true)
    (rest : List (Item P)) : scanText cc .base top 0 (s ++ x :: rest) = .unbalanced x.pos rest := by
  induction h with
  | nil =>
    rw [List.nil_append, scanText_cons]
    simp [isEndChar, end_not_start D hx, D.end_esc _ hx, hx, ht]
  | @plain it s c h1 h2 _ ih =>
    obtain ⟨h3, h4⟩ := delim_false h1
    rw [List.cons_append, scanText_cons]
    simp [isEndChar, h2, h3, h4, ih, TextRes.cons]
  | @escaped e it s c h1 _ ih =>
    obtain ⟨h3, h4⟩ := delim_false (stop_not_esc D h1 (m := .base) : cc.delim e.ch = false)
    rw [List.cons_append, List.cons_append, scanText_cons]
    simp [isEndChar, h1, h3, ih, TextRes.cons]

theorem scan_of_neverClosed {top : Bool} {r : List (Item P)} (h : NeverClosed cc r) :
    scanText cc .operands top 0 r = .missing ∨ ∃ c, scanText cc .operands top 0 r = .ok c [] := by
  rcases scanText_operands (cc := cc) top r 0 with ⟨c, e, r', h', _⟩ | ⟨c, h'⟩ | h'
  · obtain ⟨he, s, rfl, hraw⟩ := scanText_rawOf h'
    exact absurd hraw (h s e r' c rfl he)
  · exact Or.inr ⟨c, h'⟩
  · exact Or.inl h'

/-- Between a head and operands that fail. -/
theorem Sep.split_fail {k : Bool} {sep r : List (Item P)} (h : Sep cc k sep r)
    {rest : List (Item P)} (hr : r = [] → rest = []) :
    dropSep cc (sep ++ r ++ rest) = r ++ rest ∧
      ∀ it, (sep ++ r ++ rest).head? = some it → k = true → cc.headDelim it.ch = true := by
  cases h with
  | one hw =>
    refine ⟨by simp [dropSep, hw], ?_⟩
    rintro it ⟨⟩ _
    simp [Classifier.headDelim, hw]
  | empty =>
    cases hr rfl
    exact ⟨rfl, fun it h => by cases h⟩
  | none hw hk =>
    refine ⟨by simp [dropSep, hw], ?_⟩
    rintro it ⟨⟩ h
    simp [Classifier.headDelim, Classifier.delim, hk h]

/-- A head is read whatever follows it, also nothing. -/
theorem Reads.complete_head (D : cc.Disjoint) (hX : ∀ a, X.RA a a) (A : al.Free) {c s a ds a'}
    (h : Reads cc X.RT Eq lookup c s a ds a') : ∀ {k x}, c = .head k → ds = [x] → ∀ (xs : List (Item P)) d,
      d ≠ 0 → (∀ it, xs.head? = some it → k = true → cc.headDelim it.ch = true) →
      Eval cc X al lookup (.next .operator d) (s ++ xs) a (.ok [x]) xs a' := by
  induction h with
  | @textHead ws s c t a a' h1 h2 h3 h4 h5 =>
    intro k x hk hx xs d hd hxs
    cases hk
    cases hx
    subst h5
    cases s with
    | nil => exact absurd rfl h2
    | cons x s =>
    have h6 : cc.headDelim x.ch = false := by
      cases h3 with
      | plain h => exact h
      | escaped h => exact stop_not_esc D h (m := .operator)
    obtain ⟨h7, h8, h9⟩ := headDelim_false h6
    rw [List.append_assoc]
    refine .next_text (lead_ws h1 h7) h8 h9 (Or.inl ⟨t, ⟨hX a, Or.inl ⟨t, c, rfl, ?_, h4⟩⟩, rfl⟩)
    exact scanText_of_textOf D (m := .operator) (by simp) h3 (fun it hit => ⟨hxs it hit rfl, by simp [hd]⟩)
  | @nestHead ws s x a a' h1 h2 ih =>
    intro k y hk hy xs d hd _
    cases hy
    rw [List.append_assoc]
    obtain ⟨it, r1, h4, h5, h6⟩ := start_not_ws D h2 xs
    have : Eval _ _ _ _ _ _ _ _ _ _ := (h2.complete D hX A) xs (d + 1) (by omega)
    rw [h4] at this ⊢
    exact .next_nest (lead_ws h1 h6) h5 this (by simp)
  | @removedHead ws s k h a a₁ ds a' h1 h2 h3 ih1 ih2 =>
    intro k' y hk hy xs d hd hxs
    obtain ⟨it, r1, h4, h5, h6⟩ := start_not_ws D h2 (h ++ xs)
    have : Eval _ _ _ _ _ _ _ _ _ _ := (h2.complete D hX A) (h ++ xs) (d + 1) (by omega)
    rw [List.append_assoc, List.append_assoc]
    rw [h4] at this ⊢
    exact .next_removed (lead_ws h1 h6) h5 this (ih2 hk hy xs d hd hxs)
  | noHead => intro k x _ h; cases h
  | _ => intro k x h; cases h

theorem Eval.all_eof {d : Nat} (hd : d ≠ 0) (a : α) :
    Eval cc X al lookup (.all d) [] a (.error .missingEndChar) [] a :=
  .all_err (.next_eof rfl (by simp [eofForm, hd]))

theorem Fails.rest_of_nil {RT : τ → List (Item P) → Prop} {Mem : α → α → Prop} {MF : Err P CE → Prop}
    {c b s rest a ds e a'} (h : Fails cc RT Mem MF lookup c s rest a ds e a')
    (hc : c = .forms false b) (hs : s = []) : rest = [] := by
  induction h generalizing b with
  | afterText h1 _ _ _ _ => simp at hs; exact absurd hs.1 h1
  | afterForm h1 =>
    obtain ⟨x, r, rfl, h⟩ := h1.nest_cons rfl
    cases hs
  | afterRemoved h1 =>
    obtain ⟨x, r, rfl, h⟩ := h1.nest_cons rfl
    cases hs
  | inNest h1 =>
    obtain ⟨x, r, rfl, h⟩ := h1.nest_cons rfl
    cases hs
  | formMemory h1 =>
    obtain ⟨x, r, rfl, h⟩ := h1.nest_cons rfl
    cases hs
  | textMemory h1 => obtain ⟨x, r, rfl, h⟩ := h1; cases hs
  | formsOpen => rfl
  | formsOpenEscape => rfl
  | _ => cases hc

theorem dropWhile_nil_of_all {ws : List (Item P)} (h : AllWs cc ws) :
    ws.dropWhile (fun it => cc.isWhitespace it.ch) = [] := by
  induction ws with
  | nil => rfl
  | cons x ws ih =>
    rw [List.dropWhile_cons, if_pos (h x (by simp))]
    exact ih fun it hit => h it (by simp [hit])

/-- What fails to be read makes the parser fail. -/
theorem Fails.complete (D : cc.Disjoint) (hX : ∀ a, X.RA a a) (hT : ∀ c, ∃ t, X.RT t c) (A : al.Free)
    {c s rest a ds e a'} (h : Fails cc X.RT Eq (fun _ => False) lookup c s rest a ds e a') :
    FailComplete cc X al lookup c s rest a ds e a' := by
  have hmf : ∀ e : Err P CE, ¬ (fun _ => False) e := fun _ h => h
  induction h with
  | @afterText top s c t r rest a a₁ ds e a' h1 h2 h3 h4 h5 ih =>
    subst h4
    cases s with
    | nil => exact absurd rfl h1
    | cons x s =>
    obtain ⟨h6, h7⟩ := delim_false (h2.head_not_delim D)
    cases top with
    | true =>
      simp only [FailComplete] at ih ⊢
      rw [List.append_assoc]
      refine .step (.next_text (m := .base) rfl h6 h7 (Or.inl ⟨t, ⟨hX a, Or.inl ⟨t, c, rfl, ?_, h3⟩⟩, rfl⟩)) ih
      exact scanText_of_textOf D (m := .base) (by simp) h2 (fun it hit => by
        obtain ⟨r2, hr2⟩ : ∃ r2, r ++ rest = it :: r2 := by
          cases hq : r ++ rest with
          | nil => rw [hq] at hit; cases hit
          | cons y r2 => rw [hq] at hit; cases hit; exact ⟨_, rfl⟩
        have := h5.afterText' rfl hr2 hmf
        exact ⟨by simp [stopOf, Classifier.delim, this], fun _ => D.start_end _ this⟩)
    | false =>
      intro d hd
      rw [List.append_assoc]
      refine .all_cons_err (.next_text (m := .base) rfl h6 h7 (Or.inl ⟨t, ⟨hX a, Or.inl ⟨t, c, rfl, ?_, h3⟩⟩, rfl⟩))
        (A.cell _ _) (ih d hd)
      exact scanText_of_textOf D (m := .base) (by simp) h2 (fun it hit => by
        refine ⟨?_, by simp [hd]⟩
        obtain ⟨r2, hr2⟩ : ∃ r2, r ++ rest = it :: r2 := by
          cases hq : r ++ rest with
          | nil => rw [hq] at hit; cases hit
          | cons y r2 => rw [hq] at hit; cases hit; exact ⟨_, rfl⟩
        have := h5.afterText' rfl hr2 hmf
        simp [stopOf, Classifier.delim, this])
  | @afterForm top b s x r rest a a₁ a₂ ds e a' h1 h2 h3 ih =>
    subst h2
    have h1' : ∀ rest d, d ≠ 0 → Eval cc X al lookup (.nested d) (s ++ rest) a (.ok [x]) rest a₁ :=
      h1.complete D hX A
    cases top with
    | true =>
      simp only [FailComplete] at ih ⊢
      rw [List.append_assoc]
      obtain ⟨it, r1, h4, h5, _⟩ := start_not_ws D h1 (r ++ rest)
      have := h1' (r ++ rest) 1 (by simp)
      refine .step (.next_nest (it := it) (r1 := r1) h4 h5 ?_ (by simp)) ih
      rw [← h4]; exact this
    | false =>
      intro d hd
      rw [List.append_assoc]
      obtain ⟨it, r1, h4, h5, _⟩ := start_not_ws D h1 (r ++ rest)
      refine .all_cons_err (x := x) (.next_nest (it := it) (r1 := r1) h4 h5 ?_ (by simp)) (A.cell _ _) (ih d hd)
      rw [← h4]; exact h1' _ _ (by omega)
  | @afterRemoved top b s r rest a a₁ ds e a' h1 h2 ih =>
    have h1' : ∀ rest d, d ≠ 0 → Eval cc X al lookup (.nested d) (s ++ rest) a (.ok []) rest a₁ :=
      h1.complete D hX A
    cases top with
    | true =>
      simp only [FailComplete] at ih ⊢
      rw [List.append_assoc]
      obtain ⟨it, r1, h4, h5, _⟩ := start_not_ws D h1 (r ++ rest)
      have := h1' (r ++ rest) 1 (by simp)
      rw [h4] at this
      cases ih with
      | fail h6 => exact .fail (.next_removed h4 h5 this h6)
      | step h6 h7 => exact .step (.next_removed h4 h5 this h6) h7
    | false =>
      intro d hd
      rw [List.append_assoc]
      obtain ⟨it, r1, h4, h5, _⟩ := start_not_ws D h1 (r ++ rest)
      have := h1' (r ++ rest) (d + 1) (by omega)
      rw [h4] at this
      cases ih d hd with
      | all_err h6 => exact .all_err (.next_removed h4 h5 this h6)
      | all_alloc_err h6 h7 => rw [A.cell] at h7; cases h7
      | all_cons_err h6 h7 h8 => exact .all_cons_err (.next_removed h4 h5 this h6) h7 h8
  | @inNest top b s rest a e a' h1 ih =>
    obtain ⟨it, r1, rfl, h5⟩ := h1.nest_cons rfl
    cases top with
    | true => exact .fail (.next_nest (it := it) (r1 := r1 ++ rest) rfl h5 (ih 1 (by simp)) (by simp))
    | false =>
      exact fun d hd => .all_err (.next_nest (it := it) (r1 := r1 ++ rest) rfl h5 (ih (d + 1) (by simp)) (by simp))
  | @unbalanced x rest a h1 =>
    exact .fail (.next_end (it := x) (r1 := rest) rfl (end_not_start D h1) h1 (by simp [endForm]))
  | @textUnbalanced s c x rest a a' h1 h2 h3 h4 =>
    subst h4
    cases s with
    | nil => exact absurd rfl h1
    | cons y s =>
    obtain ⟨h6, h7⟩ := delim_false (h2.head_not_delim D)
    simp only [FailComplete]
    rw [List.append_assoc]
    refine .fail (.next_text (m := .base) rfl h6 h7 (Or.inr ⟨_, ⟨hX a, Or.inr (Or.inr (Or.inl ⟨_, rfl, ?_⟩))⟩, rfl⟩))
    exact scanText_of_stray D h2 h3 rfl rest
  | formsOpen => exact fun d hd => .all_eof hd _
  | @formsOpenEscape s c t x a a' h1 h2 h3 h4 =>
    subst h4
    intro d hd
    obtain ⟨y, r1, h5, h6⟩ : ∃ y r1, s ++ [x] = y :: r1 ∧ cc.delim y.ch = false := by
      cases s with
      | nil => exact ⟨x, [], rfl, stop_not_esc D h2 (m := .base)⟩
      | cons y s => exact ⟨y, _, rfl, h1.head_not_delim D⟩
    obtain ⟨h7, h8⟩ := delim_false h6
    rw [List.append_nil]
    refine .all_cons_err (.next_text (m := .base) h5 h7 h8 (Or.inl ⟨t, ⟨hX a, Or.inl ⟨t, c, rfl, ?_, h3⟩⟩, rfl⟩))
      (A.cell _ _) (.all_eof hd _)
    rw [← h5]
    exact scanText_of_dangling D (m := .base) (by simp) h1 h2
  | textMemory _ _ h => exact h.elim
  | formMemory _ _ h => exact h.elim
  | @headOpen ws a h1 =>
    refine Or.inl fun d hd => .next_eof ?_ (by simp [eofForm, hd])
    rw [List.append_nil]
    simp only [lead, if_true]
    exact dropWhile_nil_of_all h1
  | @headOpenEscape ws s c x a a' h1 h2 h3 h4 =>
    subst h4
    obtain ⟨t, ht⟩ := hT c
    refine Or.inr ⟨rfl, rfl, .text t, fun d hd => ?_⟩
    obtain ⟨y, r1, h5, h6⟩ : ∃ y r1, s ++ [x] = y :: r1 ∧ cc.headDelim y.ch = false := by
      cases s with
      | nil => exact ⟨x, [], rfl, stop_not_esc D h3 (m := .operator)⟩
      | cons y s =>
        refine ⟨y, _, rfl, ?_⟩
        cases h2 with
        | plain h => exact h
        | escaped h => exact stop_not_esc D h (m := .operator)
    obtain ⟨h7, h8, h9⟩ := headDelim_false h6
    rw [List.append_assoc, h5]
    refine .next_text (lead_ws h1 h7) h8 h9 (Or.inl ⟨t, ⟨hX a, Or.inl ⟨t, c, rfl, ?_, ht⟩⟩, rfl⟩)
    rw [← h5]
    exact scanText_of_dangling D (m := .operator) (by simp) h2 h3
  | @headNest ws s rest a e a' h1 h2 ih =>
    obtain ⟨it, r1, rfl, h5⟩ := h2.nest_cons rfl
    refine Or.inl fun d hd => ?_
    rw [List.append_assoc]
    exact .next_nest (lead_ws h1 (D.start_ws _ h5)) h5 (ih (d + 1) (by simp)) (by simp)
  | @headRemoved ws s h rest a a₁ e a' h1 h2 h3 ih =>
    have h2' : ∀ rest d, d ≠ 0 → Eval cc X al lookup (.nested d) (s ++ rest) a (.ok []) rest a₁ :=
      h2.complete D hX A
    rcases ih with ih | ⟨rfl, rfl, x, ih⟩
    · refine Or.inl fun d hd => ?_
      obtain ⟨it, r1, h4, h5, h6⟩ := start_not_ws D h2 (h ++ rest)
      have := h2' (h ++ rest) (d + 1) (by omega)
      rw [List.append_assoc, List.append_assoc]
      rw [h4] at this ⊢
      exact .next_removed (lead_ws h1 h6) h5 this (ih d hd)
    · refine Or.inr ⟨rfl, rfl, x, fun d hd => ?_⟩
      obtain ⟨it, r1, h4, h5, h6⟩ := start_not_ws D h2 h
      have := h2' h (d + 1) (by omega)
      rw [List.append_assoc]
      rw [h4] at this ⊢
      exact .next_removed (lead_ws h1 h6) h5 this (ih d hd)
  | headMemory _ _ _ h => exact h.elim
  | @inHead b h rest a e a' h1 h2 ih =>
    intro d hd
    rcases ih with ih | ⟨rfl, rfl, x, ih⟩
    · exact .nested_head_err (ih d hd)
    · rw [List.append_nil]
      match hl : lookup x with
      | none => exact .nested_args_err (ih d hd) (.unbound hl) (.all_eof hd _)
      | some (.applicative f) => exact .nested_args_err (ih d hd) (.applicative hl) (.all_eof hd _)
      | some (.operative f) =>
        obtain ⟨t, ht⟩ := hT []
        exact .nested_operative (ih d hd) hl (Or.inr (Or.inl
          ⟨t, ⟨hX _, Or.inl ⟨t, [], rfl, by simp [dropSep, scanText], ht⟩⟩, rfl, rfl⟩))
  | @inOperands b h k x sep r rest ds a a₁ e a' h1 h2 h3 h4 h5 ih =>
    intro d hd
    obtain ⟨h6, h7⟩ := h3.split_fail (rest := rest) (fun hr => h5.rest_of_nil rfl hr)
    have h8 := h2.complete_head D hX A rfl rfl (sep ++ r ++ rest) d hd h7
    rw [show b :: (h ++ sep ++ r) ++ rest = b :: (h ++ (sep ++ r ++ rest)) by simp]
    have ih' := ih d hd
    rw [← h6] at ih'
    match hl : lookup x with
    | none => exact .nested_args_err h8 (.unbound hl) ih'
    | some (.applicative f) => exact .nested_args_err h8 (.applicative hl) ih'
    | some (.operative f) => exact absurd hl (h4 f)
  | @rawOpen b h k x sep r f a a₁ a' h1 h2 h3 h4 h5 h6 =>
    subst h6
    intro d hd
    obtain ⟨h6, h7⟩ := h3.split_fail (rest := []) (fun _ => rfl)
    have h8 := h2.complete_head D hX A rfl rfl (sep ++ r ++ []) d hd h7
    rw [show b :: (h ++ sep ++ r) ++ [] = b :: (h ++ (sep ++ r ++ [])) by simp]
    refine .nested_operative h8 h4 ?_
    rw [h6, List.append_nil]
    rcases scan_of_neverClosed (top := false) h5 with h9 | ⟨c, h9⟩
    · exact Or.inr (Or.inr ⟨_, ⟨hX _, Or.inr (Or.inl ⟨rfl, h9, rfl⟩)⟩, rfl⟩)
    · obtain ⟨t, ht⟩ := hT c
      exact Or.inr (Or.inl ⟨t, ⟨hX _, Or.inl ⟨t, c, rfl, h9, ht⟩⟩, rfl, rfl⟩)
  | rawMemory _ _ _ _ h => exact h.elim
  | @operative b y h k x sep r c t rest a a₁ a₂ e a' f h1 h2 h3 h4 h5 h6 h7 h8 h9 =>
    subst h8
    intro d hd
    obtain ⟨z, zs, h11, h12, h10⟩ := h4.split D h2 rest
    have ih3 := h3.complete_head D hX A rfl rfl (z :: zs) d hd (fun it hit => by cases hit; exact h12)
    rw [← h11] at ih3 h10
    rw [show b :: (h ++ sep ++ r ++ [y]) ++ rest = b :: (h ++ (sep ++ r ++ y :: rest)) by simp]
    refine .nested_operative ih3 h5 (Or.inl ⟨t, y, a₁, ⟨hX _, Or.inl ⟨t, c, rfl, ?_, h7⟩⟩, ?_, ?_⟩)
    · rw [h10]; exact scanText_of_raw D h6 h2 rest
    · rw [h9]; rfl
    · rw [h9]
  | @applicative b y h k x sep r ds rest a a₁ a₂ e a' f h1 h2 h3 h4 h5 h6 h7 =>
    intro d hd
    obtain ⟨z, zs, h8, h9, h10⟩ := h4.split D h2 rest
    have ih3 := h3.complete_head D hX A rfl rfl (z :: zs) d hd (fun it hit => by cases hit; exact h9)
    rw [← h8] at ih3 h10
    rw [show b :: (h ++ sep ++ r ++ [y]) ++ rest = b :: (h ++ (sep ++ r ++ y :: rest)) by simp]
    have ih4 : Eval cc X al lookup (.all d) (r ++ y :: rest) a₁ (.ok ds) (y :: rest) a₂ :=
      h6.complete D hX A y rest d hd h2
    rw [← h10] at ih4
    refine .nested_args ih3 (.applicative h5) ih4 ?_
    simp [finishNest, mkList_eq_listOf, h7, optRes]
  | combinationMemory _ _ _ _ _ _ _ h => exact h.elim

end Kul
