import Verif.Proof.GramSound

/-! # What is written in the grammar is accepted -/

namespace Kul

variable {P τ ε α CE : Type} {cc : Classifier} {X : TextSem P τ α} {al : AllocOps τ ε α}
  {lookup : Datum τ ε → Option (Combiner τ ε α P CE)}

/-- An allocator that never fails and whose state is not observed. -/
structure AllocOps.Free (al : AllocOps τ ε α) : Prop where
  newDatum : ∀ d a, al.newDatum d a = (.ok (), a)
  getMutFresh : ∀ a, al.getMutFresh a = true

theorem freeAlloc_free : (freeAlloc τ ε α).Free := ⟨fun _ _ => rfl, fun _ => rfl⟩

theorem AllocOps.Free.cell (A : al.Free) (d : Datum τ ε) (a : α) :
    allocCell (P := P) (CE := CE) al d a = (.ok (), a) := by
  simp [allocCell, A.newDatum, A.getMutFresh]

theorem AllocOps.Free.comb (A : al.Free) (d l : Datum τ ε) (a : α) :
    allocComb (P := P) (CE := CE) al d l a = (.ok [.combination d l], a) := by
  simp [allocComb, A.newDatum]

variable (cc X al lookup)

/-- Successive results at top level, to the end of the source. -/
inductive TopEval : List (Item P) → α → List (Datum τ ε) → List (Item P) → α → Prop where
  | done {r a r' a'} : Eval cc X al lookup (.next .base 0) r a (.ok []) r' a' → TopEval r a [] r' a'
  | step {r a d r₁ a₁ ds r' a'} : Eval cc X al lookup (.next .base 0) r a (.ok [d]) r₁ a₁ →
      TopEval r₁ a₁ ds r' a' → TopEval r a (d :: ds) r' a'

def Complete (c : Cat) (s : List (Item P)) (a : α) (ds : List (Datum τ ε)) (a' : α) : Prop :=
  match c with
  | .nest => ∀ rest d, d ≠ 0 → Eval cc X al lookup (.nested d) (s ++ rest) a (.ok ds) rest a'
  | .head k => ∀ e rest d, d ≠ 0 → (ds = [] → cc.isNestEnd e.ch = true) →
      (k = true → cc.headDelim e.ch = true) →
      Eval cc X al lookup (.next .operator d) (s ++ e :: rest) a (.ok ds) (e :: rest) a'
  | .forms false _ => ∀ e rest d, d ≠ 0 → cc.isNestEnd e.ch = true →
      Eval cc X al lookup (.all d) (s ++ e :: rest) a (.ok ds) (e :: rest) a'
  | .forms true _ => TopEval cc X al lookup s a ds [] a'

variable {cc X al lookup}

theorem Sep.split (D : cc.Disjoint) {k : Bool} {sep r : List (Item P)} (h : Sep cc k sep r) {e : Item P}
    (he : cc.isNestEnd e.ch = true) (rest : List (Item P)) :
    ∃ x xs, sep ++ r ++ e :: rest = x :: xs ∧ (k = true → cc.headDelim x.ch = true) ∧
      dropSep cc (x :: xs) = r ++ e :: rest := by
  cases h with
  | one hw => exact ⟨_, _, rfl, fun _ => by simp [Classifier.headDelim, hw], by simp [dropSep, hw]⟩
  | empty =>
    exact ⟨_, _, rfl, fun _ => by simp [Classifier.headDelim, Classifier.delim, he],
      by simp [dropSep, D.end_ws _ he]⟩
  | none hw hk =>
    exact ⟨_, _, rfl, fun h => by simp [Classifier.headDelim, Classifier.delim, hk h],
      by simp [dropSep, hw]⟩

theorem end_not_start (D : cc.Disjoint) {c : Char} (h : cc.isNestEnd c = true) :
    cc.isNestStart c = false := by
  cases hs : cc.isNestStart c with
  | false => rfl
  | true => simp [D.start_end _ hs] at h

theorem Reads.afterText {RT : τ → List (Item P) → Prop} {Mem : α → α → Prop} {c top s a ds a'}
    (h : Reads cc RT Mem lookup c s a ds a') (hc : c = .forms top true) {it r} (hs : s = it :: r) :
    cc.isNestStart it.ch = true := by
  cases h with
  | form h1 =>
    obtain ⟨x, r, rfl, h⟩ := h1.nest_cons rfl
    cases hs
    exact h
  | removed h1 =>
    obtain ⟨x, r, rfl, h⟩ := h1.nest_cons rfl
    cases hs
    exact h
  | nil => cases hs
  | _ => cases hc

theorem lead_ws {ws : List (Item P)} (h : AllWs cc ws) {it : Item P} {r : List (Item P)}
    (hit : cc.isWhitespace it.ch = false) : lead cc .operator (ws ++ it :: r) = it :: r := by
  simp only [lead, if_true]
  induction ws with
  | nil => simp [hit]
  | cons w ws ih =>
    have hw := h w (by simp)
    simp only [List.cons_append, List.dropWhile_cons, hw, if_true]
    exact ih (fun it hi => h it (by simp [hi]))

theorem start_not_ws (D : cc.Disjoint) {s : List (Item P)} {RT : τ → List (Item P) → Prop}
    {Mem : α → α → Prop} {a ds a'}
    (h : Reads cc RT Mem lookup .nest s a ds a') (rest : List (Item P)) : ∃ it r, s ++ rest = it :: r ∧
      cc.isNestStart it.ch = true ∧ cc.isWhitespace it.ch = false := by
  obtain ⟨it, r, rfl, h'⟩ := h.nest_cons rfl
  exact ⟨it, r ++ rest, rfl, h', D.start_ws _ h'⟩

/-- What is written is evaluated. -/
theorem Reads.complete (D : cc.Disjoint) (hX : ∀ a, X.RA a a) (A : al.Free) {c s a ds a'}
    (h : Reads cc X.RT Eq lookup c s a ds a') : Complete cc X al lookup c s a ds a' := by
  induction h with
  | @nil top b a =>
    cases top with
    | true => exact .done (.next_eof rfl rfl)
    | false =>
      intro e rest d hd he
      refine .all_nil (.next_end (it := e) rfl (end_not_start D he) he ?_)
      simp [endForm, hd]
  | @text top s c t r a a₁ ds a' h1 h2 h3 h4 h5 ih =>
    subst h4
    cases s with
    | nil => exact absurd rfl h1
    | cons x s =>
    obtain ⟨h6, h7⟩ := delim_false (h2.head_not_delim D)
    cases top with
    | true =>
      refine .step (.next_text (m := .base) rfl h6 h7 (Or.inl ⟨t, ⟨hX a, Or.inl ⟨t, c, rfl, ?_, h3⟩⟩, rfl⟩)) ih
      exact scanText_of_textOf D (m := .base) (by simp) h2 (fun it hit => by
        cases r with
        | nil => cases hit
        | cons y r =>
          cases hit
          have := h5.afterText rfl rfl
          exact ⟨by simp [stopOf, Classifier.delim, this], fun _ => D.start_end _ this⟩)
    | false =>
      intro e rest d hd he
      have ih' := ih e rest d hd he
      rw [List.append_assoc]
      refine .all_cons (.next_text (m := .base) rfl h6 h7 (Or.inl ⟨t, ⟨hX a, Or.inl ⟨t, c, rfl, ?_, h3⟩⟩, rfl⟩))
        (A.cell _ _) ih'
      exact scanText_of_textOf D (m := .base) (by simp) h2 (fun it hit => by
        refine ⟨?_, by simp [hd]⟩
        cases r with
        | nil => cases hit; simp [stopOf, Classifier.delim, he]
        | cons y r =>
          cases hit
          have := h5.afterText rfl rfl
          simp [stopOf, Classifier.delim, this])
  | @form top b s x r a a₁ a₂ ds a' h1 h2 h3 ih1 ih2 =>
    subst h2
    cases top with
    | true =>
      obtain ⟨it, r1, h4, h5, _⟩ := start_not_ws D h1 r
      have := ih1 r 1 (by simp)
      refine .step (.next_nest (it := it) (r1 := r1) h4 h5 ?_ (by simp)) ih2
      rw [← h4]; exact this
    | false =>
      intro e rest d hd he
      rw [List.append_assoc]
      obtain ⟨it, r1, h4, h5, _⟩ := start_not_ws D h1 (r ++ e :: rest)
      refine .all_cons (.next_nest (it := it) (r1 := r1) h4 h5 ?_ (by simp)) (A.cell _ _) (ih2 e rest d hd he)
      rw [← h4]; exact ih1 _ _ (by omega)
  | @removed top b s r a a₁ ds a' h1 h2 ih1 ih2 =>
    cases top with
    | true =>
      obtain ⟨it, r1, h4, h5, _⟩ := start_not_ws D h1 r
      have := ih1 r 1 (by simp)
      rw [h4] at this
      cases ih2 with
      | done h6 => exact .done (.next_removed h4 h5 this h6)
      | step h6 h7 => exact .step (.next_removed h4 h5 this h6) h7
    | false =>
      intro e rest d hd he
      rw [List.append_assoc]
      obtain ⟨it, r1, h4, h5, _⟩ := start_not_ws D h1 (r ++ e :: rest)
      have := ih1 (r ++ e :: rest) (d + 1) (by omega)
      rw [h4] at this
      cases ih2 e rest d hd he with
      | all_nil h6 => exact .all_nil (.next_removed h4 h5 this h6)
      | all_cons h6 h7 h8 => exact .all_cons (.next_removed h4 h5 this h6) h7 h8
  | @dangling s c t e a a' h1 h2 h3 h4 =>
    subst h4
    obtain ⟨x, r1, h5, h6⟩ : ∃ x r1, s ++ [e] = x :: r1 ∧ cc.delim x.ch = false := by
      cases s with
      | nil => exact ⟨e, [], rfl, stop_not_esc D h2 (m := .base)⟩
      | cons x s => exact ⟨x, _, rfl, h1.head_not_delim D⟩
    obtain ⟨h7, h8⟩ := delim_false h6
    refine .step (.next_text (m := .base) h5 h7 h8 (Or.inl ⟨t, ⟨hX a, Or.inl ⟨t, c, rfl, ?_, h3⟩⟩, rfl⟩))
      (.done (.next_eof rfl rfl))
    rw [← h5]
    exact scanText_of_dangling D (m := .base) (by simp) h1 h2
  | @noHead ws a h1 =>
    intro e rest d hd he _
    have he := he rfl
    refine .next_end (lead_ws h1 (D.end_ws _ he)) (end_not_start D he) he ?_
    simp [endForm, hd]
  | @textHead ws s c t a a' h1 h2 h3 h4 h5 =>
    intro e rest d hd _ he
    subst h5
    cases s with
    | nil => exact absurd rfl h2
    | cons x s =>
    have h6 : cc.headDelim x.ch = false := by
      cases h3 with
      | plain h => exact h
      | escaped h => exact stop_not_esc D h (m := .operator)
    obtain ⟨h7, h8, h9⟩ := headDelim_false h6
    rw [List.append_assoc]
    refine .next_text (lead_ws h1 h7) h8 h9 (Or.inl ⟨t, ⟨hX a, Or.inl ⟨t, c, rfl, ?_, h4⟩⟩, rfl⟩)
    exact scanText_of_textOf D (m := .operator) (by simp) h3 (fun it hit => by
      cases hit; exact ⟨he rfl, by simp [hd]⟩)
  | @nestHead ws s x a a' h1 h2 ih =>
    intro e rest d hd _ _
    rw [List.append_assoc]
    obtain ⟨it, r1, h4, h5, h6⟩ := start_not_ws D h2 (e :: rest)
    have := ih (e :: rest) (d + 1) (by omega)
    rw [h4] at this ⊢
    exact .next_nest (lead_ws h1 h6) h5 this (by simp)
  | @removedHead ws s k h a a₁ ds a' h1 h2 h3 ih1 ih2 =>
    intro e rest d hd he hk
    obtain ⟨it, r1, h4, h5, h6⟩ := start_not_ws D h2 (h ++ e :: rest)
    have := ih1 (h ++ e :: rest) (d + 1) (by omega)
    rw [List.append_assoc, List.append_assoc]
    rw [h4] at this ⊢
    exact .next_removed (lead_ws h1 h6) h5 this (ih2 e rest d hd he hk)
  | @emptyNest b e h a a' h1 h2 h3 ih =>
    intro rest d hd
    have := ih e rest d hd (fun _ => h2) (fun h => by cases h)
    simp only [List.cons_append, List.append_assoc, List.nil_append]
    refine .nested_empty this ?_
    simp [dropSep, D.end_ws _ h2, finishEmpty]
  | @combination b e h k x sep r ds a a₁ a₂ a' h1 h2 h3 h4 h5 h6 h7 ih1 ih2 =>
    intro rest d hd
    subst h7
    obtain ⟨y, ys, h8, h9, h10⟩ := h4.split D h2 rest
    have ih3 := ih1 y ys d hd (by simp) h9
    rw [← h8] at ih3 h10
    rw [show b :: (h ++ sep ++ r ++ [e]) ++ rest = b :: (h ++ (sep ++ r ++ e :: rest)) by simp]
    have ih4 := ih2 e rest d hd h2
    rw [← h10] at ih4
    refine .nested_args ih3 (.unbound h5) ih4 ?_
    simp [finishNest, A.comb, mkList_eq_listOf]
  | @applicative b e h k x sep r ds a a₁ a₂ a' f o h1 h2 h3 h4 h5 h6 h7 ih1 ih2 =>
    intro rest d hd
    obtain ⟨y, ys, h8, h9, h10⟩ := h4.split D h2 rest
    have ih3 := ih1 y ys d hd (by simp) h9
    rw [← h8] at ih3 h10
    rw [show b :: (h ++ sep ++ r ++ [e]) ++ rest = b :: (h ++ (sep ++ r ++ e :: rest)) by simp]
    have ih4 := ih2 e rest d hd h2
    rw [← h10] at ih4
    refine .nested_args ih3 (.applicative h5) ih4 ?_
    simp [finishNest, mkList_eq_listOf, h7, optRes]
  | @operative b e h k x sep r c t a a₁ a₂ a' f o h1 h2 h3 h4 h5 h6 h7 h8 h9 ih1 =>
    intro rest d hd
    subst h8
    obtain ⟨y, ys, h11, h12, h10⟩ := h4.split D h2 rest
    have ih3 := ih1 y ys d hd (by simp) h12
    rw [← h11] at ih3 h10
    rw [show b :: (h ++ sep ++ r ++ [e]) ++ rest = b :: (h ++ (sep ++ r ++ e :: rest)) by simp]
    refine .nested_operative ih3 h5 (Or.inl ⟨t, e, a₁, ⟨hX _, Or.inl ⟨t, c, rfl, ?_, h7⟩⟩, ?_, ?_⟩)
    · rw [h10]; exact scanText_of_raw D h6 h2 rest
    · rw [h9]; rfl
    · rw [h9]

end Kul
