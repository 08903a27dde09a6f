import Verif.Spec.Balance
import Verif.Spec.Alloc
import Verif.Proof.Yields

/-! # Balance and the errors of the parser -/

namespace Kul

variable {σ P τ ε α CE : Type} {cc : Classifier} {X : TextSem P τ α} {al : AllocOps τ ε α}
  {lookup : Datum τ ε → Option (Combiner τ ε α P CE)}

theorem balance_cons (d : Nat) (it : Item P) (r : List (Item P)) :
    balance cc d (it :: r) =
      if cc.isNestEscape it.ch then
        match r with
        | [] => .opened d
        | _ :: r' => balance cc d r'
      else if cc.isNestStart it.ch then balance cc (d + 1) r
      else if cc.isNestEnd it.ch then
        match d with
        | 0 => .unmatched it r
        | d + 1 => balance cc d r
      else balance cc d r := by
  conv => lhs; unfold balance
  rfl

theorem balance_start (D : cc.Disjoint) {d : Nat} {it : Item P} {r : List (Item P)}
    (h : cc.isNestStart it.ch = true) : balance cc d (it :: r) = balance cc (d + 1) r := by
  rw [balance_cons, D.start_esc _ h, h]; rfl

theorem balance_end (D : cc.Disjoint) {d : Nat} {it : Item P} {r : List (Item P)}
    (h : cc.isNestEnd it.ch = true) : balance cc (d + 1) (it :: r) = balance cc d r := by
  rw [balance_cons, D.end_esc _ h, end_not_start D h, h]; rfl

theorem balance_end_zero (D : cc.Disjoint) {it : Item P} {r : List (Item P)}
    (h : cc.isNestEnd it.ch = true) : balance cc 0 (it :: r) = .unmatched it r := by
  rw [balance_cons, D.end_esc _ h, end_not_start D h, h]; rfl

theorem ws_plain (D : cc.Disjoint) {c : Char} (h : cc.isWhitespace c = true) :
    cc.isNestEscape c = false ∧ cc.isNestStart c = false ∧ cc.isNestEnd c = false := by
  refine ⟨?_, ?_, ?_⟩
  · cases hs : cc.isNestEscape c with
    | false => rfl
    | true => simp [D.esc_ws _ hs] at h
  · cases hs : cc.isNestStart c with
    | false => rfl
    | true => simp [D.start_ws _ hs] at h
  · cases hs : cc.isNestEnd c with
    | false => rfl
    | true => simp [D.end_ws _ hs] at h

theorem balance_ws (D : cc.Disjoint) {d : Nat} {it : Item P} {r : List (Item P)}
    (h : cc.isWhitespace it.ch = true) : balance cc d (it :: r) = balance cc d r := by
  obtain ⟨h1, h2, h3⟩ := ws_plain D h
  rw [balance_cons, h1, h2, h3]; rfl

theorem balance_dropSep (D : cc.Disjoint) (d : Nat) (r : List (Item P)) :
    balance cc d (dropSep cc r) = balance cc d r := by
  cases r with
  | nil => rfl
  | cons it r =>
    simp only [dropSep]
    split
    · rename_i h; rw [balance_ws D h]
    · rfl

theorem balance_lead (D : cc.Disjoint) (d : Nat) (m : Mode) (r : List (Item P)) :
    balance cc d (lead cc m r) = balance cc d r := by
  unfold lead
  split
  · induction r with
    | nil => rfl
    | cons it r ih =>
      simp only [List.dropWhile_cons]
      split
      · rename_i h; rw [ih, balance_ws D h]
      · rfl
  · rfl

/-- The unmatched delimiter is in the source. -/
theorem balance_mem {d : Nat} {it : Item P} {r r' : List (Item P)}
    (h : balance cc d r = .unmatched it r') : it ∈ r := by
  induction hn : r.length using Nat.strongRecOn generalizing r d with
  | ind n ih =>
    subst hn
    cases r with
    | nil => cases h
    | cons x r =>
      rw [balance_cons] at h
      split at h
      · cases r with
        | nil => cases h
        | cons y r => exact List.mem_cons_of_mem _ (List.mem_cons_of_mem _ (ih r.length (by simp; omega) h rfl))
      · split at h
        · exact List.mem_cons_of_mem _ (ih r.length (by simp) h rfl)
        · split at h
          · cases d with
            | zero => cases h; exact List.mem_cons_self
            | succ d => exact List.mem_cons_of_mem _ (ih r.length (by simp) h rfl)
          · exact List.mem_cons_of_mem _ (ih r.length (by simp) h rfl)

/-- Texts and balance. -/
theorem scanText_balance (D : cc.Disjoint) {m : Mode} {top : Bool} {d : Nat} (ht : top = (d == 0))
    {nl : Nat} {r : List (Item P)} :
    match scanText cc m top nl r with
    | .ok _ r' => balance cc (d + nl) r = balance cc d r'
    | .missing => ∃ k, 0 < k ∧ balance cc (d + nl) r = .opened k
    | .unbalanced p r' => ∃ it, p = it.pos ∧ balance cc (d + nl) r = .unmatched it r' := by
  induction hn : r.length using Nat.strongRecOn generalizing r nl with
  | ind n ih =>
    subst hn
    have cons : ∀ {t : TextRes P} {x : Item P} {b b' : Balance P}, b = b' →
        (match t with
        | .ok _ r' => b' = balance cc d r'
        | .missing => ∃ k, 0 < k ∧ b' = .opened k
        | .unbalanced p r' => ∃ it, p = it.pos ∧ b' = .unmatched it r') →
        (match t.cons x with
        | .ok _ r' => b = balance cc d r'
        | .missing => ∃ k, 0 < k ∧ b = .opened k
        | .unbalanced p r' => ∃ it, p = it.pos ∧ b = .unmatched it r') := by
      rintro t x b b' rfl h
      cases t <;> exact h
    match r with
    | [] =>
      unfold scanText
      by_cases h : nl = 0
      · subst h; rfl
      · rw [if_neg h]; exact ⟨d + nl, by omega, rfl⟩
    | it :: r =>
      rw [scanText_cons]
      by_cases hend : nl = 0 ∧ isEndChar cc m it.ch
      · rw [if_pos hend]; obtain ⟨rfl, _⟩ := hend; rfl
      rw [if_neg hend]
      by_cases hesc : cc.isNestEscape it.ch
      · rw [if_pos hesc]
        cases r with
        | nil =>
          simp only
          have hb : balance cc (d + nl) [it] = .opened (d + nl) := by
            rw [balance_cons, hesc]; rfl
          by_cases h : nl = 0
          · subst h; rw [if_pos rfl]; exact hb
          · rw [if_neg h]; exact ⟨d + nl, by omega, hb⟩
        | cons x r2 =>
          simp only
          refine cons ?_ (ih r2.length (by simp; omega) rfl)
          rw [balance_cons, hesc]; rfl
      rw [if_neg hesc]
      simp only [Bool.not_eq_true] at hesc
      by_cases hst : cc.isNestStart it.ch
      · rw [if_pos hst]
        exact cons (balance_start D hst) (ih r.length (by simp) rfl)
      rw [if_neg hst]
      simp only [Bool.not_eq_true] at hst
      by_cases hfin : cc.isNestEnd it.ch
      · rw [if_pos hfin]
        by_cases hnl : nl > 0
        · rw [if_pos hnl]
          obtain ⟨nl, rfl⟩ : ∃ k, nl = k + 1 := ⟨nl - 1, by omega⟩
          exact cons (balance_end D hfin) (ih r.length (by simp) rfl)
        · rw [if_neg hnl]
          obtain rfl : nl = 0 := by omega
          cases d with
          | zero =>
            subst ht
            exact ⟨it, rfl, balance_end_zero D hfin⟩
          | succ d => subst ht; rfl
      · rw [if_neg hfin]
        simp only [Bool.not_eq_true] at hfin
        refine cons ?_ (ih r.length (by simp) rfl)
        rw [balance_cons, hesc, hst, hfin]; rfl

variable (cc X al lookup)

/-- Result `o` agrees with the balance of `r` inside `d` nests. -/
def BalOut (d : Nat) (r : List (Item P)) (o : Except (Err P CE) (List (Datum τ ε)))
    (r' : List (Item P)) : Prop :=
  match o with
  | .ok _ => cc.Disjoint → balance cc d r = balance cc d r'
  | .error e => MemoryError X.F al e ∨ CombinerError lookup e ∨
      (e = .missingEndChar ∧ r' = [] ∧ (cc.Disjoint → ∃ k, 0 < k ∧ balance cc d r = .opened k)) ∨
      (∃ it, e = .unbalancedEndChar it.pos ∧ (cc.Disjoint → balance cc d r = .unmatched it r'))

def BalJob (j : Job) (r : List (Item P)) (o : Except (Err P CE) (List (Datum τ ε)))
    (r' : List (Item P)) : Prop :=
  match j with
  | .next _ d => BalOut cc X al lookup d r o r'
  | .all d => BalOut cc X al lookup d r o r'
  | .nested d => d ≠ 0 → (∀ it, r.head? = some it → cc.isNestStart it.ch = true) →
      BalOut cc X al lookup (d - 1) r o r'

variable {cc X al lookup}

/-- The first part of a job keeps the balance. -/
theorem BalOut.trans {d d' : Nat} {r r1 r' : List (Item P)} {o : Except (Err P CE) (List (Datum τ ε))}
    (h : cc.Disjoint → balance cc d r = balance cc d' r1) (h2 : BalOut cc X al lookup d' r1 o r')
    (hok : ∀ l, o = .ok l → cc.Disjoint → balance cc d' r' = balance cc d r') :
    BalOut cc X al lookup d r o r' := by
  cases o with
  | ok l => exact fun D => (h D).trans ((h2 D).trans (hok l rfl D))
  | error e =>
    rcases h2 with h2 | h2 | ⟨h2, h3, h4⟩ | ⟨it, h2, h3⟩
    · exact Or.inl h2
    · exact Or.inr (Or.inl h2)
    · exact Or.inr (Or.inr (Or.inl ⟨h2, h3, fun D => by rw [h D]; exact h4 D⟩))
    · exact Or.inr (Or.inr (Or.inr ⟨it, h2, fun D => by rw [h D]; exact h3 D⟩))

theorem TextEv.err {m : Mode} {top : Bool} {d : Nat} (ht : top = (d == 0))
    {r r' : List (Item P)} {a a' : α} {e : Err P CE}
    (h : TextEv cc X m top r a (.error e) r' a') :
    BalOut cc X al lookup d r (.error e) r' := by
  rcases h.2 with ⟨_, _, h1, _⟩ | ⟨h1, h2, h3⟩ | ⟨p, h1, h2⟩ | ⟨hF, ⟨x, h1⟩, _⟩
  · cases h1
  · cases h1
    refine Or.inr (Or.inr (Or.inl ⟨rfl, h3, fun D => ?_⟩))
    have := scanText_balance D (m := m) ht (nl := 0) (r := r)
    rw [h2] at this
    exact this
  · cases h1
    by_cases D : cc.Disjoint
    · have := scanText_balance D (m := m) ht (nl := 0) (r := r)
      rw [h2] at this
      obtain ⟨it, rfl, h3⟩ := this
      exact Or.inr (Or.inr (Or.inr ⟨it, rfl, fun _ => h3⟩))
    · -- the position is that of some item, whatever the classifier
      exact Or.inr (Or.inr (Or.inr ⟨⟨'a', p⟩, rfl, fun D' => absurd D' D⟩))
  · cases h1
    exact Or.inl (Or.inl ⟨⟨x, rfl⟩, Or.inl hF⟩)

theorem TextEv.ok_balance {m : Mode} {top : Bool} {d : Nat} (ht : top = (d == 0))
    {r r' : List (Item P)} {a a' : α} {t : τ}
    (h : TextEv (CE := CE) cc X m top r a (.ok t) r' a') (D : cc.Disjoint) :
    balance cc d r = balance cc d r' := by
  rcases h.2 with ⟨_, _, h1, h2, _⟩ | ⟨h1, _⟩ | ⟨p, h1, h2⟩ | ⟨hF, ⟨x, h1⟩, _⟩
  · have := scanText_balance D (m := m) ht (nl := 0) (r := r)
    rw [h2] at this
    exact this
  all_goals cases h1

theorem TextForm.bal {m : Mode} {d : Nat}
    {r r' : List (Item P)} {a a' : α} {o : Except (Err P CE) (List (Datum τ ε))}
    (h : TextForm cc X m (d == 0) r a o r' a') : BalOut cc X al lookup d r o r' := by
  rcases h with ⟨t, h, rfl⟩ | ⟨e, h, rfl⟩
  · exact fun D => h.ok_balance rfl D
  · exact h.err rfl

theorem allocCell_error {d : Datum τ ε} {a : α} {e : Err P CE} {a'} (F : Prop)
    (H : allocCell al d a = (.error e, a')) : MemoryError F al e := by
  unfold allocCell at H
  split at H
  · rename_i h; cases H; exact Or.inl ⟨⟨_, rfl⟩, Or.inr ⟨_, _, _, _, h⟩⟩
  · split at H
    · rename_i h; cases H; exact Or.inl ⟨⟨_, rfl⟩, Or.inr ⟨_, _, _, _, h⟩⟩
    · split at H
      · cases H
      · rename_i h' h; cases H; exact Or.inr ⟨rfl, _, _, _, h', by simpa using h⟩

theorem allocComb_error {d l : Datum τ ε} {a : α} {e : Err P CE} {a'} (F : Prop)
    (H : allocComb al d l a = (.error e, a')) : MemoryError F al e := by
  unfold allocComb at H
  split at H
  · rename_i h; cases H; exact Or.inl ⟨⟨_, rfl⟩, Or.inr ⟨_, _, _, _, h⟩⟩
  · split at H
    · rename_i h; cases H; exact Or.inl ⟨⟨_, rfl⟩, Or.inr ⟨_, _, _, _, h⟩⟩
    · cases H

/-- Results agree with the balance of the source. -/
theorem Eval.bal {j r a o r' a'} (h : Eval cc X al lookup j r a o r' a') :
    BalJob cc X al lookup j r o r' := by
  induction h with
  | @next_eof m d r a o h ho =>
    have hb : cc.Disjoint → balance cc d r = .opened d := fun D => by
      rw [← balance_lead D d m r, h]; rfl
    rcases eofForm_cases ho with ⟨rfl, rfl⟩ | ⟨hd, rfl⟩
    · exact fun D => hb D
    · exact Or.inr (Or.inr (Or.inl ⟨rfl, rfl, fun D => ⟨d, by omega, hb D⟩⟩))
  | @next_nest m d r a it r1 o r' a' h1 h2 h3 h4 ih =>
    refine BalOut.trans (r1 := it :: r1) (d' := d)
      (fun D => by rw [← balance_lead D d m r, h1]) ?_ (fun _ _ _ => rfl)
    exact ih (by omega) (by rintro _ ⟨⟩; exact h2)
  | @next_removed m d r a it r1 r2 a2 o r' a' h1 h2 h3 h4 ih1 ih2 =>
    refine BalOut.trans (r1 := r2) (d' := d) (fun D => ?_) ih2 (fun _ _ _ => rfl)
    rw [← balance_lead D d m r, h1]
    exact ih1 (by omega) (by rintro _ ⟨⟩; exact h2) D
  | @next_end m d r a it r1 o r' h1 h2 h3 ho =>
    refine BalOut.trans (r1 := it :: r1) (d' := d)
      (fun D => by rw [← balance_lead D d m r, h1]) ?_ (fun _ _ _ => rfl)
    rcases endForm_cases ho with ⟨rfl, rfl, rfl⟩ | ⟨hd, rfl, rfl⟩
    · exact Or.inr (Or.inr (Or.inr ⟨it, rfl, fun D => balance_end_zero D h3⟩))
    · exact fun _ => rfl
  | @next_text m d r a it r1 o r' a' h1 h2 h3 ho =>
    exact BalOut.trans (r1 := it :: r1) (d' := d)
      (fun D => by rw [← balance_lead D d m r, h1]) ho.bal (fun _ _ _ => rfl)
  | @nested_head_err d it r a e r' a' _ ih =>
    intro hd hst
    obtain ⟨d, rfl⟩ : ∃ k, d = k + 1 := ⟨d - 1, by omega⟩
    exact BalOut.trans (fun D => balance_start D (hst it rfl)) ih (fun _ h => by cases h)
  | @nested_empty d it r a r1 a1 o r' h1 ho ih =>
    intro hd hst
    obtain ⟨d, rfl⟩ : ∃ k, d = k + 1 := ⟨d - 1, by omega⟩
    have hb : cc.Disjoint → balance cc d (it :: r) = balance cc (d + 1) (dropSep cc r1) := fun D => by
      rw [balance_start D (hst it rfl), balance_dropSep D]; exact ih D
    rcases finishEmpty_cases ho with ⟨h, rfl, rfl⟩ | ⟨e, he, rfl⟩
    · rw [h] at hb
      exact Or.inr (Or.inr (Or.inl ⟨rfl, rfl, fun D => ⟨d + 1, by omega, hb D⟩⟩))
    · intro D
      show balance cc d _ = balance cc d _
      rw [hb D, he]
      rcases h1.at_end rfl with ⟨h, _⟩ | ⟨_, e', r2, rfl, h2, h3, h4⟩
      · omega
      · have : dropSep cc (e' :: r2) = e' :: r2 := by simp [dropSep, h4 rfl]
        rw [this] at he
        cases he
        exact balance_end D h2
  | @nested_operative d it r a h r1 a1 f o r' a' h1 h2 ho ih =>
    intro hd hst
    obtain ⟨d, rfl⟩ : ∃ k, d = k + 1 := ⟨d - 1, by omega⟩
    have hb : cc.Disjoint → balance cc d (it :: r) = balance cc (d + 1) (dropSep cc r1) := fun D => by
      rw [balance_start D (hst it rfl), balance_dropSep D]; exact ih D
    rcases ho with ⟨t, e, a2, h3, rfl, rfl⟩ | ⟨t, h3, rfl, rfl⟩ | ⟨e, h3, rfl⟩
    · rcases hf : f h t a2 with ⟨e' | o', a3⟩
      · exact Or.inr (Or.inl (Or.inl ⟨h, f, t, a2, a3, h2, hf⟩))
      · intro D
        show balance cc d _ = balance cc d _
        rw [hb D, h3.ok_balance (d := d + 1) rfl D]
        rcases h3.2 with ⟨_, _, _, hsc, _⟩ | ⟨h, _⟩ | ⟨_, h, _⟩ | ⟨_, ⟨_, h⟩, _⟩
        · exact balance_end D (scanText_rawOf hsc).1
        all_goals cases h
    · refine Or.inr (Or.inr (Or.inl ⟨rfl, rfl, fun D => ⟨d + 1, by omega, ?_⟩⟩))
      show balance cc d _ = _
      rw [hb D, h3.ok_balance (d := d + 1) rfl D]; rfl
    · exact BalOut.trans hb (h3.err (d := d + 1) rfl) (fun _ h => by cases h)
  | @nested_args_err d it r a h r1 a1 c e r' a' h1 h2 h3 ih1 ih2 =>
    intro hd hst
    obtain ⟨d, rfl⟩ : ∃ k, d = k + 1 := ⟨d - 1, by omega⟩
    refine BalOut.trans (fun D => ?_) ih2 (fun _ h => by cases h)
    rw [balance_dropSep D]
    exact (balance_start D (hst it rfl)).trans (ih1 D)
  | @nested_args d it r a h r1 a1 c ds r2 a2 o r' a' h1 h2 h3 ho ih1 ih2 =>
    intro hd hst
    obtain ⟨d, rfl⟩ : ∃ k, d = k + 1 := ⟨d - 1, by omega⟩
    have hb : cc.Disjoint → balance cc d (it :: r) = balance cc (d + 1) r2 := fun D => by
      rw [balance_start D (hst it rfl), ← ih2 D, balance_dropSep D]; exact ih1 D
    rcases finishNest_cases ho with ⟨rfl, rfl, rfl, _⟩ | ⟨e, f, rfl, rfl, rfl, rfl⟩ |
      ⟨e, rfl, rfl, rfl, rfl⟩
    · exact Or.inr (Or.inr (Or.inl ⟨rfl, rfl, fun D => ⟨d + 1, by omega, hb D⟩⟩))
    all_goals
      have hok : cc.Disjoint → balance cc (d + 1) (e :: r') = balance cc d r' := by
        intro D
        rcases h3.at_end _ rfl with ⟨h, _⟩ | ⟨_, e', r2, hr, h4, h5⟩
        · omega
        · cases hr; exact balance_end D h4
    · cases h2 with
      | applicative h2 =>
        rcases hf : f h (mkList ds) a2 with ⟨e' | o', a3⟩
        · exact Or.inr (Or.inl (Or.inr ⟨h, f, _, a2, a3, h2, hf⟩))
        · exact fun D => (hb D).trans (hok D)
    · rcases hf : allocComb (P := P) (CE := CE) al h (mkList ds) a2 with ⟨e' | o', a3⟩
      · exact Or.inl (allocComb_error _ hf)
      · exact fun D => (hb D).trans (hok D)
  | all_err _ ih => exact ih
  | all_nil _ ih => exact ih
  | all_alloc_err _ h2 ih => exact Or.inl (allocCell_error _ h2)
  | all_cons_err _ _ _ ih1 ih2 =>
    exact BalOut.trans (o := .error _) ih1 ih2 (fun _ h => (by cases h))
  | all_cons _ _ _ ih1 ih2 => exact fun D => (ih1 D).trans (ih2 D)

end Kul
