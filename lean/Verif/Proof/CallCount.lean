import Verif.Spec.Invariant
import Verif.Proof.Yields
import Verif.Proof.Local

/-! # Every nest calls its combiner at most once -/

namespace Kul

variable {P τ ε α CE : Type} {cc : Classifier} {X : TextSem P τ α} {al : AllocOps τ ε α}
  {lookup : Datum τ ε → Option (Combiner τ ε α P CE)}

/-- The number of start delimiters. -/
def starts (cc : Classifier) (r : List (Item P)) : Nat := r.countP fun it => cc.isNestStart it.ch

theorem starts_cons {it : Item P} {r : List (Item P)} (h : cc.isNestStart it.ch = true) :
    starts cc (it :: r) = starts cc r + 1 := by
  simp [starts, h]

theorem starts_suffix {r r' : List (Item P)} (h : r' <:+ r) : starts cc r' ≤ starts cc r :=
  h.sublist.countP_le

theorem CountsCalls.cell {n : α → Nat} (N : CountsCalls X al lookup n) (d : Datum τ ε) (a : α) :
    n (allocCell (P := P) (CE := CE) al d a).2 ≤ n a := by
  unfold allocCell
  have h1 := N.alloc d a
  rcases h3 : al.newDatum d a with ⟨_ | _, b⟩ <;> rw [h3] at h1 <;> simp only at h1 ⊢
  · exact h1
  have h2 := N.alloc .emptyList b
  rcases h4 : al.newDatum .emptyList b with ⟨_ | _, c⟩ <;> rw [h4] at h2 <;> simp only at h2 ⊢
  · omega
  · split <;> simp only <;> omega

theorem CountsCalls.comb {n : α → Nat} (N : CountsCalls X al lookup n) (d l : Datum τ ε) (a : α) :
    n (allocComb (P := P) (CE := CE) al d l a).2 ≤ n a := by
  unfold allocComb
  have h1 := N.alloc d a
  rcases h3 : al.newDatum d a with ⟨_ | _, b⟩ <;> rw [h3] at h1 <;> simp only at h1 ⊢
  · exact h1
  have h2 := N.alloc l b
  rcases h4 : al.newDatum l b with ⟨_ | _, c⟩ <;> rw [h4] at h2 <;> simp only at h2 ⊢ <;> omega

def CountP (cc : Classifier) (n : α → Nat) (j : Job) (r : List (Item P)) (a : α) (r' : List (Item P))
    (a' : α) : Prop :=
  match j with
  | .nested _ => n a' + starts cc r' ≤ n a + starts cc r.tail + 1
  | _ => n a' + starts cc r' ≤ n a + starts cc r

theorem TextForm.count {n : α → Nat} (N : CountsCalls X al lookup n) {m top} {r : List (Item P)} {a o r' a'}
    (h : TextForm (ε := ε) (CE := CE) cc X m top r a o r' a') : n a' ≤ n a := by
  rcases h with ⟨_, ⟨h, _⟩, _⟩ | ⟨_, ⟨h, _⟩, _⟩ <;> exact N.text _ _ h

theorem Eval.count {n : α → Nat} (N : CountsCalls X al lookup n) {j r a o r' a'}
    (h : Eval cc X al lookup j r a o r' a') : CountP cc n j r a r' a' := by
  have hs := h.suffix
  induction h with
  | next_eof => simp [CountP, starts]
  | @next_nest m d r a it r1 o r' a' h1 h2 h3 h4 ih =>
    have h5 := ih h3.suffix
    have h6 := starts_suffix (cc := cc) (lead_suffix (cc := cc) m r)
    simp only [CountP, List.tail_cons] at h5 ⊢
    rw [h1, starts_cons h2] at h6
    omega
  | @next_removed m d r a it r1 r2 a2 o r' a' h1 h2 h3 h4 ih1 ih2 =>
    have h5 := ih1 h3.suffix
    have h7 := ih2 h4.suffix
    have h6 := starts_suffix (cc := cc) (lead_suffix (cc := cc) m r)
    simp only [CountP, List.tail_cons] at h5 h7 ⊢
    rw [h1, starts_cons h2] at h6
    omega
  | next_end => have := starts_suffix (cc := cc) hs; simp only [CountP]; omega
  | next_text _ _ _ ho =>
    have := starts_suffix (cc := cc) hs
    have := ho.count N
    simp only [CountP]; omega
  | nested_head_err h1 ih =>
    have := ih h1.suffix
    simp only [CountP, List.tail_cons] at this ⊢
    omega
  | @nested_empty d it r a r1 a1 o r' h1 ho ih =>
    have := ih h1.suffix
    have h2 : r' <:+ r1 := by
      unfold finishEmpty at ho
      split at ho
      · cases ho; simp
      · rename_i hd
        cases ho
        exact (List.suffix_cons _ _).trans (hd ▸ dropSep_suffix _)
    have := starts_suffix (cc := cc) h2
    simp only [CountP, List.tail_cons] at this ⊢
    simp only [CountP] at *
    omega
  | @nested_operative d it r a h r1 a1 f o r' a' h1 h2 ho ih =>
    have h3 := ih h1.suffix
    have h5 := starts_suffix (cc := cc) (dropSep_suffix (cc := cc) r1)
    simp only [CountP, List.tail_cons] at h3 ⊢
    rcases ho with ⟨t, x, a2, hev, ho, rfl⟩ | ⟨t, hev, ho, rfl⟩ | ⟨e', hev, ho⟩
    · have h6 := starts_suffix (cc := cc) hev.suffix
      have h7 := N.text _ _ hev.1
      have h8 := N.operative _ _ h2 t a2
      have h9 := starts_suffix (cc := cc) (List.suffix_cons x r')
      omega
    · have h7 := N.text _ _ hev.1
      have : starts cc ([] : List (Item P)) = 0 := rfl
      omega
    · have h6 := starts_suffix (cc := cc) hev.suffix
      have h7 := N.text _ _ hev.1
      omega
  | @nested_args_err d it r a h r1 a1 c e r' a' h1 h2 h3 ih1 ih2 =>
    have h4 := ih1 h1.suffix
    have h6 := ih2 h3.suffix
    have h5 := starts_suffix (cc := cc) (dropSep_suffix (cc := cc) r1)
    simp only [CountP, List.tail_cons] at h4 h6 ⊢
    omega
  | @nested_args d it r a h r1 a1 c ds r2 a2 o r' a' h1 h2 h3 ho ih1 ih2 =>
    have h4 := ih1 h1.suffix
    have h6 := ih2 h3.suffix
    have h5 := starts_suffix (cc := cc) (dropSep_suffix (cc := cc) r1)
    simp only [CountP, List.tail_cons] at h4 h6 ⊢
    have : starts cc ([] : List (Item P)) = 0 := rfl
    rcases finishNest_cases ho with ⟨rfl, h, rfl, rfl⟩ | ⟨x, f, rfl, rfl, ho', rfl⟩ | ⟨x, rfl, rfl, ho', rfl⟩
    · omega
    · cases h2 with
      | applicative h2 =>
        have := N.applicative _ _ h2 (mkList ds) a2
        have h9 := starts_suffix (cc := cc) (List.suffix_cons x r')
        omega
    · have := N.comb h (mkList ds) a2
      have h9 := starts_suffix (cc := cc) (List.suffix_cons x r')
      omega
  | all_err h1 ih => exact ih h1.suffix
  | all_nil h1 ih => exact ih h1.suffix
  | @all_alloc_err d r a x r1 a1 e a2 h1 h2 ih =>
    have h3 := ih h1.suffix
    have h4 := N.cell x a1
    rw [h2] at h4
    simp only [CountP] at h3 h4 ⊢
    omega
  | @all_cons_err d r a x r1 a1 u a2 e r' a' h1 h2 h3 ih1 ih2 =>
    have h5 := ih1 h1.suffix
    have h6 := ih2 h3.suffix
    have h4 := N.cell x a1
    rw [h2] at h4
    simp only [CountP] at h4 h5 h6 ⊢
    omega
  | @all_cons d r a x r1 a1 u a2 ds r' a' h1 h2 h3 ih1 ih2 =>
    have h5 := ih1 h1.suffix
    have h6 := ih2 h3.suffix
    have h4 := N.cell x a1
    rw [h2] at h4
    simp only [CountP] at h4 h5 h6 ⊢
    omega

theorem Run.count {n : α → Nat} (N : CountsCalls X al lookup n) {r a l r' a'}
    (h : Run cc X al lookup r a l r' a') : n a' + starts cc r' ≤ n a + starts cc r := by
  induction h with
  | done h => exact h.count N
  | datum h _ ih => have : n _ + _ ≤ _ := h.count N; omega
  | error h _ ih => have : n _ + _ ≤ _ := h.count N; omega

/-! ## Only after the end delimiter -/

/-- The number of end delimiters. -/
def ends (cc : Classifier) (r : List (Item P)) : Nat := r.countP fun it => cc.isNestEnd it.ch

theorem ends_cons {it : Item P} {r : List (Item P)} (h : cc.isNestEnd it.ch = true) :
    ends cc (it :: r) = ends cc r + 1 := by
  simp [ends, h]

theorem ends_suffix {r r' : List (Item P)} (h : r' <:+ r) : ends cc r' ≤ ends cc r :=
  h.sublist.countP_le

theorem Eval.count_ends {n : α → Nat} (N : CountsCalls X al lookup n) {j r a o r' a'}
    (h : Eval cc X al lookup j r a o r' a') : n a' + ends cc r' ≤ n a + ends cc r := by
  have hs := h.suffix
  induction h with
  | next_eof => simp [ends]
  | @next_nest m d r a it r1 o r' a' h1 h2 h3 h4 ih =>
    have h5 := ih h3.suffix
    have h6 := ends_suffix (cc := cc) (lead_suffix (cc := cc) m r)
    rw [h1] at h6
    omega
  | @next_removed m d r a it r1 r2 a2 o r' a' h1 h2 h3 h4 ih1 ih2 =>
    have h5 := ih1 h3.suffix
    have h7 := ih2 h4.suffix
    have h6 := ends_suffix (cc := cc) (lead_suffix (cc := cc) m r)
    rw [h1] at h6
    omega
  | next_end => have := ends_suffix (cc := cc) hs; omega
  | next_text _ _ _ ho =>
    have := ends_suffix (cc := cc) hs
    have := ho.count N
    omega
  | @nested_head_err d it r a e r' a' h1 ih =>
    have := ih h1.suffix
    have := ends_suffix (cc := cc) (List.suffix_cons it r)
    omega
  | @nested_empty d it r a r1 a1 o r' h1 ho ih =>
    have := ih h1.suffix
    have h2 : r' <:+ r1 := by
      unfold finishEmpty at ho
      split at ho
      · cases ho; simp
      · rename_i hd
        cases ho
        exact (List.suffix_cons _ _).trans (hd ▸ dropSep_suffix _)
    have := ends_suffix (cc := cc) h2
    have := ends_suffix (cc := cc) (List.suffix_cons it r)
    omega
  | @nested_operative d it r a h r1 a1 f o r' a' h1 h2 ho ih =>
    have h3 := ih h1.suffix
    have h5 := ends_suffix (cc := cc) (dropSep_suffix (cc := cc) r1)
    have h0 := ends_suffix (cc := cc) (List.suffix_cons it r)
    rcases ho with ⟨t, x, a2, hev, ho, rfl⟩ | ⟨t, hev, ho, rfl⟩ | ⟨e', hev, ho⟩
    · have h6 := ends_suffix (cc := cc) hev.suffix
      have h7 := N.text _ _ hev.1
      have h8 := N.operative _ _ h2 t a2
      rcases hev.2 with ⟨_, c, _, hsc, _⟩ | ⟨h, _⟩ | ⟨_, h, _⟩ | ⟨_, ⟨_, h⟩, _⟩
      · have := scanText_operands (cc := cc) false (dropSep cc r1) 0
        rw [hsc] at this
        have hx : cc.isNestEnd x.ch = true := by
          rcases this with ⟨_, _, _, h, h'⟩ | ⟨_, h⟩ | h <;> cases h
          exact h'
        rw [ends_cons hx] at h6
        omega
      all_goals cases h
    · have h7 := N.text _ _ hev.1
      have : ends cc ([] : List (Item P)) = 0 := rfl
      omega
    · have h6 := ends_suffix (cc := cc) hev.suffix
      have h7 := N.text _ _ hev.1
      omega
  | @nested_args_err d it r a h r1 a1 c e r' a' h1 h2 h3 ih1 ih2 =>
    have h4 := ih1 h1.suffix
    have h6 := ih2 h3.suffix
    have h5 := ends_suffix (cc := cc) (dropSep_suffix (cc := cc) r1)
    have h0 := ends_suffix (cc := cc) (List.suffix_cons it r)
    omega
  | @nested_args d it r a h r1 a1 c ds r2 a2 o r' a' h1 h2 h3 ho ih1 ih2 =>
    have h4 := ih1 h1.suffix
    have h6 := ih2 h3.suffix
    have h5 := ends_suffix (cc := cc) (dropSep_suffix (cc := cc) r1)
    have h0 := ends_suffix (cc := cc) (List.suffix_cons it r)
    have : ends cc ([] : List (Item P)) = 0 := rfl
    rcases finishNest_cases ho with ⟨rfl, h, rfl, rfl⟩ | ⟨x, f, rfl, rfl, ho', rfl⟩ | ⟨x, rfl, rfl, ho', rfl⟩
    · omega
    · cases h2 with
      | applicative h2 =>
        have := N.applicative _ _ h2 (mkList ds) a2
        have h9 : cc.isNestEnd x.ch = true := by
          rcases h3.at_end ds rfl with ⟨_, h⟩ | ⟨_, _, _, h, h', _⟩
          · cases h
          · cases h; exact h'
        rw [ends_cons h9] at h6
        omega
    · have := N.comb h (mkList ds) a2
      have h9 := ends_suffix (cc := cc) (List.suffix_cons x r')
      omega
  | all_err h1 ih => exact ih h1.suffix
  | all_nil h1 ih => exact ih h1.suffix
  | @all_alloc_err d r a x r1 a1 e a2 h1 h2 ih =>
    have h3 := ih h1.suffix
    have h4 := N.cell x a1
    rw [h2] at h4
    simp only at h4
    omega
  | @all_cons_err d r a x r1 a1 u a2 e r' a' h1 h2 h3 ih1 ih2 =>
    have h5 := ih1 h1.suffix
    have h6 := ih2 h3.suffix
    have h4 := N.cell x a1
    rw [h2] at h4
    simp only at h4
    omega
  | @all_cons d r a x r1 a1 u a2 ds r' a' h1 h2 h3 ih1 ih2 =>
    have h5 := ih1 h1.suffix
    have h6 := ih2 h3.suffix
    have h4 := N.cell x a1
    rw [h2] at h4
    simp only at h4
    omega

end Kul
