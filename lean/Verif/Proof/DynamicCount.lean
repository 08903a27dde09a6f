import Verif.Proof.DynamicGram
import Verif.Proof.CallCount

/-! # How often a parser whose bindings may change looks up and calls -/

namespace Kul.Dyn

variable {P τ ε α CE : Type} {cc : Classifier} {X : TextSem P τ α} {al : AllocOps τ ε α}
  {lookup : Datum τ ε → α → Option (Combiner τ ε α P CE) × α}

/-- Every job consumes a prefix of what remains. -/
theorem Eval.suffix {j r a o r' a'} (h : Eval cc X al lookup j r a o r' a') : r' <:+ r := by
  induction h with
  | next_eof => exact List.nil_suffix
  | next_nest h1 _ _ _ ih => exact (h1 ▸ ih).trans (lead_suffix _ _)
  | next_removed h1 _ _ _ ih1 ih2 => exact (ih2.trans (h1 ▸ ih1)).trans (lead_suffix _ _)
  | next_end h1 _ _ ho =>
    rcases endForm_cases ho with ⟨_, _, rfl⟩ | ⟨_, _, rfl⟩
    · exact (List.suffix_cons _ _).trans (h1 ▸ lead_suffix _ _)
    · exact h1 ▸ lead_suffix _ _
  | next_text h1 _ _ ho =>
    obtain ⟨o', ho'⟩ := ho.ev
    exact (h1 ▸ ho'.suffix).trans (lead_suffix _ _)
  | nested_head_err _ ih => exact ih.trans (List.suffix_cons _ _)
  | @nested_empty d it r a r1 a1 o r' _ ho ih =>
    have : r' <:+ dropSep cc r1 := by
      rcases finishEmpty_cases ho with ⟨_, _, rfl⟩ | ⟨e, he, _⟩
      · exact List.nil_suffix
      · exact he ▸ List.suffix_cons _ _
    exact ((this.trans (dropSep_suffix _)).trans ih).trans (List.suffix_cons _ _)
  | nested_operative _ _ ho ih =>
    exact ((ho.suffix.trans (dropSep_suffix _)).trans ih).trans (List.suffix_cons _ _)
  | nested_args_err _ _ _ ih1 ih2 =>
    exact ((ih2.trans (dropSep_suffix _)).trans ih1).trans (List.suffix_cons _ _)
  | nested_args _ _ _ ho ih1 ih2 =>
    exact (((finishNest_suffix ho).trans ih2).trans (dropSep_suffix _)).trans (ih1.trans (List.suffix_cons _ _))
  | all_err _ ih => exact ih
  | all_nil _ ih => exact ih
  | all_alloc_err _ _ ih => exact ih
  | all_cons_err _ _ _ ih1 ih2 => exact ih2.trans ih1
  | all_cons _ _ _ ih1 ih2 => exact ih2.trans ih1

/-- `k` for each start delimiter. -/
def pot (cc : Classifier) (k : Nat) (r : List (Item P)) : Nat := k * starts cc r

theorem pot_cons {k : Nat} {it : Item P} {r : List (Item P)} (h : cc.isNestStart it.ch = true) :
    pot cc k (it :: r) = pot cc k r + k := by
  rw [pot, pot, starts_cons h, Nat.mul_succ]

theorem pot_suffix {k : Nat} {r r' : List (Item P)} (h : r' <:+ r) : pot cc k r' ≤ pot cc k r :=
  Nat.mul_le_mul_left _ (starts_suffix h)

theorem ArgComb.le {p q : Nat} {n : α → Nat} (N : Counts X al lookup p q n) {h : Datum τ ε} {a c b}
    (H : ArgComb lookup h a c b) : n b ≤ n a + p := by
  have := N.find h a
  cases H <;> simp_all

theorem Counts.cell {p q : Nat} {n : α → Nat} (N : Counts X al lookup p q n) (d : Datum τ ε) (a : α) :
    n (allocCell (P := P) (CE := CE) al d a).2 ≤ n a := by
  unfold allocCell
  have h1 := N.alloc d a
  rcases h3 : al.newDatum d a with ⟨_ | _, b⟩ <;> rw [h3] at h1 <;> simp only at h1 ⊢
  · exact h1
  have h2 := N.alloc .emptyList b
  rcases h4 : al.newDatum .emptyList b with ⟨_ | _, c⟩ <;> rw [h4] at h2 <;> simp only at h2 ⊢
  · omega
  · split <;> simp only <;> omega

theorem Counts.comb {p q : Nat} {n : α → Nat} (N : Counts X al lookup p q n) (d l : Datum τ ε) (a : α) :
    n (allocComb (P := P) (CE := CE) al d l a).2 ≤ n a := by
  unfold allocComb
  have h1 := N.alloc d a
  rcases h3 : al.newDatum d a with ⟨_ | _, b⟩ <;> rw [h3] at h1 <;> simp only at h1 ⊢
  · exact h1
  have h2 := N.alloc l b
  rcases h4 : al.newDatum l b with ⟨_ | _, c⟩ <;> rw [h4] at h2 <;> simp only at h2 ⊢ <;> omega

def CountP (cc : Classifier) (p q : Nat) (n : α → Nat) (j : Job) (r : List (Item P)) (a : α) (r' : List (Item P))
    (a' : α) : Prop :=
  match j with
  | .nested _ => n a' + pot cc (p + q) r' ≤ n a + pot cc (p + q) r.tail + (p + q)
  | _ => n a' + pot cc (p + q) r' ≤ n a + pot cc (p + q) r

theorem textForm_count {p q : Nat} {n : α → Nat} (N : Counts X al lookup p q n) {m top} {r : List (Item P)} {a o r' a'}
    (h : TextForm (ε := ε) (CE := CE) cc X m top r a o r' a') : n a' ≤ n a := by
  rcases h with ⟨_, ⟨h, _⟩, _⟩ | ⟨_, ⟨h, _⟩, _⟩ <;> exact N.text _ _ h

theorem Eval.count {p q : Nat} {n : α → Nat} (N : Counts X al lookup p q n) {j r a o r' a'}
    (h : Eval cc X al lookup j r a o r' a') : CountP cc p q n j r a r' a' := by
  have hs := h.suffix
  induction h with
  | next_eof => simp [CountP, pot, starts]
  | @next_nest m d r a it r1 o r' a' h1 h2 h3 h4 ih =>
    have h5 := ih h3.suffix
    have h6 := pot_suffix (k := p + q) (cc := cc) (lead_suffix (cc := cc) m r)
    simp only [CountP, List.tail_cons] at h5 ⊢
    rw [h1, pot_cons h2] at h6
    omega
  | @next_removed m d r a it r1 r2 a2 o r' a' h1 h2 h3 h4 ih1 ih2 =>
    have h5 := ih1 h3.suffix
    have h7 := ih2 h4.suffix
    have h6 := pot_suffix (k := p + q) (cc := cc) (lead_suffix (cc := cc) m r)
    simp only [CountP, List.tail_cons] at h5 h7 ⊢
    rw [h1, pot_cons h2] at h6
    omega
  | next_end => have := pot_suffix (k := p + q) (cc := cc) hs; simp only [CountP]; omega
  | next_text _ _ _ ho =>
    have := pot_suffix (k := p + q) (cc := cc) hs
    have := textForm_count N ho
    simp only [CountP]; omega
  | nested_head_err h1 ih =>
    have := ih h1.suffix
    simp only [CountP, List.tail_cons] at this ⊢
    omega
  | @nested_empty d it r a r1 a1 o r' h1 ho ih =>
    have := ih h1.suffix
    have h2 : r' <:+ r1 := by
      unfold finishEmpty at ho
      split at ho
      · cases ho; simp
      · rename_i hd
        cases ho
        exact (List.suffix_cons _ _).trans (hd ▸ dropSep_suffix _)
    have := pot_suffix (k := p + q) (cc := cc) h2
    simp only [CountP, List.tail_cons] at this ⊢
    simp only [CountP] at *
    omega
  | @nested_operative d it r a h r1 a1 f b1 o r' a' h1 h2 ho ih =>
    have h3 := ih h1.suffix
    have hl := N.find h a1
    rw [h2] at hl
    simp only at hl
    have h5 := pot_suffix (k := p + q) (cc := cc) (dropSep_suffix (cc := cc) r1)
    simp only [CountP, List.tail_cons] at h3 ⊢
    rcases ho with ⟨t, x, a2, hev, ho, rfl⟩ | ⟨t, hev, ho, rfl⟩ | ⟨e', hev, ho⟩
    · have h6 := pot_suffix (k := p + q) (cc := cc) hev.suffix
      have h7 := N.text _ _ hev.1
      have h8 := N.operative _ _ _ (by rw [h2]) t a2
      have h9 := pot_suffix (k := p + q) (cc := cc) (List.suffix_cons x r')
      omega
    · have h7 := N.text _ _ hev.1
      have : pot cc (p + q) ([] : List (Item P)) = 0 := Nat.mul_zero _
      omega
    · have h6 := pot_suffix (k := p + q) (cc := cc) hev.suffix
      have h7 := N.text _ _ hev.1
      omega
  | @nested_args_err d it r a h r1 a1 c b1 e r' a' h1 h2 h3 ih1 ih2 =>
    have h4 := ih1 h1.suffix
    have h6 := ih2 h3.suffix
    have hl := h2.le N
    have h5 := pot_suffix (k := p + q) (cc := cc) (dropSep_suffix (cc := cc) r1)
    simp only [CountP, List.tail_cons] at h4 h6 ⊢
    omega
  | @nested_args d it r a h r1 a1 c b1 ds r2 a2 o r' a' h1 h2 h3 ho ih1 ih2 =>
    have h4 := ih1 h1.suffix
    have h6 := ih2 h3.suffix
    have hl := h2.le N
    have h5 := pot_suffix (k := p + q) (cc := cc) (dropSep_suffix (cc := cc) r1)
    simp only [CountP, List.tail_cons] at h4 h6 ⊢
    have : pot cc (p + q) ([] : List (Item P)) = 0 := Nat.mul_zero _
    rcases finishNest_cases ho with ⟨rfl, h, rfl, rfl⟩ | ⟨x, f, rfl, rfl, ho', rfl⟩ | ⟨x, rfl, rfl, ho', rfl⟩
    · omega
    · cases h2 with
      | applicative h2 =>
        have := N.applicative _ _ _ (by rw [h2]) (mkList ds) a2
        have h9 := pot_suffix (k := p + q) (cc := cc) (List.suffix_cons x r')
        omega
    · have := N.comb h (mkList ds) a2
      have h9 := pot_suffix (k := p + q) (cc := cc) (List.suffix_cons x r')
      omega
  | all_err h1 ih => exact ih h1.suffix
  | all_nil h1 ih => exact ih h1.suffix
  | @all_alloc_err d r a x r1 a1 e a2 h1 h2 ih =>
    have h3 := ih h1.suffix
    have h4 := N.cell x a1
    rw [h2] at h4
    simp only [CountP] at h3 h4 ⊢
    omega
  | @all_cons_err d r a x r1 a1 u a2 e r' a' h1 h2 h3 ih1 ih2 =>
    have h5 := ih1 h1.suffix
    have h6 := ih2 h3.suffix
    have h4 := N.cell x a1
    rw [h2] at h4
    simp only [CountP] at h4 h5 h6 ⊢
    omega
  | @all_cons d r a x r1 a1 u a2 ds r' a' h1 h2 h3 ih1 ih2 =>
    have h5 := ih1 h1.suffix
    have h6 := ih2 h3.suffix
    have h4 := N.cell x a1
    rw [h2] at h4
    simp only [CountP] at h4 h5 h6 ⊢
    omega

theorem Run.count {p q : Nat} {n : α → Nat} (N : Counts X al lookup p q n) {r a l r' a'}
    (h : Run cc X al lookup r a l r' a') : n a' + pot cc (p + q) r' ≤ n a + pot cc (p + q) r := by
  induction h with
  | done h => exact h.count N
  | datum h _ ih => have : n _ + _ ≤ _ := h.count N; omega
  | error h _ ih => have : n _ + _ ≤ _ := h.count N; omega

end Kul.Dyn
