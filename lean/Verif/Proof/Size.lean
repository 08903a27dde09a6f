import Verif.Spec.Size
import Verif.Proof.EvalFacts

/-! # What is parsed is not larger than the source -/

namespace Kul

variable {P τ ε α CE : Type} {cc : Classifier} {X : TextSem P τ α} {al : AllocOps τ ε α}
  {lookup : Datum τ ε → Option (Combiner τ ε α P CE)}

/-- The datums in a list of datums. -/
def nodesAll (ds : List (Datum τ ε)) : Nat := (ds.map fun d => d.nodes + 1).sum

theorem nodes_mkList (ds : List (Datum τ ε)) : (mkList ds).nodes = nodesAll ds + 1 := by
  induction ds with
  | nil => rfl
  | cons d ds ih => simp only [mkList, Datum.nodes, ih, nodesAll, List.map_cons, List.sum_cons]; omega

/-! A text is one datum and may be one character, and in a list it takes a cell; but two texts are not next to each
other in the source. `owed` allows for one text. -/

/-- Whether a text can start here. -/
def owed (cc : Classifier) : List (Item P) → Nat
  | [] => 0
  | it :: _ => if cc.isNestStart it.ch || cc.isNestEnd it.ch then 0 else 1

theorem owed_le (r : List (Item P)) : owed cc r ≤ 1 := by
  cases r with
  | nil => exact Nat.zero_le _
  | cons it r => simp only [owed]; split <;> omega

/-- Where a text ends. -/
theorem scanText_stops (m : Mode) (top : Bool) {it : Item P} {r' : List (Item P)} (r : List (Item P)) :
    ∀ nl c, scanText cc m top nl r = .ok c (it :: r') → isEndChar cc m it.ch = true ∨ cc.isNestEnd it.ch = true := by
  have hc : ∀ {x : Item P} {t : TextRes P} {c}, t.cons x = .ok c (it :: r') → ∃ c', t = .ok c' (it :: r') := by
    intro x t c h
    cases t <;> cases h
    exact ⟨_, rfl⟩
  induction h : r.length using Nat.strongRecOn generalizing r with
  | ind n ih =>
    intro nl c
    subst h
    match r with
    | [] => unfold scanText; split <;> intro h <;> cases h
    | x :: r =>
      have ih1 := ih r.length (by simp) r rfl
      unfold scanText
      split
      · rename_i h1
        intro h
        cases h
        exact Or.inl h1.2
      split
      · cases r with
        | nil => simp only; split <;> intro h <;> cases h
        | cons y r2 =>
          intro h
          obtain ⟨_, h⟩ := hc h
          exact ih r2.length (by simp; omega) r2 rfl _ _ h
      split
      · intro h
        obtain ⟨_, h⟩ := hc h
        exact ih1 _ _ h
      split
      · rename_i h1
        split
        · intro h
          obtain ⟨_, h⟩ := hc h
          exact ih1 _ _ h
        · split
          · intro h; cases h
          · intro h
            cases h
            exact Or.inr h1
      · intro h
        obtain ⟨_, h⟩ := hc h
        exact ih1 _ _ h

theorem TextEv.stops {m : Mode} {top : Bool} {it : Item P} {r r' : List (Item P)} {a a' : α} {t : τ}
    (h : TextEv (CE := CE) cc X m top r a (.ok t) (it :: r') a') :
    isEndChar cc m it.ch = true ∨ cc.isNestEnd it.ch = true := by
  rcases h.2 with ⟨_, c, _, h, _⟩ | ⟨h, _⟩ | ⟨_, h, _⟩ | ⟨_, ⟨_, h⟩, _⟩
  · exact scanText_stops m top r 0 c h
  all_goals cases h

/-- After a text in a list, none is owed. -/
theorem TextEv.owed_base {top : Bool} {r r' : List (Item P)} {a a' : α} {t : τ}
    (h : TextEv (CE := CE) cc X .base top r a (.ok t) r' a') : owed cc r' = 0 := by
  cases r' with
  | nil => rfl
  | cons it r' => rcases h.stops with h | h <;> simp [owed, isEndChar] at h ⊢ <;> simp [h]

/-- After the separator there may be. -/
theorem owed_dropSep (r : List (Item P)) : 3 * (dropSep cc r).length + owed cc (dropSep cc r) ≤ 3 * r.length + 1 := by
  have := dropSep_length (cc := cc) r
  have := owed_le (cc := cc) (dropSep cc r)
  omega

/-- But there is none right after a text in operator position. -/
theorem TextEv.owed_operator {top : Bool} {r r' : List (Item P)} {a a' : α} {t : τ}
    (h : TextEv (CE := CE) cc X .operator top r a (.ok t) r' a') :
    3 * (dropSep cc r').length + owed cc (dropSep cc r') ≤ 3 * r'.length := by
  cases r' with
  | nil => simp [dropSep, owed]
  | cons it r' =>
    by_cases hw : cc.isWhitespace it.ch = true
    · have := owed_le (cc := cc) r'
      simp only [dropSep, hw, if_true, List.length_cons]
      omega
    · have : (cc.isNestStart it.ch || cc.isNestEnd it.ch) = true := by
        rcases h.stops with h | h <;> simp [isEndChar, hw] at h ⊢ <;> simp [h]
      simp [dropSep, hw, owed, this]

def SizeP (cc : Classifier) (j : Job) (r : List (Item P)) (o : Except (Err P CE) (List (Datum τ ε)))
    (r' : List (Item P)) : Prop :=
  match j with
  | .next .base _ | .all _ => ∀ ds, o = .ok ds →
      2 * nodesAll ds + 3 * r'.length + owed cc r' ≤ 3 * r.length + owed cc r
  | .next .operator _ => ∀ ds, o = .ok ds →
      2 * nodesAll ds + 3 * (dropSep cc r').length + owed cc (dropSep cc r') ≤ 3 * r.length + 1
  | .next .operands _ => True
  | .nested _ => ∀ ds, o = .ok ds → 2 * nodesAll ds + 3 * r'.length + 1 ≤ 3 * r.length

theorem optRes_nodes {n : Nat} {o : Except (Err P CE) (Option (Datum τ ε))} {ds}
    (h : ∀ x, o = .ok (some x) → x.nodes ≤ n) (hd : optRes o = .ok ds) : nodesAll ds ≤ n + 1 := by
  match o, hd with
  | .ok none, hd => cases hd; simp [nodesAll]
  | .ok (some x), hd => cases hd; have := h x rfl; simpa [nodesAll] using this

theorem Eval.size (M : Modest lookup) {j r a o r' a'} (h : Eval cc X al lookup j r a o r' a') : SizeP cc j r o r' := by
  have one : ∀ h : Datum τ ε, nodesAll [h] = h.nodes + 1 := fun h => by simp [nodesAll]
  have nil : nodesAll ([] : List (Datum τ ε)) = 0 := rfl
  induction h with
  | @next_eof m d r a o h ho =>
    rcases eofForm_cases ho with ⟨_, rfl⟩ | ⟨_, rfl⟩ <;> cases m <;> simp only [SizeP, reduceCtorEq, false_implies, implies_true]
    · rintro ds ⟨⟩; simp only [nil, owed, List.length_nil]; omega
    · rintro ds ⟨⟩; simp only [nil, dropSep, owed, List.length_nil]; omega
  | @next_nest m d r a it r1 o r' a' h1 h2 h3 h4 ih =>
    have hl := lead_length (cc := cc) m r
    rw [h1] at hl
    have := owed_le (cc := cc) r'
    have := owed_dropSep (cc := cc) r'
    cases m
    · intro ds e
      have := ih ds e
      omega
    · intro ds e
      have := ih ds e
      omega
    · trivial
  | @next_removed m d r a it r1 r2 a2 o r' a' h1 h2 h3 h4 ih1 ih2 =>
    have hl := lead_length (cc := cc) m r
    rw [h1] at hl
    have := owed_le (cc := cc) r2
    have := ih1 [] rfl
    cases m
    · intro ds e
      have := ih2 ds e
      omega
    · intro ds e
      have := ih2 ds e
      omega
    · trivial
  | @next_end m d r a it r1 o r' h1 h2 h3 ho =>
    have hl := lead_length (cc := cc) m r
    rw [h1] at hl
    rcases endForm_cases ho with ⟨_, rfl, _⟩ | ⟨_, rfl, rfl⟩ <;> cases m <;>
      simp only [SizeP, reduceCtorEq, false_implies, implies_true]
    · rintro ds ⟨⟩
      cases h1
      simp only [nil]
      omega
    · rintro ds ⟨⟩
      have := owed_dropSep (cc := cc) (it :: r1)
      simp only [nil]
      omega
  | @next_text m d r a it r1 o r' a' h1 h2 h3 ho =>
    have hl := lead_length (cc := cc) m r
    rw [h1] at hl
    rcases ho with ⟨t, ho, rfl⟩ | ⟨_, _, rfl⟩
    · have text : (Datum.text t : Datum τ ε).nodes = 1 := rfl
      cases m
      · rintro ds ⟨⟩
        cases h1
        have := ho.progress (isEndChar_of_lead cc (r := it :: r1) (by simp) rfl h2 h3) h3
        have h4 : owed cc (it :: r1) = 1 := by simp [owed, h2, h3]
        rw [one, text, ho.owed_base, h4]
        omega
      · rintro ds ⟨⟩
        have := ho.progress (isEndChar_of_lead cc (by simp) h1 h2 h3) h3
        have := ho.owed_operator
        rw [one, text]
        omega
      · trivial
    · cases m <;> simp only [SizeP, reduceCtorEq, false_implies, implies_true]
  | nested_head_err => intro _ e; cases e
  | @nested_empty d it r a r1 a1 o r' h1 ho ih =>
    rintro ds rfl
    have := ih [] rfl
    rcases finishEmpty_cases ho with ⟨_, e, _⟩ | ⟨x, h, e⟩ <;> cases e
    rw [h] at this
    rw [one, show (Datum.emptyNest : Datum τ ε).nodes = 1 from rfl]
    simp only [List.length_cons] at *
    omega
  | @nested_operative d it r a h r1 a1 f o r' a' h1 h2 ho ih =>
    rintro ds rfl
    have h3 := ih [h] rfl
    rw [one] at h3
    rcases ho with ⟨t, x, a2, hev, ho, rfl⟩ | ⟨_, _, e, _⟩ | ⟨_, _, e⟩ <;> [skip; cases e; cases e]
    have := hev.length
    have := optRes_nodes (M.operative h f h2 t a2) ho.symm
    simp only [List.length_cons] at *
    omega
  | nested_args_err => intro _ e; cases e
  | @nested_args d it r a h r1 a1 c ds r2 a2 o r' a' h1 h2 h3 ho ih1 ih2 =>
    rintro ds' rfl
    have h4 := ih1 [h] rfl
    have h5 := ih2 ds rfl
    rw [one] at h4
    rcases finishNest_cases ho with ⟨_, e, _⟩ | ⟨x, f, rfl, rfl, ho', rfl⟩ | ⟨x, rfl, rfl, ho', rfl⟩
    · cases e
    · cases h2 with
      | applicative h2 =>
        have := optRes_nodes (M.applicative h f h2 (mkList ds) a2) ho'.symm
        rw [nodes_mkList] at this
        simp only [List.length_cons] at *
        omega
    · rcases allocComb_cases (o := .ok ds') (Prod.ext ho'.symm rfl) with ⟨_, e⟩ | e <;> cases e
      rw [one, Datum.nodes, nodes_mkList]
      simp only [List.length_cons] at *
      omega
  | all_err => intro _ e; cases e
  | all_nil h1 ih => exact ih
  | all_alloc_err => intro _ e; cases e
  | all_cons_err => intro _ e; cases e
  | @all_cons d r a x r1 a1 u a2 ds r' a' h1 h2 h3 ih1 ih2 =>
    intro ds' e
    cases e
    have h4 := ih1 [x] rfl
    have h5 := ih2 ds rfl
    simp only [nodesAll, List.map_cons, List.sum_cons, List.map_nil, List.sum_nil] at *
    omega

end Kul
