import Verif.Spec.Dynamic
import Verif.Proof.EvalDet
import Verif.Proof.Yields

/-!
# Rules for a parser whose bindings may change

`Proof/Eval.lean` and what is proved of its rules there, again with the bindings of
`Model/Dynamic.lean`. The rules for texts and for scanning are those of `Proof/Eval.lean`.
-/

namespace Kul.Dyn

variable {P τ ε α CE : Type}

/-! ## Rules -/

/-- The applicative's function if the head is bound to one, nothing if unbound. -/
inductive ArgComb (lookup : Datum τ ε → α → Option (Combiner τ ε α P CE) × α) (h : Datum τ ε) (a : α) :
    Option (Datum τ ε → Datum τ ε → α → Except (Err P CE) (Option (Datum τ ε)) × α) → α → Prop where
  | unbound {a'} : lookup h a = (none, a') → ArgComb lookup h a none a'
  | applicative {f a'} : lookup h a = (some (.applicative f), a') → ArgComb lookup h a (some f) a'

variable (cc : Classifier) (X : TextSem P τ α) (al : AllocOps τ ε α)
  (lookup : Datum τ ε → α → Option (Combiner τ ε α P CE) × α)

/-- The rules. -/
inductive Eval : Job → List (Item P) → α → Except (Err P CE) (List (Datum τ ε)) →
    List (Item P) → α → Prop where
  | next_eof {m d r a o} : lead cc m r = [] → eofForm d = o → Eval (.next m d) r a o [] a
  | next_nest {m d r a it r1 o r' a'} : lead cc m r = it :: r1 → cc.isNestStart it.ch = true →
      Eval (.nested (d + 1)) (it :: r1) a o r' a' → o ≠ .ok [] → Eval (.next m d) r a o r' a'
  | next_removed {m d r a it r1 r2 a2 o r' a'} : lead cc m r = it :: r1 →
      cc.isNestStart it.ch = true →
      Eval (.nested (d + 1)) (it :: r1) a (.ok []) r2 a2 → Eval (.next m d) r2 a2 o r' a' →
      Eval (.next m d) r a o r' a'
  | next_end {m d r a it r1 o r'} : lead cc m r = it :: r1 → cc.isNestStart it.ch = false →
      cc.isNestEnd it.ch = true → endForm d it r1 = (o, r') → Eval (.next m d) r a o r' a
  | next_text {m d r a it r1 o r' a'} : lead cc m r = it :: r1 → cc.isNestStart it.ch = false →
      cc.isNestEnd it.ch = false → TextForm cc X m (d == 0) (it :: r1) a o r' a' →
      Eval (.next m d) r a o r' a'
  | nested_head_err {d it r a e r' a'} : Eval (.next .operator d) r a (.error e) r' a' →
      Eval (.nested d) (it :: r) a (.error e) r' a'
  | nested_empty {d it r a r1 a1 o r'} : Eval (.next .operator d) r a (.ok []) r1 a1 →
      finishEmpty (dropSep cc r1) = (o, r') → Eval (.nested d) (it :: r) a o r' a1
  | nested_operative {d it r a h r1 a1 f b1 o r' a'} : Eval (.next .operator d) r a (.ok [h]) r1 a1 →
      lookup h a1 = (some (.operative f), b1) → OperEv cc X f h (dropSep cc r1) b1 o r' a' →
      Eval (.nested d) (it :: r) a o r' a'
  | nested_args_err {d it r a h r1 a1 c b1 e r' a'} : Eval (.next .operator d) r a (.ok [h]) r1 a1 →
      ArgComb lookup h a1 c b1 → Eval (.all d) (dropSep cc r1) b1 (.error e) r' a' →
      Eval (.nested d) (it :: r) a (.error e) r' a'
  | nested_args {d it r a h r1 a1 c b1 ds r2 a2 o r' a'} : Eval (.next .operator d) r a (.ok [h]) r1 a1 →
      ArgComb lookup h a1 c b1 → Eval (.all d) (dropSep cc r1) b1 (.ok ds) r2 a2 →
      finishNest al c h ds r2 a2 = (o, r', a') → Eval (.nested d) (it :: r) a o r' a'
  | all_err {d r a e r' a'} : Eval (.next .base d) r a (.error e) r' a' →
      Eval (.all d) r a (.error e) r' a'
  | all_nil {d r a r' a'} : Eval (.next .base d) r a (.ok []) r' a' →
      Eval (.all d) r a (.ok []) r' a'
  | all_alloc_err {d r a x r1 a1 e a2} : Eval (.next .base d) r a (.ok [x]) r1 a1 →
      allocCell al x a1 = (.error e, a2) → Eval (.all d) r a (.error e) r1 a2
  | all_cons_err {d r a x r1 a1 u a2 e r' a'} : Eval (.next .base d) r a (.ok [x]) r1 a1 →
      allocCell (P := P) (CE := CE) al x a1 = (.ok u, a2) → Eval (.all d) r1 a2 (.error e) r' a' →
      Eval (.all d) r a (.error e) r' a'
  | all_cons {d r a x r1 a1 u a2 ds r' a'} : Eval (.next .base d) r a (.ok [x]) r1 a1 →
      allocCell (P := P) (CE := CE) al x a1 = (.ok u, a2) → Eval (.all d) r1 a2 (.ok ds) r' a' →
      Eval (.all d) r a (.ok (x :: ds)) r' a'

/-! ## Facts about the rules -/

variable {cc : Classifier} {X : TextSem P τ α} {al : AllocOps τ ε α}
  {lookup : Datum τ ε → α → Option (Combiner τ ε α P CE) × α}

/-- `next` and `nested` yield at most one datum. -/
theorem Eval.le_one {j r a o r' a'} (h : Eval cc X al lookup j r a o r' a') : LeOne j o := by
  induction h with
  | next_eof h ho => rcases eofForm_cases ho with ⟨_, rfl⟩ | ⟨_, rfl⟩ <;> intro l hl <;> cases hl; simp
  | next_nest _ _ _ _ ih => exact ih
  | next_removed _ _ _ _ _ ih => exact ih
  | next_end _ _ _ ho =>
    rcases endForm_cases ho with ⟨_, rfl, _⟩ | ⟨_, rfl, _⟩ <;> intro l hl <;> cases hl; simp
  | next_text _ _ _ ho =>
    rcases ho with ⟨_, _, rfl⟩ | ⟨_, _, rfl⟩ <;> intro l hl <;> cases hl; simp
  | nested_head_err => intro l hl; cases hl
  | nested_empty _ ho =>
    rcases finishEmpty_cases ho with ⟨_, rfl, _⟩ | ⟨_, _, rfl⟩ <;> intro l hl <;> cases hl; simp
  | nested_operative _ _ ho =>
    intro l hl
    rcases ho with ⟨t, e, _, _, rfl, _⟩ | ⟨t, _, rfl, _⟩ | ⟨_, _, rfl⟩
    · exact optRes_length hl
    all_goals cases hl
  | nested_args_err => intro l hl; cases hl
  | nested_args _ _ _ ho =>
    intro l hl
    rcases finishNest_cases ho with ⟨_, rfl, _⟩ | ⟨e, f, _, _, rfl, _⟩ | ⟨e, _, _, ho, _⟩
    · cases hl
    · exact optRes_length hl
    · rcases allocComb_cases (Prod.ext ho.symm rfl) with ⟨e, rfl⟩ | rfl <;> cases hl; simp
  | all_err => trivial
  | all_nil => trivial
  | all_alloc_err => trivial
  | all_cons_err => trivial
  | all_cons => trivial

/-- The items left are fewer, strictly when a datum was produced. -/
theorem Eval.length {j r a o r' a'} (h : Eval cc X al lookup j r a o r' a') : LenP j r o r' := by
  induction h with
  | @next_eof m d r a o h ho =>
    intro _
    refine ⟨by simp, fun x hx => ?_⟩
    rcases eofForm_cases ho with ⟨_, rfl⟩ | ⟨_, rfl⟩ <;> cases hx
  | @next_nest m d r a it r1 o r' a' h1 h2 h3 h4 ih =>
    intro _
    have := lead_length cc m r
    rw [h1] at this
    simp only [LenP] at ih
    exact ⟨by omega, fun _ _ => by omega⟩
  | @next_removed m d r a it r1 r2 a2 o r' a' h1 h2 h3 h4 ih1 ih2 =>
    intro hm
    have := lead_length cc m r
    rw [h1] at this
    simp only [LenP] at ih1 ih2
    have := ih2 hm
    exact ⟨by omega, fun _ _ => by omega⟩
  | @next_end m d r a it r1 o r' h1 h2 h3 ho =>
    intro _
    have := lead_length cc m r
    rw [h1] at this
    simp only [List.length_cons] at this
    rcases endForm_cases ho with ⟨_, rfl, rfl⟩ | ⟨_, rfl, rfl⟩
    · exact ⟨by omega, fun _ h => by cases h⟩
    · exact ⟨by simp only [List.length_cons]; omega, fun _ h => by cases h⟩
  | @next_text m d r a it r1 o r' a' h1 h2 h3 ho =>
    intro hm
    have := lead_length cc m r
    rw [h1] at this
    obtain ⟨o', ho'⟩ := ho.ev
    have hp := ho'.progress (isEndChar_of_lead cc hm h1 h2 h3) h3
    exact ⟨by omega, fun _ _ => by omega⟩
  | nested_head_err _ ih =>
    have := ih (by simp)
    simp only [LenP, List.length_cons]; omega
  | @nested_empty d it r a r1 a1 o r' _ ho ih =>
    have := ih (by simp)
    have h2 := dropSep_length cc r1
    rcases finishEmpty_cases ho with ⟨_, _, rfl⟩ | ⟨e, h, _⟩
    · simp [LenP]
    · rw [h] at h2; simp only [LenP, List.length_cons] at h2 ⊢; omega
  | @nested_operative d it r a h r1 a1 f b1 o r' a' _ _ ho ih =>
    have := (ih (by simp)).2 h rfl
    have h2 := dropSep_length cc r1
    have h3 := ho.length
    simp only [LenP, List.length_cons] at h3 ⊢; omega
  | @nested_args_err d it r a h r1 a1 c b1 e r' a' _ _ _ ih1 ih2 =>
    simp only [LenP] at ih2
    have := (ih1 (by simp)).2 h rfl
    have h2 := dropSep_length cc r1
    simp only [LenP, List.length_cons]; omega
  | @nested_args d it r a h r1 a1 c b1 ds r2 a2 o r' a' _ _ _ ho ih1 ih2 =>
    simp only [LenP] at ih2
    have := (ih1 (by simp)).2 h rfl
    have h2 := dropSep_length cc r1
    rcases finishNest_cases ho with ⟨_, _, rfl, _⟩ | ⟨e, f, rfl, _⟩ | ⟨e, rfl, _⟩
    all_goals simp only [LenP, List.length_cons, List.length_nil] at ih2 ⊢; omega
  | all_err _ ih => exact (ih (by simp)).1
  | all_nil _ ih => exact (ih (by simp)).1
  | all_alloc_err _ _ ih => exact (ih (by simp)).1
  | all_cons_err _ _ _ ih1 ih2 =>
    simp only [LenP] at ih2 ⊢
    have := (ih1 (by simp)).1
    omega
  | all_cons _ _ _ ih1 ih2 =>
    simp only [LenP] at ih2 ⊢
    have := (ih1 (by simp)).1
    omega

/-- Where a missing form leaves the source: at the end of the source at depth 0,
before an end character otherwise. -/
theorem Eval.at_end {j r a o r' a'} (h : Eval cc X al lookup j r a o r' a') : AtEnd cc j o r' := by
  induction h with
  | next_eof h ho =>
    intro h'
    rcases eofForm_cases ho with ⟨hd, rfl⟩ | ⟨_, rfl⟩
    · exact Or.inl ⟨hd, rfl⟩
    · cases h'
  | next_nest _ _ _ hne => intro ho; exact absurd ho hne
  | next_removed _ _ _ _ _ ih => exact ih
  | next_end h1 h2 h3 ho =>
    intro h'
    rcases endForm_cases ho with ⟨_, rfl, rfl⟩ | ⟨hd, rfl, rfl⟩
    · cases h'
    · exact Or.inr ⟨hd, _, _, rfl, h3, h2, lead_head cc h1⟩
  | next_text _ _ _ ho =>
    intro h'
    rcases ho with ⟨_, _, rfl⟩ | ⟨_, _, rfl⟩ <;> cases h'
  | nested_head_err => trivial
  | nested_empty => trivial
  | nested_operative => trivial
  | nested_args_err => trivial
  | nested_args => trivial
  | all_err => intro ds h; cases h
  | all_nil _ ih =>
    intro ds _
    rcases ih rfl with h | ⟨h1, e, r1, h2, h3, h4, _⟩
    · exact Or.inl h
    · exact Or.inr ⟨h1, e, r1, h2, h3, h4⟩
  | all_alloc_err => intro ds h; cases h
  | all_cons_err => intro ds h; cases h
  | all_cons _ _ _ _ ih =>
    intro ds _
    exact ih _ rfl

/-! ## The rules are deterministic -/

theorem ArgComb.det {h : Datum τ ε} {a b b' : α} {c c'} (h1 : ArgComb lookup h a c b)
    (h2 : ArgComb lookup h a c' b') : c = c' ∧ b = b' := by
  cases h1 <;> cases h2 <;> simp_all

theorem Eval.det (hX : X.Func) {j r a o r' a'} (h : Eval cc X al lookup j r a o r' a') :
    ∀ {o2 r2 a2}, Eval cc X al lookup j r a o2 r2 a2 → o = o2 ∧ r' = r2 ∧ a' = a2 := by
  induction h with
  | next_eof h1 h2 => intro o2 r2 a2 H; cases H <;> simp_all
  | next_nest h1 h2 h3 h4 ih =>
    intro o2 r2 a2 H
    cases H with
    | next_eof g1 g2 => simp_all
    | next_nest g1 g2 g3 g4 => rw [h1] at g1; cases g1; exact ih g3
    | next_removed g1 g2 g3 g4 => rw [h1] at g1; cases g1; exact absurd (ih g3).1 h4
    | next_end g1 g2 g3 => rw [h1] at g1; cases g1; rw [h2] at g2; cases g2
    | next_text g1 g2 g3 => rw [h1] at g1; cases g1; rw [h2] at g2; cases g2
  | next_removed h1 h2 h3 h4 ih1 ih2 =>
    intro o2 r2 a2 H
    cases H with
    | next_eof g1 g2 => simp_all
    | next_nest g1 g2 g3 g4 => rw [h1] at g1; cases g1; exact absurd (ih1 g3).1.symm g4
    | next_removed g1 g2 g3 g4 =>
      rw [h1] at g1; cases g1
      obtain ⟨-, rfl, rfl⟩ := ih1 g3
      exact ih2 g4
    | next_end g1 g2 g3 => rw [h1] at g1; cases g1; rw [h2] at g2; cases g2
    | next_text g1 g2 g3 => rw [h1] at g1; cases g1; rw [h2] at g2; cases g2
  | next_end h1 h2 h3 h4 =>
    intro o2 r2 a2 H
    cases H with
    | next_eof g1 g2 => simp_all
    | next_nest g1 g2 g3 g4 => rw [h1] at g1; cases g1; rw [h2] at g2; cases g2
    | next_removed g1 g2 g3 g4 => rw [h1] at g1; cases g1; rw [h2] at g2; cases g2
    | next_end g1 g2 g3 g4 => rw [h1] at g1; cases g1; rw [h4] at g4; cases g4; exact ⟨rfl, rfl, rfl⟩
    | next_text g1 g2 g3 => rw [h1] at g1; cases g1; rw [h3] at g3; cases g3
  | next_text h1 h2 h3 h4 =>
    intro o2 r2 a2 H
    cases H with
    | next_eof g1 g2 => simp_all
    | next_nest g1 g2 g3 g4 => rw [h1] at g1; cases g1; rw [h2] at g2; cases g2
    | next_removed g1 g2 g3 g4 => rw [h1] at g1; cases g1; rw [h2] at g2; cases g2
    | next_end g1 g2 g3 g4 => rw [h1] at g1; cases g1; rw [h3] at g3; cases g3
    | next_text g1 g2 g3 g4 => rw [h1] at g1; cases g1; exact h4.det hX g4
  | nested_head_err h1 ih =>
    intro o2 r2 a2 H
    cases H with
    | nested_head_err g1 => exact ih g1
    | nested_empty g1 => cases (ih g1).1
    | nested_operative g1 => cases (ih g1).1
    | nested_args_err g1 => cases (ih g1).1
    | nested_args g1 => cases (ih g1).1
  | nested_empty h1 h2 ih =>
    intro o2 r2 a2 H
    cases H with
    | nested_head_err g1 => cases (ih g1).1
    | nested_empty g1 g2 =>
      obtain ⟨-, rfl, rfl⟩ := ih g1
      rw [h2] at g2; cases g2; exact ⟨rfl, rfl, rfl⟩
    | nested_operative g1 => cases (ih g1).1
    | nested_args_err g1 => cases (ih g1).1
    | nested_args g1 => cases (ih g1).1
  | nested_operative h1 h2 h3 ih =>
    intro o2 r2 a2 H
    cases H with
    | nested_head_err g1 => cases (ih g1).1
    | nested_empty g1 g2 => cases (ih g1).1
    | nested_operative g1 g2 g3 =>
      obtain ⟨hh, rfl, rfl⟩ := ih g1
      cases hh
      rw [h2] at g2; cases g2
      exact h3.det hX g3
    | nested_args_err g1 g2 =>
      obtain ⟨hh, rfl, rfl⟩ := ih g1
      cases hh
      cases g2 <;> simp_all
    | nested_args g1 g2 =>
      obtain ⟨hh, rfl, rfl⟩ := ih g1
      cases hh
      cases g2 <;> simp_all
  | nested_args_err h1 h2 h3 ih ih2 =>
    intro o2 r2 a2 H
    cases H with
    | nested_head_err g1 => cases (ih g1).1
    | nested_empty g1 g2 => cases (ih g1).1
    | nested_operative g1 g2 g3 =>
      obtain ⟨hh, rfl, rfl⟩ := ih g1
      cases hh
      cases h2 <;> simp_all
    | nested_args_err g1 g2 g3 =>
      obtain ⟨hh, rfl, rfl⟩ := ih g1
      cases hh
      obtain ⟨-, rfl⟩ := h2.det g2
      exact ih2 g3
    | nested_args g1 g2 g3 =>
      obtain ⟨hh, rfl, rfl⟩ := ih g1
      cases hh
      obtain ⟨-, rfl⟩ := h2.det g2
      cases (ih2 g3).1
  | nested_args h1 h2 h3 h4 ih ih2 =>
    intro o2 r2 a2 H
    cases H with
    | nested_head_err g1 => cases (ih g1).1
    | nested_empty g1 g2 => cases (ih g1).1
    | nested_operative g1 g2 g3 =>
      obtain ⟨hh, rfl, rfl⟩ := ih g1
      cases hh
      cases h2 <;> simp_all
    | nested_args_err g1 g2 g3 =>
      obtain ⟨hh, rfl, rfl⟩ := ih g1
      cases hh
      obtain ⟨-, rfl⟩ := h2.det g2
      cases (ih2 g3).1
    | nested_args g1 g2 g3 g4 =>
      obtain ⟨hh, rfl, rfl⟩ := ih g1
      cases hh
      obtain ⟨rfl, rfl⟩ := h2.det g2
      obtain ⟨hh, rfl, rfl⟩ := ih2 g3
      cases hh
      rw [h4] at g4; cases g4; exact ⟨rfl, rfl, rfl⟩
  | all_err h1 ih =>
    intro o2 r2 a2 H
    cases H with
    | all_err g1 => exact ih g1
    | all_nil g1 => exact ih g1
    | all_alloc_err g1 => cases (ih g1).1
    | all_cons_err g1 => cases (ih g1).1
    | all_cons g1 => cases (ih g1).1
  | all_nil h1 ih =>
    intro o2 r2 a2 H
    cases H with
    | all_err g1 => exact ih g1
    | all_nil g1 => exact ih g1
    | all_alloc_err g1 => cases (ih g1).1
    | all_cons_err g1 => cases (ih g1).1
    | all_cons g1 => cases (ih g1).1
  | all_alloc_err h1 h2 ih =>
    intro o2 r2 a2 H
    cases H with
    | all_err g1 => cases (ih g1).1
    | all_nil g1 => cases (ih g1).1
    | all_alloc_err g1 g2 =>
      obtain ⟨hh, rfl, rfl⟩ := ih g1; cases hh; rw [h2] at g2; cases g2; exact ⟨rfl, rfl, rfl⟩
    | all_cons_err g1 g2 => obtain ⟨hh, rfl, rfl⟩ := ih g1; cases hh; rw [h2] at g2; cases g2
    | all_cons g1 g2 => obtain ⟨hh, rfl, rfl⟩ := ih g1; cases hh; rw [h2] at g2; cases g2
  | all_cons_err h1 h2 h3 ih ih2 =>
    intro o2 r2 a2 H
    cases H with
    | all_err g1 => cases (ih g1).1
    | all_nil g1 => cases (ih g1).1
    | all_alloc_err g1 g2 => obtain ⟨hh, rfl, rfl⟩ := ih g1; cases hh; rw [h2] at g2; cases g2
    | all_cons_err g1 g2 g3 =>
      obtain ⟨hh, rfl, rfl⟩ := ih g1; cases hh; rw [h2] at g2; cases g2; exact ih2 g3
    | all_cons g1 g2 g3 =>
      obtain ⟨hh, rfl, rfl⟩ := ih g1; cases hh; rw [h2] at g2; cases g2; cases (ih2 g3).1
  | all_cons h1 h2 h3 ih ih2 =>
    intro o2 r2 a2 H
    cases H with
    | all_err g1 => cases (ih g1).1
    | all_nil g1 => cases (ih g1).1
    | all_alloc_err g1 g2 => obtain ⟨hh, rfl, rfl⟩ := ih g1; cases hh; rw [h2] at g2; cases g2
    | all_cons_err g1 g2 g3 =>
      obtain ⟨hh, rfl, rfl⟩ := ih g1; cases hh; rw [h2] at g2; cases g2; cases (ih2 g3).1
    | all_cons g1 g2 g3 =>
      obtain ⟨hh, rfl, rfl⟩ := ih g1; cases hh; rw [h2] at g2; cases g2
      obtain ⟨hh, rfl, rfl⟩ := ih2 g3; cases hh; exact ⟨rfl, rfl, rfl⟩

/-! ## The functions keep the depth, and a larger budget does not matter -/

variable {σ : Type} (U : DynEnv σ P τ ε α CE)

theorem _root_.Kul.DynEnv.keeps_parse (n : Nat) :
    (∀ mode, KeepsDepth (U.parseNext n mode)) ∧ KeepsDepth (U.parseNested n) ∧
    (∀ mode acc, KeepsDepth (U.parseAll n mode acc)) := by
  induction n with
  | zero =>
    refine ⟨fun mode => ?_, ?_, fun mode acc => ?_⟩
    · unfold DynEnv.parseNext; exact KeepsDepth.fuel
    · unfold DynEnv.parseNested; exact KeepsDepth.fuel
    · unfold DynEnv.parseAll; exact KeepsDepth.fuel
  | succ n ih =>
    obtain ⟨ihn, ihd, iha⟩ := ih
    refine ⟨fun mode => ?_, ?_, fun mode acc => ?_⟩
    · unfold DynEnv.parseNext
      refine KeepsDepth.bind (KeepsDepth.ite (U.env.keeps_skipWhitespace n) (KeepsDepth.pure _)) fun _ => ?_
      refine KeepsDepth.bind U.env.keeps_peek fun a => ?_
      cases a with
      | none =>
        exact KeepsDepth.bind (fun _ => rfl) fun _ => KeepsDepth.ite (KeepsDepth.pure _)
          (KeepsDepth.throw _)
      | some it =>
        refine KeepsDepth.ite (KeepsDepth.bind (Env.keeps_nestedInDepth ihd) fun o => ?_)
          (KeepsDepth.ite (KeepsDepth.bind U.env.keeps_checkEndChar fun _ => KeepsDepth.pure _)
            (KeepsDepth.bind (U.env.keeps_parseText _ _) fun _ => KeepsDepth.pure _))
        cases o with
        | none => exact ihn mode
        | some d => exact KeepsDepth.pure _
    · unfold DynEnv.parseNested
      refine KeepsDepth.bind U.env.keeps_next fun _ => ?_
      refine KeepsDepth.bind (KeepsDepth.debugAssert _) fun _ => ?_
      refine KeepsDepth.bind (ihn _) fun o => ?_
      refine KeepsDepth.bind U.env.keeps_skipSeparator fun _ => ?_
      cases o with
      | none => exact KeepsDepth.bind U.env.keeps_nestEnd fun _ => KeepsDepth.pure _
      | some d =>
        refine KeepsDepth.bind (fun _ => rfl) fun c => ?_
        rcases c with _ | (f | f)
        · exact KeepsDepth.bind (iha _ _) fun _ => KeepsDepth.bind U.env.keeps_nestEnd fun _ =>
            KeepsDepth.bind (U.env.keeps_newDatum _) fun _ =>
            KeepsDepth.bind (U.env.keeps_newDatum _) fun _ => KeepsDepth.pure _
        · exact KeepsDepth.bind (U.env.keeps_parseText _ _) fun _ => KeepsDepth.bind U.env.keeps_nestEnd
            fun _ _ => rfl
        · exact KeepsDepth.bind (iha _ _) fun _ => KeepsDepth.bind U.env.keeps_nestEnd
            fun _ _ => rfl
    · unfold DynEnv.parseAll
      refine KeepsDepth.bind (ihn _) fun o => ?_
      cases o with
      | none => exact KeepsDepth.pure _
      | some d =>
        exact KeepsDepth.bind (U.env.keeps_newDatum _) fun _ =>
          KeepsDepth.bind (U.env.keeps_newDatum _) fun _ =>
          KeepsDepth.bind U.env.keeps_getMutFresh fun _ =>
          KeepsDepth.ite (iha _ _) (KeepsDepth.throw _)

theorem _root_.Kul.DynEnv.mono_step (n : Nat) :
    (∀ m, Refines (U.parseNext n m) (U.parseNext (n + 1) m)) ∧
    Refines (U.parseNested n) (U.parseNested (n + 1)) ∧
    (∀ m acc, Refines (U.parseAll n m acc) (U.parseAll (n + 1) m acc)) := by
  induction n with
  | zero =>
    refine ⟨fun m => ?_, ?_, fun m acc => ?_⟩
    · conv in U.parseNext 0 m => unfold DynEnv.parseNext
      exact Refines.fuel _
    · conv in U.parseNested 0 => unfold DynEnv.parseNested
      exact Refines.fuel _
    · conv in U.parseAll 0 m acc => unfold DynEnv.parseAll
      exact Refines.fuel _
  | succ n ih =>
    obtain ⟨ihn, ihd, iha⟩ := ih
    refine ⟨fun m => ?_, ?_, fun m acc => ?_⟩
    · unfold DynEnv.parseNext
      refine Refines.bind (U.env.mono_skipLeading n m) fun _ => Refines.bind (Refines.rfl' _) fun o => ?_
      cases o with
      | none => exact Refines.rfl' _
      | some it =>
        refine Refines.ite (Refines.bind (Refines.nestedInDepth ihd (U.keeps_parse n).2.1) fun o => ?_)
          (Refines.ite (Refines.rfl' _) (Refines.bind (U.env.mono_parseTextLoop m n _ _) fun _ =>
            Refines.rfl' _))
        cases o with
        | none => exact ihn m
        | some d => exact Refines.rfl' _
    · unfold DynEnv.parseNested
      refine Refines.bind (Refines.rfl' _) fun _ => Refines.bind (Refines.rfl' _) fun _ =>
        Refines.bind (ihn _) fun o => Refines.bind (Refines.rfl' _) fun _ => ?_
      cases o with
      | none => exact Refines.rfl' _
      | some h =>
        refine Refines.bind (Refines.rfl' _) fun c => ?_
        rcases c with _ | (f | f)
        · exact Refines.bind (iha _ _) fun _ => Refines.rfl' _
        · exact Refines.bind (U.env.mono_parseTextLoop _ n _ _) fun _ => Refines.rfl' _
        · exact Refines.bind (iha _ _) fun _ => Refines.rfl' _
    · unfold DynEnv.parseAll
      refine Refines.bind (ihn _) fun o => ?_
      cases o with
      | none => exact Refines.rfl' _
      | some d =>
        exact Refines.bind (Refines.rfl' _) fun _ => Refines.bind (Refines.rfl' _) fun _ =>
          Refines.bind (Refines.rfl' _) fun _ => Refines.ite (iha _ _) (Refines.rfl' _)

/-- A larger budget gives the same result. -/
theorem _root_.Kul.DynEnv.next_mono {n m : Nat} (h : n ≤ m) {s : St σ α} {o s'}
    (hn : U.parseNext n .base s = (o, s')) (ho : o ≠ .fuel) : U.parseNext m .base s = (o, s') := by
  induction h with
  | refl => exact hn
  | @step m _ ih =>
    rcases (U.mono_step m).1 .base s with h | h
    · rw [ih] at h
      exact absurd h ho
    · rw [← h, ih]

variable {E}

/-- The result of a call does not depend on the budget. -/
theorem _root_.Kul.DynEnv.Call.unique {U : DynEnv σ P τ ε α CE} {s : St σ α} {o o' s' s''} (h : U.Call s o s') (h' : U.Call s o' s'') :
    o = o' ∧ s' = s'' := by
  obtain ⟨n, h1, h2⟩ := h
  obtain ⟨m, h3, h4⟩ := h'
  have h5 := U.next_mono (Nat.le_max_left n m) h1 h2
  have h6 := U.next_mono (Nat.le_max_right n m) h3 h4
  rw [h5] at h6
  cases h6
  exact ⟨rfl, rfl⟩

/-! ## The functions follow the rules -/

/-- Adequacy of `parse_next`'s model. -/
def RunNext (U : DynEnv σ P τ ε α CE) (RS : σ → Seq P → Prop) (X : TextSem P τ α) (n : Nat) : Prop :=
  ∀ (m : Mode) (p r : List (Item P)) (s : σ) (a : α) (d : Nat), m ≠ .operands → RS s ⟨p, r⟩ →
    Clean p r → 3 * r.length + 2 ≤ n →
    ∃ o s' r' a', U.parseNext n m ⟨s, a, d⟩ = (optOut o, ⟨s', a', d⟩) ∧
      Ends RS p o s' r' ∧ Eval U.env.cc X U.env.alloc U.lookup (.next m d) r a o r' a'

/-- Adequacy of `parse_nested`'s model. -/
def RunNested (U : DynEnv σ P τ ε α CE) (RS : σ → Seq P → Prop) (X : TextSem P τ α) (n : Nat) : Prop :=
  ∀ (p : List (Item P)) (it : Item P) (r : List (Item P)) (s : σ) (a : α) (d : Nat), d ≠ 0 →
    RS s ⟨p, it :: r⟩ → U.env.cc.isNestStart it.ch = true → 3 * (it :: r).length + 1 ≤ n →
    ∃ o s' r' a', U.parseNested n ⟨s, a, d⟩ = (optOut o, ⟨s', a', d⟩) ∧
      Ends RS [] o s' r' ∧ Eval U.env.cc X U.env.alloc U.lookup (.nested d) (it :: r) a o r' a'

/-- Adequacy of `parse_all`'s model. -/
def RunAll (U : DynEnv σ P τ ε α CE) (RS : σ → Seq P → Prop) (X : TextSem P τ α) (n : Nat) : Prop :=
  ∀ (r : List (Item P)) (s : σ) (a : α) (d : Nat) (acc : List (Datum τ ε)), d ≠ 0 →
    RS s ⟨[], r⟩ → 3 * r.length + 3 ≤ n →
    ∃ o s' r' a', U.parseAll n .base acc ⟨s, a, d⟩ = (allOut acc o, ⟨s', a', d⟩) ∧
      Ends RS [] o s' r' ∧ Eval U.env.cc X U.env.alloc U.lookup (.all d) r a o r' a'

variable {U} {RS : σ → Seq P → Prop} {X : TextSem P τ α} {J : List (Item P) → List (Item P) → Prop}

section

variable (C : ConfJ U.env RS X J)
include C

theorem run_next (n : Nat) (ihn : RunNext U RS X n) (ihd : RunNested U RS X n) :
    RunNext U RS X (n + 1) := by
  intro m p r s a d hm hs hc hn
  obtain ⟨s1, p1, h1, hs1, hc1, hp1⟩ := C.c_skipLeading m r n p s a d hs (by omega) hc
  have hlen := lead_length U.env.cc m r
  unfold DynEnv.parseNext
  rw [Act.bind_ok h1]
  obtain ⟨s2, hpk, hs2⟩ := C.c_peek hs1 a d
  rw [Act.bind_ok hpk]
  rcases hl : lead U.env.cc m r with _ | ⟨it, r1⟩
  · rw [hl] at hs2
    refine ⟨eofForm d, s2, [], a, ?_, ⟨p1, hs2, Or.inr rfl, fun hp _ _ => hp1 hp⟩,
      Eval.next_eof hl rfl⟩
    simp only [List.head?_nil]
    rw [Act.bind_ok (c_getDepth s2 a d)]
    unfold eofForm
    by_cases hd : d = 0
    · rw [if_pos hd, if_pos hd]; rfl
    · rw [if_neg hd, if_neg hd]; rfl
  · rw [hl] at hlen hc1 hs2
    have hp1 : p1 = [] := by rcases hc1 with h | h; exact h; cases h
    subst hp1
    simp only [List.head?_cons]
    by_cases hst : U.env.cc.isNestStart it.ch = true
    · rw [if_pos hst]
      obtain ⟨o, s', r', a', h2, hends, he⟩ := ihd [] it r1 s2 a (d + 1) (by omega) hs2 hst (by omega)
      have hlen2 : r'.length < (it :: r1).length := he.length
      have hnd : Env.nestedInDepth (U.parseNested n) ⟨s2, a, d⟩ = (optOut o, ⟨s', a', d⟩) := by
        rw [Env.nestedInDepth_eq (U.keeps_parse n).2.1]
        show (((U.parseNested n) ⟨s2, a, d + 1⟩).1, _) = _
        rw [h2]
      obtain ⟨p', hs', hc', hp'⟩ := hends
      rcases o with e | l
      · refine ⟨.error e, s', r', a', ?_, ⟨p', hs', hc', fun _ l hl => by cases hl⟩,
          Eval.next_nest hl hst he (by simp)⟩
        rw [Act.bind_err hnd]; rfl
      · rw [Act.bind_ok hnd]
        rcases l with _ | ⟨x, l⟩
        · cases hp' rfl _ rfl
          obtain ⟨o, s3, r2, a2, h3, ⟨p3, hs3, hc3, hp3⟩, he3⟩ := ihn m [] r' s' a' d hm hs' hc' (by omega)
          exact ⟨o, s3, r2, a2, h3, ⟨p3, hs3, hc3, fun _ => hp3 rfl⟩, Eval.next_removed hl hst he he3⟩
        · exact ⟨.ok (x :: l), s', r', a', rfl, ⟨p', hs', hc', fun _ => hp' rfl⟩,
            Eval.next_nest hl hst he (by simp)⟩
    · rw [if_neg hst]
      have hst' : U.env.cc.isNestStart it.ch = false := by simpa using hst
      by_cases hen : U.env.cc.isNestEnd it.ch = true
      · rw [if_pos hen]
        have hce := C.c_checkEndChar it hs2 a d hen
        by_cases hd : d = 0
        · obtain ⟨s3, h3, hs3⟩ := hce.2 hd
          refine ⟨.error (.unbalancedEndChar it.pos), s3, r1, a, ?_,
            ⟨[], hs3, Or.inl rfl, fun _ _ _ => rfl⟩, Eval.next_end hl hst' hen (by simp [endForm, hd])⟩
          rw [Act.bind_err h3]; rfl
        · obtain ⟨s3, h3, hs3⟩ := hce.1 (by omega)
          refine ⟨.ok [], s3, it :: r1, a, ?_,
            ⟨[], hs3, Or.inl rfl, fun _ _ _ => rfl⟩, Eval.next_end hl hst' hen (by simp [endForm, hd])⟩
          rw [Act.bind_ok h3]; rfl
      · rw [if_neg hen]
        have hen' : U.env.cc.isNestEnd it.ch = false := by simpa using hen
        obtain ⟨o, s3, a3, r3, p3, h3, hs3, hc3, hp3, hev⟩ := C.c_parseText m n hs2 a d (by omega)
        rcases o with e | t
        · refine ⟨.error e, s3, r3, a3, ?_, ⟨p3, hs3, hc3, fun _ l hl => by cases hl⟩,
            Eval.next_text hl hst' hen' (Or.inr ⟨e, hev, rfl⟩)⟩
          rw [Act.bind_err h3]; rfl
        · refine ⟨.ok [.text t], s3, r3, a3, ?_, ⟨p3, hs3, hc3, fun _ _ _ => hp3 t rfl⟩,
            Eval.next_text hl hst' hen' (Or.inl ⟨t, hev, rfl⟩)⟩
          rw [Act.bind_ok h3]; rfl

theorem run_args (n : Nat) (iha : RunAll U RS X n)
    (r : List (Item P)) (s : σ) (a : α) (d : Nat) (hd : d ≠ 0) (hs : RS s ⟨[], r⟩)
    (hn : 3 * r.length + 3 ≤ n) :
    (∃ e s' r' a', ((U.parseAll n .base [] >>= fun l =>
        U.env.nestEnd >>= fun _ => pure l) : Act _ _ (Datum τ ε)) ⟨s, a, d⟩ =
        (.err e, ⟨s', a', d⟩) ∧ Ends (τ := τ) (ε := ε) RS [] (.error e) s' r' ∧
        Eval U.env.cc X U.env.alloc U.lookup (.all d) r a (.error e) r' a') ∨
    (∃ ds e s' r' a', ((U.parseAll n .base [] >>= fun l =>
        U.env.nestEnd >>= fun _ => pure l) : Act _ _ (Datum τ ε)) ⟨s, a, d⟩ =
        (.ok (mkList ds), ⟨s', a', d⟩) ∧ RS s' ⟨[], r'⟩ ∧
        Eval U.env.cc X U.env.alloc U.lookup (.all d) r a (.ok ds) (e :: r') a') := by
  obtain ⟨o, s', r', a', h1, hends, he⟩ := iha r s a d [] hd hs hn
  rcases o with e | ds
  · exact Or.inl ⟨e, s', r', a', Act.bind_err h1, hends, he⟩
  · rcases he.at_end ds rfl with ⟨h, _⟩ | ⟨_, e, r1, rfl, h2, h3⟩
    · exact absurd h hd
    · obtain ⟨p', hs', _, _⟩ := hends
      obtain ⟨s2, h4, hs2⟩ := C.c_nestEnd_cons e hs' a' d h2
      refine Or.inr ⟨ds, e, s2, r1, a', ?_, hs2, he⟩
      rw [Act.bind_ok h1, Act.bind_ok h4]
      rfl

theorem run_nested (n : Nat) (ihn : RunNext U RS X n) (iha : RunAll U RS X n) :
    RunNested U RS X (n + 1) := by
  intro p it r s a d hd hs hst hn
  simp only [List.length_cons] at hn
  unfold DynEnv.parseNested
  obtain ⟨s1, h1, hs1⟩ := C.c_next hs a d
  rw [Act.bind_ok h1]
  simp only [List.tail_cons] at hs1
  have h2 : (((it :: r).head?).map (fun it => U.env.cc.isNestStart it.ch) == some true) = true := by
    simp [hst]
  rw [h2, Act.bind_ok (debugAssert_true _)]
  obtain ⟨o, s2, r1, a1, h3, ⟨p2, hs2, hc2, hp2⟩, he⟩ :=
    ihn .operator [] r s1 a d (by simp) hs1 (Or.inl rfl) (by omega)
  rcases o with e | l
  · exact ⟨.error e, s2, r1, a1, Act.bind_err h3, ends_error ⟨p2, hs2, hc2⟩, Eval.nested_head_err he⟩
  rw [Act.bind_ok h3]
  cases hp2 rfl _ rfl
  obtain ⟨s3, h4, hs3⟩ := C.c_skipSeparator hs2 a1 d
  rw [Act.bind_ok h4]
  have hl := he.le_one l rfl
  rcases l with _ | ⟨h, l⟩
  · rcases he.at_end rfl with ⟨h, _⟩ | ⟨_, e, r2, rfl, h5, h6, h7⟩
    · exact absurd h hd
    have hds : dropSep U.env.cc (e :: r2) = e :: r2 := by simp [dropSep, h7 rfl]
    rw [hds] at hs3
    obtain ⟨s4, h8, hs4⟩ := C.c_nestEnd_cons e hs3 a1 d h5
    refine ⟨.ok [.emptyNest], s4, r2, a1, ?_, ends_nil hs4, Eval.nested_empty he (by rw [hds]; rfl)⟩
    simp only [List.head?_nil]
    rw [Act.bind_ok h8]
    rfl
  · have hl0 : l = [] := by cases l with
      | nil => rfl
      | cons _ _ => simp at hl
    subst hl0
    have hlen := (he.length (by simp)).2 h rfl
    have hlen2 := dropSep_length U.env.cc r1
    simp only [List.head?_cons]
    have hfd : U.find h ⟨s3, a1, d⟩ = (.ok (U.lookup h a1).1, ⟨s3, (U.lookup h a1).2, d⟩) := rfl
    rw [Act.bind_ok hfd]
    rcases hlk : U.lookup h a1 with ⟨_ | (f | f), b1⟩
    · have hre : (Bind.bind (U.parseAll n .base []) fun operands =>
        (Bind.bind U.env.nestEnd fun _ =>
          Bind.bind (U.env.newDatum h) fun _ =>
          Bind.bind (U.env.newDatum operands) fun _ =>
            pure (some (Datum.combination h operands))) : Act _ _ (Option (Datum τ ε))) =
        ((U.parseAll n .base [] >>= fun l =>
          U.env.nestEnd >>= fun _ => pure l) >>= fun operands =>
          Bind.bind (U.env.newDatum h) fun _ =>
          Bind.bind (U.env.newDatum operands) fun _ =>
            pure (some (Datum.combination h operands))) := by
        rw [Act.bind_assoc]
        congr 1; funext l
        rw [Act.bind_assoc]
        rfl
      simp only [hre]
      rcases run_args C n iha (dropSep U.env.cc r1) s3 b1 d hd hs3 (by omega) with
        ⟨e, s', r', a', h8, hc8, he8⟩ | ⟨ds, e, s', r', a', h8, hs8, he8⟩
      · exact ⟨.error e, s', r', a', Act.bind_err h8, hc8,
          Eval.nested_args_err he (ArgComb.unbound hlk) he8⟩
      · rw [Act.bind_ok h8]
        refine ⟨(finishNest U.env.alloc none h ds (e :: r') a').1, s', r',
          (finishNest (CE := CE) U.env.alloc none h ds (e :: r') a').2.2, ?_, ends_nil hs8,
          Eval.nested_args he (ArgComb.unbound hlk) he8 rfl⟩
        unfold finishNest allocComb
        have e1 := c_newDatum (E := U.env) h s' a' d
        rcases hq : U.env.alloc.newDatum h a' with ⟨_ | _, a2⟩
        · rw [Act.bind_err (e1.2 _ _ hq)]; rfl
        · rw [Act.bind_ok (e1.1 _ _ hq)]
          have e2 := c_newDatum (E := U.env) (mkList ds) s' a2 d
          rcases hq2 : U.env.alloc.newDatum (mkList ds) a2 with ⟨_ | _, a3⟩
          · rw [Act.bind_err (e2.2 _ _ hq2)]; simp only [hq2]; rfl
          · rw [Act.bind_ok (e2.1 _ _ hq2)]; simp only [hq2]; rfl
    · simp only
      obtain ⟨o, s4, a4, r4, p4, h5, hs4, hc4, hp4, hev⟩ :=
        C.c_parseText .operands n hs3 b1 d (by omega)
      have htop : (d == 0) = false := by simp [hd]
      rw [htop] at hev
      rcases o with e | t
      · refine ⟨.error e, s4, r4, a4, ?_, ends_error ⟨p4, hs4, hc4⟩,
          Eval.nested_operative he hlk (Or.inr (Or.inr ⟨e, hev, rfl⟩))⟩
        rw [Act.bind_err h5]; rfl
      · rw [Act.bind_ok h5]
        rcases hev.2 with ⟨t', c, h6, h7, h8⟩ | ⟨h6, _⟩ | ⟨_, h6, _⟩ | ⟨_, ⟨_, h6⟩, _⟩
        · cases h6
          rcases scanText_operands U.env.cc false (dropSep U.env.cc r1) 0 with ⟨c', e, r', hsc, hend⟩ |
            ⟨c', hsc⟩ | hsc
          · rw [hsc] at h7; cases h7
            obtain ⟨s5, h9, hs5⟩ := C.c_nestEnd_cons e hs4 a4 d hend
            refine ⟨optRes (f h t a4).1, s5, r', (f h t a4).2, ?_, ends_nil hs5,
              Eval.nested_operative he hlk (Or.inl ⟨t, e, a4, hev, rfl, rfl⟩)⟩
            rw [Act.bind_ok h9]
            exact c_liftCombiner s5 a4 d
          · rw [hsc] at h7; cases h7
            obtain ⟨s5, h9, hs5⟩ := C.c_nestEnd_nil hs4 a4 d
            refine ⟨.error .missingEndChar, s5, [], a4, ?_, ends_nil hs5,
              Eval.nested_operative he hlk (Or.inr (Or.inl ⟨t, hev, rfl, rfl⟩))⟩
            rw [Act.bind_err h9]; rfl
          · rw [hsc] at h7; cases h7
        all_goals cases h6
    · have hre : (Bind.bind (U.parseAll n .base []) fun operands =>
        (Bind.bind U.env.nestEnd fun _ => liftCombiner (f h operands))
          : Act _ _ (Option (Datum τ ε))) =
        ((U.parseAll n .base [] >>= fun l =>
          U.env.nestEnd >>= fun _ => pure l) >>= fun operands =>
          liftCombiner (f h operands)) := by
        rw [Act.bind_assoc]
        congr 1; funext l
        rw [Act.bind_assoc]
        rfl
      simp only [hre]
      rcases run_args C n iha (dropSep U.env.cc r1) s3 b1 d hd hs3 (by omega) with
        ⟨e, s', r', a', h8, hc8, he8⟩ | ⟨ds, e, s', r', a', h8, hs8, he8⟩
      · exact ⟨.error e, s', r', a', Act.bind_err h8, hc8,
          Eval.nested_args_err he (ArgComb.applicative hlk) he8⟩
      · rw [Act.bind_ok h8]
        exact ⟨(finishNest U.env.alloc (some f) h ds (e :: r') a').1, s', r',
          (finishNest (CE := CE) U.env.alloc (some f) h ds (e :: r') a').2.2,
          c_liftCombiner s' a' d, ends_nil hs8,
          Eval.nested_args he (ArgComb.applicative hlk) he8 rfl⟩

omit C in
theorem run_all (n : Nat) (ihn : RunNext U RS X n) (iha : RunAll U RS X n) :
    RunAll U RS X (n + 1) := by
  intro r s a d acc hd hs hn
  unfold DynEnv.parseAll
  obtain ⟨o, s1, r1, a1, h2, ⟨p1, hs1, hc1, hp1⟩, he⟩ :=
    ihn .base [] r s a d (by simp) hs (Or.inl rfl) (by omega)
  rcases o with e | l
  · exact ⟨.error e, s1, r1, a1, Act.bind_err h2, ends_error ⟨p1, hs1, hc1⟩, Eval.all_err he⟩
  rw [Act.bind_ok h2]
  cases hp1 rfl _ rfl
  have hl := he.le_one l rfl
  rcases l with _ | ⟨x, l⟩
  · exact ⟨.ok [], s1, r1, a1, by simp [allOut]; rfl, ends_nil hs1, Eval.all_nil he⟩
  · have hl0 : l = [] := by cases l with
      | nil => rfl
      | cons _ _ => simp at hl
    subst hl0
    have hlen := (he.length (by simp)).2 x rfl
    simp only [List.head?_cons]
    have e1 := c_newDatum (E := U.env) x s1 a1 d
    rcases hq : U.env.alloc.newDatum x a1 with ⟨er | _, a2⟩
    · refine ⟨.error (.failedAlloc er), s1, r1, a2, ?_, ends_nil hs1,
        Eval.all_alloc_err he (by simp [allocCell, hq])⟩
      rw [Act.bind_err (e1.2 _ _ hq)]; rfl
    rw [Act.bind_ok (e1.1 _ _ hq)]
    have e2 := c_newDatum (E := U.env) .emptyList s1 a2 d
    rcases hq2 : U.env.alloc.newDatum .emptyList a2 with ⟨er | _, a3⟩
    · refine ⟨.error (.failedAlloc er), s1, r1, a3, ?_, ends_nil hs1,
        Eval.all_alloc_err he (by simp [allocCell, hq, hq2])⟩
      rw [Act.bind_err (e2.2 _ _ hq2)]; rfl
    have e3 : U.env.getMutFresh ⟨s1, a3, d⟩ = (.ok (U.env.alloc.getMutFresh a3), ⟨s1, a3, d⟩) := rfl
    rw [Act.bind_ok (e2.1 _ _ hq2), Act.bind_ok e3]
    by_cases hg : U.env.alloc.getMutFresh a3 = true
    · rw [if_pos hg]
      obtain ⟨o, s', r', a', h5, hc5, he5⟩ := iha r1 s1 a3 d (acc ++ [x]) hd hs1 (by omega)
      have hcell : allocCell (P := P) (CE := CE) U.env.alloc x a1 = (.ok (), a3) := by
        simp [allocCell, hq, hq2, hg]
      rcases o with e | ds
      · exact ⟨.error e, s', r', a', h5, hc5, Eval.all_cons_err he hcell he5⟩
      · refine ⟨.ok (x :: ds), s', r', a', ?_, ?_, Eval.all_cons he hcell he5⟩
        · rw [h5]; simp [allOut]
        · obtain ⟨p', q1, q2, q3⟩ := hc5
          exact ⟨p', q1, q2, fun hp l hl => q3 hp _ rfl⟩
    · rw [if_neg hg]
      refine ⟨.error .failedDerefTryMut, s1, r1, a3, rfl, ends_nil hs1,
        Eval.all_alloc_err he (by simp [allocCell, hq, hq2, hg])⟩

/-- **Adequacy**: with enough steps the parser gives a result allowed by the rules,
and does not panic. -/
theorem run (n : Nat) : RunNext U RS X n ∧ RunNested U RS X n ∧ RunAll U RS X n := by
  induction n with
  | zero =>
    refine ⟨fun m p r s a d _ _ _ hn => by omega, fun p it r s a d _ _ _ hn => by omega,
      fun r s a d acc _ _ hn => by omega⟩
  | succ n ih => exact ⟨run_next C n ih.1 ih.2.1, run_nested C n ih.1 ih.2.2, run_all n ih.1 ih.2.2⟩

end

/-- A call of `next` on a conforming source follows the rules. -/
theorem call (C : ConfJ U.env RS X J) {s : σ} {r : List (Item P)} (h : AtItems RS s r) (a : α) :
    ∃ o s' r' a', U.Call ⟨s, a, 0⟩ (optOut o) ⟨s', a', 0⟩ ∧ AtItems RS s' r' ∧
      Eval U.env.cc X U.env.alloc U.lookup (.next .base 0) r a o r' a' := by
  obtain ⟨p, hs, hc⟩ := h
  obtain ⟨o, s', r', a', h1, ⟨p', h2, h3, _⟩, h4⟩ :=
    (run C (3 * r.length + 2)).1 .base p r s a 0 (by simp) hs hc (Nat.le_refl _)
  exact ⟨o, s', r', a', ⟨_, h1, optOut_ne_fuel o⟩, ⟨p', h2, h3⟩, h4⟩

/-- Every call of `next` on a conforming source follows the rules. -/
theorem call_inv (C : ConfJ U.env RS X J) {s : σ} {r : List (Item P)} (h : AtItems RS s r) {a : α} {x t}
    (hx : U.Call ⟨s, a, 0⟩ x t) :
    ∃ o s' r' a', x = optOut o ∧ t = ⟨s', a', 0⟩ ∧ AtItems RS s' r' ∧
      Eval U.env.cc X U.env.alloc U.lookup (.next .base 0) r a o r' a' := by
  obtain ⟨o, s', r', a', h1, h2, h3⟩ := call C h a
  obtain ⟨rfl, rfl⟩ := hx.unique h1
  exact ⟨o, s', r', a', rfl, rfl, h2, h3⟩

end Kul.Dyn
