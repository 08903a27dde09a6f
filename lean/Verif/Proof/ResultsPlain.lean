import Verif.Proof.FailComplete
import Verif.Proof.GramPlain
import Verif.Proof.Balance
import Verif.Props.Bound

/-! # What a source without bindings yields, errors included -/

namespace Kul

variable {P τ ε α CE : Type} {cc : Classifier} {lookup : Datum τ ε → Option (Combiner τ ε α P CE)}

/-! ## Balance of what is written in the grammar -/

theorem TextOf.balance {stop : Char → Bool} (_ : cc.Disjoint)
    (hs : ∀ c, stop c = false → cc.delim c = false) {s c : List (Item P)} (h : TextOf cc stop s c) (d : Nat)
    (r : List (Item P)) : balance cc d (s ++ r) = balance cc d r := by
  induction h with
  | nil => rfl
  | plain h1 h2 _ ih =>
    obtain ⟨h3, h4⟩ := delim_false (hs _ h1)
    rw [List.cons_append, balance_cons, h2, h3, h4]
    simpa using ih
  | escaped h1 _ ih =>
    rw [List.cons_append, List.cons_append, balance_cons, h1]
    simpa using ih

theorem AllWs.balance (D : cc.Disjoint) {ws : List (Item P)} (h : AllWs cc ws) (d : Nat) (r : List (Item P)) :
    balance cc d (ws ++ r) = balance cc d r := by
  induction ws with
  | nil => rfl
  | cons w ws ih =>
    rw [List.cons_append, balance_ws D (h w (by simp))]
    exact ih fun it hit => h it (by simp [hit])

theorem Sep.balance (D : cc.Disjoint) {k : Bool} {sep r : List (Item P)} (h : Sep cc k sep r) (d : Nat)
    (r' : List (Item P)) : balance cc d (sep ++ r') = balance cc d r' := by
  cases h with
  | one h => exact balance_ws D h
  | empty => rfl
  | none => rfl

theorem headDelim_delim (c : Char) (h : cc.headDelim c = false) : cc.delim c = false := by
  simp only [Classifier.headDelim, Bool.or_eq_false_iff] at h
  exact h.2

theorem Gram.balance (D : cc.Disjoint) {c : Cat} {s : List (Item P)} {ds : List (Datum (List (Item P)) ε)}
    (h : Gram cc c s ds) : (∀ b, c ≠ .forms true b) → ∀ d (r : List (Item P)),
      Kul.balance cc d (s ++ r) = Kul.balance cc d r := by
  induction h with
  | nil => intro _ d r; rfl
  | @text top s c r ds h1 h2 _ ih =>
    intro hc d r'
    cases top with
    | true => exact absurd rfl (hc _)
    | false =>
      rw [List.append_assoc, h2.balance D (fun _ h => h)]
      exact ih (fun b hb => by cases hb) d r'
  | @form top b s d r ds _ _ ih1 ih2 =>
    intro hc d r'
    cases top with
    | true => exact absurd rfl (hc _)
    | false =>
      rw [List.append_assoc, ih1 (fun b hb => by cases hb)]
      exact ih2 (fun b hb => by cases hb) d r'
  | dangling => intro hc; exact absurd rfl (hc _)
  | noHead h => intro _ d r; exact h.balance D d r
  | textHead h1 _ h2 =>
    intro _ d r
    rw [List.append_assoc, h1.balance D, h2.balance D headDelim_delim]
  | nestHead h1 _ ih =>
    intro _ d r
    rw [List.append_assoc, h1.balance D, ih (fun b hb => by cases hb)]
  | @emptyNest b e h h1 h2 _ ih =>
    intro _ d r
    rw [List.cons_append, List.append_assoc, balance_start D h1, ih (fun b hb => by cases hb), List.cons_append,
      List.nil_append, balance_end D h2]
  | @combination b e h k x sep s ds h1 h2 _ h3 _ ih1 ih2 =>
    intro _ d r
    rw [show b :: (h ++ sep ++ s ++ [e]) ++ r = b :: (h ++ (sep ++ (s ++ e :: r))) by simp, balance_start D h1,
      ih1 (fun b hb => by cases hb), h3.balance D, ih2 (fun b hb => by cases hb), balance_end D h2]

/-- What follows the start delimiter of a nest has an end delimiter matching it. -/
theorem Gram.nest_closes (D : cc.Disjoint) {c : Cat} {s : List (Item P)} {ds : List (Datum (List (Item P)) ε)}
    (h : Gram cc c s ds) (hc : c = .nest) {x q} (hs : s = x :: q) (r : List (Item P)) :
    ∃ it r', Kul.balance cc 0 (q ++ r) = .unmatched it r' := by
  cases h with
  | @emptyNest b e h h1 h2 h3 =>
    cases hs
    refine ⟨e, r, ?_⟩
    rw [List.append_assoc, h3.balance D (fun b hb => by cases hb)]
    exact balance_end_zero D h2
  | @combination b e h k x sep s ds h1 h2 h3 h4 h5 =>
    cases hs
    refine ⟨e, r, ?_⟩
    rw [show h ++ sep ++ s ++ [e] ++ r = h ++ (sep ++ (s ++ e :: r)) by simp,
      h3.balance D (fun b hb => by cases hb), h4.balance D, h5.balance D (fun b hb => by cases hb)]
    exact balance_end_zero D h2
  | _ => cases hc

theorem balance_opened_succ {d k : Nat} {r : List (Item P)} (h : balance cc d r = .opened k) :
    balance cc (d + 1) r = .opened (k + 1) := by
  fun_induction balance cc d r with
  | case1 d => cases h; rfl
  | case2 d it h1 => cases h; rw [balance_cons, h1]; rfl
  | case3 d it h1 x r ih => rw [balance_cons, h1]; simpa using ih h
  | case4 d it r h1 h2 ih =>
    rw [balance_cons, if_neg h1, if_pos h2]; exact ih h
  | case5 it r h1 h2 h3 => cases h
  | case6 it r h1 h2 h3 d ih =>
    rw [balance_cons, if_neg h1, if_neg h2, if_pos h3]; exact ih h
  | case7 d it r h1 h2 h3 ih =>
    rw [balance_cons, if_neg h1, if_neg h2, if_neg h3]; exact ih h

/-! ## Failures without bindings -/

/-- Whether a sequence of datums ends in a text; `b` if there are none. -/
def endsText : Bool → List (Datum τ ε) → Bool
  | b, [] => b
  | _, .text _ :: ds => endsText true ds
  | _, _ :: ds => endsText false ds

theorem endsText_eq (b : Bool) (ds : List (Datum τ ε)) :
    endsText b ds = match ds.getLast? with
      | none => b
      | some (.text _) => true
      | some _ => false := by
  induction ds generalizing b with
  | nil => rfl
  | cons d ds ih =>
    cases ds with
    | nil => cases d <;> rfl
    | cons e ds =>
      obtain ⟨z, hz⟩ : ∃ z, (e :: ds).getLast? = some z := by
        cases h : (e :: ds).getLast? with
        | none => rw [List.getLast?_eq_none_iff] at h; cases h
        | some z => exact ⟨z, rfl⟩
      cases d <;> rw [List.getLast?_cons_cons, endsText, ih, hz] <;> first | (cases z <;> rfl) | (intro t ht; cases ht)

theorem endsText_false {ds : List (Datum τ ε)} :
    endsText false ds = false ↔ ∀ u, ds.getLast? ≠ some (.text u) := by
  rw [endsText_eq]
  cases h : ds.getLast? with
  | none => simp
  | some d => cases d <;> simp

/-- `c` fails at the end of the source, inside `k` nests. -/
def OpenFail (cc : Classifier) (c : Cat) (s rest : List (Item P)) (e : Err P CE) : Prop :=
  match c with
  | .nest => e = .missingEndChar ∧ rest = [] ∧ ∃ x q k, s = x :: q ∧ cc.isNestStart x.ch = true ∧
      balance cc 0 q = .opened k
  | .forms true _ => True
  | _ => e = .missingEndChar ∧ rest = [] ∧ ∃ k, balance cc 0 s = .opened k

theorem Fails.plain_open {lookup : Datum (List (Item P)) ε → Option (Combiner (List (Item P)) ε α P CE)}
    (D : cc.Disjoint) (hb : ∀ d, lookup d = none) {c s rest a ds e a'}
    (h : Fails cc (fun t c => t = c) Eq (fun _ => False) lookup c s rest a ds e a') :
    OpenFail cc c s rest e := by
  have nest_bal : ∀ {s : List (Item P)} {a ds a'} {c : Cat}, Reads cc (fun t c => t = c) Eq lookup c s a ds a' →
      (∀ b, c ≠ .forms true b) → ∀ d r, balance cc d (s ++ r) = balance cc d r := by
    intro s a ds a' c h hc d r
    obtain ⟨ds', _, h2⟩ := h.gram hb
    exact h2.balance D hc d r
  induction h with
  | @afterText top s c t r rest a a₁ ds e a' h1 h2 h3 h4 h5 ih =>
    cases top with
    | true => trivial
    | false =>
      obtain ⟨h6, h7, k, h8⟩ := ih
      exact ⟨h6, h7, k, by rw [h2.balance D (fun _ h => h)]; exact h8⟩
  | @afterForm top b s x r rest a a₁ a₂ ds e a' h1 h2 h3 ih =>
    cases top with
    | true => trivial
    | false =>
      obtain ⟨h6, h7, k, h8⟩ := ih
      exact ⟨h6, h7, k, by rw [nest_bal h1 (fun b hb => by cases hb)]; exact h8⟩
  | @afterRemoved top b s r rest a a₁ ds e a' h1 h2 ih =>
    cases top with
    | true => trivial
    | false =>
      obtain ⟨h6, h7, k, h8⟩ := ih
      exact ⟨h6, h7, k, by rw [nest_bal h1 (fun b hb => by cases hb)]; exact h8⟩
  | @inNest top b s rest a e a' h1 ih =>
    cases top with
    | true => trivial
    | false =>
      obtain ⟨h6, h7, x, q, k, rfl, h8, h9⟩ := ih
      exact ⟨h6, h7, k + 1, by rw [balance_start D h8]; exact balance_opened_succ h9⟩
  | unbalanced => trivial
  | textUnbalanced => trivial
  | formsOpen => exact ⟨rfl, rfl, 0, rfl⟩
  | formsOpenEscape h1 h2 =>
    exact ⟨rfl, rfl, 0, by rw [h1.balance D (fun _ h => h), balance_cons, h2]; rfl⟩
  | textMemory _ _ h => exact h.elim
  | formMemory _ _ h => exact h.elim
  | @headOpen ws a h1 =>
    exact ⟨rfl, rfl, 0, by rw [← List.append_nil ws, h1.balance D]; rfl⟩
  | headOpenEscape h1 h2 h3 =>
    exact ⟨rfl, rfl, 0, by
      rw [List.append_assoc, h1.balance D, h2.balance D headDelim_delim, balance_cons, h3]; rfl⟩
  | headNest h1 _ ih =>
    obtain ⟨h6, h7, x, q, k, rfl, h8, h9⟩ := ih
    exact ⟨h6, h7, k + 1, by rw [h1.balance D, balance_start D h8]; exact balance_opened_succ h9⟩
  | headRemoved h1 h2 _ ih =>
    obtain ⟨h6, h7, k, h8⟩ := ih
    exact ⟨h6, h7, k, by rw [List.append_assoc, h1.balance D, nest_bal h2 (fun b hb => by cases hb)]; exact h8⟩
  | headMemory _ _ _ h => exact h.elim
  | inHead h1 _ ih =>
    obtain ⟨h6, h7, k, h8⟩ := ih
    exact ⟨h6, h7, _, _, k, rfl, h1, h8⟩
  | inOperands h1 h2 h3 _ _ ih =>
    obtain ⟨h6, h7, k, h8⟩ := ih
    exact ⟨h6, h7, _, _, k, rfl, h1, by
      rw [List.append_assoc, nest_bal h2 (fun b hb => by cases hb), h3.balance D]; exact h8⟩
  | rawOpen _ _ _ h => rw [hb] at h; cases h
  | rawMemory _ _ h => rw [hb] at h; cases h
  | operative _ _ _ _ h => rw [hb] at h; cases h
  | applicative _ _ _ _ h => rw [hb] at h; cases h
  | combinationMemory _ _ _ _ _ _ _ h => exact h.elim

theorem nest_not_text {c : Cat} {s : List (Item P)} {ds : List (Datum (List (Item P)) ε)}
    (h : Gram cc c s ds) (hc : c = .nest) {d} (hd : ds = [d]) (b : Bool) (ds' : List (Datum (List (Item P)) ε)) :
    endsText b (d :: ds') = endsText false ds' := by
  cases h with
  | emptyNest => cases hd; rfl
  | combination => cases hd; rfl
  | _ => cases hc

/-- Failures at top level without bindings. -/
theorem Fails.plain_top {lookup : Datum (List (Item P)) ε → Option (Combiner (List (Item P)) ε α P CE)}
    (hb : ∀ d, lookup d = none) {c s rest a ds e a'}
    (h : Fails cc (fun t c => t = c) Eq (fun _ => False) lookup c s rest a ds e a') :
    ∀ {b}, c = .forms true b →
    (∃ p t c x, s = p ++ t ++ [x] ∧ Gram cc (.forms false b) p ds ∧ endsText b ds = false ∧
      TextOf cc cc.delim t c ∧ cc.isNestEnd x.ch = true ∧ e = .unbalancedEndChar x.pos) ∨
    (∃ p q a₁, s = p ++ q ∧ Gram cc (.forms false b) p ds ∧
      Fails cc (fun t c => t = c) Eq (fun _ => False) lookup .nest q rest a₁ [] e a') := by
  induction h with
  | @afterText top s c t r rest a a₁ ds e a' h1 h2 h3 h4 h5 ih =>
    intro b hc
    cases hc
    subst h3
    rcases ih rfl with ⟨p, u, c', x, rfl, h6, h7, h8, h9, h10⟩ | ⟨p, q, a₂, rfl, h6, h7⟩
    · exact Or.inl ⟨s ++ p, u, c', x, by simp, .text h1 h2 h6, h7, h8, h9, h10⟩
    · exact Or.inr ⟨s ++ p, q, a₂, by simp, .text h1 h2 h6, h7⟩
  | @afterForm top b s x r rest a a₁ a₂ ds e a' h1 h2 h3 ih =>
    intro b' hc
    cases hc
    obtain ⟨l, h4, h5⟩ := h1.gram hb
    have hl := forall₂_datumRel_eq.mp h4
    subst hl
    rcases ih rfl with ⟨p, u, c', y, rfl, h6, h7, h8, h9, h10⟩ | ⟨p, q, a₂, rfl, h6, h7⟩
    · exact Or.inl ⟨s ++ p, u, c', y, by simp, .form h5 h6, by rw [nest_not_text h5 rfl rfl]; exact h7, h8, h9, h10⟩
    · exact Or.inr ⟨s ++ p, q, a₂, by simp, .form h5 h6, h7⟩
  | afterRemoved h1 =>
    obtain ⟨l, h4, h5⟩ := h1.gram hb
    cases h4
    obtain ⟨d, h⟩ := h5.nest_one rfl
    cases h
  | @inNest top b s rest a e a' h1 ih =>
    intro b' hc
    cases hc
    exact Or.inr ⟨[], s, a, rfl, .nil, h1⟩
  | @unbalanced x rest a h1 =>
    intro b hc
    cases hc
    exact Or.inl ⟨[], [], [], x, rfl, .nil, rfl, .nil, h1, rfl⟩
  | @textUnbalanced s c x rest a a' h1 h2 h3 h4 =>
    intro b hc
    cases hc
    exact Or.inl ⟨[], s, c, x, rfl, .nil, rfl, h2, h3, rfl⟩
  | textMemory _ _ h => exact h.elim
  | _ => intro b hc; cases hc

/-- A failure after well-formed forms. -/
theorem Gram.then_fails {lookup : Datum (List (Item P)) ε → Option (Combiner (List (Item P)) ε α P CE)}
    (hb : ∀ d, lookup d = none) {c} {s : List (Item P)} {ds : List (Datum (List (Item P)) ε)}
    (h : Gram cc c s ds) : ∀ {b q rest a e a'}, c = .forms false b →
    Fails cc (fun t c => t = c) Eq (fun _ => False) lookup (.forms true (endsText b ds)) q rest a [] e a' →
    Fails cc (fun t c => t = c) Eq (fun _ => False) lookup (.forms true b) (s ++ q) rest a ds e a' := by
  induction h with
  | nil => intro b q rest a e a' hc h; cases hc; exact h
  | text h1 h2 _ ih =>
    intro b q rest a e a' hc h
    cases hc
    rw [List.append_assoc]
    exact .afterText h1 h2 rfl rfl (ih rfl h)
  | form h1 _ _ ih =>
    intro b q rest a e a' hc h
    cases hc
    rw [nest_not_text h1 rfl rfl] at h
    rw [List.append_assoc]
    exact .afterForm (h1.reads hb a) rfl (ih rfl h)
  | _ => intro b q rest a e a' hc; cases hc

end Kul
