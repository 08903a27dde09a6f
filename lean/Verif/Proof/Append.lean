import Verif.Spec.Append
import Verif.Spec.Results
import Verif.Props.Results

/-! # One source after another -/

namespace Kul

variable {P τ ε α CE : Type} {cc : Classifier}

/-- What precedes does not matter for what ends a source. -/
def Neutral (cc : Classifier) (s : List (Item P)) : Prop :=
  ∀ r, danglingEscape cc (s ++ r) = danglingEscape cc r ∧ (r ≠ [] → endsWithNest cc (s ++ r) = endsWithNest cc r)

theorem Neutral.nil : Neutral cc ([] : List (Item P)) := fun _ => ⟨rfl, fun _ => rfl⟩

theorem Neutral.append {s t : List (Item P)} (hs : Neutral cc s) (ht : Neutral cc t) : Neutral cc (s ++ t) := by
  intro r
  rw [List.append_assoc]
  refine ⟨((hs _).1).trans (ht r).1, fun hr => ((hs _).2 (by simp [hr])).trans ((ht r).2 hr)⟩

theorem Neutral.one {x : Item P} (h : cc.isNestEscape x.ch = false) : Neutral cc [x] := by
  intro r
  cases r with
  | nil => exact ⟨by simp [danglingEscape, h], fun h => absurd rfl h⟩
  | cons y r => exact ⟨by simp [danglingEscape, h], fun _ => by simp [endsWithNest, h]⟩

theorem Neutral.cons {x : Item P} {s : List (Item P)} (h : cc.isNestEscape x.ch = false) (hs : Neutral cc s) :
    Neutral cc (x :: s) := (Neutral.one h).append hs

theorem Neutral.escaped {e x : Item P} {s : List (Item P)} (h : cc.isNestEscape e.ch = true) (hs : Neutral cc s) :
    Neutral cc (e :: x :: s) := by
  intro r
  simp only [List.cons_append, danglingEscape, endsWithNest, h, if_true]
  exact hs r

theorem TextOf.neutral {stop : Char → Bool} {s c : List (Item P)} (h : TextOf cc stop s c) : Neutral cc s := by
  induction h with
  | nil => exact .nil
  | plain _ h _ ih => exact .cons h ih
  | escaped h _ ih => exact .escaped h ih

theorem TextOf.not_endsWithNest {s c : List (Item P)} (h : TextOf cc cc.delim s c) :
    endsWithNest cc s = false := by
  induction h with
  | nil => rfl
  | @plain it s c h1 h2 h3 ih =>
    cases s with
    | nil =>
      simp only [Classifier.delim, Bool.or_eq_false_iff] at h1
      exact h1.2
    | cons y s => simpa [endsWithNest, h2] using ih
  | escaped h _ ih => simpa [endsWithNest, h] using ih

theorem RawOf.neutral (D : cc.Disjoint) {s c : List (Item P)} (h : RawOf cc s c) : Neutral cc s := by
  induction h with
  | nil => exact .nil
  | plain _ h _ ih => exact .cons h ih
  | escaped h _ ih => exact .escaped h ih
  | nest h1 h2 _ _ ih1 ih2 => exact .cons (D.start_esc _ h1) (ih1.append (.cons (D.end_esc _ h2) ih2))

theorem AllWs.neutral (D : cc.Disjoint) : ∀ {s : List (Item P)}, AllWs cc s → Neutral cc s
  | [], _ => .nil
  | x :: s, h => by
    refine .cons ?_ (AllWs.neutral D fun y hy => h y (by simp [hy]))
    cases he : cc.isNestEscape x.ch with
    | false => rfl
    | true => exact absurd (h x (by simp)) (by simp [D.esc_ws _ he])

theorem Sep.neutral (D : cc.Disjoint) {k : Bool} {s r : List (Item P)} (h : Sep cc k s r) : Neutral cc s := by
  cases h with
  | one h => exact AllWs.neutral D fun y hy => by simp at hy; rw [hy]; exact h
  | empty => exact .nil
  | none => exact .nil

/-- Not at top level. -/
def Cat.Inner : Cat → Prop
  | .forms top _ => top = false
  | _ => True

section
variable {RT : τ → List (Item P) → Prop} {Mem : α → α → Prop} {MF : Err P CE → Prop}
  {lookup : Datum τ ε → Option (Combiner τ ε α P CE)}

theorem Reads.neutral (D : cc.Disjoint) {cat s a ds a'} (h : Reads cc RT Mem lookup cat s a ds a') :
    cat.Inner → Neutral cc s := by
  induction h with
  | nil => exact fun _ => .nil
  | text _ h _ _ _ ih => exact fun hi => h.neutral.append (ih hi)
  | form _ _ _ ih1 ih2 => exact fun hi => (ih1 trivial).append (ih2 hi)
  | removed _ _ ih1 ih2 => exact fun hi => (ih1 trivial).append (ih2 hi)
  | dangling => exact fun hi => by cases hi
  | noHead h => exact fun _ => h.neutral D
  | textHead h _ h2 => exact fun _ => (h.neutral D).append h2.neutral
  | nestHead h _ ih => exact fun _ => (h.neutral D).append (ih trivial)
  | removedHead h _ _ ih1 ih2 => exact fun _ => ((h.neutral D).append (ih1 trivial)).append (ih2 trivial)
  | emptyNest h1 h2 _ ih =>
    exact fun _ => .cons (D.start_esc _ h1) ((ih trivial).append (.one (D.end_esc _ h2)))
  | combination h1 h2 _ h3 _ _ _ ih1 ih2 =>
    exact fun _ => .cons (D.start_esc _ h1)
      ((((ih1 trivial).append (h3.neutral D)).append (ih2 rfl)).append (.one (D.end_esc _ h2)))
  | applicative h1 h2 _ h3 _ _ _ ih1 ih2 =>
    exact fun _ => .cons (D.start_esc _ h1)
      ((((ih1 trivial).append (h3.neutral D)).append (ih2 rfl)).append (.one (D.end_esc _ h2)))
  | operative h1 h2 _ h3 _ h4 _ _ _ ih1 =>
    exact fun _ => .cons (D.start_esc _ h1)
      ((((ih1 trivial).append (h3.neutral D)).append (h4.neutral D)).append (.one (D.end_esc _ h2)))

theorem Neutral.then_end {u : List (Item P)} {e : Item P} (h : Neutral cc u) (he : cc.isNestEnd e.ch = true) :
    endsWithNest cc (u ++ [e]) = true := ((h [e]).2 (by simp)).trans he

theorem Reads.nest_end (D : cc.Disjoint) {s a ds a'} (h : Reads cc RT Mem lookup .nest s a ds a') :
    s ≠ [] ∧ endsWithNest cc s = true := by
  cases h with
  | emptyNest h1 h2 h3 =>
    exact ⟨by simp, (Neutral.cons (D.start_esc _ h1) (h3.neutral D trivial)).then_end h2⟩
  | combination h1 h2 h3 h4 _ h5 =>
    exact ⟨by simp, (Neutral.cons (D.start_esc _ h1) (((h3.neutral D trivial).append (h4.neutral D)).append
      (h5.neutral D rfl))).then_end h2⟩
  | applicative h1 h2 h3 h4 _ h5 =>
    exact ⟨by simp, (Neutral.cons (D.start_esc _ h1) (((h3.neutral D trivial).append (h4.neutral D)).append
      (h5.neutral D rfl))).then_end h2⟩
  | operative h1 h2 h3 h4 _ h5 =>
    exact ⟨by simp, (Neutral.cons (D.start_esc _ h1) (((h3.neutral D trivial).append (h4.neutral D)).append
      (h5.neutral D))).then_end h2⟩

/-- Does `s`, after which `b` says that it comes directly after a text, end directly after a text? -/
def endsInText (cc : Classifier) (b : Bool) (s : List (Item P)) : Bool :=
  if s = [] then b else !endsWithNest cc s

/-- What can come after complete forms at top level. -/
structure Follows (cc : Classifier) (RT : τ → List (Item P) → Prop) (Mem : α → α → Prop)
    (lookup : Datum τ ε → Option (Combiner τ ε α P CE))
    (G : Bool → List (Item P) → α → List (Datum τ ε) → Prop) : Prop where
  text : ∀ {s c t r a a₁ ds}, s ≠ [] → TextOf cc cc.delim s c → RT t c → Mem a a₁ → G true r a₁ ds →
    G false (s ++ r) a (.text t :: ds)
  form : ∀ {b s d r a a₁ a₂ ds}, Reads cc RT Mem lookup .nest s a [d] a₁ → Mem a₁ a₂ → G false r a₂ ds →
    G b (s ++ r) a (d :: ds)
  removed : ∀ {b s r a a₁ ds}, Reads cc RT Mem lookup .nest s a [] a₁ → G false r a₁ ds → G b (s ++ r) a ds

theorem Reads.append (D : cc.Disjoint) {G} (hG : Follows cc RT Mem lookup G) {cat s a ds a'}
    (h : Reads cc RT Mem lookup cat s a ds a') : ∀ {b t ds'}, cat = .forms true b → danglingEscape cc s = false →
      G (endsInText cc b s) t a' ds' → G b (s ++ t) a (ds ++ ds') := by
  have hn : ∀ {b : Bool} {s r : List (Item P)}, s ≠ [] → Neutral cc s → endsWithNest cc s = true →
      endsInText cc b (s ++ r) = endsInText cc false r := by
    intro b s r h1 h2 h3
    by_cases hr : r = []
    · subst hr; simp [endsInText, h1, h3]
    · simp [endsInText, h1, hr, (h2 r).2 hr]
  induction h with
  | nil => intro b t ds' hc _ h; cases hc; exact h
  | @text top s c t r a a₁ ds a' h1 h2 h3 h4 _ ih =>
    intro b t' ds' hc hd h
    cases hc
    rw [List.append_assoc]
    refine hG.text h1 h2 h3 h4 (ih rfl ?_ ?_)
    · rwa [(h2.neutral r).1] at hd
    · by_cases hr : r = []
      · subst hr
        simpa [endsInText, h1, h2.not_endsWithNest] using h
      · simpa [endsInText, h1, hr, (h2.neutral r).2 hr] using h
  | @form top b s d r a a₁ a₂ ds a' h1 h2 _ _ ih =>
    intro b' t' ds' hc hd h
    cases hc
    have hs := h1.neutral D trivial
    rw [List.append_assoc]
    refine hG.form h1 h2 (ih rfl ?_ ?_)
    · rwa [(hs r).1] at hd
    · rwa [hn (h1.nest_end D).1 hs (h1.nest_end D).2] at h
  | @removed top b s r a a₁ ds a' h1 _ _ ih =>
    intro b' t' ds' hc hd h
    cases hc
    have hs := h1.neutral D trivial
    rw [List.append_assoc]
    refine hG.removed h1 (ih rfl ?_ ?_)
    · rwa [(hs r).1] at hd
    · rwa [hn (h1.nest_end D).1 hs (h1.nest_end D).2] at h
  | @dangling s c t e a a' h1 h2 =>
    intro b t' ds' _ hd
    rw [(h1.neutral [e]).1] at hd
    exact absurd h2 (by simpa [danglingEscape] using hd)
  | _ => intro b t' ds' hc; cases hc

theorem StartsNest.not_text {s c r : List (Item P)} (D : cc.Disjoint) (h : StartsNest cc (s ++ r)) (hs : s ≠ []) :
    ¬ TextOf cc cc.delim s c := by
  intro ht
  rcases h with h | ⟨x, t', h, hx⟩
  · simp [hs] at h
  · cases ht with
    | nil => exact hs rfl
    | plain h1 =>
      cases h
      simp [Classifier.delim, hx] at h1
    | escaped h1 =>
      cases h
      rw [D.start_esc _ hx] at h1
      cases h1

theorem Reads.after_text (D : cc.Disjoint) {s a ds a'} (h : Reads cc RT Mem lookup (.forms true false) s a ds a')
    (hs : StartsNest cc s) : Reads cc RT Mem lookup (.forms true true) s a ds a' := by
  cases h with
  | nil => exact .nil
  | text h1 h2 => exact absurd h2 (hs.not_text D h1)
  | form h1 h2 h3 => exact .form h1 h2 h3
  | removed h1 h2 => exact .removed h1 h2
  | @dangling s c t e a a' h1 h2 =>
    cases h1 with
    | nil =>
      rcases hs with h | ⟨x, t', h, hx⟩
      · simp at h
      · cases h
        rw [D.start_esc _ hx] at h2
        cases h2
    | plain h1 h3 h4 => exact absurd (.plain h1 h3 h4) (hs.not_text D (by simp))
    | escaped h1 h3 => exact absurd (.escaped h1 h3) (hs.not_text D (by simp))

theorem Fails.after_text (D : cc.Disjoint) {s rest a ds e a'}
    (h : Fails cc RT Mem MF lookup (.forms true false) s rest a ds e a') (hs : StartsNest cc (s ++ rest)) :
    Fails cc RT Mem MF lookup (.forms true true) s rest a ds e a' := by
  cases h with
  | afterText h1 h2 => exact absurd h2 ((List.append_assoc _ _ _ ▸ hs).not_text D h1)
  | afterForm h1 h2 h3 => exact .afterForm h1 h2 h3
  | afterRemoved h1 h2 => exact .afterRemoved h1 h2
  | inNest h => exact .inNest h
  | unbalanced h1 =>
    rcases hs with h | ⟨x, t', h, hx⟩
    · simp at h
    · cases h
      rw [D.start_end _ hx] at h1
      cases h1
  | textUnbalanced h1 h2 => exact absurd h2 ((List.append_assoc _ _ _ ▸ hs).not_text D h1)
  | textMemory h1 =>
    obtain ⟨it, s', rfl, h1⟩ := h1
    rcases hs with h | ⟨x, t', h, hx⟩
    · simp at h
    · cases h
      simp [Classifier.delim, hx] at h1

theorem Reads.follows {a₂ : α} : Follows cc RT Mem lookup
    (fun b s a ds => Reads cc RT Mem lookup (.forms true b) s a ds a₂) :=
  ⟨fun h1 h2 h3 h4 h5 => .text h1 h2 h3 h4 h5, fun h1 h2 h3 => .form h1 h2 h3, fun h1 h2 => .removed h1 h2⟩

theorem Fails.follows {rest : List (Item P)} {e : Err P CE} {a₂ : α} : Follows cc RT Mem lookup
    (fun b s a ds => Fails cc RT Mem MF lookup (.forms true b) s rest a ds e a₂) :=
  ⟨fun h1 h2 h3 h4 h5 => .afterText h1 h2 h3 h4 h5, fun h1 h2 h3 => .afterForm h1 h2 h3,
   fun h1 h2 => .afterRemoved h1 h2⟩

theorem endsWithNest_not_dangling (D : cc.Disjoint) : ∀ s : List (Item P), endsWithNest cc s = true →
    danglingEscape cc s = false
  | [], _ => rfl
  | [_], h => D.end_esc _ h
  | x :: y :: s, h => by
    simp only [endsWithNest, danglingEscape] at h ⊢
    split at h
    · rename_i hx; simp only [hx, if_true]; exact endsWithNest_not_dangling D s h
    · rename_i hx; simp only [hx]; exact endsWithNest_not_dangling D (y :: s) h

theorem Reads.of_nil (D : cc.Disjoint) {b s a ds a'} (h : Reads cc RT Mem lookup (.forms true b) s a ds a')
    (hs : s = []) : ds = [] ∧ a' = a := by
  cases h with
  | nil => exact ⟨rfl, rfl⟩
  | text h => simp [h] at hs
  | form h => simp [(h.nest_end D).1] at hs
  | removed h => simp [(h.nest_end D).1] at hs
  | dangling => simp at hs

/-- A whole source, followed by another. -/
theorem Means.append (D : cc.Disjoint) {s t a ds a₁ l a₂} (h : Means cc RT Mem lookup s a ds a₁)
    (hA : Apart cc s t) (ht : Results cc RT Mem MF lookup t a₁ l a₂) :
    Results cc RT Mem MF lookup (s ++ t) a (ds.map .ok ++ l) a₂ := by
  by_cases hs : s = []
  · subst hs
    obtain ⟨rfl, rfl⟩ := h.of_nil D rfl
    exact ht
  have hd : danglingEscape cc s = false := by
    rcases hA with h | h | h
    · exact absurd h hs
    · exact endsWithNest_not_dangling D s h
    · exact h.1
  have hb : endsInText cc false s = true → StartsNest cc t := by
    intro hb
    rcases hA with h | h | h
    · exact absurd h hs
    · simp [endsInText, hs, h] at hb
    · exact h.2
  cases ht with
  | all h2 =>
    rw [← List.map_append]
    refine .all (Reads.append D Reads.follows h rfl hd ?_)
    cases he : endsInText cc false s with
    | false => exact h2
    | true => exact h2.after_text D (hb he)
  | @fails t rest a ds' e a₃ l a₂ h2 h3 =>
    rw [← List.append_assoc s, ← List.append_assoc, ← List.map_append]
    refine .fails (Reads.append D Fails.follows h rfl hd ?_) h3
    cases he : endsInText cc false s with
    | false => exact h2
    | true => exact h2.after_text D (hb he)

end

/-- What follows a stray end delimiter. -/
theorem Apart.rest {s rest t : List (Item P)} (hs : Neutral cc s) (h : Apart cc (s ++ rest) t) : Apart cc rest t := by
  by_cases hr : rest = []
  · exact .inl hr
  · rcases h with h | h | h
    · exact .inl (List.append_eq_nil_iff.1 h).2
    · exact .inr (.inl (by rwa [(hs rest).2 hr] at h))
    · exact .inr (.inr ⟨by rw [← (hs rest).1]; exact h.1, h.2⟩)

theorem PlainResults.append (D : cc.Disjoint) {s t : List (Item P)}
    {l₁ l₂ : List (Except (Err P CE) (Datum (List (Item P)) ε))} (h : PlainResults cc s l₁)
    (ht : PlainResults cc t l₂) (hA : Apart cc s t) (hm : .error .missingEndChar ∉ l₁) :
    PlainResults cc (s ++ t) (l₁ ++ l₂) := by
  induction h with
  | all h =>
    exact (Means.append D (Gram.reads (lookup := noBindings _ ε Unit P CE) (fun _ => rfl) () h) hA
      (ht.results D)).plain D
  | @stray s t' c x rest ds l h1 h2 h3 h4 h5 ih =>
    have hn : Neutral cc (s ++ t' ++ [x]) :=
      (((Gram.reads (lookup := noBindings _ ε Unit P CE) (fun _ => rfl) () h1).neutral D rfl).append
        h3.neutral).append (.one (D.end_esc _ h4))
    have := PlainResults.stray h1 h2 h3 h4 (ih (Apart.rest hn (by simpa using hA)) (fun h => hm (by simp [h])))
    simpa using this
  | unclosed => exact absurd (by simp) hm

end Kul
