import Verif.Spec.Defer

/-! # Reading operands as a source of their own -/

namespace Kul

variable {P τ ε α CE : Type} {cc : Classifier} {RT : τ → List (Item P) → Prop} {Mem : α → α → Prop}
  {lookup : Datum τ ε → Option (Combiner τ ε α P CE)}

theorem NoEscape.left {r s : List (Item P)} (h : NoEscape cc (r ++ s)) : NoEscape cc r :=
  fun it hi => h it (by simp [hi])

theorem NoEscape.right {r s : List (Item P)} (h : NoEscape cc (r ++ s)) : NoEscape cc s :=
  fun it hi => h it (by simp [hi])

theorem NoEscape.tail {x : Item P} {s : List (Item P)} (h : NoEscape cc (x :: s)) : NoEscape cc s :=
  fun it hi => h it (by simp [hi])

/-- Sequences of forms outside and inside of nests differ only in an escape character at their very end. -/
theorem Reads.retop {top' : Bool} {cat s a ds a'} (h : Reads cc RT Mem lookup cat s a ds a')
    (hs : top' = true ∨ NoEscape cc s) : ∀ {top b}, cat = .forms top b → Reads cc RT Mem lookup (.forms top' b) s a ds a' := by
  induction h with
  | nil => intro _ _ e; cases e; exact .nil
  | text h1 h2 h3 h4 _ ih =>
    intro _ _ e; cases e
    exact .text h1 h2 h3 h4 (ih (hs.imp id NoEscape.right) rfl)
  | form h1 h2 _ _ ih =>
    intro _ _ e; cases e
    exact .form h1 h2 (ih (hs.imp id NoEscape.right) rfl)
  | removed h1 _ _ ih =>
    intro _ _ e; cases e
    exact .removed h1 (ih (hs.imp id NoEscape.right) rfl)
  | dangling h1 h2 h3 h4 =>
    intro _ _ e; cases e
    rcases hs with rfl | hs
    · exact .dangling h1 h2 h3 h4
    · exact absurd h2 (by rw [hs _ (by simp)]; simp)
  | _ => intro _ _ e; cases e

theorem RawOf.append {s c s' c' : List (Item P)} (h : RawOf cc s c) (h' : RawOf cc s' c') :
    RawOf cc (s ++ s') (c ++ c') := by
  induction h with
  | nil => exact h'
  | plain h1 h2 _ ih => exact .plain h1 h2 ih
  | escaped h1 _ ih => exact .escaped h1 ih
  | nest h1 h2 h3 _ _ ih2 => simpa using RawOf.nest h1 h2 h3 ih2

theorem RawOf.eq_of_noEscape {s c : List (Item P)} (h : RawOf cc s c) (hs : NoEscape cc s) : c = s := by
  induction h with
  | nil => rfl
  | plain _ _ _ ih => rw [ih hs.tail]
  | escaped h1 _ _ => exact absurd h1 (by rw [hs _ (by simp)]; simp)
  | nest _ _ _ _ ih1 ih2 =>
    have h := hs.tail
    rw [ih1 h.left, ih2 h.right.tail]

theorem RawOf.length_le {s c : List (Item P)} (h : RawOf cc s c) : c.length ≤ s.length := by
  induction h with
  | nil => exact Nat.le_refl _
  | plain _ _ _ ih => simpa using ih
  | escaped _ _ ih => simp only [List.length_cons]; omega
  | nest _ _ _ _ ih1 ih2 => simp only [List.length_cons, List.length_append]; omega

theorem RawOf.noEscape {s c : List (Item P)} (D : cc.Disjoint) (h : RawOf cc s c) (hc : c.length = s.length) : NoEscape cc s := by
  induction h with
  | nil => intro _ h; cases h
  | plain _ h2 _ ih =>
    have := ih (by simpa using hc)
    intro it hi
    rcases List.mem_cons.1 hi with rfl | hi
    · exact h2
    · exact this it hi
  | escaped _ h2 _ => have := h2.length_le; simp only [List.length_cons] at hc; omega
  | nest h1 h2 h3 h4 ih1 ih2 =>
    have l3 := h3.length_le
    have l4 := h4.length_le
    simp only [List.length_cons, List.length_append] at hc
    have i1 := ih1 (by omega)
    have i2 := ih2 (by omega)
    intro it hi
    simp only [List.mem_cons, List.mem_append] at hi
    rcases hi with rfl | hi | rfl | hi
    · exact D.start_esc _ h1
    · exact i1 it hi
    · exact D.end_esc _ h2
    · exact i2 it hi

theorem RawOf.of_ws (D : cc.Disjoint) : ∀ {ws : List (Item P)}, AllWs cc ws → RawOf cc ws ws
  | [], _ => .nil
  | w :: ws, h => by
    have hw := h w (by simp)
    refine .plain ?_ ?_ (RawOf.of_ws D fun it hi => h it (by simp [hi]))
    · cases h1 : cc.isNestStart w.ch with
      | true => rw [D.start_ws _ h1] at hw; cases hw
      | false =>
        cases h2 : cc.isNestEnd w.ch with
        | true => rw [D.end_ws _ h2] at hw; cases hw
        | false => simp [Classifier.delim, h1, h2]
    · cases h1 : cc.isNestEscape w.ch with
      | true => rw [D.esc_ws _ h1] at hw; cases hw
      | false => rfl

theorem TextOf.raw {stop : Char → Bool} (hstop : ∀ c, stop c = false → cc.delim c = false) {s c : List (Item P)}
    (h : TextOf cc stop s c) : RawOf cc s c := by
  induction h with
  | nil => exact .nil
  | plain h1 h2 _ ih => exact .plain (hstop _ h1) h2 ih
  | escaped h1 _ ih => exact .escaped h1 ih

theorem Sep.raw (D : cc.Disjoint) {k : Bool} {sep r : List (Item P)} (h : Sep cc k sep r) : RawOf cc sep sep := by
  cases h with
  | one h => exact RawOf.of_ws D fun it hi => by simp at hi; exact hi ▸ h
  | empty => exact .nil
  | none => exact .nil

/-- What is written as operands is a balanced text. -/
theorem Reads.raw (D : cc.Disjoint) {cat s a ds a'} (h : Reads cc RT Mem lookup cat s a ds a') :
    (∀ b, cat ≠ .forms true b) → ∃ c, RawOf cc s c := by
  have mk : ∀ {b e : Item P} {s c : List (Item P)}, cc.isNestStart b.ch = true → cc.isNestEnd e.ch = true →
      RawOf cc s c → ∃ c, RawOf cc (b :: (s ++ [e])) c :=
    fun h1 h2 h3 => ⟨_, .nest h1 h2 h3 .nil⟩
  have del : ∀ c, cc.delim c = false → cc.delim c = false := fun _ h => h
  have hdel : ∀ c, cc.headDelim c = false → cc.delim c = false := fun c h => by
    simp [Classifier.headDelim] at h; exact h.2
  induction h with
  | nil => intro _; exact ⟨_, .nil⟩
  | text _ h2 _ _ _ ih =>
    intro hc
    obtain ⟨c, h⟩ := ih (fun b e => by cases e; exact hc _ rfl)
    exact ⟨_, (h2.raw del).append h⟩
  | form _ _ _ ih1 ih2 =>
    intro hc
    obtain ⟨c1, h1⟩ := ih1 (fun b e => by cases e)
    obtain ⟨c, h⟩ := ih2 (fun b e => by cases e; exact hc _ rfl)
    exact ⟨_, h1.append h⟩
  | removed _ _ ih1 ih2 =>
    intro hc
    obtain ⟨c1, h1⟩ := ih1 (fun b e => by cases e)
    obtain ⟨c, h⟩ := ih2 (fun b e => by cases e; exact hc _ rfl)
    exact ⟨_, h1.append h⟩
  | dangling => intro hc; exact absurd rfl (hc _)
  | noHead h => intro _; exact ⟨_, RawOf.of_ws D h⟩
  | textHead h1 _ h3 => intro _; exact ⟨_, (RawOf.of_ws D h1).append (h3.raw hdel)⟩
  | nestHead h1 _ ih =>
    intro _
    obtain ⟨c, h⟩ := ih (fun b e => by cases e)
    exact ⟨_, (RawOf.of_ws D h1).append h⟩
  | removedHead h1 _ _ ih1 ih2 =>
    intro _
    obtain ⟨c, h⟩ := ih1 (fun b e => by cases e)
    obtain ⟨c', h'⟩ := ih2 (fun b e => by cases e)
    exact ⟨_, ((RawOf.of_ws D h1).append h).append h'⟩
  | emptyNest h1 h2 _ ih =>
    intro _
    obtain ⟨c, h⟩ := ih (fun b e => by cases e)
    exact mk h1 h2 h
  | combination h1 h2 _ h4 _ _ _ ih1 ih2 =>
    intro _
    obtain ⟨c, h⟩ := ih1 (fun b e => by cases e)
    obtain ⟨c', h'⟩ := ih2 (fun b e => by cases e)
    exact mk h1 h2 ((h.append (h4.raw D)).append h')
  | applicative h1 h2 _ h4 _ _ _ ih1 ih2 =>
    intro _
    obtain ⟨c, h⟩ := ih1 (fun b e => by cases e)
    obtain ⟨c', h'⟩ := ih2 (fun b e => by cases e)
    exact mk h1 h2 ((h.append (h4.raw D)).append h')
  | operative h1 h2 _ h4 _ h6 _ _ _ ih1 =>
    intro _
    obtain ⟨c, h⟩ := ih1 (fun b e => by cases e)
    exact mk h1 h2 ((h.append (h4.raw D)).append h6)

section

variable {early late inner : Datum τ ε → Option (Combiner τ ε α P CE)}

theorem Replaced.cases {R : (Datum τ ε → τ → α → Except (Err P CE) (Option (Datum τ ε)) × α) →
      (Datum τ ε → Datum τ ε → α → Except (Err P CE) (Option (Datum τ ε)) × α) → Prop}
    {b b' : Option (Combiner τ ε α P CE)} (h : Replaced R b b') :
    b = b' ∨ ∃ f g, R f g ∧ b = some (.applicative g) ∧ b' = some (.operative f) := by
  cases h with
  | same => exact Or.inl rfl
  | deferred h => exact Or.inr ⟨_, _, h, rfl, rfl⟩

/-- Weaker relations of the combiners replaced. -/
theorem Replaced.mono {R R' : (Datum τ ε → τ → α → Except (Err P CE) (Option (Datum τ ε)) × α) →
      (Datum τ ε → Datum τ ε → α → Except (Err P CE) (Option (Datum τ ε)) × α) → Prop}
    {b b' : Option (Combiner τ ε α P CE)} (h : Replaced R b b') (hR : ∀ f g, R f g → R' f g) : Replaced R' b b' := by
  cases h with
  | same => exact .same _
  | deferred h => exact .deferred (hR _ _ h)

/-- From deferred parsing to parsing at once. `inner` are the bindings that operands are parsed with later. -/
theorem Reads.at_once (hi : inner = early ∨ inner = late)
    (hR : ∀ d, Replaced (Defers cc RT inner) (early d) (late d)) : ∀ (n : Nat) {cat s a ds a'}, s.length < n →
      Reads cc RT Eq late cat s a ds a' → NoEscape cc s → Reads cc RT Eq early cat s a ds a' := by
  intro n
  induction n with
  | zero => intro cat s a ds a' hn; exact absurd hn (Nat.not_lt_zero _)
  | succ n IH =>
    intro cat s a ds a' hn h
    induction h with
    | nil => intro _; exact .nil
    | text h1 h2 h3 h4 _ ih =>
      intro hs
      simp only [List.length_append] at hn
      exact .text h1 h2 h3 h4 (ih (by omega) hs.right)
    | form _ h2 _ ih1 ih2 =>
      intro hs
      simp only [List.length_append] at hn
      exact .form (ih1 (by omega) hs.left) h2 (ih2 (by omega) hs.right)
    | removed _ _ ih1 ih2 =>
      intro hs
      simp only [List.length_append] at hn
      exact .removed (ih1 (by omega) hs.left) (ih2 (by omega) hs.right)
    | dangling h1 h2 h3 h4 => intro _; exact .dangling h1 h2 h3 h4
    | noHead h => intro _; exact .noHead h
    | textHead h1 h2 h3 h4 h5 => intro _; exact .textHead h1 h2 h3 h4 h5
    | nestHead h1 _ ih =>
      intro hs
      simp only [List.length_append] at hn
      exact .nestHead h1 (ih (by omega) hs.right)
    | removedHead h1 _ _ ih1 ih2 =>
      intro hs
      simp only [List.length_append] at hn
      exact .removedHead h1 (ih1 (by omega) hs.left.right) (ih2 (by omega) hs.right)
    | emptyNest h1 h2 _ ih =>
      intro hs
      simp only [List.length_append, List.length_cons] at hn
      exact .emptyNest h1 h2 (ih (by omega) hs.tail.left)
    | @combination _ _ _ _ d _ _ _ _ _ _ _ h1 h2 _ h4 h5 _ h7 ih1 ih2 =>
      intro hs
      simp only [List.length_append, List.length_cons] at hn
      have hl := hs.tail.left
      refine .combination h1 h2 (ih1 (by omega) hl.left.left) h4 ?_ (ih2 (by omega) hl.right) h7
      rcases (hR d).cases with h | ⟨f, g, _, _, h⟩
      · rw [h, h5]
      · rw [h5] at h; cases h
    | @applicative _ _ _ _ d _ _ _ _ _ _ _ _ _ h1 h2 _ h4 h5 _ h7 ih1 ih2 =>
      intro hs
      simp only [List.length_append, List.length_cons] at hn
      have hl := hs.tail.left
      refine .applicative h1 h2 (ih1 (by omega) hl.left.left) h4 ?_ (ih2 (by omega) hl.right) h7
      rcases (hR d).cases with h | ⟨f, g, _, _, h⟩
      · rw [h, h5]
      · rw [h5] at h; cases h
    | @operative _ _ _ _ d _ r c t _ b₁ _ _ f o h1 h2 _ h4 h5 h6 h7 h8 h9 ih1 =>
      intro hs
      simp only [List.length_append, List.length_cons] at hn
      have hl := hs.tail.left
      have hh := ih1 (by omega) hl.left.left
      rcases (hR d).cases with h | ⟨f', g, hd, hg, h⟩
      · exact .operative h1 h2 hh h4 (h.trans h5) h6 h7 h8 h9
      · rw [h5] at h
        cases h
        cases h8
        cases h6.eq_of_noEscape hl.right
        obtain ⟨ds, a₁, hm, hgo⟩ := hd _ _ _ _ _ _ h7 hl.right h9
        have hm' : Means cc RT Eq early r b₁ ds a₁ := by
          rcases hi with rfl | rfl
          · exact hm
          · exact IH (by omega) hm hl.right
        exact .applicative h1 h2 hh h4 hg (hm'.retop (Or.inr hl.right) rfl) hgo

end

section

variable {early late inner : Datum (List (Item P)) ε → Option (Combiner (List (Item P)) ε α P CE)}

/-- From parsing at once to deferred parsing. -/
theorem Reads.later (D : cc.Disjoint) (hi : inner = early ∨ inner = late)
    (hR : ∀ d, Replaced (DefersAll cc inner) (early d) (late d)) {cat s a ds a'}
    (h : Reads cc Eq Eq early cat s a ds a') : NoEscape cc s → Reads cc Eq Eq late cat s a ds a' := by
  induction h with
  | nil => intro _; exact .nil
  | text h1 h2 h3 h4 _ ih => intro hs; exact .text h1 h2 h3 h4 (ih hs.right)
  | form _ h2 _ ih1 ih2 => intro hs; exact .form (ih1 hs.left) h2 (ih2 hs.right)
  | removed _ _ ih1 ih2 => intro hs; exact .removed (ih1 hs.left) (ih2 hs.right)
  | dangling h1 h2 h3 h4 => intro _; exact .dangling h1 h2 h3 h4
  | noHead h => intro _; exact .noHead h
  | textHead h1 h2 h3 h4 h5 => intro _; exact .textHead h1 h2 h3 h4 h5
  | nestHead h1 _ ih => intro hs; exact .nestHead h1 (ih hs.right)
  | removedHead h1 _ _ ih1 ih2 => intro hs; exact .removedHead h1 (ih1 hs.left.right) (ih2 hs.right)
  | emptyNest h1 h2 _ ih => intro hs; exact .emptyNest h1 h2 (ih hs.tail.left)
  | @combination _ _ _ _ d _ _ _ _ _ _ _ h1 h2 _ h4 h5 _ h7 ih1 ih2 =>
    intro hs
    have hl := hs.tail.left
    refine .combination h1 h2 (ih1 hl.left.left) h4 ?_ (ih2 hl.right) h7
    rcases (hR d).cases with h | ⟨f, g, _, h, _⟩
    · rw [← h, h5]
    · rw [h5] at h; cases h
  | @applicative _ _ _ _ d _ r _ _ _ _ _ _ _ h1 h2 _ h4 h5 h6 h7 ih1 ih2 =>
    intro hs
    have hl := hs.tail.left
    rcases (hR d).cases with h | ⟨f, g, hd, hg, h⟩
    · exact .applicative h1 h2 (ih1 hl.left.left) h4 (h ▸ h5) (ih2 hl.right) h7
    · rw [h5] at hg
      cases hg
      obtain ⟨c, hc⟩ := h6.raw D (fun b e => by cases e)
      cases hc.eq_of_noEscape hl.right
      refine .operative h1 h2 (ih1 hl.left.left) h4 h hc rfl rfl ?_
      rw [← h7]
      refine hd _ _ _ _ _ hl.right ?_
      rcases hi with rfl | rfl
      · exact h6.retop (Or.inl rfl) rfl
      · exact (ih2 hl.right).retop (Or.inl rfl) rfl
  | @operative _ _ _ _ d _ r c t _ _ _ _ f o h1 h2 _ h4 h5 h6 h7 h8 h9 ih1 =>
    intro hs
    have hl := hs.tail.left
    rcases (hR d).cases with h | ⟨f', g, _, hg, _⟩
    · exact .operative h1 h2 (ih1 hl.left.left) h4 (h ▸ h5) h6 h7 h8 h9
    · rw [h5] at hg; cases hg

end

end Kul
