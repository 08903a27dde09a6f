import Verif.Spec.Work
import Verif.Proof.EvalRun

/-!
# How many calls of the stream the parser makes

`Within s r b s' r'`: between states `s` and `s'` of a counted parse, with `r` and `r'` left
to read, the number of calls is at most five for each character read, plus `b`. (`b` may be
negative: then some of the five have been saved for later.)
-/

namespace Kul

variable {σ P τ ε α CE : Type} {E : Env σ P τ ε α CE} {RS : σ → Seq P → Prop} {X : TextSem P τ α}

/-- The items `r` are left to read. -/
def Rem (RS : σ → Seq P → Prop) (s : St (σ × Nat) α) (r : List (Item P)) : Prop :=
  ∃ p, RS s.strm.1 ⟨p, r⟩

/-- At most five calls for each character, plus `b`. -/
def Within (s : St (σ × Nat) α) (r : List (Item P)) (b : Int) (s' : St (σ × Nat) α) (r' : List (Item P)) : Prop :=
  (s'.strm.2 : Int) + 5 * r'.length ≤ s.strm.2 + 5 * r.length + b ∧ r' <:+ r

theorem Within.refl (s : St (σ × Nat) α) (r : List (Item P)) : Within s r 0 s r :=
  ⟨by omega, List.suffix_refl r⟩

theorem Within.trans {s s₁ s₂ : St (σ × Nat) α} {r r₁ r₂ : List (Item P)} {b c : Int}
    (h : Within s r b s₁ r₁) (h' : Within s₁ r₁ c s₂ r₂) : Within s r (b + c) s₂ r₂ :=
  ⟨by have := h.1; have := h'.1; omega, h'.2.trans h.2⟩

theorem Within.mono {s s₁ : St (σ × Nat) α} {r r₁ : List (Item P)} {b c : Int}
    (h : Within s r b s₁ r₁) (hb : b ≤ c) : Within s r c s₁ r₁ :=
  ⟨by have := h.1; omega, h.2⟩

/-- `x` takes at most as many calls as `Q` says for its outcome, from a state with `r` left. -/
def Takes {A : Type} (RS : σ → Seq P → Prop) (x : Act (St (σ × Nat) α) (Err P CE) A) (r : List (Item P))
    (Q : Outcome (Err P CE) A → List (Item P) → Int → Prop) : Prop :=
  ∀ s, Rem RS s r → ∃ o s' r' b, x s = (o, s') ∧ Rem RS s' r' ∧ Within s r b s' r' ∧ Q o r' b

/-- The outcome is not a value. -/
def Outcome.Fails {e A : Type} (o : Outcome e A) : Prop := ∀ v, o ≠ .ok v

variable {A B : Type}

theorem Takes.bind {x : Act (St (σ × Nat) α) (Err P CE) A} {f : A → Act (St (σ × Nat) α) (Err P CE) B}
    {r : List (Item P)} {Q Q'} (hx : Takes RS x r Q)
    (hok : ∀ v r' b, Q (.ok v) r' b → Takes RS (f v) r' fun o r'' c => Q' o r'' (b + c))
    (herr : ∀ o r' b, o.Fails → Q o r' b → ∀ o', Outcome.Fails o' → Q' o' r' b) :
    Takes RS (x >>= f) r Q' := by
  intro s hs
  obtain ⟨o, s₁, r₁, b, h1, h2, h3, h4⟩ := hx s hs
  cases o with
  | ok v =>
    obtain ⟨o', s₂, r₂, c, h5, h6, h7, h8⟩ := hok v r₁ b h4 s₁ h2
    exact ⟨o', s₂, r₂, b + c, by rw [← h5]; exact Act.bind_ok h1, h6, h3.trans h7, h8⟩
  | err e => exact ⟨.err e, s₁, r₁, b, Act.bind_err h1, h2, h3, herr _ _ _ (by simp [Outcome.Fails]) h4 _ (by simp [Outcome.Fails])⟩
  | panic =>
    refine ⟨.panic, s₁, r₁, b, ?_, h2, h3, herr _ _ _ (by simp [Outcome.Fails]) h4 _ (by simp [Outcome.Fails])⟩
    show Act.bind x f s = _
    unfold Act.bind; rw [h1]
  | fuel =>
    refine ⟨.fuel, s₁, r₁, b, ?_, h2, h3, herr _ _ _ (by simp [Outcome.Fails]) h4 _ (by simp [Outcome.Fails])⟩
    show Act.bind x f s = _
    unfold Act.bind; rw [h1]

theorem Takes.mono {x : Act (St (σ × Nat) α) (Err P CE) A} {r : List (Item P)} {Q Q'} (hx : Takes RS x r Q)
    (h : ∀ o r' b, Q o r' b → Q' o r' b) : Takes RS x r Q' := fun s hs =>
  have ⟨o, s', r', b, h1, h2, h3, h4⟩ := hx s hs
  ⟨o, s', r', b, h1, h2, h3, h _ _ _ h4⟩

/-- An action that does not touch the stream. -/
theorem Takes.still {x : Act (St (σ × Nat) α) (Err P CE) A} {r : List (Item P)}
    (h : ∀ s, (x s).2.strm = s.strm) : Takes RS x r fun _ r' b => r' = r ∧ b = 0 := by
  intro s hs
  refine ⟨(x s).1, (x s).2, r, 0, rfl, ?_, ?_, rfl, rfl⟩
  · unfold Rem; rw [h]; exact hs
  · unfold Within; rw [h]; exact ⟨by omega, List.suffix_refl r⟩

theorem Takes.out (o : Outcome (Err P CE) A) {r : List (Item P)} {Q} (h : Q o r 0) :
    Takes RS (fun (s : St (σ × Nat) α) => (o, s)) r Q := fun s hs =>
  ⟨o, s, r, 0, rfl, hs, Within.refl s r, h⟩

section

variable (C : Conf E RS X)
include C

theorem Conf.w_peek (r : List (Item P)) :
    Takes RS E.counted.peek r fun o r' b => o = .ok r.head? ∧ r' = r ∧ b = 1 := by
  rintro ⟨⟨s, k⟩, a, d⟩ ⟨p, hs⟩
  obtain ⟨s', h1, h2⟩ := C.peek s _ hs
  refine ⟨_, ⟨(s', k + 1), a, d⟩, r, 1, ?_, ⟨p, h2⟩, ⟨by dsimp only; omega, List.suffix_refl r⟩, rfl, rfl, rfl⟩
  simp only [Env.peek, liftEmpty, Env.counted, StreamOps.counted, h1]
  rfl

theorem Conf.w_next (r : List (Item P)) :
    Takes RS E.counted.next r fun o r' b => o = .ok r.head? ∧ r' = r.tail ∧ b = if r = [] then 1 else -4 := by
  rintro ⟨⟨s, k⟩, a, d⟩ ⟨p, hs⟩
  obtain ⟨s', h1, h2⟩ := C.next s _ hs
  refine ⟨_, ⟨(s', k + 1), a, d⟩, r.tail, _, ?_, ⟨_, h2⟩, ⟨?_, List.tail_suffix r⟩, rfl, rfl, rfl⟩
  · simp only [Env.next, liftEmpty, Env.counted, StreamOps.counted, h1]
    rfl
  · cases r with
    | nil => simp
    | cons => simp; omega

theorem Conf.w_nextAccum (r : List (Item P)) :
    Takes RS E.counted.nextAccum r fun o r' b =>
      (o = .ok r.head? ∧ r' = r.tail ∧ b = if r = [] then 1 else -4) ∨ (o.Fails ∧ r' = r ∧ b = 1) := by
  rintro ⟨⟨s, k⟩, a, d⟩ ⟨p, hs⟩
  obtain ⟨o, s', a', h1, _, ⟨rfl, h3⟩ | ⟨_, _, ⟨e, rfl⟩, h3⟩⟩ := C.nextAccum s _ a hs
  · refine ⟨_, ⟨(s', k + 1), a', d⟩, r.tail, _, ?_, ⟨_, h3⟩, ⟨?_, List.tail_suffix r⟩, Or.inl ⟨rfl, rfl, rfl⟩⟩
    · simp only [Env.nextAccum, liftAccum, Env.counted, StreamOps.counted, h1]
      rfl
    · cases r with
      | nil => simp
      | cons => simp; omega
  · refine ⟨.err (.failedAlloc e), ⟨(s', k + 1), a', d⟩, r, 1, ?_, ⟨_, h3⟩,
      ⟨by dsimp only; omega, List.suffix_refl r⟩, Or.inr ⟨by simp [Outcome.Fails], rfl, rfl⟩⟩
    simp only [Env.nextAccum, liftAccum, Env.counted, StreamOps.counted, h1]
    rfl

theorem Conf.w_concatAccum (t : τ) (r : List (Item P)) :
    Takes RS (E.counted.concatAccum t) r fun _ r' b => r' = r ∧ b = 1 := by
  refine Takes.bind (Q := fun _ r' b => r' = r ∧ b = 1) ?_ ?_ ?_
  · rintro ⟨⟨s, k⟩, a, d⟩ ⟨p, hs⟩
    obtain ⟨o, s', a', h1, _, h3, _⟩ := C.accumDone s _ a hs
    refine ⟨o.mapErr .failedAlloc, ⟨(s', k + 1), a', d⟩, r, 1, ?_, ⟨_, h3⟩, ⟨by dsimp only; omega, List.suffix_refl r⟩, rfl, rfl⟩
    simp only [liftAccum, Env.counted, StreamOps.counted, h1]
  · rintro v r' b ⟨rfl, rfl⟩
    exact (Takes.still (fun s => rfl)).mono (by rintro o r'' c ⟨rfl, rfl⟩; exact ⟨rfl, rfl⟩)
  · intro o r' b _ h o' _; exact h

/-- The character at the front is an end, and not a start. -/
def EndFirst (cc : Classifier) (r : List (Item P)) : Prop :=
  ∃ it r', r = it :: r' ∧ cc.isNestStart it.ch = false ∧ cc.isNestEnd it.ch = true

theorem Conf.w_skipWhitespace (n : Nat) : ∀ (r : List (Item P)),
    Takes RS (E.counted.skipWhitespace n) r fun o r' b => b ≤ 1 ∧
      (∀ v, o = .ok v → ∀ it, r'.head? = some it → E.cc.isWhitespace it.ch = false) := by
  induction n with
  | zero => exact fun r => Takes.out _ ⟨by decide, fun v h => (by cases h)⟩
  | succ n ih =>
    intro r
    refine (C.w_peek r).bind ?_ ?_
    · rintro v r b ⟨h, rfl, rfl⟩
      cases h
      cases r with
      | nil => exact Takes.out _ ⟨by decide, fun _ _ it h => (by cases h)⟩
      | cons it r =>
        simp only [List.head?_cons]
        split
        · refine (C.w_next (it :: r)).bind ?_ ?_
          · rintro v r' b ⟨_, rfl, rfl⟩
            refine (ih _).mono fun o r'' c hc => ⟨?_, hc.2⟩
            have := hc.1
            simp; omega
          · rintro o r' b hf ⟨rfl, _⟩; exact absurd rfl (hf _)
        · next hw =>
          refine Takes.out _ ⟨by decide, fun _ _ it h => ?_⟩
          cases h
          exact (Bool.not_eq_true _).mp hw
    · rintro o r' b hf ⟨rfl, _⟩; exact absurd rfl (hf _)

/-- At an end character. -/
theorem Conf.w_checkEndChar (it : Item P) (r : List (Item P)) :
    Takes RS E.counted.checkEndChar (it :: r) fun o r' b =>
      ((∃ v, o = .ok v) ∧ r' = it :: r ∧ b = 1) ∨ (o.Fails ∧ b ≤ 1) := by
  refine (C.w_peek (it :: r)).bind ?_ ?_
  rotate_left
  · rintro o r' b hf ⟨rfl, _⟩; exact absurd rfl (hf _)
  rintro v r' b ⟨h, rfl, rfl⟩
  refine (Takes.still (x := Act.debugAssert _) (fun s => ?_)).bind ?_ ?_
  · simp only [Act.debugAssert]; split <;> rfl
  · rintro v r' b ⟨rfl, rfl⟩
    refine (Takes.still (x := Env.getDepth) (fun s => rfl)).bind ?_ ?_
    · rintro d r' b ⟨rfl, rfl⟩
      split
      · exact Takes.out _ (Or.inl ⟨⟨_, rfl⟩, rfl, rfl⟩)
      · refine (C.w_next (it :: r)).bind ?_ ?_
        · rintro v r' b ⟨h, rfl, rfl⟩
          cases h
          exact Takes.out _ (Or.inr ⟨by simp [Outcome.Fails], by simp⟩)
        · rintro o r' b hf ⟨rfl, _⟩; exact absurd rfl (hf _)
    · rintro o r' b hf ⟨rfl, rfl⟩ o' hf'; exact Or.inr ⟨hf', by simp⟩
  · rintro o r' b hf ⟨rfl, rfl⟩ o' hf'; exact Or.inr ⟨hf', by simp⟩

theorem Conf.w_finishText (t : τ) (nl : Nat) (r : List (Item P)) :
    Takes RS (E.counted.finishText t nl) r fun _ r' b => r' = r ∧ b ≤ 1 := by
  unfold Env.finishText
  split
  · exact (C.w_concatAccum t r).mono (by rintro o r' b ⟨rfl, rfl⟩; exact ⟨rfl, by decide⟩)
  · exact Takes.out _ ⟨rfl, by decide⟩

omit C in
theorem Takes.suffix {x : Act (St (σ × Nat) α) (Err P CE) A} {r : List (Item P)} {Q} (hx : Takes RS x r Q) :
    Takes RS x r fun o r' b => Q o r' b ∧ r' <:+ r := fun s hs =>
  have ⟨o, s', r', b, h1, h2, h3, h4⟩ := hx s hs
  ⟨o, s', r', b, h1, h2, h3, h4, h3.2⟩

/-- The loop of `parse_text` takes calls for its end only, or one more at an end character. -/
def TextQ (cc : Classifier) (m : Mode) (o : Outcome (Err P CE) τ) (r' : List (Item P)) (b : Int) : Prop :=
  (o.Fails → b ≤ 3) ∧ (∀ t, o = .ok t → b ≤ 2 ∨ (b ≤ 3 ∧ m = .base ∧ EndFirst cc r'))

/-- The same if at least one character is read. -/
def TextQ' (cc : Classifier) (m : Mode) (o : Outcome (Err P CE) τ) (r' : List (Item P)) (b : Int) : Prop :=
  (o.Fails → b ≤ 2) ∧
  (∀ t, o = .ok t → b ≤ -1 ∨ (b ≤ 0 ∧ m = .base ∧ EndFirst cc r') ∨ (b ≤ 1 ∧ r' = []))

omit C in
theorem TextQ'.weaken {cc : Classifier} {m : Mode} {o : Outcome (Err P CE) τ} {r' : List (Item P)} {b : Int}
    (h : TextQ' cc m o r' b) : TextQ cc m o r' b := by
  refine ⟨fun hf => ?_, fun t ht => ?_⟩
  · have := h.1 hf; omega
  · rcases h.2 t ht with h | ⟨h, h'⟩ | ⟨h, _⟩
    · exact Or.inl (by omega)
    · exact Or.inr ⟨by omega, h'⟩
    · exact Or.inl (by omega)

omit C in
theorem TextQ.after {cc : Classifier} {m : Mode} {o : Outcome (Err P CE) τ} {r' : List (Item P)} {b : Int}
    (h : TextQ cc m o r' b) {c : Int} (hc : c ≤ -3) : TextQ' cc m o r' (c + b) := by
  refine ⟨fun hf => ?_, fun t ht => ?_⟩
  · have := h.1 hf; omega
  · rcases h.2 t ht with h | ⟨h, h'⟩
    · exact Or.inl (by omega)
    · exact Or.inr (Or.inl ⟨by omega, h'⟩)

omit C in
theorem TextQ'.fails {cc : Classifier} {m : Mode} {o : Outcome (Err P CE) τ} {r' : List (Item P)} {b : Int}
    (hf : o.Fails) (h : b ≤ 2) : TextQ' cc m o r' b :=
  ⟨fun _ => h, fun t ht => absurd ht (hf t)⟩

/-- Reading on after a character: `peek`, `next_accum`, and then the rest of the loop. -/
theorem Conf.w_loopStep {m : Mode} {n : Nat} {t : τ} {nl : Nat} {it : Item P} {r : List (Item P)}
    (ih : ∀ (t : τ) (nl : Nat) (r : List (Item P)),
      Takes RS (E.counted.parseTextLoop m n t nl) r (TextQ E.cc m)) :
    Takes RS (E.counted.nextAccum >>= fun _ => E.counted.parseTextLoop m n t nl) (it :: r)
      fun o r' b => TextQ' E.cc m o r' (1 + b) := by
  refine (C.w_nextAccum (it :: r)).bind ?_ ?_
  · rintro v r' b (⟨_, rfl, rfl⟩ | ⟨hf, _⟩)
    · refine (ih _ _ _).mono fun o r'' c hc => ?_
      have := hc.after (c := 1 + -4) (by decide)
      simp only [reduceCtorEq, if_false]
      rwa [← Int.add_assoc]
    · exact absurd rfl (hf v)
  · rintro o r' b hf (⟨rfl, _⟩ | ⟨_, rfl, rfl⟩) o' hf'
    · exact absurd rfl (hf _)
    · exact TextQ'.fails hf' (by decide)

theorem Conf.w_textStep {m : Mode} {n : Nat} {t : τ} {nl : Nat} {it : Item P} {r : List (Item P)}
    (ih : ∀ (t : τ) (nl : Nat) (r : List (Item P)),
      Takes RS (E.counted.parseTextLoop m n t nl) r (TextQ E.cc m)) :
    Takes RS (E.counted.parseTextLoop m (n + 1) t nl) (it :: r) fun o r' b =>
      TextQ' E.cc m o r' b ∨
      (nl = 0 ∧ (isEndChar E.cc m it.ch = true ∨ E.cc.isNestEnd it.ch = true) ∧ TextQ E.cc m o r' b) := by
  refine (C.w_peek (it :: r)).bind ?_ ?_
  rotate_left
  · rintro o r' b hf ⟨rfl, _⟩; exact absurd rfl (hf _)
  rintro v r' b ⟨h, rfl, rfl⟩
  cases h
  simp only [List.head?_cons]
  split
  · next hend =>
    refine (C.w_finishText t nl (it :: r)).mono ?_
    rintro o r' b ⟨rfl, hb⟩
    exact Or.inr ⟨hend.1, Or.inl hend.2, fun _ => by omega, fun _ _ => Or.inl (by omega)⟩
  · next hend =>
    split
    · -- escape
      refine (C.w_concatAccum t (it :: r)).bind (Q' := fun o r' b => _ ∨ _) ?_ ?_
      rotate_left
      · rintro o r' b hf ⟨rfl, rfl⟩ o' hf'
        exact Or.inl (TextQ'.fails hf' (by decide))
      rintro t' r' b ⟨rfl, rfl⟩
      refine (C.w_next (it :: r)).bind (Q' := fun o r' b => _ ∨ _) ?_ ?_
      rotate_left
      · rintro o r' b hf ⟨rfl, _⟩; exact absurd rfl (hf _)
      rintro v r b ⟨_, rfl, rfl⟩
      refine (C.w_nextAccum r).bind (Q' := fun o r' b => _ ∨ _) ?_ ?_
      · rintro v r' b (⟨_, rfl, rfl⟩ | ⟨hf, _⟩)
        · cases r with
          | nil =>
            refine (ih _ _ _).suffix.mono fun o r'' c hc => Or.inl ?_
            obtain rfl : r'' = [] := by simpa using hc.2
            simp only [reduceCtorEq, if_false, if_true]
            refine ⟨fun hf => ?_, fun t ht => ?_⟩
            · have := hc.1.1 hf; omega
            · rcases hc.1.2 t ht with h | ⟨_, _, _, _, h, _⟩
              · exact Or.inr (Or.inr ⟨by omega, rfl⟩)
              · cases h
          | cons x r =>
            refine (ih _ _ _).mono fun o r'' c hc => Or.inl ?_
            have := hc.after (c := 1 + (1 + (-4 + -4))) (by decide)
            simp only [reduceCtorEq, if_false]
            rwa [Int.add_assoc, Int.add_assoc, Int.add_assoc] at this
        · exact absurd rfl (hf v)
      · rintro o r' b hf (⟨rfl, _⟩ | ⟨_, rfl, rfl⟩) o' hf'
        · exact absurd rfl (hf _)
        · exact Or.inl (TextQ'.fails hf' (by simp))
    · split
      · exact (C.w_loopStep ih).mono fun _ _ _ h => Or.inl h
      · next hns =>
        split
        · next hne =>
          split
          · exact (C.w_loopStep ih).mono fun _ _ _ h => Or.inl h
          · next hnl =>
            have hnl : nl = 0 := by omega
            refine (C.w_checkEndChar it r).bind (Q' := fun o r' b => _ ∨ _) ?_ ?_
            · rintro v r' b (⟨_, rfl, rfl⟩ | ⟨hf, _⟩)
              · refine (C.w_finishText t nl (it :: r)).mono ?_
                rintro o r' b ⟨rfl, hb⟩
                refine Or.inr ⟨hnl, Or.inr hne, fun _ => by omega, fun _ _ => Or.inr ⟨by omega, ?_, it, r, rfl, (Bool.not_eq_true _).mp hns, hne⟩⟩
                cases m with
                | base => rfl
                | operator => exact absurd ⟨hnl, by simp [isEndChar, hne]⟩ hend
                | operands => exact absurd ⟨hnl, by simp [isEndChar, hne]⟩ hend
              · exact absurd rfl (hf v)
            · rintro o r' b hf (⟨⟨v, rfl⟩, _⟩ | ⟨_, hb⟩) o' hf'
              · exact absurd rfl (hf _)
              · exact Or.inl (TextQ'.fails hf' (by omega))
        · exact (C.w_loopStep ih).mono fun _ _ _ h => Or.inl h

theorem Conf.w_textLoop (m : Mode) (n : Nat) : ∀ (t : τ) (nl : Nat) (r : List (Item P)),
    Takes RS (E.counted.parseTextLoop m n t nl) r (TextQ E.cc m) := by
  induction n with
  | zero => exact fun t nl r => Takes.out _ ⟨fun _ => by decide, fun t h => by cases h⟩
  | succ n ih =>
    intro t nl r
    cases r with
    | nil =>
      refine (C.w_peek []).bind ?_ ?_
      · rintro v r' b ⟨h, rfl, rfl⟩
        cases h
        refine (C.w_finishText t nl []).mono ?_
        rintro o r' b ⟨rfl, hb⟩
        exact ⟨fun _ => by omega, fun _ _ => Or.inl (by omega)⟩
      · rintro o r' b hf ⟨rfl, _⟩; exact absurd rfl (hf _)
    | cons it r =>
      refine (C.w_textStep ih).mono ?_
      rintro o r' b (h | ⟨_, _, h⟩)
      · exact h.weaken
      · exact h

theorem Conf.w_parseText {m : Mode} {n : Nat} {it : Item P} {r : List (Item P)}
    (h1 : isEndChar E.cc m it.ch = false) (h2 : E.cc.isNestEnd it.ch = false) :
    Takes RS (E.counted.parseText n m) (it :: r) (TextQ' E.cc m) := by
  unfold Env.parseText
  cases n with
  | zero => exact Takes.out _ (TextQ'.fails (by simp [Outcome.Fails]) (by decide))
  | succ n =>
    refine (C.w_textStep (C.w_textLoop m n)).mono ?_
    rintro o r' b (h | ⟨_, h | h, _⟩)
    · exact h
    · rw [h1] at h; cases h
    · rw [h2] at h; cases h

theorem Conf.w_nestEnd (r : List (Item P)) :
    Takes RS E.counted.nestEnd r fun o _ b => (o.Fails → b ≤ 1) ∧ (∀ v, o = .ok v → b ≤ -4 ∧ r ≠ []) := by
  refine (C.w_next r).bind ?_ ?_
  · rintro v r' b ⟨h, rfl, rfl⟩
    cases h
    cases r with
    | nil => exact Takes.out _ ⟨fun _ => by simp, fun v h => (by cases h)⟩
    | cons it r =>
      refine (Takes.still (x := Act.debugAssert _) (fun s => ?_)).mono ?_
      · simp only [Act.debugAssert]; split <;> rfl
      · rintro o r' b ⟨rfl, rfl⟩
        simp
  · rintro o r' b hf ⟨rfl, _⟩; exact absurd rfl (hf _)

theorem Conf.w_skipSeparator (r : List (Item P)) :
    Takes RS E.counted.skipSeparator r fun o _ b => b ≤ 1 ∧ ∃ v, o = .ok v := by
  refine (C.w_peek r).bind ?_ ?_
  · rintro v r b ⟨h, rfl, rfl⟩
    cases h
    cases r with
    | nil => exact Takes.out _ ⟨by decide, _, rfl⟩
    | cons it r =>
      simp only [List.head?_cons]
      split
      · refine (C.w_next (it :: r)).bind ?_ ?_
        · rintro v r' b ⟨_, rfl, rfl⟩
          exact Takes.out _ ⟨by simp, _, rfl⟩
        · rintro o r' b hf ⟨rfl, _⟩; exact absurd rfl (hf _)
      · exact Takes.out _ ⟨by decide, _, rfl⟩
  · rintro o r' b hf ⟨rfl, _⟩; exact absurd rfl (hf _)

theorem Conf.w_skipLeading (n : Nat) (m : Mode) (r : List (Item P)) :
    Takes RS (E.counted.skipLeading n m) r fun o r' b =>
      b ≤ (if m = .operator then 1 else 0) ∧ (m ≠ .operator → r' = r) ∧
      (m = .operator → ∀ v, o = .ok v → ∀ it, r'.head? = some it → E.cc.isWhitespace it.ch = false) := by
  unfold Env.skipLeading
  split
  · next h => exact (C.w_skipWhitespace n r).mono fun o r' b hb => ⟨hb.1, fun h' => absurd h h', fun _ => hb.2⟩
  · next h => exact Takes.out _ ⟨by decide, fun _ => rfl, fun h' => absurd h' h⟩

omit C in
theorem Takes.inDepth {x : Act (St (σ × Nat) α) (Err P CE) A} {r : List (Item P)} {Q} (hx : Takes RS x r Q)
    (hQ : ∀ o r' b, Q o r' b → Q .panic r' b) : Takes RS (Env.nestedInDepth x) r Q := by
  intro s hs
  obtain ⟨o, s', r', b, h1, h2, h3, h4⟩ := hx { s with ndepth := s.ndepth + 1 } hs
  unfold Env.nestedInDepth
  rw [h1]
  dsimp only
  split
  · exact ⟨.panic, s', r', b, rfl, h2, h3, hQ _ _ _ h4⟩
  · exact ⟨o, _, r', b, rfl, h2, h3, h4⟩

/-- What `parse_next` takes. -/
def NextQ (cc : Classifier) (m : Mode) (r : List (Item P)) (o : Outcome (Err P CE) (Option (Datum τ ε)))
    (r' : List (Item P)) (b : Int) : Prop :=
  match m with
  | .operator => (o.Fails → b ≤ 5) ∧ (o = .ok none → b ≤ 3) ∧ ∀ d, o = .ok (some d) → b ≤ 1 ∨ (b ≤ 3 ∧ r' = [])
  | _ => (o.Fails → b ≤ 4) ∧ (o = .ok none → b ≤ 2) ∧
    (∀ d, o = .ok (some d) → b ≤ 0 ∨ (b ≤ 1 ∧ EndFirst cc r') ∨ (b ≤ 2 ∧ r' = [])) ∧
    (r = [] → b ≤ 1 ∧ ∀ d, o ≠ .ok (some d)) ∧ (EndFirst cc r → b ≤ 2 ∧ ∀ d, o ≠ .ok (some d))

/-- What `parse_nested` takes. -/
def NestedQ (o : Outcome (Err P CE) (Option (Datum τ ε))) (b : Int) : Prop :=
  b ≤ 3 ∧ ∀ d, o = .ok d → b ≤ -3

/-- What `parse_all` takes. -/
def AllQ (cc : Classifier) (r : List (Item P)) (o : Outcome (Err P CE) (Datum τ ε)) (b : Int) : Prop :=
  b ≤ 4 ∧ (∀ d, o = .ok d → b ≤ 3) ∧ (r = [] → b ≤ 1) ∧ (EndFirst cc r → b ≤ 2)

omit C in
theorem NextQ.fails {cc : Classifier} {m : Mode} (hm : m ≠ .operands) {r r' : List (Item P)}
    {o : Outcome (Err P CE) (Option (Datum τ ε))} {b : Int} (hf : o.Fails)
    (hb : b ≤ (if m = .operator then 1 else 0) + 4) (h0 : m = .base → r = [] → b ≤ 1)
    (he : m = .base → EndFirst cc r → b ≤ 2) : NextQ cc m r o r' b := by
  cases m with
  | base => exact ⟨fun _ => by simpa using hb, fun h => absurd h (hf _), fun _ h => absurd h (hf _),
      fun h => ⟨h0 rfl h, fun _ => hf _⟩, fun h => ⟨he rfl h, fun _ => hf _⟩⟩
  | operator => exact ⟨fun _ => by simpa using hb, fun h => absurd h (hf _), fun _ h => absurd h (hf _)⟩
  | operands => exact absurd rfl hm

omit C in
theorem NextQ.after {cc : Classifier} {m : Mode} (hm : m ≠ .operands) {r r₁ r' : List (Item P)}
    {o : Outcome (Err P CE) (Option (Datum τ ε))} {b c : Int} (h : NextQ cc m r₁ o r' b)
    (hc : c ≤ -1) (h0 : m = .base → r ≠ []) (he : m = .base → ¬ EndFirst cc r) : NextQ cc m r o r' (c + b) := by
  cases m with
  | base =>
    obtain ⟨h1, h2, h3, _, _⟩ := h
    refine ⟨fun hf => ?_, fun hn => ?_, fun d hd => ?_, fun h => absurd h (h0 rfl), fun h => absurd h (he rfl)⟩
    · have := h1 hf; omega
    · have := h2 hn; omega
    · rcases h3 d hd with h | ⟨h, h'⟩ | ⟨h, h'⟩
      · exact Or.inl (by omega)
      · exact Or.inr (Or.inl ⟨by omega, h'⟩)
      · exact Or.inr (Or.inr ⟨by omega, h'⟩)
  | operator =>
    obtain ⟨h1, h2, h3⟩ := h
    refine ⟨fun hf => ?_, fun hn => ?_, fun d hd => ?_⟩
    · have := h1 hf; omega
    · have := h2 hn; omega
    · rcases h3 d hd with h | ⟨h, h'⟩
      · exact Or.inl (by omega)
      · exact Or.inr ⟨by omega, h'⟩
  | operands => exact absurd rfl hm

theorem Conf.w_next_step {n : Nat} (m : Mode) (r : List (Item P)) (hm : m ≠ .operands)
    (hnext : ∀ r, Takes RS (E.counted.parseNext n m) r (NextQ E.cc m r))
    (hnest : ∀ r, r ≠ [] → Takes RS (E.counted.parseNested n) r fun o _ b => NestedQ o b) :
    Takes RS (E.counted.parseNext (n + 1) m) r (NextQ E.cc m r) := by
  unfold Env.parseNext
  refine (C.w_skipLeading n m r).bind ?_ ?_
  rotate_left
  · rintro o r' b hf ⟨hb, _, _⟩ o' hf'
    refine NextQ.fails hm hf' (by omega) ?_ ?_
    · rintro rfl; simp at hb; omega
    · rintro rfl; simp at hb; omega
  rintro _ r₁ b₁ ⟨hb₁, hr₁, hw₁⟩
  refine (C.w_peek r₁).bind ?_ ?_
  rotate_left
  · rintro o r' b hf ⟨rfl, _⟩; exact absurd rfl (hf _)
  rintro v r₁ b ⟨h, rfl, rfl⟩
  cases h
  cases r₁ with
  | nil =>
    refine (Takes.still (x := Env.getDepth) (fun s => rfl)).bind ?_ ?_
    · rintro d r' b ⟨rfl, rfl⟩
      split
      · refine Takes.out _ ?_
        cases m with
        | base =>
          simp at hb₁
          exact ⟨fun _ => by omega, fun _ => by omega, fun _ h => (by cases h), fun _ => ⟨by omega, fun _ h => (by cases h)⟩,
            fun _ => ⟨by omega, fun _ h => (by cases h)⟩⟩
        | operator =>
          simp at hb₁
          exact ⟨fun _ => by omega, fun _ => by omega, fun _ h => (by cases h)⟩
        | operands => exact absurd rfl hm
      · refine Takes.out _ (NextQ.fails hm (by simp [Outcome.Fails]) (by omega) ?_ ?_)
        · rintro rfl; simp at hb₁; omega
        · rintro rfl; simp at hb₁; omega
    · rintro o r' b hf ⟨rfl, rfl⟩ o' hf'
      refine NextQ.fails hm hf' (by omega) ?_ ?_
      · rintro rfl; simp at hb₁; omega
      · rintro rfl; simp at hb₁; omega
  | cons it r₂ =>
    have hne : m = .base → r ≠ [] := by rintro rfl rfl; cases hr₁ (by decide)
    have hbase : m = .base → r = it :: r₂ := by rintro rfl; exact (hr₁ (by decide)).symm
    have hb₁' : b₁ ≤ 1 := by split at hb₁ <;> omega
    simp only [List.head?_cons]
    split
    · next hs =>
      have hs : E.cc.isNestStart it.ch = true := hs
      have hend : m = .base → ¬ EndFirst E.cc r := by
        rintro h ⟨it', r', h', h2, _⟩
        rw [hbase h] at h'; cases h'; rw [hs] at h2; cases h2
      refine ((hnest (it :: r₂) (by simp)).inDepth ?_).bind ?_ ?_
      · rintro o r' b ⟨h, _⟩; exact ⟨h, fun _ h => (by cases h)⟩
      · rintro v r' b ⟨_, h⟩
        have := h _ rfl
        cases v with
        | none =>
          refine (hnext r').mono fun o r'' c hc => ?_
          have := hc.after hm (c := b₁ + (1 + b)) (by omega) hne hend
          rwa [Int.add_assoc, Int.add_assoc] at this
        | some d =>
          refine Takes.out _ ?_
          cases m with
          | base => exact ⟨fun _ => by omega, fun h => (by cases h), fun _ _ => Or.inl (by omega),
              fun h => absurd h (hne rfl), fun h => absurd h (hend rfl)⟩
          | operator => exact ⟨fun _ => by omega, fun h => (by cases h), fun _ _ => Or.inl (by omega)⟩
          | operands => exact absurd rfl hm
      · rintro o r' b hf ⟨h, _⟩ o' hf'
        exact NextQ.fails hm hf' (by omega) (fun h h' => absurd h' (hne h)) (fun h h' => absurd h' (hend h))
    · split
      · refine (C.w_checkEndChar it r₂).bind ?_ ?_
        · rintro v r' b (⟨_, rfl, rfl⟩ | ⟨hf, _⟩)
          · refine Takes.out _ ?_
            cases m with
            | base =>
              simp at hb₁
              exact ⟨fun _ => by omega, fun _ => by omega, fun _ h => (by cases h), fun h => absurd h (hne rfl),
                fun _ => ⟨by omega, fun _ h => (by cases h)⟩⟩
            | operator =>
              simp at hb₁
              exact ⟨fun _ => by omega, fun _ => by omega, fun _ h => (by cases h)⟩
            | operands => exact absurd rfl hm
          · exact absurd rfl (hf v)
        · rintro o r' b hf (⟨⟨v, rfl⟩, _⟩ | ⟨_, hb⟩) o' hf'
          · exact absurd rfl (hf _)
          · refine NextQ.fails hm hf' (by omega) (fun h h' => absurd h' (hne h)) ?_
            rintro rfl; simp at hb₁; omega
      · next hns hnE =>
        have hns : E.cc.isNestStart it.ch = false := (Bool.not_eq_true _).mp hns
        have hnE : E.cc.isNestEnd it.ch = false := (Bool.not_eq_true _).mp hnE
        have hend : m = .base → ¬ EndFirst E.cc r := by
          rintro h ⟨it', r', h', _, h2⟩
          rw [hbase h] at h'; cases h'; rw [hnE] at h2; cases h2
        have hstop : isEndChar E.cc m it.ch = false := by
          cases m with
          | base => exact hns
          | operator => simp [isEndChar, hns, hnE, hw₁ rfl _ rfl it rfl]
          | operands => exact absurd rfl hm
        refine (C.w_parseText hstop hnE).bind ?_ ?_
        · rintro t r' b ⟨_, h⟩
          refine Takes.out _ ?_
          cases m with
          | base =>
            simp at hb₁
            refine ⟨fun h => absurd rfl (h _), fun h => (by cases h), fun _ _ => ?_, fun h => absurd h (hne rfl),
              fun h => absurd h (hend rfl)⟩
            rcases h t rfl with h | ⟨h, _, h'⟩ | ⟨h, h'⟩
            · exact Or.inl (by omega)
            · exact Or.inr (Or.inl ⟨by omega, h'⟩)
            · exact Or.inr (Or.inr ⟨by omega, h'⟩)
          | operator =>
            refine ⟨fun h => absurd rfl (h _), fun h => (by cases h), fun _ _ => ?_⟩
            rcases h t rfl with h | ⟨_, h, _⟩ | ⟨h, h'⟩
            · exact Or.inl (by omega)
            · cases h
            · exact Or.inr ⟨by omega, h'⟩
          | operands => exact absurd rfl hm
        · rintro o r' b hf ⟨h, _⟩ o' hf'
          have := h hf
          exact NextQ.fails hm hf' (by omega) (fun h h' => absurd h' (hne h)) (fun h h' => absurd h' (hend h))

/-- The end of a nest. -/
theorem Conf.w_close {f : Unit → Act (St (σ × Nat) α) (Err P CE) (Option (Datum τ ε))}
    (hf : ∀ v s, (f v s).2.strm = s.strm) {r : List (Item P)} {c : Int} (hc : c ≤ 1 ∨ (c ≤ 2 ∧ r = [])) :
    Takes RS (E.counted.nestEnd >>= f) r fun o _ b => NestedQ o (c + b) := by
  refine (C.w_nestEnd r).bind ?_ ?_
  · rintro v r' b ⟨_, h⟩
    have h1 := h v rfl
    refine (Takes.still (hf v)).mono ?_
    rintro o r'' b' ⟨rfl, rfl⟩
    rcases hc with h2 | ⟨_, h2⟩
    · exact ⟨by omega, fun _ _ => by omega⟩
    · exact absurd h2 h1.2
  · rintro o r' b ho ⟨h, _⟩ o' ho'
    have := h ho
    exact ⟨by omega, fun _ h => absurd h (ho' _)⟩

omit C in
theorem bind_strm {x : Act (St σ α) (Err P CE) A} {f : A → Act (St σ α) (Err P CE) B}
    (hx : ∀ s, (x s).2.strm = s.strm) (hf : ∀ v s, (f v s).2.strm = s.strm) (s : St σ α) :
    ((x >>= f) s).2.strm = s.strm := by
  show (Act.bind x f s).2.strm = _
  have h := hx s
  unfold Act.bind
  generalize x s = y at h ⊢
  obtain ⟨_ | _ | _ | _, s'⟩ := y
  · exact (hf _ _).trans h
  all_goals exact h

theorem Conf.w_nested_step {n : Nat} (r : List (Item P)) (hr : r ≠ [])
    (hnext : ∀ r, Takes RS (E.counted.parseNext n .operator) r (NextQ E.cc .operator r))
    (hall : ∀ r, Takes RS (E.counted.parseAll n .base []) r fun o _ b => AllQ E.cc r o b) :
    Takes RS (E.counted.parseNested (n + 1)) r fun o _ b => NestedQ o b := by
  unfold Env.parseNested
  refine (C.w_next r).bind ?_ ?_
  rotate_left
  · rintro o r' b hf ⟨rfl, _⟩; exact absurd rfl (hf _)
  rintro v r₁ b ⟨_, rfl, rfl⟩
  rw [if_neg hr]
  refine (Takes.still (x := Act.debugAssert _) (fun s => ?_)).bind ?_ ?_
  · simp only [Act.debugAssert]; split <;> rfl
  rotate_left
  · rintro o r' b hf ⟨rfl, rfl⟩ o' hf'
    exact ⟨by decide, fun _ h => absurd h (hf' _)⟩
  rintro _ r' b ⟨rfl, rfl⟩
  refine (hnext _).bind ?_ ?_
  rotate_left
  · rintro o r' b hf ⟨h, _⟩ o' hf'
    have := h hf
    exact ⟨by omega, fun _ h => absurd h (hf' _)⟩
  rintro op r₁ b₁ ⟨_, hn, hs⟩
  refine (C.w_skipSeparator r₁).suffix.bind ?_ ?_
  rotate_left
  · rintro o r' b hf ⟨⟨_, v, rfl⟩, _⟩; exact absurd rfl (hf _)
  rintro _ r₂ b₂ ⟨⟨hb₂, _⟩, hsuf⟩
  cases op with
  | none =>
    have := hn rfl
    refine (C.w_close (c := -4 + (0 + (b₁ + b₂))) (fun _ _ => rfl) (Or.inl (by omega))).mono fun o r' b h => ?_
    rwa [Int.add_assoc, Int.add_assoc, Int.add_assoc] at h
  | some op =>
    have hs := hs op rfl
    have hall' : ∀ {f : Datum τ ε → Unit → Act (St (σ × Nat) α) (Err P CE) (Option (Datum τ ε))},
        (∀ d v s, (f d v s).2.strm = s.strm) →
        Takes RS (E.counted.parseAll n .base [] >>= fun d => E.counted.nestEnd >>= f d) r₂
          fun o _ b => NestedQ o (-4 + (0 + (b₁ + (b₂ + b)))) := by
      intro f hf
      refine (hall r₂).suffix.bind ?_ ?_
      · rintro d r₃ b₃ ⟨⟨h1, h2, h3, h4⟩, hsuf'⟩
        have := h2 d rfl
        refine (C.w_close (c := -4 + (0 + (b₁ + (b₂ + b₃)))) (hf d) ?_).mono fun o r' b h => ?_
        · rcases hs with h | ⟨h, rfl⟩
          · exact Or.inl (by omega)
          · obtain rfl : r₂ = [] := by simpa using hsuf
            have := h3 rfl
            exact Or.inl (by omega)
        · rwa [Int.add_assoc, Int.add_assoc, Int.add_assoc, Int.add_assoc] at h
      · rintro o r' b hf' ⟨⟨h1, _, h3, _⟩, _⟩ o' hf''
        refine ⟨?_, fun _ h => absurd h (hf'' _)⟩
        rcases hs with h | ⟨h, rfl⟩
        · omega
        · obtain rfl : r₂ = [] := by simpa using hsuf
          have := h3 rfl
          omega
    dsimp only
    split
    · refine (C.w_textLoop .operands n E.text.empty 0 r₂).suffix.bind ?_ ?_
      · rintro t r₃ b₃ ⟨⟨_, h⟩, hsuf'⟩
        refine (C.w_close (c := -4 + (0 + (b₁ + (b₂ + b₃)))) (fun _ _ => rfl) ?_).mono fun o r' b h => ?_
        · rcases h t rfl with h | ⟨_, h, _⟩
          · rcases hs with h' | ⟨h', rfl⟩
            · exact Or.inl (by omega)
            · obtain rfl : r₂ = [] := by simpa using hsuf
              obtain rfl : r₃ = [] := by simpa using hsuf'
              exact Or.inr ⟨by omega, rfl⟩
          · cases h
        · rwa [Int.add_assoc, Int.add_assoc, Int.add_assoc, Int.add_assoc] at h
      · rintro o r' b hf' ⟨⟨h1, _⟩, _⟩ o' hf''
        have := h1 hf'
        refine ⟨?_, fun _ h => absurd h (hf'' _)⟩
        rcases hs with h | ⟨h, rfl⟩ <;> omega
    · exact hall' fun _ _ _ => rfl
    · refine hall' fun d v s => ?_
      exact bind_strm (fun _ => rfl) (fun _ => bind_strm (fun _ => rfl) fun _ _ => rfl) s

omit C in
theorem Conf.w_all_step {n : Nat} (r : List (Item P)) (acc : List (Datum τ ε))
    (hnext : ∀ r, Takes RS (E.counted.parseNext n .base) r (NextQ E.cc .base r))
    (hall : ∀ acc r, Takes RS (E.counted.parseAll n .base acc) r fun o _ b => AllQ E.cc r o b) :
    Takes RS (E.counted.parseAll (n + 1) .base acc) r fun o _ b => AllQ E.cc r o b := by
  unfold Env.parseAll
  refine (hnext r).bind ?_ ?_
  · rintro v r' b ⟨_, hn, hs, h0, he⟩
    cases v with
    | none =>
      have := hn rfl
      exact Takes.out _ ⟨by omega, fun _ _ => by omega, fun h => by have := (h0 h).1; omega,
        fun h => by have := (he h).1; omega⟩
    | some d =>
      have hr : r ≠ [] := fun h => (h0 h).2 d rfl
      have hr' : ¬ EndFirst E.cc r := fun h => (he h).2 d rfl
      have hb : b ≤ 2 := by
        rcases hs d rfl with h | ⟨h, _⟩ | ⟨h, _⟩ <;> omega
      dsimp only
      refine (Takes.still (x := Env.newDatum _ _) (fun s => rfl)).bind ?_ ?_
      · rintro _ r' c ⟨rfl, rfl⟩
        refine (Takes.still (x := Env.newDatum _ _) (fun s => rfl)).bind ?_ ?_
        · rintro _ r' c ⟨rfl, rfl⟩
          refine (Takes.still (x := Env.getMutFresh _) (fun s => rfl)).bind ?_ ?_
          · rintro _ r' c ⟨rfl, rfl⟩
            split
            · refine (hall _ _).mono ?_
              rintro o r'' c ⟨h1, h2, h3, h4⟩
              rcases hs d rfl with h | ⟨h, h5⟩ | ⟨h, h5⟩
              · refine ⟨by omega, fun d hd => ?_, fun h => absurd h hr, fun h => absurd h hr'⟩
                have := h2 d hd; omega
              · have := h4 h5
                exact ⟨by omega, fun d hd => by omega, fun h => absurd h hr, fun h => absurd h hr'⟩
              · have := h3 h5
                exact ⟨by omega, fun d hd => by omega, fun h => absurd h hr, fun h => absurd h hr'⟩
            · exact Takes.out _ ⟨by omega, fun _ h => (by cases h), fun h => absurd h hr, fun h => absurd h hr'⟩
          · rintro o _ _ hf ⟨rfl, rfl⟩ o' hf'
            exact ⟨by omega, fun _ h => absurd h (hf' _), fun h => absurd h hr, fun h => absurd h hr'⟩
        · rintro o _ _ hf ⟨rfl, rfl⟩ o' hf'
          exact ⟨by omega, fun _ h => absurd h (hf' _), fun h => absurd h hr, fun h => absurd h hr'⟩
      · rintro o _ _ hf ⟨rfl, rfl⟩ o' hf'
        exact ⟨by omega, fun _ h => absurd h (hf' _), fun h => absurd h hr, fun h => absurd h hr'⟩
  · rintro o r' b hf ⟨h1, _, _, h0, he⟩ o' hf'
    exact ⟨h1 hf, fun _ h => absurd h (hf' _), fun h => (h0 h).1, fun h => (he h).1⟩

theorem Conf.w_parse (n : Nat) :
    (∀ m, m ≠ .operands → ∀ r, Takes RS (E.counted.parseNext n m) r (NextQ E.cc m r)) ∧
    (∀ r, r ≠ [] → Takes RS (E.counted.parseNested n) r fun o _ b => NestedQ o b) ∧
    (∀ acc r, Takes RS (E.counted.parseAll n .base acc) r fun o _ b => AllQ E.cc r o b) := by
  induction n with
  | zero =>
    refine ⟨fun m hm r => ?_, fun r hr => ?_, fun acc r => ?_⟩
    · unfold Env.parseNext
      exact Takes.out _ (NextQ.fails hm (by simp [Outcome.Fails]) (by split <;> omega) (fun _ _ => by omega) (fun _ _ => by omega))
    · unfold Env.parseNested
      exact Takes.out _ ⟨by decide, fun _ h => (by cases h)⟩
    · unfold Env.parseAll
      exact Takes.out _ ⟨by decide, fun _ h => (by cases h), fun _ => by decide, fun _ => by decide⟩
  | succ n ih =>
    obtain ⟨ih1, ih2, ih3⟩ := ih
    exact ⟨fun m hm r => C.w_next_step m r hm (ih1 m hm) ih2,
      fun r hr => C.w_nested_step r hr (ih1 _ (by decide)) (ih3 []),
      fun acc r => Conf.w_all_step r acc (ih1 _ (by decide)) ih3⟩

/-- One call of the parser, in any state. -/
theorem Conf.work_call {t o t' r} (hr : Rem RS t r) (h : E.counted.Call t o t') :
    ∃ r', Rem RS t' r' ∧ Within t r 4 t' r' := by
  obtain ⟨n, h1, _⟩ := h
  obtain ⟨o', s', r', b, h2, h3, h4, h5⟩ := (C.w_parse n).1 .base (by decide) r t hr
  change E.counted.parseNext n .base t = _ at h1
  rw [h1] at h2; cases h2
  refine ⟨r', h3, h4.mono ?_⟩
  obtain ⟨q1, q2, q3, _, _⟩ := h5
  rcases o with (_ | d) | e | _ | _
  · have := q2 rfl; omega
  · rcases q3 d rfl with h | ⟨h, _⟩ | ⟨h, _⟩ <;> omega
  all_goals exact q1 (by simp [Outcome.Fails])

/-- A history of calls. -/
theorem Conf.work_calls {t os t'} (h : E.counted.Calls t os t') : ∀ {r}, Rem RS t r →
    ∃ r', Rem RS t' r' ∧ Within t r (4 * os.length) t' r' := by
  induction h with
  | nil => exact fun hr => ⟨_, hr, by simpa using Within.refl _ _⟩
  | cons h1 _ ih =>
    intro r hr
    obtain ⟨r₁, h2, h3⟩ := C.work_call hr h1
    obtain ⟨r₂, h4, h5⟩ := ih h2
    exact ⟨r₂, h4, (h3.trans h5).mono (by simp; omega)⟩

end

end Kul
