import Verif.Spec.StreamWork
import Verif.Proof.Work

/-!
# How often the parser peeks at the end of its source

`EndTakes RS x r Q`: `x`, with `r` left to read, peeks `b` times at the end of the source, where `Q o r' b` for its
outcome `o` and what is left `r'`; and not at all if something is left.
-/

namespace Kul

variable {σ P τ ε α CE : Type} {E : Env σ P τ ε α CE} {RS : σ → Seq P → Prop} {X : TextSem P τ α}
  {N : StreamSteps σ α}

/-- The items `r` are left to read. -/
def RemM (RS : σ → Seq P → Prop) (s : St (Meter σ) α) (r : List (Item P)) : Prop :=
  ∃ p, RS s.strm.strm ⟨p, r⟩

/-- From `s` to `s'`, there are `b` peeks at the end of the source. -/
def EndPeeks (s : St (Meter σ) α) (r : List (Item P)) (b : Nat) (s' : St (Meter σ) α) (r' : List (Item P)) : Prop :=
  s'.strm.atEnd = s.strm.atEnd + b ∧ r' <:+ r ∧ (r' ≠ [] → b = 0)

theorem EndPeeks.trans {s s₁ s₂ : St (Meter σ) α} {r r₁ r₂ : List (Item P)} {b c : Nat}
    (h : EndPeeks s r b s₁ r₁) (h' : EndPeeks s₁ r₁ c s₂ r₂) : EndPeeks s r (b + c) s₂ r₂ := by
  refine ⟨by have := h.1; have := h'.1; omega, h'.2.1.trans h.2.1, fun hr => ?_⟩
  have h1 := h'.2.2 hr
  have h2 := h.2.2 (by rintro rfl; exact hr (by simpa using h'.2.1))
  omega

/-- `x` peeks at the end of the source as often as `Q` says. -/
def EndTakes {A : Type} (RS : σ → Seq P → Prop) (x : Act (St (Meter σ) α) (Err P CE) A) (r : List (Item P))
    (Q : Outcome (Err P CE) A → List (Item P) → Nat → Prop) : Prop :=
  ∀ s, RemM RS s r → ∃ o s' r' b, x s = (o, s') ∧ RemM RS s' r' ∧ EndPeeks s r b s' r' ∧ Q o r' b

variable {A B : Type}

theorem EndTakes.bind {x : Act (St (Meter σ) α) (Err P CE) A} {f : A → Act (St (Meter σ) α) (Err P CE) B}
    {r : List (Item P)} {Q Q'} (hx : EndTakes RS x r Q)
    (hok : ∀ v r' b, Q (.ok v) r' b → (r' ≠ [] → b = 0) → r' <:+ r → EndTakes RS (f v) r' fun o r'' c => Q' o r'' (b + c))
    (herr : ∀ o r' b, o.Fails → Q o r' b → (r' ≠ [] → b = 0) → r' <:+ r → ∀ o', Outcome.Fails o' → Q' o' r' b) :
    EndTakes RS (x >>= f) r Q' := by
  intro s hs
  obtain ⟨o, s₁, r₁, b, h1, h2, h3, h4⟩ := hx s hs
  cases o with
  | ok v =>
    obtain ⟨o', s₂, r₂, c, h5, h6, h7, h8⟩ := hok v r₁ b h4 h3.2.2 h3.2.1 s₁ h2
    exact ⟨o', s₂, r₂, b + c, by rw [← h5]; exact Act.bind_ok h1, h6, h3.trans h7, h8⟩
  | err e => exact ⟨.err e, s₁, r₁, b, Act.bind_err h1, h2, h3,
      herr _ _ _ (by simp [Outcome.Fails]) h4 h3.2.2 h3.2.1 _ (by simp [Outcome.Fails])⟩
  | panic =>
    refine ⟨.panic, s₁, r₁, b, ?_, h2, h3, herr _ _ _ (by simp [Outcome.Fails]) h4 h3.2.2 h3.2.1 _ (by simp [Outcome.Fails])⟩
    show Act.bind x f s = _
    unfold Act.bind; rw [h1]
  | fuel =>
    refine ⟨.fuel, s₁, r₁, b, ?_, h2, h3, herr _ _ _ (by simp [Outcome.Fails]) h4 h3.2.2 h3.2.1 _ (by simp [Outcome.Fails])⟩
    show Act.bind x f s = _
    unfold Act.bind; rw [h1]

theorem EndTakes.mono {x : Act (St (Meter σ) α) (Err P CE) A} {r : List (Item P)} {Q Q'} (hx : EndTakes RS x r Q)
    (h : ∀ o r' b, Q o r' b → (r' ≠ [] → b = 0) → r' <:+ r → Q' o r' b) : EndTakes RS x r Q' := fun s hs =>
  have ⟨o, s', r', b, h1, h2, h3, h4⟩ := hx s hs
  ⟨o, s', r', b, h1, h2, h3, h _ _ _ h4 h3.2.2 h3.2.1⟩

/-- An action that does not touch the stream. -/
theorem EndTakes.still {x : Act (St (Meter σ) α) (Err P CE) A} {r : List (Item P)}
    (h : ∀ s, (x s).2.strm = s.strm) : EndTakes RS x r fun _ r' b => r' = r ∧ b = 0 := by
  intro s hs
  refine ⟨(x s).1, (x s).2, r, 0, rfl, ?_, ?_, rfl, rfl⟩
  · unfold RemM; rw [h]; exact hs
  · unfold EndPeeks; rw [h]; exact ⟨rfl, List.suffix_refl r, fun _ => rfl⟩

theorem EndTakes.out (o : Outcome (Err P CE) A) {r : List (Item P)} {Q} (h : Q o r 0) :
    EndTakes RS (fun (s : St (Meter σ) α) => (o, s)) r Q := fun s hs =>
  ⟨o, s, r, 0, rfl, hs, ⟨rfl, List.suffix_refl r, fun _ => rfl⟩, h⟩

theorem EndTakes.inDepth {x : Act (St (Meter σ) α) (Err P CE) A} {r : List (Item P)} {Q} (hx : EndTakes RS x r Q)
    (hQ : ∀ o r' b, Q o r' b → Q .panic r' b) : EndTakes RS (Env.nestedInDepth x) r Q := by
  intro s hs
  obtain ⟨o, s', r', b, h1, h2, h3, h4⟩ := hx { s with ndepth := s.ndepth + 1 } hs
  unfold Env.nestedInDepth
  rw [h1]
  dsimp only
  split
  · exact ⟨.panic, s', r', b, rfl, h2, h3, hQ _ _ _ h4⟩
  · exact ⟨o, _, r', b, rfl, h2, h3, h4⟩

section

variable (C : Conf E RS X)
include C

theorem Conf.e_peek (r : List (Item P)) :
    EndTakes RS (E.metered N).peek r fun o r' b => o = .ok r.head? ∧ r' = r ∧ b = if r = [] then 1 else 0 := by
  rintro ⟨⟨s, k, l, n⟩, a, d⟩ ⟨p, hs⟩
  obtain ⟨s', h1, h2⟩ := C.peek s _ hs
  refine ⟨_, ⟨⟨s', k + 1, l + if r = [] then 1 else 0, n + N.peek s⟩, a, d⟩, r, _, ?_, ⟨p, h2⟩,
    ⟨rfl, List.suffix_refl r, fun h => by rw [if_neg h]⟩, rfl, rfl, rfl⟩
  simp only [Env.peek, liftEmpty, Env.metered, StreamOps.metered, h1]
  cases r <;> rfl

theorem Conf.e_next (r : List (Item P)) :
    EndTakes RS (E.metered N).next r fun o r' b => o = .ok r.head? ∧ r' = r.tail ∧ b = 0 := by
  rintro ⟨⟨s, k, l, n⟩, a, d⟩ ⟨p, hs⟩
  obtain ⟨s', h1, h2⟩ := C.next s _ hs
  refine ⟨_, ⟨⟨s', k + 1, l, n + N.next s⟩, a, d⟩, r.tail, _, ?_, ⟨_, h2⟩,
    ⟨rfl, List.tail_suffix r, fun _ => rfl⟩, rfl, rfl, rfl⟩
  simp only [Env.next, liftEmpty, Env.metered, StreamOps.metered, h1]
  rfl

theorem Conf.e_nextAccum (r : List (Item P)) :
    EndTakes RS (E.metered N).nextAccum r fun _ r' b => r'.length ≤ r.length ∧ b = 0 := by
  rintro ⟨⟨s, k, l, n⟩, a, d⟩ ⟨p, hs⟩
  obtain ⟨o, s', a', h1, _, ⟨rfl, h3⟩ | ⟨_, _, ⟨e, rfl⟩, h3⟩⟩ := C.nextAccum s _ a hs
  · refine ⟨.ok r.head?, ⟨⟨s', k + 1, l, n + N.nextAccum s a⟩, a', d⟩, r.tail, _, ?_, ⟨_, h3⟩,
      ⟨rfl, List.tail_suffix r, fun _ => rfl⟩, by simp, rfl⟩
    simp only [Env.nextAccum, liftAccum, Env.metered, StreamOps.metered, h1]
    rfl
  · refine ⟨.err (.failedAlloc e), ⟨⟨s', k + 1, l, n + N.nextAccum s a⟩, a', d⟩, r, _, ?_, ⟨_, h3⟩,
      ⟨rfl, List.suffix_refl r, fun _ => rfl⟩, Nat.le_refl _, rfl⟩
    simp only [Env.nextAccum, liftAccum, Env.metered, StreamOps.metered, h1]
    rfl

theorem Conf.e_concatAccum (t : τ) (r : List (Item P)) :
    EndTakes RS ((E.metered N).concatAccum t) r fun _ r' b => r' = r ∧ b = 0 := by
  refine EndTakes.bind (Q := fun _ r' b => r' = r ∧ b = 0) ?_ ?_ ?_
  · rintro ⟨⟨s, k, l, n⟩, a, d⟩ ⟨p, hs⟩
    obtain ⟨o, s', a', h1, _, h3, _⟩ := C.accumDone s _ a hs
    refine ⟨o.mapErr .failedAlloc, ⟨⟨s', k + 1, l, n + N.accumDone s⟩, a', d⟩, r, 0, ?_, ⟨_, h3⟩,
      ⟨rfl, List.suffix_refl r, fun _ => rfl⟩, rfl, rfl⟩
    simp only [liftAccum, Env.metered, StreamOps.metered, h1]
  · rintro v r' b ⟨rfl, rfl⟩ _ _
    exact (EndTakes.still (fun s => rfl)).mono (by rintro o r'' c ⟨rfl, rfl⟩ _ _; exact ⟨rfl, rfl⟩)
  · intro o r' b _ h _ _ o' _; exact h

theorem Conf.e_skipWhitespace (n : Nat) : ∀ (r : List (Item P)),
    EndTakes RS ((E.metered N).skipWhitespace n) r fun _ _ b => b ≤ 1 := by
  induction n with
  | zero => exact fun r => EndTakes.out _ (by decide)
  | succ n ih =>
    intro r
    refine (C.e_peek r).bind ?_ ?_
    · rintro v r b ⟨h, rfl, rfl⟩ _ _
      cases h
      cases r with
      | nil => exact EndTakes.out _ (by simp)
      | cons it r =>
        simp only [List.head?_cons]
        split
        · refine (C.e_next (it :: r)).bind ?_ ?_
          · rintro v r' b ⟨_, rfl, rfl⟩ _ _
            exact (ih _).mono fun o r'' c hc _ _ => by simpa using hc
          · rintro o r' b hf ⟨rfl, _⟩; exact absurd rfl (hf _)
        · exact EndTakes.out _ (by simp)
    · rintro o r' b hf ⟨rfl, _⟩; exact absurd rfl (hf _)

theorem Conf.e_checkEndChar (it : Item P) (r : List (Item P)) :
    EndTakes RS (E.metered N).checkEndChar (it :: r) fun _ _ b => b = 0 := by
  refine (C.e_peek (it :: r)).bind ?_ ?_
  rotate_left
  · rintro o r' b hf ⟨rfl, _⟩; exact absurd rfl (hf _)
  rintro v r' b ⟨h, rfl, rfl⟩ _ _
  refine (EndTakes.still (x := Act.debugAssert _) (fun s => ?_)).bind ?_ ?_
  · simp only [Act.debugAssert]; split <;> rfl
  · rintro v r' b ⟨rfl, rfl⟩ _ _
    refine (EndTakes.still (x := Env.getDepth) (fun s => rfl)).bind ?_ ?_
    · rintro d r' b ⟨rfl, rfl⟩ _ _
      split
      · exact EndTakes.out _ (by simp)
      · refine (C.e_next (it :: r)).bind ?_ ?_
        · rintro v r' b ⟨h, rfl, rfl⟩ _ _
          cases h
          exact EndTakes.out _ (by simp)
        · rintro o r' b hf ⟨rfl, _⟩; exact absurd rfl (hf _)
    · rintro o r' b hf ⟨rfl, rfl⟩ _ _ o' hf'; simp
  · rintro o r' b hf ⟨rfl, rfl⟩ _ _ o' hf'; simp

theorem Conf.e_finishText (t : τ) (nl : Nat) (r : List (Item P)) :
    EndTakes RS ((E.metered N).finishText t nl) r fun _ r' b => r' = r ∧ b = 0 := by
  unfold Env.finishText
  split
  · exact C.e_concatAccum t r
  · exact EndTakes.out _ ⟨rfl, rfl⟩

theorem Conf.e_textLoop (m : Mode) (n : Nat) : ∀ (t : τ) (nl : Nat) (r : List (Item P)),
    EndTakes RS ((E.metered N).parseTextLoop m n t nl) r fun _ _ b => b ≤ 1 := by
  induction n with
  | zero => exact fun t nl r => EndTakes.out _ (by decide)
  | succ n ih =>
    intro t nl r
    have step : ∀ (nl : Nat) (t : τ) (r : List (Item P)),
        EndTakes RS ((E.metered N).nextAccum >>= fun _ => (E.metered N).parseTextLoop m n t nl) r fun _ _ b => b ≤ 1 := by
      intro nl t r
      refine (C.e_nextAccum r).bind ?_ ?_
      · rintro v r' b ⟨_, rfl⟩ _ _
        exact (ih t nl r').mono fun o r'' c hc _ _ => by omega
      · rintro o r' b hf ⟨_, rfl⟩ _ _ o' _; omega
    refine (C.e_peek r).bind ?_ ?_
    rotate_left
    · rintro o r' b hf ⟨rfl, _⟩; exact absurd rfl (hf _)
    rintro v r b ⟨h, rfl, rfl⟩ _ _
    cases h
    cases r with
    | nil => exact (C.e_finishText t nl []).mono (by rintro o r' b ⟨rfl, rfl⟩ _ _; simp)
    | cons it r =>
      simp only [List.head?_cons, reduceCtorEq, if_false, Nat.zero_add]
      have hfin : EndTakes RS ((E.metered N).finishText t nl) (it :: r) fun _ _ b => b ≤ 1 :=
        (C.e_finishText t nl (it :: r)).mono (by rintro o r' b ⟨rfl, rfl⟩ _ _; omega)
      split
      · exact hfin
      · split
        · refine (C.e_concatAccum t (it :: r)).bind ?_ ?_
          · rintro t' r' b ⟨rfl, rfl⟩ _ _
            refine (C.e_next (it :: r)).bind ?_ ?_
            · rintro v r' b ⟨_, rfl, rfl⟩ _ _
              exact (step _ _ _).mono fun o r'' c hc _ _ => by omega
            · rintro o r' b hf ⟨rfl, _⟩; exact absurd rfl (hf _)
          · rintro o r' b hf ⟨rfl, rfl⟩ _ _ o' _; omega
        · split
          · exact step _ _ _
          · split
            · split
              · exact step _ _ _
              · refine (C.e_checkEndChar it r).bind ?_ ?_
                · rintro v r' b rfl _ _
                  exact (C.e_finishText t nl r').mono (by rintro o r' b ⟨rfl, rfl⟩ _ _; omega)
                · rintro o r' b hf rfl _ _ o' _; omega
            · exact step _ _ _

theorem Conf.e_nestEnd (r : List (Item P)) :
    EndTakes RS (E.metered N).nestEnd r fun o _ b => b = 0 ∧ (∀ v, o = .ok v → r ≠ []) := by
  refine (C.e_next r).bind ?_ ?_
  · rintro v r' b ⟨h, rfl, rfl⟩ _ _
    cases h
    cases r with
    | nil => exact EndTakes.out _ ⟨rfl, fun v h => (by cases h)⟩
    | cons it r =>
      refine (EndTakes.still (x := Act.debugAssert _) (fun s => ?_)).mono ?_
      · simp only [Act.debugAssert]; split <;> rfl
      · rintro o r' b ⟨rfl, rfl⟩ _ _
        simp
  · rintro o r' b hf ⟨rfl, _⟩; exact absurd rfl (hf _)

theorem Conf.e_skipSeparator (r : List (Item P)) :
    EndTakes RS (E.metered N).skipSeparator r fun o _ b => b ≤ 1 ∧ ∃ v, o = .ok v := by
  refine (C.e_peek r).bind ?_ ?_
  · rintro v r b ⟨h, rfl, rfl⟩ _ _
    cases h
    cases r with
    | nil => exact EndTakes.out _ ⟨by simp, _, rfl⟩
    | cons it r =>
      simp only [List.head?_cons]
      split
      · refine (C.e_next (it :: r)).bind ?_ ?_
        · rintro v r' b ⟨_, rfl, rfl⟩ _ _
          exact EndTakes.out _ ⟨by simp, _, rfl⟩
        · rintro o r' b hf ⟨rfl, _⟩; exact absurd rfl (hf _)
      · exact EndTakes.out _ ⟨by simp, _, rfl⟩
  · rintro o r' b hf ⟨rfl, _⟩; exact absurd rfl (hf _)

theorem Conf.e_skipLeading (n : Nat) (m : Mode) (r : List (Item P)) :
    EndTakes RS ((E.metered N).skipLeading n m) r fun _ r' b =>
      b ≤ 1 ∧ (m ≠ .operator → r' = r ∧ b = 0) := by
  unfold Env.skipLeading
  split
  · next h => exact (C.e_skipWhitespace n r).mono fun o r' b hb _ _ => ⟨hb, fun h' => absurd h h'⟩
  · next h => exact EndTakes.out _ ⟨by decide, fun _ => ⟨rfl, rfl⟩⟩

/-- How often `parse_next` peeks at the end. -/
def EndNextQ (m : Mode) (r : List (Item P)) (o : Outcome (Err P CE) (Option (Datum τ ε))) (b : Nat) : Prop :=
  b ≤ 3 ∧ (o = .ok none → b ≤ 2) ∧ (∀ d, o = .ok (some d) → b ≤ 1) ∧
    (m = .base → o = .ok none → b ≤ 1) ∧ (m = .base → r = [] → b ≤ 1 ∧ ∀ d, o ≠ .ok (some d))

omit C in
theorem EndNextQ.fails {m : Mode} {r : List (Item P)} {o : Outcome (Err P CE) (Option (Datum τ ε))} {b : Nat}
    (hf : o.Fails) (hb : b ≤ 3) (h0 : m = .base → r = [] → b ≤ 1) : EndNextQ m r o b :=
  ⟨hb, fun h => absurd h (hf _), fun _ h => absurd h (hf _), fun _ h => absurd h (hf _),
    fun h h' => ⟨h0 h h', fun _ => hf _⟩⟩

theorem Conf.e_next_step {n : Nat} (m : Mode) (r : List (Item P))
    (hnext : ∀ r, EndTakes RS ((E.metered N).parseNext n m) r fun o _ b => EndNextQ m r o b)
    (hnest : ∀ r, r ≠ [] → EndTakes RS ((E.metered N).parseNested n) r fun o _ b => b ≤ 3 ∧ ∀ d, o = .ok d → b = 0) :
    EndTakes RS ((E.metered N).parseNext (n + 1) m) r fun o _ b => EndNextQ m r o b := by
  unfold Env.parseNext
  refine (C.e_skipLeading n m r).bind ?_ ?_
  rotate_left
  · rintro o r' b hf ⟨hb, h⟩ _ _ o' hf'
    exact EndNextQ.fails hf' (by omega) (fun _ _ => by omega)
  rintro _ r₁ b₁ ⟨hb₁, hr₁⟩ hz₁ _
  refine (C.e_peek r₁).bind ?_ ?_
  rotate_left
  · rintro o r' b hf ⟨rfl, _⟩; exact absurd rfl (hf _)
  rintro v r₁ b ⟨h, rfl, rfl⟩ _ _
  cases h
  cases r₁ with
  | nil =>
    have hbase : m = .base → b₁ = 0 := by rintro rfl; exact (hr₁ (by decide)).2
    refine (EndTakes.still (x := Env.getDepth) (fun s => rfl)).bind ?_ ?_
    · rintro d r' b ⟨rfl, rfl⟩ _ _
      simp only [if_true]
      split
      · refine EndTakes.out _ ⟨by omega, fun _ => by omega, fun _ h => (by cases h), fun h _ => ?_, fun h _ => ⟨?_, fun _ h => (by cases h)⟩⟩
        · have := hbase h; omega
        · have := hbase h; omega
      · exact EndTakes.out _ (EndNextQ.fails (by simp [Outcome.Fails]) (by omega) (fun h _ => by have := hbase h; omega))
    · rintro o r' b hf ⟨rfl, rfl⟩ _ _ o' hf'
      refine EndNextQ.fails hf' (by simp; omega) (fun h _ => ?_)
      have := hbase h
      simp; omega
  | cons it r₂ =>
    have hb : b₁ = 0 := hz₁ (by simp)
    subst hb
    have hne : m = .base → r ≠ [] := by rintro rfl rfl; cases (hr₁ (by decide)).1
    simp only [List.head?_cons, reduceCtorEq, if_false, Nat.zero_add]
    split
    · refine ((hnest (it :: r₂) (by simp)).inDepth ?_).bind ?_ ?_
      · rintro o r' b ⟨h, _⟩; exact ⟨h, fun _ h => (by cases h)⟩
      · rintro v r' b ⟨_, h⟩ _ _
        have hb := h _ rfl
        subst hb
        cases v with
        | none =>
          refine (hnext r').mono fun o r'' c hc _ _ => ?_
          simp only [Nat.zero_add]
          exact ⟨hc.1, hc.2.1, hc.2.2.1, hc.2.2.2.1, fun h h' => absurd h' (hne h)⟩
        | some d =>
          exact EndTakes.out _ ⟨by omega, fun _ => by omega, fun _ _ => by omega, fun _ _ => by omega,
            fun h h' => absurd h' (hne h)⟩
      · rintro o r' b hf ⟨h, _⟩ _ _ o' hf'
        exact EndNextQ.fails hf' h (fun h h' => absurd h' (hne h))
    · split
      · refine (C.e_checkEndChar it r₂).bind ?_ ?_
        · rintro v r' b rfl _ _
          exact EndTakes.out _ ⟨by omega, fun _ => by omega, fun _ _ => by omega, fun _ _ => by omega,
            fun h h' => absurd h' (hne h)⟩
        · rintro o r' b hf rfl _ _ o' hf'
          exact EndNextQ.fails hf' (by omega) (fun h h' => absurd h' (hne h))
      · refine (C.e_textLoop m n E.text.empty 0 (it :: r₂)).bind ?_ ?_
        · rintro t r' b hb _ _
          exact EndTakes.out _ ⟨by omega, fun _ => by omega, fun _ _ => by omega, fun _ h => (by cases h),
            fun h h' => absurd h' (hne h)⟩
        · rintro o r' b hf hb _ _ o' hf'
          exact EndNextQ.fails hf' (by omega) (fun h h' => absurd h' (hne h))

/-- The end of a nest. -/
theorem Conf.e_close {f : Unit → Act (St (Meter σ) α) (Err P CE) (Option (Datum τ ε))}
    (hf : ∀ v s, (f v s).2.strm = s.strm) {r : List (Item P)} {c : Nat} (hc : c ≤ 3) (hr : r ≠ [] → c = 0) :
    EndTakes RS ((E.metered N).nestEnd >>= f) r fun o _ b => c + b ≤ 3 ∧ ∀ d, o = .ok d → c + b = 0 := by
  refine (C.e_nestEnd r).bind ?_ ?_
  · rintro v r' b ⟨rfl, h⟩ _ _
    have h1 := hr (h v rfl)
    refine (EndTakes.still (hf v)).mono ?_
    rintro o r'' b' ⟨rfl, rfl⟩ _ _
    exact ⟨by omega, fun _ _ => by omega⟩
  · rintro o r' b ho ⟨rfl, _⟩ _ _ o' ho'
    exact ⟨by omega, fun _ h => absurd h (ho' _)⟩

theorem Conf.e_nested_step {n : Nat} (r : List (Item P))
    (hnext : ∀ r, EndTakes RS ((E.metered N).parseNext n .operator) r fun o _ b => EndNextQ .operator r o b)
    (hall : ∀ r, EndTakes RS ((E.metered N).parseAll n .base []) r fun _ _ b => b ≤ 3 ∧ (r = [] → b ≤ 1)) :
    EndTakes RS ((E.metered N).parseNested (n + 1)) r fun o _ b => b ≤ 3 ∧ ∀ d, o = .ok d → b = 0 := by
  unfold Env.parseNested
  refine (C.e_next r).bind ?_ ?_
  rotate_left
  · rintro o r' b hf ⟨rfl, _⟩; exact absurd rfl (hf _)
  rintro v r₁ b ⟨_, rfl, rfl⟩ _ _
  simp only [Nat.zero_add]
  refine (EndTakes.still (x := Act.debugAssert _) (fun s => ?_)).bind ?_ ?_
  · simp only [Act.debugAssert]; split <;> rfl
  rotate_left
  · rintro o r' b hf ⟨rfl, rfl⟩ _ _ o' hf'
    exact ⟨by decide, fun _ h => absurd h (hf' _)⟩
  rintro _ r' b ⟨rfl, rfl⟩ _ _
  simp only [Nat.zero_add]
  refine (hnext _).bind ?_ ?_
  rotate_left
  · rintro o r' b hf ⟨h, _⟩ _ _ o' hf'
    exact ⟨h, fun _ h => absurd h (hf' _)⟩
  rintro op r₁ b₁ ⟨_, hn, hs, _, _⟩ hz₁ _
  refine (C.e_skipSeparator r₁).bind ?_ ?_
  rotate_left
  · rintro o r' b hf ⟨_, v, rfl⟩; exact absurd rfl (hf _)
  rintro _ r₂ b₂ ⟨hb₂, _⟩ hz₂ hsuf
  have hz : r₂ ≠ [] → b₁ + b₂ = 0 := by
    intro h
    have h1 := hz₂ h
    have h2 := hz₁ (by rintro rfl; exact h (by simpa using hsuf))
    omega
  cases op with
  | none =>
    have := hn rfl
    refine (C.e_close (c := b₁ + b₂) (fun _ _ => rfl) (by omega) hz).mono fun o r' b h _ _ => ?_
    rwa [Nat.add_assoc] at h
  | some op =>
    have hs := hs op rfl
    have key : ∀ {A : Type} {x : Act (St (Meter σ) α) (Err P CE) A}
        {f : A → Unit → Act (St (Meter σ) α) (Err P CE) (Option (Datum τ ε))},
        EndTakes RS x r₂ (fun _ _ b => b ≤ 3 ∧ (r₂ = [] → b ≤ 1)) → (∀ d v s, (f d v s).2.strm = s.strm) →
        EndTakes RS (x >>= fun d => (E.metered N).nestEnd >>= f d) r₂
          fun o _ b => b₁ + (b₂ + b) ≤ 3 ∧ ∀ d, o = .ok d → b₁ + (b₂ + b) = 0 := by
      intro A x f hx hf
      refine hx.bind ?_ ?_
      · rintro d r₃ b₃ ⟨h1, h2⟩ hz₃ hsuf'
        refine (C.e_close (c := b₁ + (b₂ + b₃)) (hf d) ?_ ?_).mono fun o r' b h _ _ => ?_
        · by_cases h : r₂ = []
          · have := h2 h; omega
          · have := hz h; omega
        · intro h
          have h3 := hz₃ h
          have h4 := hz (by rintro rfl; exact h (by simpa using hsuf'))
          omega
        · rwa [Nat.add_assoc, Nat.add_assoc] at h
      · rintro o r' b hf' ⟨h1, h2⟩ _ _ o' hf''
        refine ⟨?_, fun _ h => absurd h (hf'' _)⟩
        by_cases h : r₂ = []
        · have := h2 h; omega
        · have := hz h; omega
    dsimp only
    split
    · exact key ((C.e_textLoop .operands n E.text.empty 0 r₂).mono fun _ _ _ h _ _ => ⟨by omega, fun _ => h⟩) fun _ _ _ => rfl
    · exact key (hall r₂) fun _ _ _ => rfl
    · refine key (hall r₂) fun d v s => ?_
      exact bind_strm (fun _ => rfl) (fun _ => bind_strm (fun _ => rfl) fun _ _ => rfl) s

omit C in
theorem Conf.e_all_step {n : Nat} (r : List (Item P)) (acc : List (Datum τ ε))
    (hnext : ∀ r, EndTakes RS ((E.metered N).parseNext n .base) r fun o _ b => EndNextQ .base r o b)
    (hall : ∀ acc r, EndTakes RS ((E.metered N).parseAll n .base acc) r fun _ _ b => b ≤ 3 ∧ (r = [] → b ≤ 1)) :
    EndTakes RS ((E.metered N).parseAll (n + 1) .base acc) r fun _ _ b => b ≤ 3 ∧ (r = [] → b ≤ 1) := by
  unfold Env.parseAll
  refine (hnext r).bind ?_ ?_
  · rintro v r' b ⟨h3, _, hs, _, h0⟩ hz _
    cases v with
    | none => exact EndTakes.out _ ⟨by omega, fun h => (h0 rfl h).1⟩
    | some d =>
      have hr : r ≠ [] := fun h => (h0 rfl h).2 d rfl
      have hb := hs d rfl
      dsimp only
      refine (EndTakes.still (x := Env.newDatum _ _) (fun s => rfl)).bind ?_ ?_
      · rintro _ r' c ⟨rfl, rfl⟩ _ _
        refine (EndTakes.still (x := Env.newDatum _ _) (fun s => rfl)).bind ?_ ?_
        · rintro _ r' c ⟨rfl, rfl⟩ _ _
          refine (EndTakes.still (x := Env.getMutFresh _) (fun s => rfl)).bind ?_ ?_
          · rintro _ r' c ⟨rfl, rfl⟩ _ _
            split
            · refine (hall _ _).mono ?_
              rintro o r'' c ⟨h1, h2⟩ _ _
              refine ⟨?_, fun h => absurd h hr⟩
              by_cases h : r' = []
              · have := h2 h; omega
              · have := hz h; omega
            · exact EndTakes.out _ ⟨by omega, fun h => absurd h hr⟩
          · rintro o _ _ hf ⟨rfl, rfl⟩ _ _ o' hf'
            exact ⟨by omega, fun h => absurd h hr⟩
        · rintro o _ _ hf ⟨rfl, rfl⟩ _ _ o' hf'
          exact ⟨by omega, fun h => absurd h hr⟩
      · rintro o _ _ hf ⟨rfl, rfl⟩ _ _ o' hf'
        exact ⟨by omega, fun h => absurd h hr⟩
  · rintro o r' b hf ⟨h1, _, _, _, h0⟩ _ _ o' hf'
    exact ⟨h1, fun h => (h0 rfl h).1⟩

theorem Conf.e_parse (n : Nat) :
    (∀ m r, EndTakes RS ((E.metered N).parseNext n m) r fun o _ b => EndNextQ m r o b) ∧
    (∀ r, r ≠ [] → EndTakes RS ((E.metered N).parseNested n) r fun o _ b => b ≤ 3 ∧ ∀ d, o = .ok d → b = 0) ∧
    (∀ acc r, EndTakes RS ((E.metered N).parseAll n .base acc) r fun _ _ b => b ≤ 3 ∧ (r = [] → b ≤ 1)) := by
  induction n with
  | zero =>
    refine ⟨fun m r => ?_, fun r hr => ?_, fun acc r => ?_⟩
    · unfold Env.parseNext
      exact EndTakes.out _ (EndNextQ.fails (by simp [Outcome.Fails]) (by omega) (fun _ _ => by omega))
    · unfold Env.parseNested
      exact EndTakes.out _ ⟨by decide, fun _ h => (by cases h)⟩
    · unfold Env.parseAll
      exact EndTakes.out _ ⟨by decide, fun _ => by decide⟩
  | succ n ih =>
    obtain ⟨ih1, ih2, ih3⟩ := ih
    exact ⟨fun m r => C.e_next_step m r (ih1 m) ih2,
      fun r _ => C.e_nested_step r (ih1 _) (ih3 []),
      fun acc r => Conf.e_all_step r acc (ih1 _) ih3⟩

/-- One call of the parser, in any state. -/
theorem Conf.end_call {t o t' r} (hr : RemM RS t r) (h : (E.metered N).Call t o t') :
    ∃ r' b, RemM RS t' r' ∧ EndPeeks t r b t' r' ∧ b ≤ 3 ∧ (r = [] → b ≤ 1) := by
  obtain ⟨n, h1, _⟩ := h
  obtain ⟨o', s', r', b, h2, h3, h4, h5⟩ := (C.e_parse (N := N) n).1 .base r t hr
  change (E.metered N).parseNext n .base t = _ at h1
  rw [h1] at h2; cases h2
  exact ⟨r', b, h3, h4, h5.1, fun h => (h5.2.2.2.2 rfl h).1⟩

/-- A history of calls. -/
theorem Conf.end_calls {t os t'} (h : (E.metered N).Calls t os t') : ∀ {r}, RemM RS t r →
    t'.strm.atEnd ≤ t.strm.atEnd + os.length + (if r = [] then 0 else 2) := by
  induction h with
  | nil => intro r hr; omega
  | cons h1 _ ih =>
    intro r hr
    obtain ⟨r₁, b, h2, ⟨h3, h4, h5⟩, h6, h7⟩ := C.end_call hr h1
    have h8 := ih h2
    simp only [List.length_cons]
    by_cases hr₁ : r₁ = []
    · rw [if_pos hr₁] at h8
      by_cases hr : r = []
      · have := h7 hr; rw [if_pos hr]; omega
      · rw [if_neg hr]; omega
    · have := h5 hr₁
      rw [if_neg hr₁] at h8
      rw [if_neg (by rintro rfl; exact hr₁ (by simpa using h4))]
      omega

/-- The parser on the stream with the counts fulfils the same contract. -/
theorem Conf.metered : Conf (E.metered N) (fun m q => RS m.strm q) X where
  refl := C.refl
  trans := C.trans
  peek s q h := by
    obtain ⟨s', h1, h2⟩ := C.peek s.strm q h
    refine ⟨_, Prod.ext ?_ rfl, ?_⟩
    · show (E.strm.peek s.strm).1 = _; rw [h1]
    · show RS (E.strm.peek s.strm).2 q; rw [h1]; exact h2
  next s q h := by
    obtain ⟨s', h1, h2⟩ := C.next s.strm q h
    refine ⟨_, Prod.ext ?_ rfl, ?_⟩
    · show (E.strm.next s.strm).1 = _; rw [h1]
    · show RS (E.strm.next s.strm).2 _; rw [h1]; exact h2
  nextAccum s q a h := by
    obtain ⟨o, s', a', h1, h2⟩ := C.nextAccum s.strm q a h
    refine ⟨(E.strm.nextAccum s.strm a).1, _, (E.strm.nextAccum s.strm a).2.2, rfl, ?_⟩
    show X.RA a (E.strm.nextAccum s.strm a).2.2 ∧ (((E.strm.nextAccum s.strm a).1 = _ ∧ RS (E.strm.nextAccum s.strm a).2.1 _) ∨
      (_ ∧ _ ∧ _ ∧ RS (E.strm.nextAccum s.strm a).2.1 _))
    rw [h1]; exact h2
  accumDone s q a h := by
    obtain ⟨o, s', a', h1, h2⟩ := C.accumDone s.strm q a h
    refine ⟨(E.strm.accumDone s.strm a).1, _, (E.strm.accumDone s.strm a).2.2, rfl, ?_⟩
    show X.RA a (E.strm.accumDone s.strm a).2.2 ∧ RS (E.strm.accumDone s.strm a).2.1 _ ∧ _
    rw [h1]; exact h2
  empty := C.empty
  concat := C.concat

end

end Kul
