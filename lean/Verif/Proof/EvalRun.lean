import Verif.Proof.EvalDet

/-!
# The parser follows the big-step rules

For every source that conforms to the sequence contract there is a result, a step budget linear in the source suffices,
and no panic occurs.
-/

namespace Kul

theorem Act.bind_ok {S E A B : Type} {x : Act S E A} {f : A → Act S E B} {s s' : S} {a : A}
    (h : x s = (.ok a, s')) : (x >>= f) s = f a s' := by
  show Act.bind x f s = _
  unfold Act.bind; rw [h]

theorem Act.bind_err {S E A B : Type} {x : Act S E A} {f : A → Act S E B} {s s' : S} {e : E}
    (h : x s = (.err e, s')) : (x >>= f) s = (.err e, s') := by
  show Act.bind x f s = _
  unfold Act.bind; rw [h]

section
variable {P : Type} (cc : Classifier)

/-- In operands mode a text stops at the source's end or before an end character,
and never reports an unbalanced end. -/
theorem scanText_operands (top : Bool) (r : List (Item P)) : ∀ nl,
    (∃ c e r', scanText cc .operands top nl r = .ok c (e :: r') ∧ cc.isNestEnd e.ch = true) ∨
    (∃ c, scanText cc .operands top nl r = .ok c []) ∨
    scanText cc .operands top nl r = .missing := by
  have hcons : ∀ (x : TextRes P) (it : Item P),
      ((∃ c e r', x = .ok c (e :: r') ∧ cc.isNestEnd e.ch = true) ∨ (∃ c, x = .ok c []) ∨
        x = .missing) →
      ((∃ c e r', x.cons it = .ok c (e :: r') ∧ cc.isNestEnd e.ch = true) ∨
        (∃ c, x.cons it = .ok c []) ∨ x.cons it = .missing) := by
    intro x it h
    rcases h with ⟨c, e, r', rfl, h⟩ | ⟨c, rfl⟩ | rfl
    · exact Or.inl ⟨it :: c, e, r', rfl, h⟩
    · exact Or.inr (Or.inl ⟨it :: c, rfl⟩)
    · exact Or.inr (Or.inr rfl)
  induction h : r.length using Nat.strongRecOn generalizing r with
  | ind k ih =>
    subst h
    intro nl
    match r with
    | [] =>
      unfold scanText
      split
      · exact Or.inr (Or.inl ⟨[], rfl⟩)
      · exact Or.inr (Or.inr rfl)
    | it :: r =>
      have ih1 := ih r.length (by simp) r rfl
      unfold scanText
      by_cases h1 : nl = 0 ∧ isEndChar cc .operands it.ch = true
      · rw [if_pos h1]; exact Or.inl ⟨[], it, r, rfl, h1.2⟩
      rw [if_neg h1]
      split
      · cases r with
        | nil =>
          simp only
          split
          · exact Or.inr (Or.inl ⟨[], rfl⟩)
          · exact Or.inr (Or.inr rfl)
        | cons x r' => exact hcons _ _ (ih r'.length (by simp; omega) r' rfl nl)
      split
      · exact hcons _ _ (ih1 _)
      split
      · rename_i h4
        split
        · exact hcons _ _ (ih1 _)
        · rename_i h5
          exact absurd ⟨by omega, h4⟩ h1
      · exact hcons _ _ (ih1 _)

/-- Texts in base and operator mode never lack an end character. -/
theorem scanText_ne_missing (m : Mode) (hm : m ≠ .operands) (top : Bool) (r : List (Item P)) :
    scanText cc m top 0 r ≠ .missing := by
  have hcons : ∀ (x : TextRes P) (it : Item P), x ≠ .missing → x.cons it ≠ .missing := by
    intro x it h; cases x <;> simp_all [TextRes.cons]
  induction h : r.length using Nat.strongRecOn generalizing r with
  | ind k ih =>
    subst h
    match r with
    | [] => simp [scanText]
    | it :: r =>
      have ih1 := ih r.length (by simp) r rfl
      unfold scanText
      by_cases h1 : (0 : Nat) = 0 ∧ isEndChar cc m it.ch = true
      · rw [if_pos h1]; simp
      rw [if_neg h1]
      split
      · cases r with
        | nil => simp
        | cons x r' => exact hcons _ _ (ih r'.length (by simp; omega) r' rfl)
      split
      · rename_i h3
        refine absurd ⟨rfl, ?_⟩ h1
        cases m <;> simp_all [isEndChar]
      split
      · split
        · omega
        · split <;> simp
      · exact hcons _ _ ih1


end

variable {σ P τ ε α CE : Type} {E : Env σ P τ ε α CE} {RS : σ → Seq P → Prop} {X : TextSem P τ α}
  {J : List (Item P) → List (Item P) → Prop}

/-- As `Conf`, but texts need only be joined if `J` says so, which is the case for what the parser
joins: something empty, or two texts with one item between them in the source. -/
structure ConfJ (E : Env σ P τ ε α CE) (RS : σ → Seq P → Prop) (X : TextSem P τ α)
    (J : List (Item P) → List (Item P) → Prop) : Prop where
  refl : ∀ a, X.RA a a
  trans : ∀ a b c, X.RA a b → X.RA b c → X.RA a c
  peek : ∀ s q, RS s q → ∃ s', E.strm.peek s = (.ok q.rest.head?, s') ∧ RS s' q
  next : ∀ s q, RS s q → ∃ s', E.strm.next s = (.ok q.rest.head?, s') ∧ RS s' ⟨[], q.rest.tail⟩
  nextAccum : ∀ s q a, RS s q → ∃ o s' a', E.strm.nextAccum s a = (o, s', a') ∧ X.RA a a' ∧
    ((o = .ok q.rest.head? ∧ RS s' ⟨q.pending ++ q.rest.head?.toList, q.rest.tail⟩) ∨
     (X.F ∧ q.pending ≠ [] ∧ (∃ e, o = .err e) ∧ RS s' ⟨[], q.rest⟩))
  accumDone : ∀ s q a, RS s q → ∃ o s' a', E.strm.accumDone s a = (o, s', a') ∧ X.RA a a' ∧
    RS s' ⟨[], q.rest⟩ ∧
    ((∃ t, o = .ok t ∧ X.RT t q.pending) ∨ (X.F ∧ q.pending ≠ [] ∧ ∃ e, o = .err e))
  empty : X.RT E.text.empty []
  concat : ∀ t u c e a, X.RT t c → X.RT u e → J c e → ∃ o a', E.text.concat t u a = (o, a') ∧ X.RA a a' ∧
    ((∃ v, o = .ok v ∧ X.RT v (c ++ e)) ∨ (X.F ∧ c ≠ [] ∧ e ≠ [] ∧ ∃ x, o = .err x))
  join_nil_left : ∀ e, J [] e
  join_nil_right : ∀ c, J c []
  join : ∀ s p it r c e, RS s ⟨p, it :: r⟩ → p ≠ [] → E.cc.isNestEscape it.ch = true → e <+: r → J (c ++ p) e

theorem Conf.toJ (C : Conf E RS X) : ConfJ E RS X fun _ _ => True where
  refl := C.refl
  trans := C.trans
  peek := C.peek
  next := C.next
  nextAccum := C.nextAccum
  accumDone := C.accumDone
  empty := C.empty
  concat := fun t u c e a h1 h2 _ => C.concat t u c e a h1 h2
  join_nil_left := fun _ => trivial
  join_nil_right := fun _ => trivial
  join := fun _ _ _ _ _ _ _ _ _ _ => trivial

/-- Where the loop of a text stands: what is pending and what comes can be joined to what was
collected. -/
def Joins (J : List (Item P) → List (Item P) → Prop) (c p r : List (Item P)) : Prop :=
  (∀ e, e <+: p ++ r → J c e) ∧ (c = [] ∨ p ≠ [] ∨ r = [])

theorem Joins.step {c p r : List (Item P)} {it : Item P} (h : Joins J c p (it :: r)) : Joins J c (p ++ [it]) r :=
  ⟨fun e he => h.1 e (by simpa using he), .inr (.inl (by simp))⟩

section
variable (C : ConfJ E RS X J)
include C

theorem ConfJ.c_peek {s : σ} {p r : List (Item P)} (h : RS s ⟨p, r⟩) (a : α) (d : Nat) :
    ∃ s', E.peek ⟨s, a, d⟩ = (.ok r.head?, ⟨s', a, d⟩) ∧ RS s' ⟨p, r⟩ := by
  obtain ⟨s', h1, h2⟩ := C.peek s _ h
  refine ⟨s', ?_, h2⟩
  unfold Env.peek liftEmpty
  simp only [h1, Outcome.mapErr]

theorem ConfJ.c_next {s : σ} {p r : List (Item P)} (h : RS s ⟨p, r⟩) (a : α) (d : Nat) :
    ∃ s', E.next ⟨s, a, d⟩ = (.ok r.head?, ⟨s', a, d⟩) ∧ RS s' ⟨[], r.tail⟩ := by
  obtain ⟨s', h1, h2⟩ := C.next s _ h
  refine ⟨s', ?_, h2⟩
  unfold Env.next liftEmpty
  simp only [h1, Outcome.mapErr]

theorem ConfJ.c_nextAccum {s : σ} {p r : List (Item P)} (h : RS s ⟨p, r⟩) (a : α) (d : Nat) :
    ∃ s' a', X.RA a a' ∧
      ((E.nextAccum ⟨s, a, d⟩ = (.ok r.head?, ⟨s', a', d⟩) ∧
          RS s' ⟨p ++ r.head?.toList, r.tail⟩) ∨
       (X.F ∧ p ≠ [] ∧ (∃ e, E.nextAccum ⟨s, a, d⟩ = (.err (.failedAlloc e), ⟨s', a', d⟩)) ∧
          RS s' ⟨[], r⟩)) := by
  obtain ⟨o, s', a', h1, h2, h3⟩ := C.nextAccum s _ a h
  refine ⟨s', a', h2, ?_⟩
  unfold Env.nextAccum liftAccum
  rcases h3 with ⟨rfl, h3⟩ | ⟨hF, hp, ⟨e, rfl⟩, h3⟩
  · exact Or.inl ⟨by simp only [h1, Outcome.mapErr], h3⟩
  · exact Or.inr ⟨hF, hp, ⟨e, by simp only [h1, Outcome.mapErr]⟩, h3⟩

theorem ConfJ.c_concatAccum {s : σ} {p r : List (Item P)} (h : RS s ⟨p, r⟩) {t : τ}
    {c : List (Item P)} (ht : X.RT t c) (hj : J c p) (a : α) (d : Nat) :
    ∃ s' a', X.RA a a' ∧ RS s' ⟨[], r⟩ ∧
      ((∃ v, E.concatAccum t ⟨s, a, d⟩ = (.ok v, ⟨s', a', d⟩) ∧ X.RT v (c ++ p)) ∨
       (X.F ∧ p ≠ [] ∧ ∃ e, E.concatAccum t ⟨s, a, d⟩ = (.err (.failedAlloc e), ⟨s', a', d⟩))) := by
  obtain ⟨o, s', a', h1, h2, h3, h4⟩ := C.accumDone s _ a h
  unfold Env.concatAccum
  rcases h4 with ⟨u, rfl, hu⟩ | ⟨hF, hp, e, rfl⟩
  · have e1 : (liftAccum E.strm.accumDone : Act _ (Err P CE) τ) ⟨s, a, d⟩ = (.ok u, ⟨s', a', d⟩) := by
      unfold liftAccum; simp only [h1, Outcome.mapErr]
    rw [Act.bind_ok e1]
    obtain ⟨o, a2, h5, h6, h7⟩ := C.concat t u c p a' ht hu hj
    refine ⟨s', a2, C.trans _ _ _ h2 h6, h3, ?_⟩
    rcases h7 with ⟨v, rfl, hv⟩ | ⟨hF, _, hp, x, rfl⟩
    · refine Or.inl ⟨v, ?_, hv⟩
      unfold liftAlloc; simp only [h5, Outcome.mapErr]
    · refine Or.inr ⟨hF, hp, x, ?_⟩
      unfold liftAlloc; simp only [h5, Outcome.mapErr]
  · have e1 : (liftAccum E.strm.accumDone : Act _ (Err P CE) τ) ⟨s, a, d⟩ =
        (.err (.failedAlloc e), ⟨s', a', d⟩) := by
      unfold liftAccum; simp only [h1, Outcome.mapErr]
    rw [Act.bind_err e1]
    exact ⟨s', a', h2, h3, Or.inr ⟨hF, hp, e, rfl⟩⟩

omit C in
theorem c_getDepth (s : σ) (a : α) (d : Nat) :
    (Env.getDepth : Act (St σ α) (Err P CE) Nat) ⟨s, a, d⟩ = (.ok d, ⟨s, a, d⟩) := rfl

omit C in
theorem debugAssert_true {S E' : Type} (s : S) :
    (Act.debugAssert true : Act S E' Unit) s = (.ok (), s) := rfl

theorem ConfJ.c_skipWhitespace (r : List (Item P)) : ∀ (n : Nat) (p : List (Item P)) (s : σ) (a : α)
    (d : Nat), RS s ⟨p, r⟩ → r.length < n →
    ∃ s' p', E.skipWhitespace n ⟨s, a, d⟩ = (.ok (), ⟨s', a, d⟩) ∧
      RS s' ⟨p', r.dropWhile fun it => E.cc.isWhitespace it.ch⟩ ∧ (p' = p ∨ p' = []) := by
  induction r with
  | nil =>
    intro n p s a d hs hn
    cases n with
    | zero => omega
    | succ n =>
      obtain ⟨s', h1, h2⟩ := C.c_peek hs a d
      refine ⟨s', p, ?_, h2, Or.inl rfl⟩
      unfold Env.skipWhitespace
      rw [Act.bind_ok h1]; rfl
  | cons it r ih =>
    intro n p s a d hs hn
    cases n with
    | zero => omega
    | succ n =>
      unfold Env.skipWhitespace
      obtain ⟨s', h1, h2⟩ := C.c_peek hs a d
      rw [Act.bind_ok h1]
      simp only [List.head?_cons]
      by_cases hw : E.cc.isWhitespace it.ch = true
      · obtain ⟨s2, h3, h4⟩ := C.c_next h2 a d
        simp only [List.tail_cons] at h4
        obtain ⟨s3, p', h5, h6, h7⟩ := ih n [] s2 a d h4 (by simp at hn; omega)
        refine ⟨s3, p', ?_, ?_, Or.inr (by rcases h7 with h | h <;> exact h)⟩
        · rw [if_pos hw, Act.bind_ok h3, h5]
        · simpa only [List.dropWhile_cons, hw, if_true] using h6
      · refine ⟨s', p, ?_, ?_, Or.inl rfl⟩
        · rw [if_neg hw]; rfl
        · simpa only [List.dropWhile_cons, if_neg hw] using h2

theorem ConfJ.c_skipLeading (m : Mode) (r : List (Item P)) (n : Nat) (p : List (Item P)) (s : σ) (a : α)
    (d : Nat) (hs : RS s ⟨p, r⟩) (hn : r.length < n) (hc : Clean p r) :
    ∃ s' p', E.skipLeading n m ⟨s, a, d⟩ = (.ok (), ⟨s', a, d⟩) ∧ RS s' ⟨p', lead E.cc m r⟩ ∧
      Clean p' (lead E.cc m r) ∧ (p = [] → p' = []) := by
  unfold Env.skipLeading lead
  by_cases hm : m = .operator
  · rw [if_pos hm, if_pos hm]
    obtain ⟨s', p', h1, h2, h3⟩ := C.c_skipWhitespace r n p s a d hs hn
    refine ⟨s', p', h1, h2, ?_, fun hp => ?_⟩
    · rcases h3 with rfl | rfl
      · rcases hc with rfl | rfl
        · exact Or.inl rfl
        · exact Or.inr rfl
      · exact Or.inl rfl
    · rcases h3 with rfl | rfl
      · exact hp
      · rfl
  · rw [if_neg hm, if_neg hm]
    exact ⟨s, p, rfl, hs, hc, id⟩

theorem ConfJ.c_checkEndChar (it : Item P) {s : σ} {p r : List (Item P)} (hs : RS s ⟨p, it :: r⟩) (a : α)
    (d : Nat) (h : E.cc.isNestEnd it.ch = true) :
    (d > 0 → ∃ s', E.checkEndChar ⟨s, a, d⟩ = (.ok (), ⟨s', a, d⟩) ∧ RS s' ⟨p, it :: r⟩) ∧
    (d = 0 → ∃ s', E.checkEndChar ⟨s, a, d⟩ = (.err (.unbalancedEndChar it.pos), ⟨s', a, d⟩) ∧
      RS s' ⟨[], r⟩) := by
  unfold Env.checkEndChar
  obtain ⟨s1, h1, h2⟩ := C.c_peek hs a d
  rw [Act.bind_ok h1]
  have h3 : (((it :: r).head?).map (fun it => E.cc.isNestEnd it.ch) == some true) = true := by
    simp [h]
  rw [h3, Act.bind_ok (debugAssert_true _), Act.bind_ok (c_getDepth s1 a d)]
  refine ⟨fun hd => ?_, fun hd => ?_⟩
  · rw [if_pos hd]; exact ⟨s1, rfl, h2⟩
  · rw [if_neg (by omega)]
    obtain ⟨s2, h4, h5⟩ := C.c_next h2 a d
    refine ⟨s2, ?_, h5⟩
    rw [Act.bind_ok h4]; rfl

/-- Outcome of the text loop, relative to what was collected so far (`c`, `p`). -/
def LoopEv (cc : Classifier) (X : TextSem P τ α) (m : Mode) (top : Bool) (nl : Nat)
    (c p r : List (Item P)) (a : α) (o : Except (Err P CE) τ) (p' r' : List (Item P)) (a' : α) : Prop :=
  X.RA a a' ∧
  ((∃ t c', o = .ok t ∧ p' = [] ∧ scanText cc m top nl r = .ok c' r' ∧ X.RT t (c ++ p ++ c')) ∨
   (o = .error .missingEndChar ∧ scanText cc m top nl r = .missing ∧ r' = []) ∨
   (∃ q, o = .error (.unbalancedEndChar q) ∧ p' = [] ∧ scanText cc m top nl r = .unbalanced q r') ∨
   (X.F ∧ (∃ e, o = .error (.failedAlloc e)) ∧ p' = [] ∧ r' <:+ r ∧ (p = [] → r'.length < r.length)))

omit C in
theorem LoopEv.clean {cc : Classifier} {X : TextSem P τ α} {m : Mode} {top : Bool} {nl : Nat}
    {c p r : List (Item P)} {a : α} {o : Except (Err P CE) τ} {p' r' : List (Item P)} {a' : α}
    (h : LoopEv cc X m top nl c p r a o p' r' a') : Clean p' r' := by
  rcases h.2 with ⟨_, _, _, h, _⟩ | ⟨_, _, h⟩ | ⟨_, _, h, _⟩ | ⟨_, _, h, _⟩
  · exact Or.inl h
  · exact Or.inr h
  · exact Or.inl h
  · exact Or.inl h

theorem LoopEv.step {cc : Classifier} {m : Mode} {top : Bool} {nl nl' : Nat}
    {c p r c1 p1 r1 : List (Item P)} {a a1 : α} {o : Except (Err P CE) τ} {p' r' : List (Item P)} {a' : α}
    (h : LoopEv cc X m top nl' c1 p1 r1 a1 o p' r' a') (ha : X.RA a a1)
    {x : Item P}
    (hc : c1 ++ p1 = c ++ p ++ [x])
    (hsc : scanText cc m top nl r = (scanText cc m top nl' r1).cons x)
    (hr : r1 <:+ r) (hlt : r1.length < r.length) :
    LoopEv cc X m top nl c p r a o p' r' a' := by
  refine ⟨C.trans _ _ _ ha h.1, ?_⟩
  rcases h.2 with ⟨t, c', rfl, hp, h1, h2⟩ | ⟨rfl, h1, hr'⟩ | ⟨q, rfl, hp, h1⟩ | ⟨hF, he, hp, h1, h2⟩
  · refine Or.inl ⟨t, x :: c', rfl, hp, by rw [hsc, h1]; rfl, ?_⟩
    rw [hc] at h2
    simpa using h2
  · exact Or.inr (Or.inl ⟨rfl, by rw [hsc, h1]; rfl, hr'⟩)
  · exact Or.inr (Or.inr (Or.inl ⟨q, rfl, hp, by rw [hsc, h1]; rfl⟩))
  · refine Or.inr (Or.inr (Or.inr ⟨hF, he, hp, h1.trans hr, fun _ => ?_⟩))
    have := h1.length_le
    omega

theorem ConfJ.c_finish {s : σ} {p r : List (Item P)} (hs : RS s ⟨p, r⟩) {t : τ} {c : List (Item P)}
    (ht : X.RT t c) (hj : Joins J c p r) (a : α) (d : Nat) (m : Mode) (top : Bool)
    (hsc : scanText E.cc m top 0 r = .ok [] r) :
    ∃ o s' a' r' p', E.finishText t 0 ⟨s, a, d⟩ = (Outcome.ofExcept o, ⟨s', a', d⟩) ∧
      RS s' ⟨p', r'⟩ ∧ LoopEv E.cc X m top 0 c p r a o p' r' a' := by
  obtain ⟨s', a', h1, h2, h3⟩ := C.c_concatAccum hs ht (hj.1 p (List.prefix_append ..)) a d
  unfold Env.finishText
  rw [if_pos rfl]
  rcases h3 with ⟨v, h3, hv⟩ | ⟨hF, hp, e, h3⟩
  · exact ⟨.ok v, s', a', r, [], h3, h2, h1, Or.inl ⟨v, [], rfl, rfl, hsc, by simpa using hv⟩⟩
  · exact ⟨.error (.failedAlloc e), s', a', r, [], h3, h2, h1,
      Or.inr (Or.inr (Or.inr ⟨hF, ⟨e, rfl⟩, rfl, List.suffix_refl _, fun h => absurd h hp⟩))⟩

theorem ConfJ.c_loopStep {m : Mode} {nl nl' n : Nat} {it : Item P} {r p c : List (Item P)} {t : τ}
    {s : σ} {a : α} {d : Nat} (hs : RS s ⟨p, it :: r⟩) (ht : X.RT t c) (hj : Joins J c p (it :: r))
    (ih : ∀ (t : τ) (c p : List (Item P)) (s : σ) (a : α), RS s ⟨p, r⟩ → X.RT t c → Joins J c p r →
      ∃ o s' a' r' p', E.parseTextLoop m n t nl' ⟨s, a, d⟩ = (Outcome.ofExcept o, ⟨s', a', d⟩) ∧
        RS s' ⟨p', r'⟩ ∧ LoopEv E.cc X m (d == 0) nl' c p r a o p' r' a')
    (hsc : scanText E.cc m (d == 0) nl (it :: r) = (scanText E.cc m (d == 0) nl' r).cons it) :
    ∃ o s' a' r' p', ((E.nextAccum >>= fun _ => E.parseTextLoop m n t nl') : Act _ _ _) ⟨s, a, d⟩ =
      (Outcome.ofExcept o, ⟨s', a', d⟩) ∧
      RS s' ⟨p', r'⟩ ∧ LoopEv E.cc X m (d == 0) nl c p (it :: r) a o p' r' a' := by
  obtain ⟨s1, a1, ha, h⟩ := C.c_nextAccum hs a d
  rcases h with ⟨h1, h2⟩ | ⟨hF, hp, ⟨e, h1⟩, h2⟩
  · obtain ⟨o, s', a', r', p', h3, h4, h5⟩ := ih t c _ s1 a1 h2 ht hj.step
    refine ⟨o, s', a', r', p', ?_, h4, ?_⟩
    · rw [Act.bind_ok h1, h3]
    · exact LoopEv.step C h5 ha (by simp) hsc ⟨[it], rfl⟩ (by simp)
  · refine ⟨.error (.failedAlloc e), s1, a1, it :: r, [], Act.bind_err h1, h2, ha, ?_⟩
    exact Or.inr (Or.inr (Or.inr ⟨hF, ⟨e, rfl⟩, rfl, List.suffix_refl _, fun h => absurd h hp⟩))

theorem ConfJ.joined {s : σ} {c p r e : List (Item P)} {it : Item P} (hs : RS s ⟨p, it :: r⟩)
    (hj : Joins J c p (it :: r)) (hi : E.cc.isNestEscape it.ch = true) (he : e <+: r) : J (c ++ p) e := by
  rcases hj.2 with rfl | h | h
  · by_cases hp : p = []
    · subst hp; exact C.join_nil_left e
    · exact C.join _ _ _ _ _ _ hs hp hi he
  · exact C.join _ _ _ _ _ _ hs h hi he
  · cases h

theorem ConfJ.c_parseTextLoop (m : Mode) (d : Nat) (r : List (Item P)) :
    ∀ (n nl : Nat) (t : τ) (c p : List (Item P)) (s : σ) (a : α), RS s ⟨p, r⟩ → X.RT t c →
      Joins J c p r → r.length < n →
      ∃ o s' a' r' p', E.parseTextLoop m n t nl ⟨s, a, d⟩ = (Outcome.ofExcept o, ⟨s', a', d⟩) ∧
        RS s' ⟨p', r'⟩ ∧ LoopEv E.cc X m (d == 0) nl c p r a o p' r' a' := by
  induction h : r.length using Nat.strongRecOn generalizing r with
  | ind k ih =>
    subst h
    intro n nl t c p s a hs ht hj hn
    cases n with
    | zero => omega
    | succ n =>
      obtain ⟨s1, hpk, hs1⟩ := C.c_peek hs a d
      unfold Env.parseTextLoop
      rw [Act.bind_ok hpk]
      match r with
      | [] =>
        simp only [List.head?_nil]
        by_cases h0 : nl = 0
        · subst h0
          exact C.c_finish hs1 ht hj a d m (d == 0) (by simp [scanText])
        · refine ⟨.error .missingEndChar, s1, a, [], p, ?_, hs1, C.refl _, ?_⟩
          · unfold Env.finishText; rw [if_neg h0]; rfl
          · exact Or.inr (Or.inl ⟨rfl, by simp [scanText, h0], rfl⟩)
      | it :: r =>
        simp only [List.head?_cons]
        have hn' : r.length < n := by simp at hn; omega
        have ih1 : ∀ nl' (t : τ) (c p : List (Item P)) (s : σ) (a : α), RS s ⟨p, r⟩ → X.RT t c → Joins J c p r →
            ∃ o s' a' r' p', E.parseTextLoop m n t nl' ⟨s, a, d⟩ =
              (Outcome.ofExcept o, ⟨s', a', d⟩) ∧
              RS s' ⟨p', r'⟩ ∧ LoopEv E.cc X m (d == 0) nl' c p r a o p' r' a' :=
          fun nl' t c p s a h1 h2 h3 => ih r.length (by simp) r rfl n nl' t c p s a h1 h2 h3 hn'
        by_cases h1 : nl = 0 ∧ isEndChar E.cc m it.ch = true
        · rw [if_pos h1, h1.1]
          exact C.c_finish hs1 ht hj a d m (d == 0) (by unfold scanText; rw [if_pos ⟨rfl, h1.2⟩])
        rw [if_neg h1]
        by_cases h2 : E.cc.isNestEscape it.ch = true
        · rw [if_pos h2]
          obtain ⟨s2, a2, ha2, hs2, h3⟩ := C.c_concatAccum hs1 ht (hj.1 p (List.prefix_append ..)) a d
          rcases h3 with ⟨v, h3, hv⟩ | ⟨hF, hp, e, h3⟩
          · rw [Act.bind_ok h3]
            obtain ⟨s3, h4, hs3⟩ := C.c_next hs2 a2 d
            rw [Act.bind_ok h4]
            simp only [List.tail_cons] at hs3
            obtain ⟨s4, a4, ha4, h5⟩ := C.c_nextAccum hs3 a2 d
            rcases h5 with ⟨h5, hs4⟩ | ⟨_, hp, _⟩
            · rw [Act.bind_ok h5]
              cases r with
              | nil =>
                simp only [List.head?_nil, Option.toList_none, List.append_nil, List.tail_nil] at hs4
                obtain ⟨o, s', a', r', p', h6, h7, h8⟩ := ih1 nl v (c ++ p) [] s4 a4 hs4 hv
                  ⟨fun e he => by rw [List.eq_nil_of_prefix_nil he]; exact C.join_nil_right _, .inr (.inr rfl)⟩
                refine ⟨o, s', a', r', p', h6, h7, C.trans _ _ _ (C.trans _ _ _ ha2 ha4) h8.1, ?_⟩
                have hsc : scanText E.cc m (d == 0) nl [it] = scanText E.cc m (d == 0) nl [] := by
                  conv_lhs => unfold scanText
                  rw [if_neg h1, if_pos h2]
                  simp only [scanText]
                rw [hsc]
                rcases h8.2 with h | h | h | ⟨hF, he, hp, hr, hl⟩
                · refine Or.inl ?_; simpa using h
                · exact Or.inr (Or.inl h)
                · exact Or.inr (Or.inr (Or.inl h))
                · have := hl rfl
                  simp at this
              | cons x r1 =>
                simp only [List.head?_cons, Option.toList_some, List.nil_append, List.tail_cons] at hs4
                obtain ⟨o, s', a', r', p', h6, h7, h8⟩ :=
                  ih r1.length (by simp; omega) r1 rfl n nl v (c ++ p) [x] s4 a4 hs4 hv
                    ⟨fun e he => C.joined hs1 hj h2 he, .inr (.inl (by simp))⟩
                    (by simp at hn'; omega)
                refine ⟨o, s', a', r', p', h6, h7, ?_⟩
                refine LoopEv.step C h8 (C.trans _ _ _ ha2 ha4) (x := x) rfl ?_ ⟨[it, x], rfl⟩
                  (by simp; omega)
                conv_lhs => unfold scanText
                rw [if_neg h1, if_pos h2]
            · exact absurd rfl hp
          · exact ⟨.error (.failedAlloc e), s2, a2, it :: r, [], Act.bind_err h3, hs2, ha2,
              Or.inr (Or.inr (Or.inr
                ⟨hF, ⟨e, rfl⟩, rfl, List.suffix_refl _, fun h => absurd h hp⟩))⟩
        rw [if_neg h2]
        by_cases h3 : E.cc.isNestStart it.ch = true
        · rw [if_pos h3]
          refine C.c_loopStep hs1 ht hj (ih1 (nl + 1)) ?_
          conv_lhs => unfold scanText
          rw [if_neg h1, if_neg h2, if_pos h3]
        rw [if_neg h3]
        by_cases h4 : E.cc.isNestEnd it.ch = true
        · rw [if_pos h4]
          by_cases h5 : nl > 0
          · rw [if_pos h5]
            refine C.c_loopStep hs1 ht hj (ih1 (nl - 1)) ?_
            conv_lhs => unfold scanText
            rw [if_neg h1, if_neg h2, if_neg h3, if_pos h4, if_pos h5]
          · rw [if_neg h5]
            have hce := C.c_checkEndChar it hs1 a d h4
            have h0 : nl = 0 := by omega
            subst h0
            by_cases hd : d > 0
            · obtain ⟨s2, h6, hs2⟩ := hce.1 hd
              rw [Act.bind_ok h6]
              refine C.c_finish hs2 ht hj a d m (d == 0) ?_
              have : (d == 0) = false := by simp; omega
              rw [this]
              conv_lhs => unfold scanText
              rw [if_neg h1, if_neg h2, if_neg h3, if_pos h4, if_neg h5]
              simp
            · obtain ⟨s2, h6, hs2⟩ := hce.2 (by omega)
              refine ⟨.error (.unbalancedEndChar it.pos), s2, a, r, [], Act.bind_err h6, hs2,
                C.refl _, ?_⟩
              refine Or.inr (Or.inr (Or.inl ⟨it.pos, rfl, rfl, ?_⟩))
              have : (d == 0) = true := by simp; omega
              rw [this]
              conv_lhs => unfold scanText
              rw [if_neg h1, if_neg h2, if_neg h3, if_pos h4, if_neg h5]
              simp
        rw [if_neg h4]
        refine C.c_loopStep hs1 ht hj (ih1 nl) ?_
        conv_lhs => unfold scanText
        rw [if_neg h1, if_neg h2, if_neg h3, if_neg h4]

theorem ConfJ.c_parseText (m : Mode) (n : Nat) {s : σ} {r : List (Item P)} (hs : RS s ⟨[], r⟩)
    (a : α) (d : Nat) (hn : r.length < n) :
    ∃ o s' a' r' p', E.parseText n m ⟨s, a, d⟩ = (Outcome.ofExcept o, ⟨s', a', d⟩) ∧
      RS s' ⟨p', r'⟩ ∧ Clean p' r' ∧ (∀ t, o = .ok t → p' = []) ∧
      TextEv E.cc X m (d == 0) r a o r' a' := by
  obtain ⟨o, s', a', r', p', h1, h2, h3⟩ :=
    C.c_parseTextLoop m d r n 0 E.text.empty [] [] s a hs C.empty
      ⟨fun e _ => C.join_nil_left e, .inl rfl⟩ hn
  refine ⟨o, s', a', r', p', h1, h2, h3.clean, fun t ht => ?_, h3.1, ?_⟩
  · rcases h3.2 with ⟨t, c', rfl, h, h4, h5⟩ | ⟨rfl, h4, hr⟩ | ⟨q, rfl, _, h4⟩ | ⟨hF, ⟨e, rfl⟩, _, h4, h5⟩
    · exact h
    all_goals cases ht
  · rcases h3.2 with ⟨t, c', rfl, _, h4, h5⟩ | ⟨rfl, h4, hr⟩ | ⟨q, rfl, _, h4⟩ | ⟨hF, he, _, h4, h5⟩
    · exact Or.inl ⟨t, c', rfl, h4, by simpa using h5⟩
    · exact Or.inr (Or.inl ⟨rfl, h4, hr⟩)
    · exact Or.inr (Or.inr (Or.inl ⟨q, rfl, h4⟩))
    · exact Or.inr (Or.inr (Or.inr ⟨hF, he, h4, fun _ => h5 rfl⟩))

theorem ConfJ.c_nestEnd_cons (it : Item P) {s : σ} {p r : List (Item P)} (hs : RS s ⟨p, it :: r⟩) (a : α)
    (d : Nat) (h : E.cc.isNestEnd it.ch = true) :
    ∃ s', E.nestEnd ⟨s, a, d⟩ = (.ok (), ⟨s', a, d⟩) ∧ RS s' ⟨[], r⟩ := by
  unfold Env.nestEnd
  obtain ⟨s', h1, h2⟩ := C.c_next hs a d
  refine ⟨s', ?_, h2⟩
  rw [Act.bind_ok h1]
  simp only [List.head?_cons, h]
  rfl

theorem ConfJ.c_nestEnd_nil {s : σ} {p : List (Item P)} (hs : RS s ⟨p, []⟩) (a : α) (d : Nat) :
    ∃ s', E.nestEnd ⟨s, a, d⟩ = (.err .missingEndChar, ⟨s', a, d⟩) ∧ RS s' ⟨[], []⟩ := by
  unfold Env.nestEnd
  obtain ⟨s', h1, h2⟩ := C.c_next hs a d
  refine ⟨s', ?_, h2⟩
  rw [Act.bind_ok h1]
  rfl

theorem ConfJ.c_skipSeparator {s : σ} {r : List (Item P)} (hs : RS s ⟨[], r⟩) (a : α) (d : Nat) :
    ∃ s', E.skipSeparator ⟨s, a, d⟩ = (.ok (), ⟨s', a, d⟩) ∧ RS s' ⟨[], dropSep E.cc r⟩ := by
  unfold Env.skipSeparator
  obtain ⟨s1, h1, h2⟩ := C.c_peek hs a d
  rw [Act.bind_ok h1]
  cases r with
  | nil => exact ⟨s1, rfl, h2⟩
  | cons it r =>
    simp only [List.head?_cons]
    by_cases hw : E.cc.isWhitespace it.ch = true
    · rw [if_pos hw]
      obtain ⟨s2, h3, h4⟩ := C.c_next h2 a d
      rw [Act.bind_ok h3]
      exact ⟨s2, rfl, by simpa only [dropSep, hw, if_true, List.tail_cons] using h4⟩
    · rw [if_neg hw]
      exact ⟨s1, rfl, by simpa only [dropSep, if_neg hw] using h2⟩

omit C in
theorem c_newDatum (x : Datum τ ε) (s : σ) (a : α) (d : Nat) :
    (∀ u a', E.alloc.newDatum x a = (.ok u, a') → E.newDatum x ⟨s, a, d⟩ = (.ok (), ⟨s, a', d⟩)) ∧
    (∀ e a', E.alloc.newDatum x a = (.error e, a') →
      E.newDatum x ⟨s, a, d⟩ = (.err (.failedAlloc e), ⟨s, a', d⟩)) := by
  have hr : ∀ y, E.alloc.newDatum x a = y → E.newDatum x ⟨s, a, d⟩ =
      (Outcome.mapErr Err.failedAlloc (Outcome.ofExcept y.1), ⟨s, y.2, d⟩) := by
    rintro y rfl; rfl
  exact ⟨fun u a' h => hr _ h, fun e a' h => hr _ h⟩

end

/-- The parser's outcome of `parse_next`/`parse_nested`. -/
def optOut : Except (Err P CE) (List (Datum τ ε)) → Outcome (Err P CE) (Option (Datum τ ε))
  | .ok l => .ok l.head?
  | .error e => .err e

/-- The parser's outcome of `parse_all`. -/
def allOut (acc : List (Datum τ ε)) :
    Except (Err P CE) (List (Datum τ ε)) → Outcome (Err P CE) (Datum τ ε)
  | .ok l => .ok (mkList (acc ++ l))
  | .error e => .err e

theorem optOut_optRes (x : Except (Err P CE) (Option (Datum τ ε))) :
    optOut (optRes x) = Outcome.ofExcept x := by
  rcases x with _ | (_ | _) <;> rfl

theorem c_liftCombiner {f : α → Except (Err P CE) (Option (Datum τ ε)) × α}
    (s : σ) (a : α) (d : Nat) :
    (liftCombiner f : Act (St σ α) (Err P CE) _) ⟨s, a, d⟩ =
      (optOut (optRes (f a).1), ⟨s, (f a).2, d⟩) := by
  rw [optOut_optRes]; rfl

/-- Regrouping of `>>=`. -/
theorem Act.bind_assoc {S X A B C : Type} (x : Act S X A) (f : A → Act S X B) (g : B → Act S X C) :
    (x >>= f >>= g) = (x >>= fun a => f a >>= g) := by
  funext s
  show Act.bind (Act.bind x f) g s = Act.bind x (fun a => Act.bind (f a) g) s
  unfold Act.bind
  rcases x s with ⟨_ | _ | _ | _, s'⟩ <;> rfl

/-- How a run ends: the state stands for the items left, and nothing is pending
after a success. -/
def Ends (RS : σ → Seq P → Prop) (p : List (Item P)) (o : Except (Err P CE) (List (Datum τ ε)))
    (s' : σ) (r' : List (Item P)) : Prop :=
  ∃ p', RS s' ⟨p', r'⟩ ∧ Clean p' r' ∧ (p = [] → ∀ l, o = .ok l → p' = [])

/-- Adequacy of `parse_next`'s model. -/
def RunNext (E : Env σ P τ ε α CE) (RS : σ → Seq P → Prop) (X : TextSem P τ α) (n : Nat) : Prop :=
  ∀ (m : Mode) (p r : List (Item P)) (s : σ) (a : α) (d : Nat), m ≠ .operands → RS s ⟨p, r⟩ →
    Clean p r → 3 * r.length + 2 ≤ n →
    ∃ o s' r' a', E.parseNext n m ⟨s, a, d⟩ = (optOut o, ⟨s', a', d⟩) ∧
      Ends RS p o s' r' ∧ Eval E.cc X E.alloc E.lookup (.next m d) r a o r' a'

/-- Adequacy of `parse_nested`'s model. -/
def RunNested (E : Env σ P τ ε α CE) (RS : σ → Seq P → Prop) (X : TextSem P τ α) (n : Nat) : Prop :=
  ∀ (p : List (Item P)) (it : Item P) (r : List (Item P)) (s : σ) (a : α) (d : Nat), d ≠ 0 →
    RS s ⟨p, it :: r⟩ → E.cc.isNestStart it.ch = true → 3 * (it :: r).length + 1 ≤ n →
    ∃ o s' r' a', E.parseNested n ⟨s, a, d⟩ = (optOut o, ⟨s', a', d⟩) ∧
      Ends RS [] o s' r' ∧ Eval E.cc X E.alloc E.lookup (.nested d) (it :: r) a o r' a'

/-- Adequacy of `parse_all`'s model. -/
def RunAll (E : Env σ P τ ε α CE) (RS : σ → Seq P → Prop) (X : TextSem P τ α) (n : Nat) : Prop :=
  ∀ (r : List (Item P)) (s : σ) (a : α) (d : Nat) (acc : List (Datum τ ε)), d ≠ 0 →
    RS s ⟨[], r⟩ → 3 * r.length + 3 ≤ n →
    ∃ o s' r' a', E.parseAll n .base acc ⟨s, a, d⟩ = (allOut acc o, ⟨s', a', d⟩) ∧
      Ends RS [] o s' r' ∧ Eval E.cc X E.alloc E.lookup (.all d) r a o r' a'

section

variable (C : ConfJ E RS X J)
include C

theorem ConfJ.run_next (n : Nat) (ihn : RunNext E RS X n) (ihd : RunNested E RS X n) :
    RunNext E RS X (n + 1) := by
  intro m p r s a d hm hs hc hn
  obtain ⟨s1, p1, h1, hs1, hc1, hp1⟩ := C.c_skipLeading m r n p s a d hs (by omega) hc
  have hlen := lead_length E.cc m r
  unfold Env.parseNext
  rw [Act.bind_ok h1]
  obtain ⟨s2, hpk, hs2⟩ := C.c_peek hs1 a d
  rw [Act.bind_ok hpk]
  rcases hl : lead E.cc m r with _ | ⟨it, r1⟩
  · rw [hl] at hs2
    refine ⟨eofForm d, s2, [], a, ?_, ⟨p1, hs2, Or.inr rfl, fun hp _ _ => hp1 hp⟩,
      Eval.next_eof hl rfl⟩
    simp only [List.head?_nil]
    rw [Act.bind_ok (c_getDepth s2 a d)]
    unfold eofForm
    by_cases hd : d = 0
    · rw [if_pos hd, if_pos hd]; rfl
    · rw [if_neg hd, if_neg hd]; rfl
  · rw [hl] at hlen hc1 hs2
    have hp1 : p1 = [] := by rcases hc1 with h | h; exact h; cases h
    subst hp1
    simp only [List.head?_cons]
    by_cases hst : E.cc.isNestStart it.ch = true
    · rw [if_pos hst]
      obtain ⟨o, s', r', a', h2, hends, he⟩ := ihd [] it r1 s2 a (d + 1) (by omega) hs2 hst (by omega)
      have hlen2 : r'.length < (it :: r1).length := he.length
      have hnd : Env.nestedInDepth (E.parseNested n) ⟨s2, a, d⟩ = (optOut o, ⟨s', a', d⟩) := by
        rw [Env.nestedInDepth_eq (E.keeps_parse n).2.1]
        show (((E.parseNested n) ⟨s2, a, d + 1⟩).1, _) = _
        rw [h2]
      obtain ⟨p', hs', hc', hp'⟩ := hends
      rcases o with e | l
      · refine ⟨.error e, s', r', a', ?_, ⟨p', hs', hc', fun _ l hl => by cases hl⟩,
          Eval.next_nest hl hst he (by simp)⟩
        rw [Act.bind_err hnd]; rfl
      · rw [Act.bind_ok hnd]
        rcases l with _ | ⟨x, l⟩
        · cases hp' rfl _ rfl
          obtain ⟨o, s3, r2, a2, h3, ⟨p3, hs3, hc3, hp3⟩, he3⟩ := ihn m [] r' s' a' d hm hs' hc' (by omega)
          exact ⟨o, s3, r2, a2, h3, ⟨p3, hs3, hc3, fun _ => hp3 rfl⟩, Eval.next_removed hl hst he he3⟩
        · exact ⟨.ok (x :: l), s', r', a', rfl, ⟨p', hs', hc', fun _ => hp' rfl⟩,
            Eval.next_nest hl hst he (by simp)⟩
    · rw [if_neg hst]
      have hst' : E.cc.isNestStart it.ch = false := by simpa using hst
      by_cases hen : E.cc.isNestEnd it.ch = true
      · rw [if_pos hen]
        have hce := C.c_checkEndChar it hs2 a d hen
        by_cases hd : d = 0
        · obtain ⟨s3, h3, hs3⟩ := hce.2 hd
          refine ⟨.error (.unbalancedEndChar it.pos), s3, r1, a, ?_,
            ⟨[], hs3, Or.inl rfl, fun _ _ _ => rfl⟩, Eval.next_end hl hst' hen (by simp [endForm, hd])⟩
          rw [Act.bind_err h3]; rfl
        · obtain ⟨s3, h3, hs3⟩ := hce.1 (by omega)
          refine ⟨.ok [], s3, it :: r1, a, ?_,
            ⟨[], hs3, Or.inl rfl, fun _ _ _ => rfl⟩, Eval.next_end hl hst' hen (by simp [endForm, hd])⟩
          rw [Act.bind_ok h3]; rfl
      · rw [if_neg hen]
        have hen' : E.cc.isNestEnd it.ch = false := by simpa using hen
        obtain ⟨o, s3, a3, r3, p3, h3, hs3, hc3, hp3, hev⟩ := C.c_parseText m n hs2 a d (by omega)
        rcases o with e | t
        · refine ⟨.error e, s3, r3, a3, ?_, ⟨p3, hs3, hc3, fun _ l hl => by cases hl⟩,
            Eval.next_text hl hst' hen' (Or.inr ⟨e, hev, rfl⟩)⟩
          rw [Act.bind_err h3]; rfl
        · refine ⟨.ok [.text t], s3, r3, a3, ?_, ⟨p3, hs3, hc3, fun _ _ _ => hp3 t rfl⟩,
            Eval.next_text hl hst' hen' (Or.inl ⟨t, hev, rfl⟩)⟩
          rw [Act.bind_ok h3]; rfl

theorem ConfJ.run_args (n : Nat) (iha : RunAll E RS X n)
    (r : List (Item P)) (s : σ) (a : α) (d : Nat) (hd : d ≠ 0) (hs : RS s ⟨[], r⟩)
    (hn : 3 * r.length + 3 ≤ n) :
    (∃ e s' r' a', ((E.parseAll n .base [] >>= fun l =>
        E.nestEnd >>= fun _ => pure l) : Act _ _ (Datum τ ε)) ⟨s, a, d⟩ =
        (.err e, ⟨s', a', d⟩) ∧ Ends (τ := τ) (ε := ε) RS [] (.error e) s' r' ∧
        Eval E.cc X E.alloc E.lookup (.all d) r a (.error e) r' a') ∨
    (∃ ds e s' r' a', ((E.parseAll n .base [] >>= fun l =>
        E.nestEnd >>= fun _ => pure l) : Act _ _ (Datum τ ε)) ⟨s, a, d⟩ =
        (.ok (mkList ds), ⟨s', a', d⟩) ∧ RS s' ⟨[], r'⟩ ∧
        Eval E.cc X E.alloc E.lookup (.all d) r a (.ok ds) (e :: r') a') := by
  obtain ⟨o, s', r', a', h1, hends, he⟩ := iha r s a d [] hd hs hn
  rcases o with e | ds
  · exact Or.inl ⟨e, s', r', a', Act.bind_err h1, hends, he⟩
  · rcases he.at_end ds rfl with ⟨h, _⟩ | ⟨_, e, r1, rfl, h2, h3⟩
    · exact absurd h hd
    · obtain ⟨p', hs', _, _⟩ := hends
      obtain ⟨s2, h4, hs2⟩ := C.c_nestEnd_cons e hs' a' d h2
      refine Or.inr ⟨ds, e, s2, r1, a', ?_, hs2, he⟩
      rw [Act.bind_ok h1, Act.bind_ok h4]
      rfl

omit C in
theorem ends_error {p : List (Item P)} {e : Err P CE} {s' : σ} {r' : List (Item P)}
    (h : ∃ p', RS s' ⟨p', r'⟩ ∧ Clean p' r') :
    Ends (τ := τ) (ε := ε) RS p (.error e) s' r' := by
  obtain ⟨p', h1, h2⟩ := h
  exact ⟨p', h1, h2, fun _ l hl => by cases hl⟩

omit C in
theorem ends_nil {p : List (Item P)} {o : Except (Err P CE) (List (Datum τ ε))} {s' : σ}
    {r' : List (Item P)} (h : RS s' ⟨[], r'⟩) : Ends RS p o s' r' :=
  ⟨[], h, Or.inl rfl, fun _ _ _ => rfl⟩

theorem ConfJ.run_nested (n : Nat) (ihn : RunNext E RS X n) (iha : RunAll E RS X n) :
    RunNested E RS X (n + 1) := by
  intro p it r s a d hd hs hst hn
  simp only [List.length_cons] at hn
  unfold Env.parseNested
  obtain ⟨s1, h1, hs1⟩ := C.c_next hs a d
  rw [Act.bind_ok h1]
  simp only [List.tail_cons] at hs1
  have h2 : (((it :: r).head?).map (fun it => E.cc.isNestStart it.ch) == some true) = true := by
    simp [hst]
  rw [h2, Act.bind_ok (debugAssert_true _)]
  obtain ⟨o, s2, r1, a1, h3, ⟨p2, hs2, hc2, hp2⟩, he⟩ :=
    ihn .operator [] r s1 a d (by simp) hs1 (Or.inl rfl) (by omega)
  rcases o with e | l
  · exact ⟨.error e, s2, r1, a1, Act.bind_err h3, ends_error ⟨p2, hs2, hc2⟩, Eval.nested_head_err he⟩
  rw [Act.bind_ok h3]
  cases hp2 rfl _ rfl
  obtain ⟨s3, h4, hs3⟩ := C.c_skipSeparator hs2 a1 d
  rw [Act.bind_ok h4]
  have hl := he.le_one l rfl
  rcases l with _ | ⟨h, l⟩
  · rcases he.at_end rfl with ⟨h, _⟩ | ⟨_, e, r2, rfl, h5, h6, h7⟩
    · exact absurd h hd
    have hds : dropSep E.cc (e :: r2) = e :: r2 := by simp [dropSep, h7 rfl]
    rw [hds] at hs3
    obtain ⟨s4, h8, hs4⟩ := C.c_nestEnd_cons e hs3 a1 d h5
    refine ⟨.ok [.emptyNest], s4, r2, a1, ?_, ends_nil hs4, Eval.nested_empty he (by rw [hds]; rfl)⟩
    simp only [List.head?_nil]
    rw [Act.bind_ok h8]
    rfl
  · have hl0 : l = [] := by cases l with
      | nil => rfl
      | cons _ _ => simp at hl
    subst hl0
    have hlen := (he.length (by simp)).2 h rfl
    have hlen2 := dropSep_length E.cc r1
    simp only [List.head?_cons]
    rcases hlk : E.lookup h with _ | (f | f)
    · have hre : (Bind.bind (E.parseAll n .base []) fun operands =>
        (Bind.bind E.nestEnd fun _ =>
          Bind.bind (E.newDatum h) fun _ =>
          Bind.bind (E.newDatum operands) fun _ =>
            pure (some (Datum.combination h operands))) : Act _ _ (Option (Datum τ ε))) =
        ((E.parseAll n .base [] >>= fun l =>
          E.nestEnd >>= fun _ => pure l) >>= fun operands =>
          Bind.bind (E.newDatum h) fun _ =>
          Bind.bind (E.newDatum operands) fun _ =>
            pure (some (Datum.combination h operands))) := by
        rw [Act.bind_assoc]
        congr 1; funext l
        rw [Act.bind_assoc]
        rfl
      simp only [hre]
      rcases ConfJ.run_args C n iha (dropSep E.cc r1) s3 a1 d hd hs3 (by omega) with
        ⟨e, s', r', a', h8, hc8, he8⟩ | ⟨ds, e, s', r', a', h8, hs8, he8⟩
      · exact ⟨.error e, s', r', a', Act.bind_err h8, hc8,
          Eval.nested_args_err he (ArgComb.unbound hlk) he8⟩
      · rw [Act.bind_ok h8]
        refine ⟨(finishNest E.alloc none h ds (e :: r') a').1, s', r',
          (finishNest (CE := CE) E.alloc none h ds (e :: r') a').2.2, ?_, ends_nil hs8,
          Eval.nested_args he (ArgComb.unbound hlk) he8 rfl⟩
        unfold finishNest allocComb
        have e1 := c_newDatum (E := E) h s' a' d
        rcases hq : E.alloc.newDatum h a' with ⟨_ | _, a2⟩
        · rw [Act.bind_err (e1.2 _ _ hq)]; rfl
        · rw [Act.bind_ok (e1.1 _ _ hq)]
          have e2 := c_newDatum (E := E) (mkList ds) s' a2 d
          rcases hq2 : E.alloc.newDatum (mkList ds) a2 with ⟨_ | _, a3⟩
          · rw [Act.bind_err (e2.2 _ _ hq2)]; simp only [hq2]; rfl
          · rw [Act.bind_ok (e2.1 _ _ hq2)]; simp only [hq2]; rfl
    · simp only
      obtain ⟨o, s4, a4, r4, p4, h5, hs4, hc4, hp4, hev⟩ :=
        C.c_parseText .operands n hs3 a1 d (by omega)
      have htop : (d == 0) = false := by simp [hd]
      rw [htop] at hev
      rcases o with e | t
      · refine ⟨.error e, s4, r4, a4, ?_, ends_error ⟨p4, hs4, hc4⟩,
          Eval.nested_operative he hlk (Or.inr (Or.inr ⟨e, hev, rfl⟩))⟩
        rw [Act.bind_err h5]; rfl
      · rw [Act.bind_ok h5]
        rcases hev.2 with ⟨t', c, h6, h7, h8⟩ | ⟨h6, _⟩ | ⟨_, h6, _⟩ | ⟨_, ⟨_, h6⟩, _⟩
        · cases h6
          rcases scanText_operands E.cc false (dropSep E.cc r1) 0 with ⟨c', e, r', hsc, hend⟩ |
            ⟨c', hsc⟩ | hsc
          · rw [hsc] at h7; cases h7
            obtain ⟨s5, h9, hs5⟩ := C.c_nestEnd_cons e hs4 a4 d hend
            refine ⟨optRes (f h t a4).1, s5, r', (f h t a4).2, ?_, ends_nil hs5,
              Eval.nested_operative he hlk (Or.inl ⟨t, e, a4, hev, rfl, rfl⟩)⟩
            rw [Act.bind_ok h9]
            exact c_liftCombiner s5 a4 d
          · rw [hsc] at h7; cases h7
            obtain ⟨s5, h9, hs5⟩ := C.c_nestEnd_nil hs4 a4 d
            refine ⟨.error .missingEndChar, s5, [], a4, ?_, ends_nil hs5,
              Eval.nested_operative he hlk (Or.inr (Or.inl ⟨t, hev, rfl, rfl⟩))⟩
            rw [Act.bind_err h9]; rfl
          · rw [hsc] at h7; cases h7
        all_goals cases h6
    · have hre : (Bind.bind (E.parseAll n .base []) fun operands =>
        (Bind.bind E.nestEnd fun _ => liftCombiner (f h operands))
          : Act _ _ (Option (Datum τ ε))) =
        ((E.parseAll n .base [] >>= fun l =>
          E.nestEnd >>= fun _ => pure l) >>= fun operands =>
          liftCombiner (f h operands)) := by
        rw [Act.bind_assoc]
        congr 1; funext l
        rw [Act.bind_assoc]
        rfl
      simp only [hre]
      rcases ConfJ.run_args C n iha (dropSep E.cc r1) s3 a1 d hd hs3 (by omega) with
        ⟨e, s', r', a', h8, hc8, he8⟩ | ⟨ds, e, s', r', a', h8, hs8, he8⟩
      · exact ⟨.error e, s', r', a', Act.bind_err h8, hc8,
          Eval.nested_args_err he (ArgComb.applicative hlk) he8⟩
      · rw [Act.bind_ok h8]
        exact ⟨(finishNest E.alloc (some f) h ds (e :: r') a').1, s', r',
          (finishNest (CE := CE) E.alloc (some f) h ds (e :: r') a').2.2,
          c_liftCombiner s' a' d, ends_nil hs8,
          Eval.nested_args he (ArgComb.applicative hlk) he8 rfl⟩

omit C in
theorem ConfJ.run_all (n : Nat) (ihn : RunNext E RS X n) (iha : RunAll E RS X n) :
    RunAll E RS X (n + 1) := by
  intro r s a d acc hd hs hn
  unfold Env.parseAll
  obtain ⟨o, s1, r1, a1, h2, ⟨p1, hs1, hc1, hp1⟩, he⟩ :=
    ihn .base [] r s a d (by simp) hs (Or.inl rfl) (by omega)
  rcases o with e | l
  · exact ⟨.error e, s1, r1, a1, Act.bind_err h2, ends_error ⟨p1, hs1, hc1⟩, Eval.all_err he⟩
  rw [Act.bind_ok h2]
  cases hp1 rfl _ rfl
  have hl := he.le_one l rfl
  rcases l with _ | ⟨x, l⟩
  · exact ⟨.ok [], s1, r1, a1, by simp [allOut]; rfl, ends_nil hs1, Eval.all_nil he⟩
  · have hl0 : l = [] := by cases l with
      | nil => rfl
      | cons _ _ => simp at hl
    subst hl0
    have hlen := (he.length (by simp)).2 x rfl
    simp only [List.head?_cons]
    have e1 := c_newDatum (E := E) x s1 a1 d
    rcases hq : E.alloc.newDatum x a1 with ⟨er | _, a2⟩
    · refine ⟨.error (.failedAlloc er), s1, r1, a2, ?_, ends_nil hs1,
        Eval.all_alloc_err he (by simp [allocCell, hq])⟩
      rw [Act.bind_err (e1.2 _ _ hq)]; rfl
    rw [Act.bind_ok (e1.1 _ _ hq)]
    have e2 := c_newDatum (E := E) .emptyList s1 a2 d
    rcases hq2 : E.alloc.newDatum .emptyList a2 with ⟨er | _, a3⟩
    · refine ⟨.error (.failedAlloc er), s1, r1, a3, ?_, ends_nil hs1,
        Eval.all_alloc_err he (by simp [allocCell, hq, hq2])⟩
      rw [Act.bind_err (e2.2 _ _ hq2)]; rfl
    have e3 : E.getMutFresh ⟨s1, a3, d⟩ = (.ok (E.alloc.getMutFresh a3), ⟨s1, a3, d⟩) := rfl
    rw [Act.bind_ok (e2.1 _ _ hq2), Act.bind_ok e3]
    by_cases hg : E.alloc.getMutFresh a3 = true
    · rw [if_pos hg]
      obtain ⟨o, s', r', a', h5, hc5, he5⟩ := iha r1 s1 a3 d (acc ++ [x]) hd hs1 (by omega)
      have hcell : allocCell (P := P) (CE := CE) E.alloc x a1 = (.ok (), a3) := by
        simp [allocCell, hq, hq2, hg]
      rcases o with e | ds
      · exact ⟨.error e, s', r', a', h5, hc5, Eval.all_cons_err he hcell he5⟩
      · refine ⟨.ok (x :: ds), s', r', a', ?_, ?_, Eval.all_cons he hcell he5⟩
        · rw [h5]; simp [allOut]
        · obtain ⟨p', q1, q2, q3⟩ := hc5
          exact ⟨p', q1, q2, fun hp l hl => q3 hp _ rfl⟩
    · rw [if_neg hg]
      refine ⟨.error .failedDerefTryMut, s1, r1, a3, rfl, ends_nil hs1,
        Eval.all_alloc_err he (by simp [allocCell, hq, hq2, hg])⟩

/-- **Adequacy**: with enough steps the parser gives a result allowed by the rules,
and does not panic. -/
theorem ConfJ.run (n : Nat) : RunNext E RS X n ∧ RunNested E RS X n ∧ RunAll E RS X n := by
  induction n with
  | zero =>
    refine ⟨fun m p r s a d _ _ _ hn => by omega, fun p it r s a d _ _ _ hn => by omega,
      fun r s a d acc _ _ hn => by omega⟩
  | succ n ih => exact ⟨ConfJ.run_next C n ih.1 ih.2.1, ConfJ.run_nested C n ih.1 ih.2.2, ConfJ.run_all n ih.1 ih.2.2⟩

end

/-! ## The same for `Conf` -/

variable (C : Conf E RS X)
include C

theorem Conf.c_peek {s : σ} {p r : List (Item P)} (h : RS s ⟨p, r⟩) (a : α) (d : Nat) :
    ∃ s', E.peek ⟨s, a, d⟩ = (.ok r.head?, ⟨s', a, d⟩) ∧ RS s' ⟨p, r⟩ := C.toJ.c_peek h a d

theorem Conf.c_next {s : σ} {p r : List (Item P)} (h : RS s ⟨p, r⟩) (a : α) (d : Nat) :
    ∃ s', E.next ⟨s, a, d⟩ = (.ok r.head?, ⟨s', a, d⟩) ∧ RS s' ⟨[], r.tail⟩ := C.toJ.c_next h a d

theorem Conf.c_nextAccum {s : σ} {p r : List (Item P)} (h : RS s ⟨p, r⟩) (a : α) (d : Nat) :
    ∃ s' a', X.RA a a' ∧
      ((E.nextAccum ⟨s, a, d⟩ = (.ok r.head?, ⟨s', a', d⟩) ∧
          RS s' ⟨p ++ r.head?.toList, r.tail⟩) ∨
       (X.F ∧ p ≠ [] ∧ (∃ e, E.nextAccum ⟨s, a, d⟩ = (.err (.failedAlloc e), ⟨s', a', d⟩)) ∧
          RS s' ⟨[], r⟩)) := C.toJ.c_nextAccum h a d

theorem Conf.c_concatAccum {s : σ} {p r : List (Item P)} (h : RS s ⟨p, r⟩) {t : τ}
    {c : List (Item P)} (ht : X.RT t c) (a : α) (d : Nat) :
    ∃ s' a', X.RA a a' ∧ RS s' ⟨[], r⟩ ∧
      ((∃ v, E.concatAccum t ⟨s, a, d⟩ = (.ok v, ⟨s', a', d⟩) ∧ X.RT v (c ++ p)) ∨
       (X.F ∧ p ≠ [] ∧ ∃ e, E.concatAccum t ⟨s, a, d⟩ = (.err (.failedAlloc e), ⟨s', a', d⟩))) :=
  C.toJ.c_concatAccum h ht trivial a d

theorem Conf.c_skipLeading (m : Mode) (r : List (Item P)) (n : Nat) (p : List (Item P)) (s : σ) (a : α)
    (d : Nat) (hs : RS s ⟨p, r⟩) (hn : r.length < n) (hc : Clean p r) :
    ∃ s' p', E.skipLeading n m ⟨s, a, d⟩ = (.ok (), ⟨s', a, d⟩) ∧ RS s' ⟨p', lead E.cc m r⟩ ∧
      Clean p' (lead E.cc m r) ∧ (p = [] → p' = []) := C.toJ.c_skipLeading m r n p s a d hs hn hc

theorem Conf.c_skipSeparator {s : σ} {r : List (Item P)} (hs : RS s ⟨[], r⟩) (a : α) (d : Nat) :
    ∃ s', E.skipSeparator ⟨s, a, d⟩ = (.ok (), ⟨s', a, d⟩) ∧ RS s' ⟨[], dropSep E.cc r⟩ :=
  C.toJ.c_skipSeparator hs a d

/-- **Adequacy**, for `Conf`. -/
theorem run (n : Nat) : RunNext E RS X n ∧ RunNested E RS X n ∧ RunAll E RS X n := C.toJ.run n

end Kul
