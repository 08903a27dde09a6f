import Verif.Proof.Unwind
import Verif.Proof.Provided
import Verif.Proof.Sample
import Verif.Props.Iteration

/-!
# C68: combiners that panic

`UEnv` is the parser with combiners that may panic (`Model/Unwind.lean`); `U.orErr e` is the
parser of all other properties with combiners that return the error `e` where those of `U` panic.
-/

namespace Kul

variable {σ P τ ε α CE : Type} {U : UEnv σ P τ ε α CE} {RS : σ → Seq P → Prop} {X : TextSem P τ α}

/-- The contract does not mention combiners. -/
theorem UEnv.conf (C : Conf U.env RS X) (e : Err P CE) : Conf (U.orErr e) RS X :=
  ⟨C.refl, C.trans, C.peek, C.next, C.nextAccum, C.accumDone, C.empty, C.concat⟩

theorem optOut_ne_panic (o : Except (Err P CE) (List (Datum τ ε))) : optOut o ≠ .panic := by
  cases o <;> simp [optOut]

/-- A call at any depth, on `n` more items, ends within the budget `3n+2`. -/
theorem UEnv.run (C : Conf U.env RS X) {s : σ} {r : List (Item P)} (hs : AtItems RS s r) (a : α) (d : Nat) :
    ∃ o s' a' d' r', U.parseNext (3 * r.length + 2) .base ⟨s, a, d⟩ = (o, ⟨s', a', d'⟩) ∧ o ≠ .fuel ∧
      (∀ e, (U.orErr e).parseNext (3 * r.length + 2) .base ⟨s, a, d⟩ = (panicAs e o, ⟨s', a', d⟩)) ∧
      (o ≠ .panic → d' = d) ∧ (o = .panic → d < d') ∧ AtItems RS s' r' ∧ r' <:+ r := by
  obtain ⟨p, hp, hc⟩ := hs
  have key : ∀ e, ∃ o s' r' a', (U.orErr e).parseNext (3 * r.length + 2) .base ⟨s, a, d⟩ = (optOut o, ⟨s', a', d⟩) ∧
      AtItems RS s' r' ∧ r' <:+ r := by
    intro e
    obtain ⟨o, s', r', a', h1, ⟨p', h2, h3, _⟩, h4⟩ :=
      ((UEnv.conf C e).toJ.run (3 * r.length + 2)).1 .base p r s a d (by simp) hp hc (Nat.le_refl _)
    exact ⟨o, s', r', a', h1, ⟨p', h2, h3⟩, h4.suffix⟩
  rcases hx : U.parseNext (3 * r.length + 2) .base ⟨s, a, d⟩ with ⟨o, s', a', d'⟩
  have al := fun e => (U.alike e (3 * r.length + 2)).1 .base ⟨s, a, d⟩
  rw [hx] at al
  by_cases ho : o = .panic
  · subst ho
    have al' : ∀ e, d < d' ∧ (U.orErr e).parseNext (3 * r.length + 2) .base ⟨s, a, d⟩ = (.err e, ⟨s', a', d⟩) := by
      intro e
      obtain ⟨o₁, s₁, r₁, a₁, h1, _⟩ := key e
      have al := al e
      rw [h1] at al ⊢
      rcases al with ⟨_, h⟩ | ⟨_, h⟩ | ⟨_, h2, h3, h4, h5⟩
      · exact absurd rfl h
      · exact absurd h (optOut_ne_panic _)
      · simp only at h2 h3 h4 h5
        subst h4 h5
        rw [h3]
        exact ⟨by omega, rfl⟩
    obtain ⟨o₁, s₁, r₁, a₁, h1, h2, h3⟩ := key .missingEndChar
    rw [(al' _).2] at h1
    simp only [Prod.mk.injEq, St.mk.injEq] at h1
    obtain ⟨_, rfl, rfl, _⟩ := h1
    exact ⟨_, _, _, _, r₁, rfl, by simp, fun e => (al' e).2, fun h => absurd rfl h,
      fun _ => (al' .missingEndChar).1, h2, h3⟩
  · have al' : ∀ e, (o, St.mk s' a' d') = (U.orErr e).parseNext (3 * r.length + 2) .base ⟨s, a, d⟩ := by
      intro e
      rcases al e with ⟨h, _⟩ | ⟨h, _⟩ | ⟨h, _⟩
      · exact h
      · exact absurd h ho
      · exact absurd h ho
    obtain ⟨o₁, s₁, r₁, a₁, h1, h2, h3⟩ := key .missingEndChar
    rw [← al'] at h1
    cases h1
    have hq : ∀ e, panicAs e (optOut o₁) = optOut o₁ := by
      intro e
      cases o₁ <;> rfl
    exact ⟨_, _, _, _, r₁, rfl, optOut_ne_fuel _, fun e => by rw [← al' e, hq], fun _ => rfl,
      fun h => absurd h ho, h2, h3⟩

/-- The state a call leaves, and what it is to the parser whose combiners do not panic. -/
theorem UEnv.call_inv (C : Conf U.env RS X) {s : σ} {r : List (Item P)} (hs : AtItems RS s r) {a : α} {d : Nat}
    {o t} (h : U.Call ⟨s, a, d⟩ o t) :
    (∀ e, (U.orErr e).parseNext (3 * r.length + 2) .base ⟨s, a, d⟩ = (panicAs e o, ⟨t.strm, t.alloc, d⟩)) ∧
      (o ≠ .panic → t.ndepth = d) ∧ (o = .panic → d < t.ndepth) ∧ o ≠ .fuel ∧
      ∃ r', AtItems RS t.strm r' ∧ r' <:+ r := by
  obtain ⟨o', s', a', d', r', h1, h2, h3, h4, h5, h6⟩ := UEnv.run C hs a d
  obtain ⟨rfl, rfl⟩ := h.unique ⟨_, h1, h2⟩
  exact ⟨h3, h4, h5, h2, r', h6⟩

/-! ## A panic is like an error -/

/-- C68. Every call of `next` ends. It panics just where a parser whose combiners return an error
`e` instead would return `e`, and it leaves the source and the allocator as that one would; when it
does not panic, its result is the same. The nest depth is what differs: a panic leaves it greater
than it was, and it was the same after every other result. -/
theorem C68_call (C : Conf U.env RS X) {s : σ} {r : List (Item P)} (hs : AtItems RS s r) (a : α) (d : Nat) :
    (∃ o t, U.Call ⟨s, a, d⟩ o t) ∧
    ∀ o t, U.Call ⟨s, a, d⟩ o t →
      (∀ e, (U.orErr e).Call ⟨s, a, d⟩ (panicAs e o) ⟨t.strm, t.alloc, d⟩) ∧
      (o ≠ .panic → t.ndepth = d) ∧ (o = .panic → d < t.ndepth) := by
  constructor
  · obtain ⟨o, s', a', d', r', h1, h2, _⟩ := UEnv.run C hs a d
    exact ⟨_, _, _, h1, h2⟩
  · intro o t h
    obtain ⟨h1, h2, h3, h4, _⟩ := UEnv.call_inv C hs h
    refine ⟨fun e => ⟨_, h1 e, ?_⟩, h2, h3⟩
    cases o <;> simp_all [panicAs]

/-- C68. After any history of calls the iterator is at the nest depth at which it began if and only
if no call panicked. -/
theorem C68_depth (C : Conf U.env RS X) {t t' : St σ α} {os} (h : U.Calls t os t') {r : List (Item P)}
    (hs : AtItems RS t.strm r) :
    t.ndepth ≤ t'.ndepth ∧ (t'.ndepth = t.ndepth ↔ .panic ∉ os) ∧ ∃ r', AtItems RS t'.strm r' ∧ r' <:+ r := by
  induction h generalizing r with
  | nil => exact ⟨Nat.le_refl _, by simp, r, hs, List.suffix_rfl⟩
  | @cons t o t₁ os t₂ hc _ ih =>
    obtain ⟨s, a, d⟩ := t
    obtain ⟨_, h2, h3, _, r₁, h5, h6⟩ := UEnv.call_inv C hs hc
    obtain ⟨h7, h8, r₂, h9, h10⟩ := ih h5
    simp only at h2 h3 ⊢
    by_cases ho : o = .panic
    · have := h3 ho
      refine ⟨by omega, ⟨fun _ => by omega, fun hn => absurd ?_ hn⟩, r₂, h9, h10.trans h6⟩
      simp [ho]
    · have h2 := h2 ho
      refine ⟨by omega, ?_, r₂, h9, h10.trans h6⟩
      rw [← h2, h8]
      have : Outcome.panic ≠ o := fun h => ho h.symm
      simp [this]

/-- C68. Until a combiner panics, the parser is the one whose combiners return. -/
theorem C68_until_panic (C : Conf U.env RS X) {t t' : St σ α} {os} (h : U.Calls t os t') {r : List (Item P)}
    (hs : AtItems RS t.strm r) (hp : .panic ∉ os) (e : Err P CE) : (U.orErr e).Calls t os t' := by
  induction h generalizing r with
  | nil => exact .nil
  | @cons t o t₁ os t₂ hc _ ih =>
    obtain ⟨s, a, d⟩ := t
    obtain ⟨_, h2, _, _, r₁, h5, _⟩ := UEnv.call_inv C hs hc
    have ho : o ≠ .panic := fun h => hp (by simp [h])
    have h1 := ((C68_call C hs a d).2 _ _ hc).1 e
    have h2 := h2 ho
    refine .cons ?_ (ih h5 fun h => hp (List.mem_cons_of_mem _ h))
    obtain ⟨s₁, a₁, d₁⟩ := t₁
    simp only at h2
    subst h2
    cases o <;> first | exact h1 | exact absurd rfl ho

/-- C68. A parser whose combiners return is the same as before. -/
theorem C68_returning {E : Env σ P τ ε α CE} (C : Conf E RS X) {s : σ} {r : List (Item P)}
    (hs : AtItems RS s r) (a : α) (d : Nat) {o t} : E.returning.Call ⟨s, a, d⟩ o t ↔ E.Call ⟨s, a, d⟩ o t := by
  have hE : ∀ e, E.returning.orErr e = E := by
    intro e
    have : ∀ x, ((E.lookup x).map Combiner.returning).map (UCombiner.orErr e) = E.lookup x := by
      intro x
      rcases E.lookup x with _ | (f | f)
      · rfl
      · rfl
      · rfl
    unfold Env.returning UEnv.orErr
    simp only [this]
  have key : ∀ o t, E.returning.Call ⟨s, a, d⟩ o t → E.Call ⟨s, a, d⟩ o t := by
    intro o t h
    obtain ⟨h1, h2, _, h4, _⟩ := UEnv.call_inv (U := E.returning) C hs h
    have h5 := h1 .missingEndChar
    have h6 := h1 .failedDerefTryMut
    rw [hE] at h5 h6
    by_cases ho : o = .panic
    · subst ho
      rw [h5] at h6
      cases h6
    · obtain ⟨s₁, a₁, d₁⟩ := t
      have h2 := h2 ho
      simp only at h2
      subst h2
      refine ⟨3 * r.length + 2, ?_, h4⟩
      unfold Env.doNext
      rw [h5]
      cases o <;> first | rfl | exact absurd rfl ho
  refine ⟨key o t, fun h => ?_⟩
  obtain ⟨o', t', h'⟩ := (C68_call (U := E.returning) C hs a d).1
  obtain ⟨rfl, rfl⟩ := h.unique (key _ _ h')
  exact h'

/-! ## Going on after a panic -/

/-- C68. Who makes a new iterator over the rest of the source after a panic gets what a parser
whose combiners return an error instead would give. -/
theorem C68_new_iterator (C : Conf U.env RS X) {s s' : σ} {a a' : α} {os} (h : U.Renewed s a os s' a')
    {r : List (Item P)} (hs : AtItems RS s r) (e : Err P CE) :
    (U.orErr e).Calls (St.init s a) (os.map (panicAs e)) (St.init s' a') := by
  induction h generalizing r with
  | nil => exact .nil
  | cons hc _ ih =>
    obtain ⟨_, _, _, _, r₁, h5, _⟩ := UEnv.call_inv C hs hc
    exact .cons (((C68_call C hs _ _).2 _ _ hc).1 e) (ih h5)

/-- A call from inside a nest, compared to the same call from top level. -/
theorem UEnv.lift (C : Conf U.env RS X) {s : σ} {r : List (Item P)} (hs : AtItems RS s r) {a : α} {o t}
    (h : U.Call (St.init s a) o t) (hu : ∀ p, o ≠ .err (.unbalancedEndChar p)) (d : Nat) :
    ∃ d', U.Call ⟨s, a, d + 1⟩ (neverDone o) ⟨t.strm, t.alloc, d' + 1⟩ := by
  obtain ⟨h1, _, _, h4, _⟩ := UEnv.call_inv C hs h
  obtain ⟨o', s', a', d', _, g1, g2, g3, g4, g5, _⟩ := UEnv.run C hs a (d + 1)
  have up := fun e => (U.orErr e).lifts_top (3 * r.length + 2) s a d
  have hd : ∃ k, d' = k + 1 := by
    by_cases ho : o' = .panic
    · exact ⟨d' - 1, by have := g5 ho; omega⟩
    · exact ⟨d, g4 ho⟩
  obtain ⟨k, rfl⟩ := hd
  refine ⟨k, ?_⟩
  suffices hh : o' = neverDone o ∧ s' = t.strm ∧ a' = t.alloc by
    obtain ⟨rfl, rfl, rfl⟩ := hh
    exact ⟨_, g1, g2⟩
  have h1' : ∀ e, (U.orErr e).parseNext (3 * r.length + 2) .base ⟨s, a, 0⟩ = (panicAs e o, ⟨t.strm, t.alloc, 0⟩) := h1
  cases o with
  | ok v =>
    have same : ∀ e, (panicAs e o', St.mk s' a' (d + 1)) = (neverDone (.ok v), ⟨t.strm, t.alloc, d + 1⟩) := by
      intro e
      have u := up e
      rw [h1' e] at u
      exact (g3 e).symm.trans u
    have s1 := same .missingEndChar
    have s2 := same .failedDerefTryMut
    simp only [Prod.mk.injEq, St.mk.injEq] at s1 s2
    refine ⟨?_, s1.2.1, s1.2.2.1⟩
    cases o' with
    | panic =>
      have := s1.1.trans s2.1.symm
      simp [panicAs] at this
    | _ => exact s1.1
  | err x =>
    have same : ∀ e, (panicAs e o', St.mk s' a' (d + 1)) = (.err x, ⟨t.strm, t.alloc, d + 1⟩) := by
      intro e
      have u := up e
      rw [h1' e] at u
      exact (g3 e).symm.trans (u fun p hp => hu p (by rw [hp]))
    have s1 := same .missingEndChar
    have s2 := same .failedDerefTryMut
    simp only [Prod.mk.injEq, St.mk.injEq] at s1 s2
    refine ⟨?_, s1.2.1, s1.2.2.1⟩
    cases o' with
    | panic =>
      have := s1.1.trans s2.1.symm
      simp [panicAs] at this
    | _ => exact s1.1
  | panic =>
    have same : ∀ e, (∀ p, e ≠ .unbalancedEndChar p) →
        (panicAs e o', St.mk s' a' (d + 1)) = (.err e, ⟨t.strm, t.alloc, d + 1⟩) := by
      intro e he
      have u := up e
      rw [h1' e] at u
      exact (g3 e).symm.trans (u he)
    have s1 := same .missingEndChar (by simp)
    have s2 := same .failedDerefTryMut (by simp)
    simp only [Prod.mk.injEq, St.mk.injEq] at s1 s2
    refine ⟨?_, s1.2.1, s1.2.2.1⟩
    cases o' with
    | panic => rfl
    | _ =>
      have := s1.1.symm.trans s2.1
      simp at this
  | fuel => exact absurd rfl h4

/-- C68. Who goes on with the iterator that panicked gets the same items as from new iterators over
the rest of the source, but no end of the source: where a new iterator gives `None` this one
gives `Err(MissingEndChar)`. (As long as no end delimiter without start is met.) -/
theorem C68_same_iterator (C : Conf U.env RS X) {s s' : σ} {a a' : α} {os} (h : U.Renewed s a os s' a')
    {r : List (Item P)} (hs : AtItems RS s r) (hu : ∀ p, .err (.unbalancedEndChar p) ∉ os)
    {d : Nat} (hd : 0 < d) :
    ∃ d', 0 < d' ∧ U.Calls ⟨s, a, d⟩ (os.map neverDone) ⟨s', a', d'⟩ := by
  induction h generalizing r d with
  | nil => exact ⟨d, hd, .nil⟩
  | @cons s a o s₁ a₁ d₁ os s' a' hc _ ih =>
    obtain ⟨k, rfl⟩ : ∃ k, d = k + 1 := ⟨d - 1, by omega⟩
    obtain ⟨_, _, _, _, r₁, h5, _⟩ := UEnv.call_inv C hs hc
    obtain ⟨d₂, h6⟩ := UEnv.lift C hs hc (fun p h => hu p (by simp [h])) k
    obtain ⟨d₃, h7, h8⟩ := ih h5 (fun p h => hu p (List.mem_cons_of_mem _ h)) (d := d₂ + 1) (by omega)
    exact ⟨d₃, h7, .cons h6 h8⟩

/-- C68. A `for` loop over the iterator that panicked does not end there: once a new iterator would be at
the end of the source, this one gives `Err(MissingEndChar)` any number of times. -/
theorem C68_never_none (C : Conf U.env RS X) {s : σ} (hs : AtItems RS s []) (a : α) {d : Nat} (hd : 0 < d)
    (n : Nat) : ∃ s', U.Calls ⟨s, a, d⟩ (List.replicate n (.err .missingEndChar)) ⟨s', a, d⟩ := by
  induction n generalizing s with
  | zero => exact ⟨s, .nil⟩
  | succ n ih =>
    obtain ⟨k, rfl⟩ : ∃ k, d = k + 1 := ⟨d - 1, by omega⟩
    obtain ⟨o, t, h⟩ := (C68_call C hs a (k + 1)).1
    obtain ⟨h1, h2, h3, h4, r', h5, h6⟩ := UEnv.call_inv C hs h
    cases List.suffix_nil.mp h6
    obtain ⟨p, hp, hc⟩ := hs
    obtain ⟨x, s₁, r₁, a₁, g1, -, g2⟩ := ((UEnv.conf C .failedDerefTryMut).toJ.run 2).1 .base p [] s a (k + 1) (by simp) hp hc
      (by simp)
    rw [show (2 : Nat) = 3 * ([] : List (Item P)).length + 2 by rfl, h1] at g1
    have hx : x = .error .missingEndChar ∧ a₁ = a := by
      cases g2 with
      | next_eof _ ho => exact ⟨by rw [← ho]; rfl, rfl⟩
      | next_nest h => cases h
      | next_removed h => cases h
      | next_end h => cases h
      | next_text h => cases h
    obtain ⟨rfl, rfl⟩ := hx
    simp only [Prod.mk.injEq, St.mk.injEq] at g1
    have ho : o = .err .missingEndChar := by
      cases o with
      | panic => have := g1.1; simp [panicAs, optOut] at this
      | _ => exact g1.1
    subst ho
    have h2 := h2 (by simp)
    obtain ⟨s₂, a₂, d₂⟩ := t
    obtain ⟨_, rfl, rfl, _⟩ := g1
    simp only at h2
    subst h2
    obtain ⟨s₃, h7⟩ := ih h5
    exact ⟨s₃, .cons h h7⟩

/-- C68. If an end delimiter comes next, the iterator that panicked gives `None` and does not move:
the rest of the source, from this delimiter on, is never read. (A new iterator would report the
delimiter and go on behind it.) -/
theorem C68_stuck (C : Conf U.env RS X) (D : U.env.cc.Disjoint) {s : σ} {x : Item P} {r : List (Item P)}
    (hs : AtItems RS s (x :: r)) (hx : U.env.cc.isNestEnd x.ch = true) (a : α) {d : Nat} (hd : 0 < d) (n : Nat) :
    ∃ s', U.Calls ⟨s, a, d⟩ (List.replicate n (.ok none)) ⟨s', a, d⟩ ∧ AtItems RS s' (x :: r) := by
  induction n generalizing s with
  | zero => exact ⟨s, .nil, hs⟩
  | succ n ih =>
    obtain ⟨k, rfl⟩ : ∃ k, d = k + 1 := ⟨d - 1, by omega⟩
    obtain ⟨o, t, h⟩ := (C68_call C hs a (k + 1)).1
    obtain ⟨h1, h2, h3, h4, _⟩ := UEnv.call_inv C hs h
    obtain ⟨p, hp, hc⟩ := hs
    obtain ⟨y, s₁, r₁, a₁, g1, ⟨p₁, e1, e2, _⟩, g2⟩ := ((UEnv.conf C .failedDerefTryMut).toJ.run (3 * (x :: r).length + 2)).1
      .base p (x :: r) s a (k + 1) (by simp) hp hc (Nat.le_refl _)
    rw [h1] at g1
    have hn : U.env.cc.isNestStart x.ch = false := end_not_start D hx
    have hy : y = .ok [] ∧ r₁ = x :: r ∧ a₁ = a := by
      cases g2 with
      | next_eof h => cases h
      | next_nest h h' => cases h; exact absurd (hn.symm.trans h') (by simp)
      | next_removed h h' => cases h; exact absurd (hn.symm.trans h') (by simp)
      | next_end h _ _ ho =>
        cases h
        rw [endForm, if_neg (by omega)] at ho
        cases ho
        exact ⟨rfl, rfl, rfl⟩
      | next_text h _ h' => cases h; exact absurd (hx.symm.trans h') (by simp)
    obtain ⟨rfl, rfl, rfl⟩ := hy
    simp only [Prod.mk.injEq, St.mk.injEq] at g1
    have ho : o = .ok none := by
      cases o with
      | panic => have := g1.1; simp [panicAs, optOut] at this
      | _ => exact g1.1
    subst ho
    have h2 := h2 (by simp)
    obtain ⟨s₂, a₂, d₂⟩ := t
    obtain ⟨_, rfl, rfl, _⟩ := g1
    simp only at h2
    subst h2
    obtain ⟨s₃, h7, h8⟩ := ih ⟨p₁, e1, e2⟩
    exact ⟨s₃, .cons h h7, h8⟩

/-! ## The library's parsers -/

/-- C68. `C68_call` for the next call after any history of calls, with whatever errors and panics. (Of
the library's parsers.) -/
theorem C68_call_provided {s : σ} {r : List (Item P)} (pr : Provided U.env s r X) {a : α} {os t}
    (h : U.Calls (St.init s a) os t) :
    (∃ o t', U.Call t o t') ∧
    ∀ o t', U.Call t o t' →
      (∀ e, (U.orErr e).Call t (panicAs e o) ⟨t'.strm, t'.alloc, t.ndepth⟩) ∧
      (o ≠ .panic → t'.ndepth = t.ndepth) ∧ (o = .panic → t.ndepth < t'.ndepth) :=
  have ⟨_, C, hs⟩ := pr.conf
  have ⟨_, _, _, h1, _⟩ := C68_depth C h (AtItems.fresh hs)
  C68_call C h1 t.alloc t.ndepth

/-- C68. Going on after a panic, with new iterators or with the one that panicked. (Of the
library's parsers.) -/
theorem C68_after_panic_provided {s : σ} {r : List (Item P)} (pr : Provided U.env s r X) {a : α} {os s₁ a₁ d₁}
    (h : U.Calls (St.init s a) os ⟨s₁, a₁, d₁⟩) (hp : .panic ∈ os) {os' s₂ a₂}
    (h' : U.Renewed s₁ a₁ os' s₂ a₂) :
    (∀ e, (U.orErr e).Calls (St.init s₁ a₁) (os'.map (panicAs e)) (St.init s₂ a₂)) ∧
    ((∀ p, .err (.unbalancedEndChar p) ∉ os') →
      ∃ d₂, U.Calls ⟨s₁, a₁, d₁⟩ (os'.map neverDone) ⟨s₂, a₂, d₂⟩) := by
  obtain ⟨_, C, hs⟩ := pr.conf
  obtain ⟨h0, h1, r₁, h2, _⟩ := C68_depth C h (AtItems.fresh hs)
  refine ⟨C68_new_iterator C h' h2, fun hu => ?_⟩
  have hd : 0 < d₁ := by
    apply Nat.pos_of_ne_zero
    intro hz
    exact h1.mp hz hp
  obtain ⟨d₂, _, h3⟩ := C68_same_iterator C h' h2 hu hd
  exact ⟨d₂, h3⟩

/-! ## Non-vacuity -/

/-- An operative and an applicative that panic. -/
def boomEnv : UEnv (Seq Unit) Unit (List (Item Unit)) Empty Unit Empty :=
  ⟨sampleEnv, fun d =>
    if d = .text (charsOf "op") then some (.operative fun _ _ a => (none, a))
    else if d = .text (charsOf "ap") then some (.applicative fun _ _ a => (none, a))
    else none⟩

/-- Makes `k` calls, budget `n` each. -/
def UEnv.callsOf (U : UEnv σ P τ ε α CE) (n : Nat) : Nat → St σ α →
    List (Outcome (Err P CE) (Option (Datum τ ε))) × St σ α
  | 0, s => ([], s)
  | k + 1, s =>
    match U.parseNext n .base s with
    | (o, s') => match UEnv.callsOf U n k s' with
      | (os, t) => (o :: os, t)

theorem UEnv.calls_of {U : UEnv σ P τ ε α CE} (n k : Nat) {s : St σ α} {os t}
    (h : (U.callsOf n k s).1 = os) (ht : (U.callsOf n k s).2 = t) (hf : ∀ o ∈ os, o ≠ .fuel) :
    U.Calls s os t := by
  induction k generalizing s os t with
  | zero => cases h; cases ht; exact .nil
  | succ k ih =>
    subst h ht
    simp only [UEnv.callsOf] at hf ⊢
    exact .cons ⟨n, rfl, hf _ (by simp)⟩ (ih rfl rfl fun o ho => hf o (by simp [ho]))

/-- The operative panics; the iterator goes on with `x`, and then reports a missing end again
and again. -/
example : boomEnv.Calls (St.init ⟨[], charsOf "{op y}x"⟩ ())
    [.panic, .ok (some (.text (charsOf "x"))), .err .missingEndChar, .err .missingEndChar]
    ⟨⟨[], []⟩, (), 1⟩ :=
  UEnv.calls_of 30 4 (by decide +kernel) (by decide +kernel) (by decide)

/-- New iterators give `x` and then `None`. -/
example : boomEnv.Renewed ⟨[], charsOf "{op y}x"⟩ () [.panic, .ok (some (.text (charsOf "x"))), .ok none]
    ⟨[], []⟩ () :=
  .cons (s₁ := ⟨[], charsOf "x"⟩) (a₁ := ()) (d := 1) ⟨30, by decide +kernel, by decide⟩
    (.cons (s₁ := ⟨[], []⟩) (a₁ := ()) (d := 0) ⟨30, by decide +kernel, by decide⟩
      (.cons (s₁ := ⟨[], []⟩) (a₁ := ()) (d := 0) ⟨30, by decide +kernel, by decide⟩ .nil))

/-- The applicative panics inside another nest: the iterator gives `None` at the end delimiter of
that nest, and `x` is never read. -/
example : boomEnv.Calls (St.init ⟨[], charsOf "{a {ap b}}x"⟩ ()) [.panic, .ok none, .ok none]
    ⟨⟨[], charsOf "}x"⟩, (), 2⟩ :=
  UEnv.calls_of 40 3 (by decide +kernel) (by decide +kernel) (by decide)

/-- The hypotheses about the source are those of the other properties. -/
example : Conf boomEnv.env Eq (seqSem Unit Unit) ∧ boomEnv.env.cc.Disjoint :=
  ⟨seqConf _ _ _, defaultClassifier_disjoint⟩

end Kul
