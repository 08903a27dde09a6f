import Verif.Props.Forms
import Verif.Proof.Local

/-!
# C09, C10, C11, C14, C15, C26: the iterator

`E` is any conforming parser, with any classifier (also one whose classes overlap, unless
stated), any bindings and any allocator. `E.Call t o t'` is a call of `Iterator::next`, and
`E.Calls t os t'` a history of calls, which goes on after errors and after `None`.
`AtItems RS s r` says that the stream `s` has the items `r` yet to come.
-/

namespace Kul

variable {σ P τ ε α CE : Type} {E : Env σ P τ ε α CE} {RS : σ → Seq P → Prop} {X : TextSem P τ α}

/-- The states reached by a history of calls. -/
theorem Conf.calls (C : Conf E RS X) {t os t'} (h : E.Calls t os t') :
    ∀ {s a r}, t = ⟨s, a, 0⟩ → AtItems RS s r → ∃ s' a' r', t' = ⟨s', a', 0⟩ ∧ AtItems RS s' r' ∧
      r' <:+ r ∧ ∀ o ∈ os, o ≠ .panic ∧ o ≠ .fuel := by
  induction h with
  | nil =>
    rintro s a r rfl hs
    exact ⟨s, a, r, rfl, hs, List.suffix_rfl, by simp⟩
  | @cons t o t₁ os t₂ hc _ ih =>
    rintro s a r rfl hs
    obtain ⟨x, s', r', a', rfl, rfl, h1, h2⟩ := C.call_inv hs hc
    obtain ⟨s₂, a₂, r₂, rfl, h3, h4, h5⟩ := ih rfl h1
    refine ⟨s₂, a₂, r₂, rfl, h3, h4.trans h2.suffix, ?_⟩
    intro o ho
    rcases List.mem_cons.mp ho with rfl | ho
    · cases x <;> simp [optOut]
    · exact h5 o ho

theorem optOut_none {o : Except (Err P CE) (List (Datum τ ε))} (h : optOut o = .ok none) : o = .ok [] := by
  match o with
  | .ok [] => rfl
  | .ok (_ :: _) => simp [optOut] at h
  | .error _ => simp [optOut] at h

/-- At the end of the source only `None` is returned, and nothing changes. -/
theorem Eval.of_nil {cc : Classifier} {al : AllocOps τ ε α}
    {lookup : Datum τ ε → Option (Combiner τ ε α P CE)} {a o r' a'}
    (h : Eval cc X al lookup (.next .base 0) [] a o r' a') : o = .ok [] ∧ r' = [] ∧ a' = a := by
  cases h with
  | next_eof _ ho => exact ⟨ho.symm, rfl, rfl⟩
  | next_nest h => cases h
  | next_removed h => cases h
  | next_end h => cases h
  | next_text h => cases h

/-! ## C09 -/

/-- C09. In every state of a parse, with `n` characters still to come, a call of `next`
returns within a recursion and loop budget of `3n+2`. If it returns an item (`Ok` or `Err` of
any kind), it has consumed at least one character. If it returns `None`, nothing is left. -/
theorem C09_call_returns_and_progresses (C : Conf E RS X) {s : σ} {r : List (Item P)}
    (hs : AtItems RS s r) (a : α) :
    ∃ o s' a' r', E.doNext (3 * r.length + 2) ⟨s, a, 0⟩ = (o, ⟨s', a', 0⟩) ∧ o ≠ .fuel ∧
      AtItems RS s' r' ∧ r' <:+ r ∧ (o ≠ .ok none → r'.length < r.length) ∧ (o = .ok none → r' = []) := by
  obtain ⟨p, hp, hc⟩ := hs
  obtain ⟨o, s', r', a', h1, ⟨p', h2, h3, _⟩, h4⟩ :=
    (run C (3 * r.length + 2)).1 .base p r s a 0 (by simp) hp hc (Nat.le_refl _)
  refine ⟨_, s', a', r', h1, optOut_ne_fuel o, ⟨p', h2, h3⟩, h4.suffix, ?_, ?_⟩
  · intro h
    have h5 : o ≠ .ok [] → r'.length < r.length := h4.top_progress
    exact h5 fun h6 => h (by rw [h6]; rfl)
  · intro h
    rcases h4.at_end (optOut_none h) with ⟨_, h⟩ | ⟨h, _⟩
    · exact h
    · exact absurd rfl h

/-- C09, whole parses: a source of `n` characters gives at most `n` items, then `None`. -/
theorem C09_parse_ends (C : Conf E RS X) {s : σ} {r : List (Item P)} (hs : RS s ⟨[], r⟩) (a : α) :
    ∃ l t, E.Yields (St.init s a) l t ∧ l.length ≤ r.length := by
  obtain ⟨l, s', r', a', h1, _, h2⟩ := C.yields_run a (AtItems.fresh hs)
  exact ⟨l, _, h1, h2.length⟩

/-- C09, arbitrary histories: however often `next` is called, at most `n` of the results
are items. -/
theorem C09_history (C : Conf E RS X) {t os t'} (h : E.Calls t os t') :
    ∀ {s a r}, t = ⟨s, a, 0⟩ → AtItems RS s r →
      ∃ l k, os = l ++ List.replicate k (.ok none) ∧ (∀ o ∈ l, o ≠ .ok none) ∧ l.length ≤ r.length := by
  induction h with
  | nil => intro s a r _ _; exact ⟨[], 0, rfl, by simp, by simp⟩
  | @cons t o t₁ os t₂ hc _ ih =>
    rintro s a r rfl hs
    obtain ⟨x, s', r', a', rfl, rfl, h1, h2⟩ := C.call_inv hs hc
    obtain ⟨l, k, h3, h4, h5⟩ := ih rfl h1
    by_cases hx : optOut x = .ok none
    · have hr : r' = [] := by
        rcases h2.at_end (optOut_none hx) with ⟨_, h⟩ | ⟨h, _⟩
        · exact h
        · exact absurd rfl h
      subst hr
      have : l = [] := by simpa using h5
      subst this
      exact ⟨[], k + 1, by rw [h3, hx]; rfl, by simp, by simp⟩
    · refine ⟨optOut x :: l, k, by rw [h3]; rfl, ?_, ?_⟩
      · intro o ho
        rcases List.mem_cons.mp ho with rfl | ho
        · exact hx
        · exact h4 o ho
      · have h6 : x ≠ .ok [] → r'.length < r.length := h2.top_progress
        have := h6 fun h => hx (by rw [h]; rfl)
        simp only [List.length_cons]; omega

/-! ## C10 -/

/-- C10. After `None`, every later call returns `None` too, and the allocator (with
everything that combiners can reach) stays as it is. -/
theorem C10_end_is_stable (C : Conf E RS X) {s : σ} {r : List (Item P)} (hs : RS s ⟨[], r⟩) {a : α}
    {os t t' os' t''} (h : E.Calls (St.init s a) os t) (hn : E.Call t (.ok none) t')
    (h' : E.Calls t' os' t'') : (∀ o ∈ os', o = .ok none) ∧ t''.alloc = t'.alloc := by
  obtain ⟨s₁, a₁, r₁, rfl, h1, _⟩ := C.calls h rfl (AtItems.fresh hs)
  obtain ⟨x, s₂, r₂, a₂, h2, rfl, h3, h4⟩ := C.call_inv h1 hn
  have hr : r₂ = [] := by
    rcases h4.at_end (optOut_none h2.symm) with ⟨_, h⟩ | ⟨h, _⟩
    · exact h
    · exact absurd rfl h
  subst hr
  clear h hn h1 h2 h4
  generalize ht : (⟨s₂, a₂, 0⟩ : St σ α) = t' at h'
  induction h' generalizing s₂ with
  | nil => exact ⟨by simp, rfl⟩
  | @cons t o t₁ os t₂ hc _ ih =>
    subst ht
    obtain ⟨x, s', r', a', rfl, rfl, h1, h2⟩ := C.call_inv h3 hc
    obtain ⟨rfl, rfl, rfl⟩ := h2.of_nil
    obtain ⟨h5, h6⟩ := ih s' h1 rfl
    refine ⟨?_, h6⟩
    intro o ho
    rcases List.mem_cons.mp ho with rfl | ho
    · rfl
    · exact h5 o ho

/-! ## C15 -/

/-- C15. No history of calls panics, whatever the source, classifier, bindings and
allocator, and every call returns. -/
theorem C15_no_panic (C : Conf E RS X) {s : σ} {r : List (Item P)} (hs : RS s ⟨[], r⟩) {a : α}
    {os t} (h : E.Calls (St.init s a) os t) :
    .panic ∉ os ∧ ∃ o t', E.Call t o t' ∧ o ≠ .panic := by
  obtain ⟨s₁, a₁, r₁, rfl, h1, _, h2⟩ := C.calls h rfl (AtItems.fresh hs)
  refine ⟨fun hp => (h2 _ hp).1 rfl, ?_⟩
  obtain ⟨o, s', r', a', h3, _⟩ := C.call h1 a₁
  refine ⟨_, _, h3, ?_⟩
  cases o <;> simp [optOut]

/-! ## C11 -/

theorem balance_unmatched {cc : Classifier} {d : Nat} {it : Item P} {r r' : List (Item P)}
    (h : balance cc d r = .unmatched it r') : cc.isNestEnd it.ch = true ∧ ∃ u, r = u ++ it :: r' := by
  induction hn : r.length using Nat.strongRecOn generalizing r d with
  | ind n ih =>
    subst hn
    have key : ∀ {d x r₁}, balance cc d r₁ = .unmatched it r' → r = x :: r₁ →
        cc.isNestEnd it.ch = true ∧ ∃ u, r = u ++ it :: r' := by
      rintro d x r₁ h hr
      obtain ⟨h1, u, h2⟩ := ih r₁.length (by simp [hr]) h rfl
      rw [hr]
      exact ⟨h1, x :: u, by rw [h2]; rfl⟩
    cases r with
    | nil => cases h
    | cons x r =>
      rw [balance_cons] at h
      split at h
      · cases r with
        | nil => cases h
        | cons y r =>
          obtain ⟨h1, u, h2⟩ := ih r.length (by simp; omega) h rfl
          exact ⟨h1, x :: y :: u, by rw [h2]; rfl⟩
      · split at h
        · exact key h rfl
        · split at h
          · rename_i he
            cases d with
            | zero => cases h; exact ⟨he, [], rfl⟩
            | succ d => exact key h rfl
          · exact key h rfl

/-- C11. After any history of calls, errors included, the parser is exactly a fresh parser
on its stream (`t = St.init ..`: the nesting depth is that of the top level), and that stream
has a rest of the source still to come. -/
theorem C11_resumes_at_top_level (C : Conf E RS X) {s : σ} {r : List (Item P)}
    (hs : RS s ⟨[], r⟩) {a : α} {os t} (h : E.Calls (St.init s a) os t) :
    t = St.init t.strm t.alloc ∧ ∃ r', r' <:+ r ∧ AtItems RS t.strm r' := by
  obtain ⟨s₁, a₁, r₁, rfl, h1, h2, _⟩ := C.calls h rfl (AtItems.fresh hs)
  exact ⟨rfl, r₁, h2, h1⟩

/-- C11. What the parser yields after any history is the same as what a fresh parse of the
remaining characters yields, on any stream `s₂` made of those characters. `Agree .. E X E X`
says that the combiners do not look at how texts are represented. -/
theorem C11_same_as_fresh (C : Conf E RS X) {RX : ε → ε → Prop} {RA : α → α → Prop}
    {RE : CE → CE → Prop} (G : Agree Eq Eq RX RA RE False E X E X)
    {s : σ} {r : List (Item P)} (hs : RS s ⟨[], r⟩) {a : α} {os t}
    (h : E.Calls (St.init s a) os t) :
    ∃ r', r' <:+ r ∧ AtItems RS t.strm r' ∧
      ∀ s₂ a₂ l t', RS s₂ ⟨[], r'⟩ → RA t.alloc a₂ → E.Yields t l t' →
        ∃ l₂ t₂, E.Yields (St.init s₂ a₂) l₂ t₂ ∧
          List.Forall₂ (ResultRel Eq RE (DatumRel (SameText X X (ItemRel Eq Eq)) RX)) l l₂ := by
  obtain ⟨s₁, a₁, r₁, rfl, h1, h2, _⟩ := C.calls h rfl (AtItems.fresh hs)
  refine ⟨r₁, h2, h1, ?_⟩
  intro s₂ a₂ l t' hs₂ ha hy
  obtain ⟨p, hp, hc⟩ := h1
  rcases hc with rfl | rfl
  · obtain ⟨l₂, t₂, h3, _, h4⟩ := C.related C G hp hs₂ (forall₂_itemRel_eq.mpr rfl) ha hy
    exact ⟨l₂, t₂, h3, h4⟩
  · obtain ⟨_, _, rfl, _, hr⟩ := C.yields_inv ⟨p, hp, Or.inr rfl⟩ hy
    have hl : l = [] := by simpa using hr.length
    subst hl
    obtain ⟨l₂, s', r', a', hy₂, _, hr₂⟩ := C.yields_run a₂ (AtItems.fresh hs₂)
    have hl : l₂ = [] := by simpa using hr₂.length
    subst hl
    exact ⟨[], _, hy₂, .nil⟩

/-- C11. After `UnbalancedEndChar(p)` (unless a combiner made up that error itself) the
rest of the source starts right after the offending end delimiter. -/
theorem C11_after_unbalanced (C : Conf E RS X) (D : E.cc.Disjoint) {s : σ} {r : List (Item P)}
    (hs : RS s ⟨[], r⟩) {a : α} {os t p t'} (h : E.Calls (St.init s a) os t)
    (he : E.Call t (.err (.unbalancedEndChar p)) t') (hc : ¬ CombinerError E.lookup (.unbalancedEndChar p)) :
    ∃ u it r', r = u ++ it :: r' ∧ E.cc.isNestEnd it.ch = true ∧ it.pos = p ∧
      AtItems RS t'.strm r' := by
  obtain ⟨s₁, a₁, r₁, rfl, h1, ⟨u, h2⟩, _⟩ := C.calls h rfl (AtItems.fresh hs)
  obtain ⟨x, s₂, r₂, a₂, h3, rfl, h4, h5⟩ := C.call_inv h1 he
  have hx : x = .error (.unbalancedEndChar p) := by
    match x, h3 with
    | .ok [], h => simp [optOut] at h
    | .ok (_ :: _), h => simp [optOut] at h
    | .error e, h => simp only [optOut, Outcome.err.injEq] at h; rw [← h]
  subst hx
  rcases h5.bal with (⟨⟨_, h⟩, _⟩ | ⟨h, _⟩) | h | ⟨h, _⟩ | ⟨it, h, h6⟩
  · cases h
  · cases h
  · exact absurd h hc
  · cases h
  · obtain ⟨h7, v, h8⟩ := balance_unmatched (h6 D)
    refine ⟨u ++ v, it, r₂, by rw [← h2, h8, List.append_assoc], h7, ?_, h4⟩
    cases h; rfl

/-! ## C26 -/

/-- C26. After any history of calls, errors included, a datum returned by the next call
consists only of items that this call has consumed: no text contains anything from before.
Holds for every allocator, also one that fails. -/
theorem C26_nothing_leaks (C : Conf E RS X) (D : E.cc.Disjoint) (hb : ∀ d, E.lookup d = none)
    {s : σ} {r : List (Item P)} (hs : RS s ⟨[], r⟩) {a : α} {os t d t'}
    (h : E.Calls (St.init s a) os t) (hd : E.Call t (.ok (some d)) t') :
    ∃ before used rest d', r = before ++ used ++ rest ∧ AtItems RS t.strm (used ++ rest) ∧
      AtItems RS t'.strm rest ∧ DatumRel X.RT Eq d d' ∧ d'.texts.Sublist used := by
  obtain ⟨s₁, a₁, r₁, rfl, h1, ⟨u, h2⟩, _⟩ := C.calls h rfl (AtItems.fresh hs)
  obtain ⟨x, s₂, r₂, a₂, h3, rfl, h4, h5⟩ := C.call_inv h1 hd
  have hx : x = .ok [d] := by
    have h6 : ∀ l, x = .ok l → l.length ≤ 1 := h5.le_one
    match x, h3, h6 with
    | .ok [], h, _ => simp [optOut] at h
    | .ok [y], h, _ => simp only [optOut] at h; cases h; rfl
    | .ok (_ :: _ :: _), _, h6 => have := h6 _ rfl; simp at this
    | .error e, h, _ => simp [optOut] at h
  subst hx
  obtain ⟨v, d', h6, h7, h8⟩ := h5.written D hb
  have hk := h8.kept [] [] .nil (fun _ => ⟨rfl, rfl⟩)
  rw [List.append_nil, List.append_nil] at hk
  refine ⟨u, v, r₂, d', by rw [← h2, h6, List.append_assoc], by rw [← h6]; exact h1, h4, h7, ?_⟩
  simpa using hk.sublist

/-! ## C14 -/

theorem CallRel.optOut {P₁ P₂ τ₁ τ₂ ε₁ ε₂ CE₁ CE₂ : Type} {RP : P₁ → P₂ → Prop}
    {RE : CE₁ → CE₂ → Prop} {RD : Datum τ₁ ε₁ → Datum τ₂ ε₂ → Prop}
    {o : Outcome (Err P₁ CE₁) (Option (Datum τ₁ ε₁))}
    {x : Except (Err P₂ CE₂) (List (Datum τ₂ ε₂))} (h : CallRel RP RE RD o (Kul.optOut x)) :
    o ≠ .panic := by
  rintro rfl
  cases x <;> cases h

/-- C14. Suppose a call on a source `u ++ x :: t₁` leaves at least `x` unread. Then on any
source `u ++ x :: t₂` the call gives the same result (both correspond to the same result `o`
of the abstract parser) and leaves the same, up to `x`, unread: what comes after `x` plays no
role. `Agree` to an abstract parser says that combiners and allocator do not look at how texts
are represented. -/
theorem C14_only_consumed_and_next_matter (C : Conf E RS X) {ε₂ α₂ CE₂ : Type}
    {al₂ : AllocOps (List (Item P)) ε₂ α₂}
    {lookup₂ : Datum (List (Item P)) ε₂ → Option (Combiner (List (Item P)) ε₂ α₂ P CE₂)}
    {RX : ε → ε₂ → Prop} {RA : α → α₂ → Prop} {RE : CE → CE₂ → Prop}
    (G : Agree Eq Eq RX RA RE False E X (seqEnv E.cc al₂ lookup₂) (seqSem P α₂))
    {s₁ s₂ : σ} {u t₁ t₂ : List (Item P)} {x : Item P} (h₁ : RS s₁ ⟨[], u ++ x :: t₁⟩)
    (h₂ : RS s₂ ⟨[], u ++ x :: t₂⟩) {a₁ a₂ : α} {b : α₂} (ha₁ : RA a₁ b) (ha₂ : RA a₂ b) {o₁ t₁'}
    (hc : E.Call (St.init s₁ a₁) o₁ t₁') :
    ∃ r', AtItems RS t₁'.strm r' ∧ ∀ w, r' = w ++ x :: t₁ →
      ∃ o₂ t₂', E.Call (St.init s₂ a₂) o₂ t₂' ∧ AtItems RS t₂'.strm (w ++ x :: t₂) ∧
        ∃ o, CallRel Eq RE (DatumRel (SameText X (seqSem P α₂) (ItemRel Eq Eq)) RX) o₁ o ∧
          CallRel Eq RE (DatumRel (SameText X (seqSem P α₂) (ItemRel Eq Eq)) RX) o₂ o := by
  have C₂ := seqConf E.cc al₂ lookup₂
  have S : Sim (confRels RS X Eq (seqSem P α₂) Eq Eq RX RA RE False) E (seqEnv E.cc al₂ lookup₂) :=
    C.sim C₂ G.cc G.fail₁ G.fail₂ G.mem G.alloc G.lookup
  have key : ∀ {s a r o t}, RS s ⟨[], r⟩ → RA a b → E.Call (St.init s a) o t →
      ∃ x r' b', CallRel Eq RE (DatumRel (SameText X (seqSem P α₂) (ItemRel Eq Eq)) RX) o (optOut x) ∧
        AtItems RS t.strm r' ∧ Eval E.cc (seqSem P α₂) al₂ lookup₂ (.next .base 0) r b x r' b' := by
    intro s a r o t hs ha hc
    rcases S.call (s := St.init s a) (t := ⟨⟨[], r⟩, b, 0⟩) ⟨⟨_, _, hs, rfl, .nil, forall₂_itemRel_eq.mpr rfl⟩, ha, rfl⟩ hc with
      ⟨o', t', h1, h2, h3⟩ | ⟨h, _⟩
    · obtain ⟨x, q, r', b', rfl, rfl, ⟨p, rfl, h4⟩, h5⟩ := C₂.call_inv (AtItems.fresh rfl) h1
      obtain ⟨⟨q₁, q₂, h6, h7, h8, h9⟩, _⟩ := h3 (CallRel.optOut h2)
      obtain ⟨p₁, r₁⟩ := q₁
      cases h7
      cases forall₂_itemRel_eq.mp h8
      cases forall₂_itemRel_eq.mp h9
      exact ⟨x, r', b', h2, ⟨p, h6, h4⟩, h5⟩
    · exact h.elim
  obtain ⟨x₁, r₁', b₁, h3, h4, h5⟩ := key h₁ ha₁ hc
  refine ⟨r₁', h4, ?_⟩
  rintro w rfl
  obtain ⟨r₂', h6, h7⟩ := h5.local (t₂ := t₂) (x := x) (t := t₁) ⟨u, rfl, rfl⟩ (by simp; omega)
  obtain ⟨o₂, s₂', r', a', h8, _⟩ := C.call (AtItems.fresh h₂) a₂
  obtain ⟨x₂, r₃, b₂, h9, h10, h11⟩ := key h₂ ha₂ h8
  obtain ⟨rfl, rfl, rfl⟩ := h11.det (seqSem_func P α₂) h7
  refine ⟨_, _, h8, ?_, _, h3, h9⟩
  obtain ⟨v, h12, rfl⟩ := h6
  cases List.append_cancel_right h12
  exact h10

/-! ## Non-vacuity -/

/-- A history with all kinds of results: `}{a b}{` gives an error, a datum, an error,
and then `None` twice. -/
example : ∃ t, sampleEnv.Calls (St.init ⟨[], charsOf "}{a b}{"⟩ ())
    [.err (.unbalancedEndChar ()),
     .ok (some (.combination (.text (charsOf "a")) (.list (.text (charsOf "b")) .emptyList))),
     .err .missingEndChar, .ok none, .ok none] t :=
  Env.calls_of 40 5 (by decide +kernel) (by decide)

/-- C11 and C14: parsers without bindings agree with themselves and with abstract ones. -/
example : Agree Eq Eq Eq (fun _ _ => True) Eq False sampleEnv (seqSem Unit Unit)
    (seqEnv sampleEnv.cc (freeAlloc _ _ Unit) (noBindings _ Empty _ _ Empty)) (seqSem Unit Unit) :=
  Agree.plain (ClassifierSim.eq _) (fun _ => rfl) (fun _ => rfl) ⟨fun _ _ => ⟨_, rfl, rfl⟩⟩
    ⟨fun _ _ => ⟨_, rfl, rfl⟩⟩ (fun h => h) (fun h => h)

/-- C14: the call on `{a} {b}` leaves ` {b}` unread. -/
example : ∃ s, sampleEnv.Call (St.init ⟨[], charsOf "{a} {b}"⟩ ())
    (.ok (some (.combination (.text (charsOf "a")) .emptyList))) ⟨s, (), 0⟩ ∧
    AtItems Eq s (charsOf " {b}") :=
  ⟨⟨[], charsOf " {b}"⟩, ⟨20, by decide +kernel, by decide⟩, AtItems.fresh rfl⟩

end Kul
