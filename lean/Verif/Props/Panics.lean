import Verif.Proof.Leftover
import Verif.Proof.Provided
import Verif.Proof.Sample

/-!
# C78: user code that panics anywhere

`PEnv` is the parser in which every call of a method of the user's types, and every combiner, may panic
(`Model/Panics.lean`); `U.env` is the same parser with functions that return.
-/

namespace Kul

variable {σ P τ ε α CE : Type} {U : PEnv σ P τ ε α CE} {RS : σ → Seq P → Prop} {X : TextSem P τ α}

theorem PEnv.KeptBy.fair {I : σ → α → Prop} (K : U.KeptBy I) : U.Fair U.LeftByPanic I :=
  ⟨K.peek, K.next, K.nextAccum, K.accumDone, K.concat, K.newDatum, K.operative, K.applicative,
    fun c s a s' a' h hp => ⟨Or.inl ⟨c, s, a, hp⟩, K.strmPanics c s a s' a' h hp⟩,
    fun c s a a' h hp => ⟨Or.inr ⟨c, a, hp⟩, K.panics c s a a' h hp⟩⟩

theorem PEnv.LeftByPanic.mayPanic {s : σ} {a : α} (h : U.LeftByPanic s a) : U.MayPanic := by
  rcases h with ⟨c, s', a', h⟩ | ⟨c, a', h⟩
  · exact Or.inl ⟨c, s', a', by simp [h]⟩
  · exact Or.inr ⟨c, a', by simp [h]⟩

/-- Where in the source `src` a stream can be. -/
theorem PEnv.StreamsInOrder.kept (C : Conf U.env RS X) (S : U.StreamsInOrder RS) (src : List (Item P)) :
    U.KeptBy fun s _ => ∃ before left rest, src = before ++ left ++ rest ∧ RS s ⟨left, rest⟩ where
  peek s a := by
    rintro ⟨b, l, r, h, hs⟩
    obtain ⟨s', h1, h2⟩ := C.peek s _ hs
    exact ⟨b, l, r, h, by rw [h1]; exact h2⟩
  next s a := by
    rintro ⟨b, l, r, h, hs⟩
    obtain ⟨s', h1, h2⟩ := C.next s _ hs
    rw [h1]
    cases r with
    | nil => exact ⟨b ++ l, [], [], by simpa using h, h2⟩
    | cons it r => exact ⟨b ++ l ++ [it], [], r, by simpa using h, h2⟩
  nextAccum s a := by
    rintro ⟨b, l, r, h, hs⟩
    obtain ⟨o, s', a', h1, _, h2 | ⟨_, _, _, h2⟩⟩ := C.nextAccum s _ a hs
    · rw [h1]
      cases r with
      | nil => exact ⟨b, l, [], h, by simpa using h2.2⟩
      | cons it r => exact ⟨b, l ++ [it], r, by simpa using h, by simpa using h2.2⟩
    · rw [h1]
      exact ⟨b ++ l, [], r, by simpa using h, h2⟩
  accumDone s a := by
    rintro ⟨b, l, r, h, hs⟩
    obtain ⟨o, s', a', h1, _, h2, _⟩ := C.accumDone s _ a hs
    rw [h1]
    exact ⟨b ++ l, [], r, by simpa using h, h2⟩
  concat _ _ _ _ h := h
  newDatum _ _ _ h := h
  operative _ _ _ _ _ _ h := h
  applicative _ _ _ _ _ _ h := h
  strmPanics c s a s' a' := by
    rintro ⟨b, l, r, h, hs⟩ hp
    obtain ⟨b', l', r', h1, h2⟩ := S c s a s' a' _ hs hp
    refine ⟨b ++ b', l', r', ?_, h2⟩
    rw [h, List.append_assoc, show l ++ r = b' ++ l' ++ r' from h1]
    simp
  panics _ _ _ _ h _ := h

/-! ## One call -/

/-- C78. Every call of `next` ends, whatever an earlier call has left accumulated in the stream. If it
panics then a function of the user's has panicked, and the parser has done nothing after that: the stream
and the allocator are as that function left them. The stream is in order: the items it has accumulated
(`left`) are those directly before the rest. The nest depth is not less than it was. If the call does not
panic it is a call of the parser whose functions all return, and leaves the same depth. -/
theorem C78_call (C : Conf U.env RS X) (S : U.StreamsInOrder RS) {s : σ} {p r : List (Item P)} (hs : RS s ⟨p, r⟩)
    (a : α) (d : Nat) :
    (∃ o t, U.Call ⟨s, a, d⟩ o t) ∧
    ∀ o t, U.Call ⟨s, a, d⟩ o t →
      (∃ before left rest, p ++ r = before ++ left ++ rest ∧ RS t.strm ⟨left, rest⟩) ∧
      (o = .panic → U.LeftByPanic t.strm t.alloc ∧ d ≤ t.ndepth) ∧
      (o ≠ .panic → U.env.Call ⟨s, a, d⟩ o t ∧ t.ndepth = d) := by
  have H := (S.kept C (p ++ r)).fair
  have hI : ∃ before left rest, p ++ r = before ++ left ++ rest ∧ RS s ⟨left, rest⟩ := ⟨[], p, r, by simp, hs⟩
  obtain ⟨x, s', r', a', p', h1, _⟩ := C.left_run hs a d
  have big := ((H.cut (3 * r.length + 2)).1 .base) ⟨s, a, d⟩ hI
  constructor
  · rcases hx : U.parseNext (3 * r.length + 2) .base ⟨s, a, d⟩ with ⟨o, t⟩
    refine ⟨o, t, _, hx, ?_⟩
    rintro rfl
    rw [hx, h1] at big
    rcases big.2.2 with ⟨h, _⟩ | ⟨h, _⟩
    · cases h
    · cases x <;> simp [optOut] at h
  · rintro o t ⟨n, h2, h3⟩
    have c := ((H.cut n).1 .base) ⟨s, a, d⟩ hI
    rw [h2] at c
    obtain ⟨c1, c2, c3⟩ := c
    refine ⟨c1, fun ho => ⟨?_, c2⟩, fun ho => ?_⟩
    · rcases c3 with ⟨_, h | h⟩ | ⟨h, _⟩
      · exact h
      all_goals
        exfalso
        rcases hy : U.env.parseNext n .base ⟨s, a, d⟩ with ⟨o', t'⟩
        rw [hy] at h
        have hp : o' = .panic := by
          first
          | exact h
          | (cases h; exact ho)
        subst hp
        obtain ⟨h, _⟩ := Env.Call.unique (E := U.env) ⟨n, hy, by simp⟩ ⟨_, h1, by cases x <;> simp [optOut]⟩
        cases x <;> simp [optOut] at h
    · rcases c3 with ⟨h, _⟩ | ⟨h, h'⟩
      · exact absurd h ho
      · exact ⟨⟨n, h.symm, h3⟩, h'⟩

/-- C78. The result of a call is a function of the state. -/
theorem C78_unique {s : St σ α} {o o' t t'} (h : U.Call s o t) (h' : U.Call s o' t') : o = o' ∧ t = t' :=
  h.unique h'

/-- C78. A parser none of whose functions panics is the parser of the other properties. -/
theorem C78_returning (C : Conf U.env RS X) (hU : ¬ U.MayPanic) {s : σ} {p r : List (Item P)} (hs : RS s ⟨p, r⟩)
    (a : α) (d : Nat) {o t} : U.Call ⟨s, a, d⟩ o t ↔ U.env.Call ⟨s, a, d⟩ o t := by
  have S : U.StreamsInOrder RS := fun c s a _ _ _ _ h => absurd (Or.inl ⟨c, s, a, by simp [h]⟩) hU
  obtain ⟨⟨o', t', h'⟩, H⟩ := C78_call C S hs a d
  have key : ∀ o t, U.Call ⟨s, a, d⟩ o t → U.env.Call ⟨s, a, d⟩ o t := fun o t h =>
    ((H o t h).2.2 fun ho => hU ((H o t h).2.1 ho).1.mayPanic).1
  refine ⟨key o t, fun h => ?_⟩
  obtain ⟨rfl, rfl⟩ := h.unique (key _ _ h')
  exact h'

/-- C78. Whatever property of the stream and the allocator every function of the user's keeps, also when it
panics, is kept by every history of uses of the parser, whatever panics. -/
theorem C78_invariant {I : σ → α → Prop} (K : U.KeptBy I) {t t' : St σ α} {os} (h : U.Uses t os t')
    (hI : I t.strm t.alloc) : I t'.strm t'.alloc := by
  induction h with
  | nil => exact hI
  | call hc _ ih =>
    obtain ⟨n, h1, _⟩ := hc
    have := (((K.fair.cut n).1 .base) _ hI).1
    rw [h1] at this
    exact ih this
  | renew _ ih => exact ih hI

/-! ## After any number of panics -/

/-- C78. After any history of uses, panics included, the stream is somewhere in its source with the items
directly before that accumulated, or some of the last of these, and the next call ends. -/
theorem C78_history (C : Conf U.env RS X) (S : U.StreamsInOrder RS) {t t' : St σ α} {os} (h : U.Uses t os t')
    {r : List (Item P)} (hs : RS t.strm ⟨[], r⟩) :
    (∃ before left rest, r = before ++ left ++ rest ∧ RS t'.strm ⟨left, rest⟩) ∧ ∃ o t'', U.Call t' o t'' := by
  have h1 := C78_invariant (S.kept C r) h ⟨[], [], r, rfl, hs⟩
  refine ⟨h1, ?_⟩
  obtain ⟨_, _, _, _, h2⟩ := h1
  obtain ⟨s, a, d⟩ := t'
  exact (C78_call C S h2 a d).1

theorem PEnv.Yields.returning (C : Conf U.env RS X) (S : U.StreamsInOrder RS) {t t' : St σ α} {l}
    (h : U.Yields t l t') {p r : List (Item P)} (hs : RS t.strm ⟨p, r⟩) : U.env.Yields t l t' := by
  induction h generalizing p r with
  | @done s s' h =>
    obtain ⟨s, a, d⟩ := s
    exact .done (((C78_call C S hs a d).2 _ _ h).2.2 (by simp)).1
  | @datum s x s' l s'' h _ ih =>
    obtain ⟨s, a, d⟩ := s
    obtain ⟨⟨_, _, _, _, h1⟩, _, h2⟩ := (C78_call C S hs a d).2 _ _ h
    exact .datum (h2 (by simp)).1 (ih h1)
  | @error s x s' l s'' h _ ih =>
    obtain ⟨s, a, d⟩ := s
    obtain ⟨⟨_, _, _, _, h1⟩, _, h2⟩ := (C78_call C S hs a d).2 _ _ h
    exact .error (h2 (by simp)).1 (ih h1)

section
variable {E : Env σ P τ ε α CE}

/-- A whole parse from a stream with something accumulated. -/
theorem Conf.left_yields (C : Conf E RS X) (D : E.cc.Disjoint) {Mem : α → α → Prop} (M : MemOk X E.alloc Mem) {s : σ}
    {left rest : List (Item P)} (hs : RS s ⟨left, rest⟩) {a : α} {l t} (hy : E.Yields (St.init s a) l t) :
    Resumed E.cc X.RT Mem (MemoryError X.F E.alloc) E.lookup left rest a l t.alloc := by
  obtain ⟨o, s', r', a', p', h1, h2, h3, h4⟩ := C.left_run hs a 0
  have hat : AtItems RS s' r' := ⟨p', h2, h3 rfl⟩
  have hcall : E.Call (St.init s a) (optOut o) ⟨s', a', 0⟩ := ⟨_, h1, by cases o <;> simp [optOut]⟩
  have tail : ∀ {l' t'}, E.Yields ⟨s', a', 0⟩ l' t' →
      Run E.cc X E.alloc E.lookup r' a' l' [] t'.alloc := by
    intro l' t' h
    obtain ⟨_, _, rfl, _, h5⟩ := C.yields_inv hat h
    exact h5
  rcases h4 with ⟨hn, he⟩ | ⟨hst, x, ⟨hra, hx⟩, rfl⟩
  · refine .dropped hn (Run.results D M ?_)
    have hle := he.le_one
    cases hy with
    | done h =>
      obtain ⟨ho, rfl⟩ := hcall.unique h
      have : o = .ok [] := by
        rcases o with e | _ | ⟨_, _⟩ <;> simp [optOut] at ho
        rfl
      subst this
      have := he.at_end rfl
      simp only [true_and, ne_eq, not_true_eq_false, false_and, or_false] at this
      subst this
      exact .done he
    | datum h hy =>
      obtain ⟨ho, rfl⟩ := hcall.unique h
      rcases o with e | _ | ⟨x, l'⟩ <;> simp only [optOut, reduceCtorEq, List.head?_nil, List.head?_cons, Outcome.ok.injEq,
        Option.some.injEq] at ho
      subst ho
      have := hle _ rfl
      cases l' with
      | nil => exact .datum he (tail hy)
      | cons => simp at this
    | error h hy =>
      obtain ⟨ho, rfl⟩ := hcall.unique h
      rcases o with e | _ | ⟨x, l'⟩ <;> simp only [optOut, reduceCtorEq, Outcome.err.injEq] at ho
      subst ho
      exact .error he (tail hy)
  · rcases hx with ⟨t', c, rfl, rfl, hsc, ht⟩ | ⟨_, hsc, _⟩ | ⟨q, rfl, rfl, hsc⟩ | ⟨hF, ⟨e, rfl⟩, rfl, ⟨u, hu⟩, _⟩
    · cases hy with
      | done h => exact absurd (hcall.unique h).1 (by simp [optOut, Except.map])
      | error h => exact absurd (hcall.unique h).1 (by simp [optOut, Except.map])
      | datum h hy =>
        obtain ⟨ho, rfl⟩ := hcall.unique h
        simp only [optOut, Except.map, List.head?_cons, Outcome.ok.injEq, Option.some.injEq] at ho
        subst ho
        rcases scanText_textOf (by simp) hsc with ⟨u, rfl, h5, h6⟩ | ⟨u, e, rfl, rfl, h5, h6⟩
        · refine .joined ?_ h5 (by simpa using ht) (M.text _ _ hra) ?_ (Run.results D M (tail hy))
          · rintro rfl
            obtain ⟨it, r1, h7, h8⟩ := hst
            simp only [List.nil_append] at h7
            subst h7
            rcases h6 with h6 | ⟨it', r1', h6, h9, _⟩
            · cases h6
            · cases h6
              simp only [stopOf] at h9
              rw [h8] at h9
              cases h9
          · rcases h6 with h6 | ⟨it', r1', h6, _, h9⟩
            · exact Or.inl h6
            · exact Or.inr ⟨it', r1', h6, h9 rfl rfl⟩
        · have h7 := tail hy
          have h8 : _ = [] := List.length_eq_zero_iff.1 (Nat.le_zero.1 h7.length)
          subst h8
          cases h7 with
          | done h7 =>
            have : t.alloc = a' := by
              cases h7 with
              | next_eof => rfl
              | next_nest h => rw [lead_base] at h; cases h
              | next_removed h => rw [lead_base] at h; cases h
              | next_end => rfl
              | next_text h => rw [lead_base] at h; cases h
            rw [this]
            exact .joinedEscape h6 h5 (by simpa using ht) (M.text _ _ hra)
    · exact absurd hsc (scanText_ne_missing E.cc .base (by simp) _ _)
    · cases hy with
      | done h => exact absurd (hcall.unique h).1 (by simp [optOut, Except.map])
      | datum h => exact absurd (hcall.unique h).1 (by simp [optOut, Except.map])
      | error h hy =>
        obtain ⟨ho, rfl⟩ := hcall.unique h
        simp only [optOut, Except.map, Outcome.err.injEq] at ho
        subst ho
        obtain ⟨_, u, c, y, rfl, h5, h6, rfl⟩ := scanText_unbalanced (by simp) hsc
        refine .stray ?_ h5 h6 (M.text _ _ hra) (Run.results D M (tail hy))
        rintro rfl
        rw [List.nil_append, startsText_cons] at hst
        rw [hst.2] at h6
        cases h6
    · cases hy with
      | done h => exact absurd (hcall.unique h).1 (by simp [optOut, Except.map])
      | datum h => exact absurd (hcall.unique h).1 (by simp [optOut, Except.map])
      | error h hy =>
        obtain ⟨ho, rfl⟩ := hcall.unique h
        simp only [optOut, Except.map, Outcome.err.injEq] at ho
        subst ho hu
        exact .memory hst (Or.inl ⟨⟨_, rfl⟩, Or.inl hF⟩) (M.text _ _ hra) (Run.results D M (tail hy))

end

/-- C78. Who makes a new iterator over the rest of the source, after any history of uses in which any functions
of the user's panicked, gets the meaning of the rest of the source, with one exception: if the rest begins
with a text, that text has in front of it what the stream had accumulated when it was left. -/
theorem C78_new_iterator (C : Conf U.env RS X) (S : U.StreamsInOrder RS) (D : U.env.cc.Disjoint) {Mem : α → α → Prop}
    (M : MemOk X U.env.alloc Mem) {s : σ} {r : List (Item P)} (hs : RS s ⟨[], r⟩) {a : α} {os t}
    (h : U.Uses (St.init s a) os t) {l t'} (hy : U.Yields (St.init t.strm t.alloc) l t') :
    ∃ before left rest, r = before ++ left ++ rest ∧
      Resumed U.env.cc X.RT Mem (MemoryError X.F U.env.alloc) U.env.lookup left rest t.alloc l t'.alloc := by
  obtain ⟨⟨before, left, rest, h1, h2⟩, _⟩ := C78_history C S h hs
  exact ⟨before, left, rest, h1, C.left_yields D M h2 (hy.returning C S h2)⟩

/-- C78. A history of uses in which nothing panicked is one of the parser whose functions all return. -/
theorem C78_until_panic (C : Conf U.env RS X) (S : U.StreamsInOrder RS) {t t' : St σ α} {os} (h : U.Uses t os t')
    {p r : List (Item P)} (hs : RS t.strm ⟨p, r⟩) (ho : .panic ∉ os) :
    PEnv.Uses ⟨U.env, fun _ _ _ => none, fun _ _ => none⟩ t os t' := by
  induction h generalizing p r with
  | nil => exact .nil
  | renew _ ih => exact .renew (ih hs ho)
  | @call s o s' os s'' hc _ ih =>
    simp only [List.mem_cons, not_or] at ho
    obtain ⟨s, a, d⟩ := s
    obtain ⟨⟨_, _, _, _, h1⟩, _, h2⟩ := (C78_call C S hs a d).2 _ _ hc
    refine .call ?_ (ih h1 ho.2)
    refine (C78_returning (U := ⟨U.env, fun _ _ _ => none, fun _ _ => none⟩) C ?_ hs a d).2 (h2 (Ne.symm ho.1)).1
    rintro (⟨_, _, _, h⟩ | ⟨_, _, h⟩) <;> exact h rfl

/-- C78 for the parsers that can be put together from what the library provides, with any classifier, bindings,
allocator and combiners that may panic. -/
theorem C78_provided (hS : ∀ c s a, U.strmPanics c s a = none) (D : U.env.cc.Disjoint) {Mem : α → α → Prop}
    (M : MemOk X U.env.alloc Mem) {s : σ} {r : List (Item P)} (pr : Provided U.env s r X) {a : α} {os t}
    (h : U.Uses (St.init s a) os t) :
    (∃ o t', U.Call t o t') ∧
    ∀ l t', U.Yields (St.init t.strm t.alloc) l t' →
      ∃ before left rest, r = before ++ left ++ rest ∧
        Resumed U.env.cc X.RT Mem (MemoryError X.F U.env.alloc) U.env.lookup left rest t.alloc l t'.alloc := by
  obtain ⟨RS, C, hs⟩ := pr.conf
  have S : U.StreamsInOrder RS := fun c s a s' a' _ _ h => by rw [hS] at h; cases h
  exact ⟨(C78_history C S h hs).2, fun l t' hy => C78_new_iterator C S D M hs h hy⟩

/-! ## Non-vacuity -/

/-- A classifier that panics when it is first asked whether `b` is an escape; the state says whether it has not
yet been asked. -/
def fuseEnv : PEnv (Seq Unit) Unit (List (Item Unit)) Empty Bool Empty :=
  ⟨seqEnv defaultClassifier (freeAlloc _ _ _) (noBindings _ _ _ _ _), fun _ _ _ => none, fun c a =>
    match c with
    | .ask .nestEscape ch => if ch = 'b' ∧ a = true then some false else none
    | _ => none⟩

/-- Makes `k` calls, budget `n` each. -/
def PEnv.callsOf (U : PEnv σ P τ ε α CE) (n : Nat) : Nat → St σ α →
    List (Outcome (Err P CE) (Option (Datum τ ε))) × St σ α
  | 0, s => ([], s)
  | k + 1, s =>
    match U.parseNext n .base s with
    | (o, s') => match PEnv.callsOf U n k s' with
      | (os, t) => (o :: os, t)

theorem PEnv.uses_of {U : PEnv σ P τ ε α CE} (n k : Nat) {s : St σ α} {os t}
    (h : (U.callsOf n k s).1 = os) (ht : (U.callsOf n k s).2 = t) (hf : ∀ o ∈ os, o ≠ .fuel) :
    U.Uses s os t := by
  induction k generalizing s os t with
  | zero => cases h; cases ht; exact .nil
  | succ k ih =>
    subst h ht
    simp only [PEnv.callsOf] at hf ⊢
    exact .call ⟨n, rfl, hf _ (by simp)⟩ (ih rfl rfl fun o ho => hf o (by simp [ho]))

/-- The panic comes in the text `ab`, and leaves `a` accumulated. -/
theorem fuse_first : fuseEnv.Uses (St.init ⟨[], charsOf "ab{c}"⟩ true) [.panic] ⟨⟨charsOf "a", charsOf "b{c}"⟩, false, 0⟩ :=
  PEnv.uses_of 30 1 (by decide +kernel) (by decide +kernel) (by decide)

/-- A new iterator, or the same one, gives the whole text. -/
theorem fuse_again : fuseEnv.Yields (St.init ⟨charsOf "a", charsOf "b{c}"⟩ false)
    [.ok (.text (charsOf "ab")), .ok (.combination (.text (charsOf "c")) .emptyList)] ⟨⟨[], []⟩, false, 0⟩ :=
  .datum (s' := ⟨⟨[], charsOf "{c}"⟩, false, 0⟩) ⟨30, by decide +kernel, by decide⟩
    (.datum (s' := ⟨⟨[], []⟩, false, 0⟩) ⟨30, by decide +kernel, by decide⟩
      (.done ⟨30, by decide +kernel, by decide⟩))

theorem fuseEnv_ordered : fuseEnv.StreamsInOrder Eq := fun _ _ _ _ _ _ _ h => by cases h

theorem fuseEnv_mem : MemOk (seqSem Unit Bool) fuseEnv.env.alloc Eq :=
  ⟨fun _ => rfl, fun _ _ _ h h' => h.trans h', fun _ _ h => h, fun _ _ => rfl⟩

/-- All the hypotheses of the theorems above hold, and the panic does happen. -/
example : ∃ before left rest, charsOf "ab{c}" = before ++ left ++ rest ∧
    Resumed defaultClassifier Eq Eq (MemoryError False fuseEnv.env.alloc) fuseEnv.env.lookup left rest false
      [.ok (.text (charsOf "ab")), .ok (.combination (.text (charsOf "c")) .emptyList)] false :=
  C78_new_iterator (seqConf _ _ _) fuseEnv_ordered defaultClassifier_disjoint fuseEnv_mem rfl fuse_first fuse_again

/-- An escape before the panic: `concat` has already been called with `a`, so that the text that follows begins
after it, with `x` (escaped). `a` is lost. -/
example : fuseEnv.Uses (St.init ⟨[], charsOf "a\\xb"⟩ true) [.panic, .ok (some (.text (charsOf "xb"))), .ok none]
    ⟨⟨[], []⟩, false, 0⟩ :=
  PEnv.uses_of 30 3 (by decide +kernel) (by decide +kernel) (by decide)

/-- The panic comes inside a nest: the iterator goes on at depth 1. It gives the text, with what was left
in front, then `None` at the end delimiter of the nest. -/
example : fuseEnv.Uses (St.init ⟨[], charsOf "{x ab}c"⟩ true) [.panic, .ok (some (.text (charsOf "ab"))), .ok none, .ok none]
    ⟨⟨[], charsOf "}c"⟩, false, 1⟩ :=
  PEnv.uses_of 40 4 (by decide +kernel) (by decide +kernel) (by decide)

/-- A new iterator loses that text to the end delimiter, which is unmatched for it. -/
example : fuseEnv.Uses (St.init ⟨[], charsOf "{x ab}c"⟩ true) [.panic, .err (.unbalancedEndChar ()),
    .ok (some (.text (charsOf "c"))), .ok none] ⟨⟨[], []⟩, false, 0⟩ :=
  .call (s' := ⟨⟨charsOf "a", charsOf "b}c"⟩, false, 1⟩) ⟨40, by decide +kernel, by decide⟩
    (.renew (PEnv.uses_of 40 3 (by decide +kernel) (by decide +kernel) (by decide)))

end Kul
