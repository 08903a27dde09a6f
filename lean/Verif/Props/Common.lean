import Verif.Model.Common
import Verif.Spec.Common
import Verif.Props.Streams

/-!
# C46: the convenience functions stop at the first error
-/

namespace Kul

variable {σ P τ ε α CE : Type} {E : Env σ P τ ε α CE} {RS : σ → Seq P → Prop} {X : TextSem P τ α}

/-- The list of the results that a parse yields, cut after the first error, with what the
state then is after the one call more that `take_while` needs to find out. -/
inductive Env.Cut (E : Env σ P τ ε α CE) :
    St σ α → List (Except (Err P CE) (Datum τ ε)) → St σ α → Prop where
  | done {s s'} : E.Call s (.ok none) s' → Cut E s [] s'
  | datum {s d s' l s''} : E.Call s (.ok (some d)) s' → Cut E s' l s'' → Cut E s (.ok d :: l) s''
  | error {s e s' o s''} : E.Call s (.err e) s' → E.Call s' o s'' → o ≠ .panic → Cut E s [.error e] s''

theorem Env.Cut.upTo {s l s' v s''} (hy : E.Yields s l s') (hc : E.Cut s v s'') : UpToFirstError l v := by
  induction hc generalizing l s' with
  | done h =>
    cases hy with
    | done => exact ⟨List.prefix_rfl, by simp, .inl rfl⟩
    | datum h' => cases (h.unique h').1
    | error h' => cases (h.unique h').1
  | @datum s d s₁ v _ h _ ih =>
    cases hy with
    | done h' => cases (h.unique h').1
    | datum h' hy' =>
      obtain ⟨h1, h2⟩ := h.unique h'
      cases h1
      subst h2
      obtain ⟨i1, i2, i3⟩ := ih hy'
      refine ⟨by simpa using i1, ?_, ?_⟩
      · rintro v' x hv y hy
        cases v' with
        | nil => simp at hy
        | cons z v' =>
          simp only [List.cons_append, List.cons.injEq] at hv
          rcases List.mem_cons.mp hy with rfl | hy
          · exact ⟨d, hv.1.symm⟩
          · exact i2 v' x hv.2 y hy
      · rcases i3 with rfl | ⟨v', e, rfl⟩
        · exact .inl rfl
        · exact .inr ⟨_ :: v', e, rfl⟩
    | error h' => cases (h.unique h').1
  | @error s e s₁ o _ h _ _ =>
    cases hy with
    | done h' => cases (h.unique h').1
    | datum h' => cases (h.unique h').1
    | error h' hy' =>
      obtain ⟨h1, h2⟩ := h.unique h'
      cases h1
      refine ⟨by simp, ?_, .inr ⟨[], e, rfl⟩⟩
      rintro v' x hv y hy
      cases v' with
      | nil => simp at hy
      | cons z v' => simp at hv

/-- `takeNext` before any error. -/
theorem Env.takeNext_fresh (n : Nat) (s : St σ α) : E.takeNext n (.new s) =
    match E.doNext n s with
    | (.ok none, s') => (.ok none, .new s')
    | (.ok (some d), s') => (.ok (some (.ok d)), .new s')
    | (.err e, s') => (.ok (some (.error e)), ⟨s', false, true⟩)
    | (.panic, s') => (.panic, .new s')
    | (.fuel, s') => (.fuel, .new s') := by
  simp only [Env.takeNext, TakeIter.new, Bool.false_eq_true, if_false]
  rcases E.doNext n s with ⟨(_ | d) | e | _ | _, s'⟩ <;> rfl

/-- `takeNext` after an error was passed on. -/
theorem Env.takeNext_errored (n : Nat) (s : St σ α) : E.takeNext n ⟨s, false, true⟩ =
    match E.doNext n s with
    | (.ok none, s') => (.ok none, ⟨s', false, true⟩)
    | (.ok (some _), s') => (.ok none, ⟨s', true, true⟩)
    | (.err _, s') => (.ok none, ⟨s', true, true⟩)
    | (.panic, s') => (.panic, ⟨s', false, true⟩)
    | (.fuel, s') => (.fuel, ⟨s', false, true⟩) := by
  simp only [Env.takeNext, Bool.false_eq_true, if_false]
  rcases E.doNext n s with ⟨(_ | d) | e | _ | _, s'⟩ <;> rfl

/-- With enough budget, collecting gives the cut list. -/
theorem Env.Cut.collect {s v s'} (h : E.Cut s v s') : ∃ N, ∀ n k vec, N ≤ n → N ≤ k →
    ∃ t, E.collectLoop n k vec (.new s) = (.ok (vec ++ v), t) ∧ t.iter = s' := by
  induction h with
  | @done s s' h =>
    obtain ⟨m, h1, h2⟩ := h
    refine ⟨m + 1, fun n k vec hn hk => ?_⟩
    obtain ⟨k, rfl⟩ : ∃ j, k = j + 1 := ⟨k - 1, by omega⟩
    refine ⟨.new s', ?_, rfl⟩
    simp only [Env.collectLoop, Env.takeNext_fresh, E.doNext_mono (show m ≤ n by omega) h1 h2,
      List.append_nil]
  | @datum s d s' l s'' h _ ih =>
    obtain ⟨m, h1, h2⟩ := h
    obtain ⟨N, ih⟩ := ih
    refine ⟨max m N + 1, fun n k vec hn hk => ?_⟩
    obtain ⟨k, rfl⟩ : ∃ j, k = j + 1 := ⟨k - 1, by omega⟩
    obtain ⟨t, h3, h4⟩ := ih n k (vec ++ [.ok d]) (by omega) (by omega)
    refine ⟨t, ?_, h4⟩
    simp only [Env.collectLoop, Env.takeNext_fresh, E.doNext_mono (show m ≤ n by omega) h1 h2]
    rw [h3, List.append_assoc]
    rfl
  | @error s e s' o s'' h hn hp =>
    obtain ⟨m, h1, h2⟩ := h
    obtain ⟨m', h3, h4⟩ := hn
    refine ⟨max m m' + 2, fun n k vec hn hk => ?_⟩
    obtain ⟨k, rfl⟩ : ∃ j, k = j + 2 := ⟨k - 2, by omega⟩
    simp only [Env.collectLoop, Env.takeNext_fresh, E.doNext_mono (show m ≤ n by omega) h1 h2,
      Env.takeNext_errored, E.doNext_mono (show m' ≤ n by omega) h3 h4]
    rcases o with (_ | d) | e | _ | _
    · exact ⟨_, rfl, rfl⟩
    · exact ⟨_, rfl, rfl⟩
    · exact ⟨_, rfl, rfl⟩
    · exact absurd rfl hp
    · exact absurd rfl h4

/-- More budget does not change what is collected. -/
theorem Env.collectLoop_mono {n n' : Nat} (hn : n ≤ n') : ∀ {k k'} {vec t v t'}, k ≤ k' →
    E.collectLoop n k vec t = (.ok v, t') → E.collectLoop n' k' vec t = (.ok v, t') := by
  intro k
  induction k with
  | zero => intro k' vec t v t' _ h; cases h
  | succ k ih =>
    intro k' vec t v t' hk h
    obtain ⟨k', rfl⟩ : ∃ j, k' = j + 1 := ⟨k' - 1, by omega⟩
    simp only [Env.collectLoop] at h ⊢
    have hmono : ∀ {o u}, E.takeNext n t = (o, u) → o ≠ .fuel → E.takeNext n' t = (o, u) := by
      intro o u h1 h2
      simp only [Env.takeNext] at h1 ⊢
      split at h1
      · rename_i hf; rw [if_pos hf]; exact h1
      · rename_i hf
        rw [if_neg hf]
        rcases hd : E.doNext n t.iter with ⟨x, s'⟩
        rw [hd] at h1
        have hx : x ≠ .fuel := by rintro rfl; cases h1; exact h2 rfl
        rw [E.doNext_mono hn hd hx]
        exact h1
    rcases hc : E.takeNext n t with ⟨(_ | x) | e | _ | _, u⟩ <;> rw [hc] at h <;> simp only at h
    · rw [hmono hc (by simp)]; exact h
    · rw [hmono hc (by simp)]; exact ih (by omega) h
    · cases e
    · cases h
    · cases h

theorem Env.Cut.collects {s v s'} (h : E.Cut s v s') : E.Collects s v s' := by
  obtain ⟨N, h1⟩ := h.collect
  obtain ⟨t, h2, h3⟩ := h1 N N [] (Nat.le_refl _) (Nat.le_refl _)
  exact ⟨N, N, t, h2, h3⟩

theorem Env.Cut.unique {s v s' v₂ s₂} (h : E.Cut s v s') (h' : E.Collects s v₂ s₂) : v₂ = v ∧ s₂ = s' := by
  obtain ⟨N, h1⟩ := h.collect
  obtain ⟨n, k, t, h2, h3⟩ := h'
  obtain ⟨t', h4, h5⟩ := h1 (max n N) (max k N) [] (Nat.le_max_right ..) (Nat.le_max_right ..)
  have := Env.collectLoop_mono (E := E) (Nat.le_max_left n N) (Nat.le_max_left k N) h2
  rw [h4] at this
  simp only [List.nil_append, Prod.mk.injEq, Outcome.ok.injEq] at this
  obtain ⟨rfl, rfl⟩ := this
  exact ⟨rfl, h3.symm.trans h5⟩

/-- Every conforming parse has a cut list. -/
theorem Conf.cut (C : Conf E RS X) {s : σ} {r : List (Item P)} (h : AtItems RS s r) (a : α) :
    ∃ v t, E.Cut ⟨s, a, 0⟩ v t := by
  obtain ⟨l, s', r', a', hy, -, -⟩ := C.yields_run a h
  generalize ht : (⟨s, a, 0⟩ : St σ α) = t at hy ⊢
  generalize ht' : (⟨s', a', 0⟩ : St σ α) = t' at hy
  clear ht'
  induction hy generalizing s r a with
  | done hc => exact ⟨_, _, .done hc⟩
  | @datum _ d _ _ _ hc _ ih =>
    subst ht
    obtain ⟨o, s₁, r₁, a₁, _, rfl, h1, _⟩ := C.call_inv h hc
    obtain ⟨v, t, h2⟩ := ih h1 a₁ rfl
    exact ⟨_, _, .datum hc h2⟩
  | @error _ e _ _ _ hc _ ih =>
    subst ht
    obtain ⟨o, s₁, r₁, a₁, _, rfl, h1, _⟩ := C.call_inv h hc
    obtain ⟨o₂, s₂, r₂, a₂, h2, _⟩ := C.call h1 a₁
    exact ⟨_, _, .error hc h2 (by cases o₂ <;> simp [optOut])⟩

/-! ## C46 -/

/-- **C46.** The vector collected is the sequence of the results of the parse up to and
including the first error; it is always returned, without a panic. -/
theorem C46_collects (C : Conf E RS X) {s : σ} {r : List (Item P)} (hs : RS s ⟨[], r⟩) (a : α) {l t}
    (hy : E.Yields (St.init s a) l t) :
    (∃ v t', E.Collects (St.init s a) v t') ∧
    ∀ v t', E.Collects (St.init s a) v t' → UpToFirstError l v := by
  obtain ⟨v, t', h⟩ := C.cut (AtItems.fresh hs) a
  refine ⟨⟨v, t', h.collects⟩, fun v₂ t₂ h₂ => ?_⟩
  obtain ⟨rfl, rfl⟩ := h.unique h₂
  exact h.upTo hy

/-- **C46**, `parse_str` and `parse_str_with`. -/
theorem C46_parse_str (lookup : Datum (TextVec PosStr) ε → Option (Combiner (TextVec PosStr) ε α StrPos CE))
    (string : Str) (a : α) {l t} (hy : (inmemEnv lookup).Yields (St.init (inmemSource string) a) l t) :
    (∃ n k v t', parseStrWith n k lookup string a = (.ok v, t')) ∧
    ∀ n k v t', parseStrWith n k lookup string a = (.ok v, t') → UpToFirstError l v := by
  obtain ⟨⟨v, t', n, k, u, h, _⟩, h2⟩ := C46_collects (inmem_conf lookup) (strSource_means _ string) a hy
  exact ⟨⟨n, k, v, u, h⟩, fun n k v t' h => h2 v _ ⟨n, k, t', h, rfl⟩⟩

/-- **C46**, `parse_stream` and `parse_stream_with`. -/
theorem C46_parse_stream
    (lookup : Datum (TextVec PosStrish) ε → Option (Combiner (TextVec PosStrish) ε α CharPos CE))
    (pieces : List Str) (a : α) {l t} (hy : (streamEnv lookup).Yields (St.init (.new pieces) a) l t) :
    (∃ n k v t', parseStreamWith n k lookup pieces a = (.ok v, t')) ∧
    ∀ n k v t', parseStreamWith n k lookup pieces a = (.ok v, t') → UpToFirstError l v := by
  obtain ⟨⟨v, t', n, k, u, h, _⟩, h2⟩ := C46_collects (stream_conf lookup) (StrishIter.new_means _ pieces) a hy
  exact ⟨⟨n, k, v, u, h⟩, fun n k v t' h => h2 v _ ⟨n, k, t', h, rfl⟩⟩

/-- The iterator, from a state whose parse is cut to `v`. -/
theorem Conf.take_calls (C : Conf E RS X) {t os t'} (h : E.TakeCalls t os t') :
    (∀ {s a r}, t.iter = ⟨s, a, 0⟩ → AtItems RS s r → t.flag = false → t.alreadyErrored = false →
      ∀ {v u}, E.Cut t.iter v u →
        ∃ j k, os = (v.take j).map (fun x => .ok (some x)) ++ List.replicate k (.ok none) ∧
          (k ≠ 0 → v.length ≤ j)) ∧
    (∀ {s a r}, t.iter = ⟨s, a, 0⟩ → AtItems RS s r → t.alreadyErrored = true →
      os = List.replicate os.length (.ok none)) := by
  induction h with
  | nil => exact ⟨fun _ _ _ _ => @fun _ _ _ => ⟨0, 0, by simp, by simp⟩, fun _ _ _ => rfl⟩
  | @cons t o t₁ os t₂ hc hcs ih =>
    obtain ⟨ih1, ih2⟩ := ih
    obtain ⟨st, flag, ae⟩ := t
    obtain ⟨n, hn, hf⟩ := hc
    constructor
    · rintro s a r hst hs hfl hae v u hcut
      simp only at hst hfl hae
      subst hst hfl hae
      have hn' := (Env.takeNext_fresh (E := E) n ⟨s, a, 0⟩).symm.trans hn
      rcases hd : E.doNext n ⟨s, a, 0⟩ with ⟨x, s'⟩
      rw [hd] at hn'
      have hx : E.Call ⟨s, a, 0⟩ x s' := ⟨n, hd, by rintro rfl; cases hn'; exact hf rfl⟩
      obtain ⟨y, s₁, r₁, a₁, rfl, rfl, h1, h2⟩ := C.call_inv hs hx
      cases hcut with
      | done h =>
        obtain ⟨h3, _⟩ := h.unique hx
        rw [← h3] at hn'
        cases hn'
        have hr : r₁ = [] := by
          rcases h2.at_end (optOut_none h3.symm) with ⟨_, h⟩ | ⟨h, _⟩
          · exact h
          · exact absurd rfl h
        subst hr
        obtain ⟨y₂, s₂, r₂, a₂, h4, _, h5⟩ := C.call h1 a₁
        obtain ⟨rfl, rfl, rfl⟩ := h5.of_nil
        obtain ⟨j, k, h6, h7⟩ := ih1 rfl h1 rfl rfl (.done h4)
        refine ⟨0, k + 1, ?_, by simp⟩
        rw [h6]
        simp [List.replicate_succ]
      | datum h hcut' =>
        obtain ⟨h3, h3'⟩ := h.unique hx
        rw [← h3] at hn'
        cases hn'
        rw [h3'] at hcut'
        obtain ⟨j, k, h4, h5⟩ := ih1 rfl h1 rfl rfl hcut'
        refine ⟨j + 1, k, ?_, fun hk => by simpa using h5 hk⟩
        rw [h4]
        simp
      | error h _ =>
        obtain ⟨h3, _⟩ := h.unique hx
        rw [← h3] at hn'
        cases hn'
        refine ⟨1, os.length, ?_, by simp⟩
        rw [ih2 rfl h1 rfl]
        simp
    · rintro s a r hst hs hae
      simp only at hst hae
      subst hst hae
      cases flag with
      | true =>
        simp only [Env.takeNext, if_true, Prod.mk.injEq] at hn
        obtain ⟨rfl, rfl⟩ := hn
        rw [ih2 rfl hs rfl]
        simp [List.replicate_succ]
      | false =>
        have hn' := (Env.takeNext_errored (E := E) n ⟨s, a, 0⟩).symm.trans hn
        rcases hd : E.doNext n ⟨s, a, 0⟩ with ⟨x, s'⟩
        rw [hd] at hn'
        have hx : E.Call ⟨s, a, 0⟩ x s' := ⟨n, hd, by rintro rfl; cases hn'; exact hf rfl⟩
        obtain ⟨y, s₁, r₁, a₁, hy, rfl, h1, _⟩ := C.call_inv hs hx
        have : o = .ok none ∧ t₁.iter = ⟨s₁, a₁, 0⟩ ∧ t₁.alreadyErrored = true := by
          rcases x with (_ | d) | e | _ | _ <;> simp only [Prod.mk.injEq] at hn' <;>
            obtain ⟨rfl, rfl⟩ := hn'
          · exact ⟨rfl, rfl, rfl⟩
          · exact ⟨rfl, rfl, rfl⟩
          · exact ⟨rfl, rfl, rfl⟩
          · cases y <;> simp [optOut] at hy
          · exact absurd rfl hf
        obtain ⟨rfl, h5, h6⟩ := this
        rw [ih2 h5 h1 h6]
        simp [List.replicate_succ]

/-- **C46**, the iterator of core's `parse_text_with`: any history of calls of its `next`
gives, in order, results of the parse up to and including the first error, and once those
are exhausted (and not before), only `None`. -/
theorem C46_parse_text_with
    (lookup : Datum (CoreText ε) ε → Option (Combiner (CoreText ε) ε (CoreMem ε) StrPos CE))
    (string : Str) (a : CoreMem ε) {l t}
    (hy : (coreEnv lookup).Yields (St.init (coreSource string) a) l t) :
    ∃ v, UpToFirstError l v ∧
      ∀ os t', (coreEnv lookup).TakeCalls (parseTextWith string a) os t' →
        ∃ j k, os = (v.take j).map (fun x => .ok (some x)) ++ List.replicate k (.ok none) ∧
          (k ≠ 0 → v.length ≤ j) := by
  have C := core_conf lookup
  have hs := AtItems.fresh (strSource_means (textDatumList posStrOps (sliceAlloc _ ε)) string)
  obtain ⟨v, t', h⟩ := C.cut hs a
  exact ⟨v, h.upTo hy, fun os t' h' => (C.take_calls h').1 rfl hs rfl rfl h⟩

/-- C46, "immediately": what is true of it. When the vector ends with an error, exactly
one more call of the parser was made after the one that gave the error. Its result is thrown
away, but its effects are not: see `C46_not_immediately`. -/
theorem C46_one_more_call_partial (C : Conf E RS X) {s : σ} {r : List (Item P)} (hs : RS s ⟨[], r⟩) (a : α)
    {v e t} (h : E.Collects (St.init s a) (v ++ [.error e]) t) :
    ∃ os t₁ o, E.Calls (St.init s a) os t₁ ∧ os.length = v.length + 1 ∧ E.Call t₁ o t := by
  obtain ⟨v', t', hc⟩ := C.cut (AtItems.fresh hs) a
  obtain ⟨hv, rfl⟩ := hc.unique h
  clear h hs
  change E.Cut (St.init s a) v' t at hc
  generalize St.init s a = s₀ at hc ⊢
  induction hc generalizing v with
  | done => simp at hv
  | @datum s d s' l s'' h _ ih =>
    cases v with
    | nil => simp at hv
    | cons x v =>
      simp only [List.cons_append, List.cons.injEq] at hv
      obtain ⟨os, t₁, o, h1, h2, h3⟩ := ih hv.2
      exact ⟨_ :: os, t₁, o, .cons h h1, by simp [h2], h3⟩
  | @error s e s' o s'' h hn _ =>
    cases v with
    | nil => exact ⟨[_], s', o, .cons h .nil, rfl, hn⟩
    | cons x v => simp at hv

/-- Bindings of a counting operative to every head: it counts its calls and gives no datum. -/
def countingOperative (τ ε P CE : Type) : Datum τ ε → Option (Combiner τ ε Nat P CE) :=
  fun _ => some (.operative fun _ _ n => (.ok none, n + 1))

/-- C46, "immediately", is false: `parse_str_with` on `}{e}` returns just the error of the
unbalanced `}`, but after that error it still parses `{e}` and calls its combiner. -/
theorem C46_not_immediately : ∃ n k e t,
    parseStrWith n k (countingOperative _ Empty StrPos Empty) "}{e}".toList 0 = (.ok [.error e], t) ∧
    t.iter.alloc = 1 := by
  have h : ((parseStrWith 40 9 (countingOperative _ Empty StrPos Empty) "}{e}".toList 0).1 =
      .ok [.error (.unbalancedEndChar ⟨"}{e}".toList, 0, 0⟩)]) ∧
    (parseStrWith 40 9 (countingOperative _ Empty StrPos Empty) "}{e}".toList 0).2.iter.alloc = 1 := by
    decide +kernel
  revert h
  generalize hp : parseStrWith 40 9 (countingOperative _ Empty StrPos Empty) "}{e}".toList 0 = p
  rintro ⟨h1, h2⟩
  obtain ⟨x, t⟩ := p
  subst h1
  exact ⟨40, 9, _, t, hp, h2⟩

/-! ## Non-vacuity -/

/-- `{}}b`: the parse yields an empty nest, an error and a text; the vector has the first two. -/
example : (∃ t, (inmemEnv (noBindings _ Empty Unit StrPos Empty)).Yields
      (St.init (inmemSource "{}}b".toList) ())
      [.ok .emptyNest, .error (.unbalancedEndChar ⟨"{}}b".toList, 2, 2⟩),
       .ok (.text (.single ⟨"b".toList, ⟨"{}}b".toList, 3, 3⟩⟩))] t) ∧
    (parseStrWith 40 9 (noBindings _ Empty Unit StrPos Empty) "{}}b".toList ()).1 =
      .ok [.ok .emptyNest, .error (.unbalancedEndChar ⟨"{}}b".toList, 2, 2⟩)] :=
  ⟨Env.yields_of' 40 9 (by decide +kernel), by decide +kernel⟩

/-- The same with `parse_stream`, in two pieces. -/
example : (parseStreamWith 40 9 (noBindings _ Empty Unit CharPos Empty) ["{".toList, "}}b".toList] ()).1 =
    .ok [.ok .emptyNest, .error (.unbalancedEndChar ⟨2⟩)] := by decide +kernel

private theorem fourStates {S O : Type} (f : S → O × S) (s : S) {a b c d : O} (ha : (f s).1 = a)
    (hb : (f (f s).2).1 = b) (hc : (f (f (f s).2).2).1 = c) (hd : (f (f (f (f s).2).2).2).1 = d) :
    ∃ t₁ t₂ t₃ t₄, f s = (a, t₁) ∧ f t₁ = (b, t₂) ∧ f t₂ = (c, t₃) ∧ f t₃ = (d, t₄) :=
  ⟨_, _, _, _, Prod.ext ha rfl, Prod.ext hb rfl, Prod.ext hc rfl, Prod.ext hd rfl⟩

private theorem isNest {Q τ ε F : Type} {o : Outcome Q (Option (Except F (Datum τ ε)))}
    (h : (o matches .ok (some (.ok .emptyNest))) = true) : o = .ok (some (.ok .emptyNest)) := by
  split at h
  · rfl
  · cases h

private theorem isErr {Q F D : Type} [DecidableEq F] {e : F} {o : Outcome Q (Option (Except F D))}
    (h : (match o with | .ok (some (.error e')) => decide (e' = e) | _ => false) = true) :
    o = .ok (some (.error e)) := by
  split at h
  · rw [of_decide_eq_true h]
  · cases h

private theorem isNone {Q D : Type} {o : Outcome Q (Option D)} (h : (o matches .ok none) = true) :
    o = .ok none := by
  split at h
  · rfl
  · cases h

/-- The same with the iterator of `parse_text_with`: a third call returns `None`, and so does a
fourth. -/
example : ∃ t₁ t₂ t₃ t₄,
    (coreEnv (noBindings (CoreText Empty) Empty _ StrPos Empty)).takeNext 40
      (parseTextWith "{}}b".toList (.new [])) = (.ok (some (.ok .emptyNest)), t₁) ∧
    (coreEnv (noBindings _ Empty _ StrPos Empty)).takeNext 40 t₁ =
      (.ok (some (.error (.unbalancedEndChar ⟨"{}}b".toList, 2, 2⟩))), t₂) ∧
    (coreEnv (noBindings _ Empty _ StrPos Empty)).takeNext 40 t₂ = (.ok none, t₃) ∧
    (coreEnv (noBindings _ Empty _ StrPos Empty)).takeNext 40 t₃ = (.ok none, t₄) :=
  fourStates _ _ (isNest (by decide +kernel)) (isErr (by decide +kernel)) (isNone (by decide +kernel))
    (isNone (by decide +kernel))

end Kul
