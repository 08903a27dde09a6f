import Verif.Spec.Unwind
import Verif.Proof.Mono

/-! # Panicking combiners -/

namespace Kul

variable {σ P τ ε α CE : Type} {A B : Type}

/-- The first action does as the second one, or panics where the second one returns `e`,
in the same state but for a nest depth that is at least `lo`. -/
def Alike (e : Err P CE) (lo : Nat) (x y : Outcome (Err P CE) A × St σ α) : Prop :=
  (x = y ∧ x.1 ≠ .panic) ∨ (x.1 = .panic ∧ y.1 = .panic) ∨
  (x.1 = .panic ∧ lo ≤ x.2.ndepth ∧ y.1 = .err e ∧ x.2.strm = y.2.strm ∧ x.2.alloc = y.2.alloc)

namespace Alike

variable {e : Err P CE} {lo : Nat}

theorem refl (x : Outcome (Err P CE) A × St σ α) : Alike e lo x x := by
  by_cases h : x.1 = .panic
  · exact Or.inr (Or.inl ⟨h, h⟩)
  · exact Or.inl ⟨rfl, h⟩

theorem weaken {lo' : Nat} {x y : Outcome (Err P CE) A × St σ α} (h : Alike e lo x y) (hl : lo' ≤ lo) :
    Alike e lo' x y := by
  rcases h with h | h | ⟨h1, h2, h3⟩
  · exact Or.inl h
  · exact Or.inr (Or.inl h)
  · exact Or.inr (Or.inr ⟨h1, by omega, h3⟩)

theorem bind {x y : Act (St σ α) (Err P CE) A} {f g : A → Act (St σ α) (Err P CE) B} {s : St σ α}
    (hx : Alike e lo (x s) (y s)) (hk : KeepsDepth y)
    (hf : ∀ a s', s'.ndepth = s.ndepth → Alike e lo (f a s') (g a s')) :
    Alike e lo ((x >>= f) s) ((y >>= g) s) := by
  show Alike e lo (Act.bind x f s) (Act.bind y g s)
  unfold Act.bind
  have hk := hk s
  rcases hx with ⟨h1, h2⟩ | ⟨h1, h2⟩ | ⟨h1, h2, h3, h4, h5⟩
  · rw [h1] at h2 ⊢
    rcases hy : y s with ⟨_ | _ | _ | _, s'⟩
    · rw [hy] at hk
      exact hf _ _ hk
    all_goals exact refl _
  · rcases hx' : x s with ⟨o, s'⟩
    rcases hy : y s with ⟨o', s''⟩
    rw [hx'] at h1; rw [hy] at h2
    cases h1; cases h2
    exact Or.inr (Or.inl ⟨rfl, rfl⟩)
  · rcases hx' : x s with ⟨o, s'⟩
    rcases hy : y s with ⟨o', s''⟩
    rw [hx'] at h1 h2 h4 h5; rw [hy] at h3 h4 h5
    cases h1; cases h3
    exact Or.inr (Or.inr ⟨rfl, h2, rfl, h4, h5⟩)

/-- `bind` for actions that are the same. -/
theorem seq {x : Act (St σ α) (Err P CE) A} {f g : A → Act (St σ α) (Err P CE) B} {s : St σ α}
    (hk : KeepsDepth x) (hf : ∀ a s', s'.ndepth = s.ndepth → Alike e lo (f a s') (g a s')) :
    Alike e lo ((x >>= f) s) ((x >>= g) s) :=
  bind (refl _) hk hf

theorem ite {p : Prop} [Decidable p] {x y x' y' : Act (St σ α) (Err P CE) A} {s : St σ α}
    (h : p → Alike e lo (x s) (y s)) (h' : ¬ p → Alike e lo (x' s) (y' s)) :
    Alike e lo ((if p then x else x') s) ((if p then y else y') s) := by
  split
  · rename_i hp; exact h hp
  · rename_i hp; exact h' hp

theorem nested {x y : Act (St σ α) (Err P CE) A} {s : St σ α} (hk : KeepsDepth y)
    (h : Alike e (s.ndepth + 1) (x { s with ndepth := s.ndepth + 1 })
      (y { s with ndepth := s.ndepth + 1 })) :
    Alike e (s.ndepth + 1) (nestedUnwind x s) (Env.nestedInDepth y s) := by
  rw [Env.nestedInDepth_eq hk]
  have hk := hk { s with ndepth := s.ndepth + 1 }
  unfold nestedUnwind
  rcases hx' : x { s with ndepth := s.ndepth + 1 } with ⟨o, s'⟩
  rcases hy : y { s with ndepth := s.ndepth + 1 } with ⟨o', s''⟩
  rw [hx', hy] at h
  rw [hy] at hk
  simp only at hk
  rcases h with ⟨h1, h2⟩ | ⟨h1, h2⟩ | ⟨h1, h2, h3, h4, h5⟩
  · cases h1
    left
    cases o with
    | panic => exact absurd rfl h2
    | _ => simp [hk]
  · cases h1; cases h2
    exact Or.inr (Or.inl ⟨rfl, rfl⟩)
  · cases h1; cases h3
    exact Or.inr (Or.inr ⟨rfl, h2, rfl, h4, h5⟩)

theorem call (f : α → Option (Except (Err P CE) A) × α) (s : St σ α) :
    Alike e s.ndepth (callUnwind f s) (liftCombiner (fun a => orErr e (f a)) s) := by
  unfold callUnwind liftCombiner
  simp only
  rcases f s.alloc with ⟨_ | o, a⟩
  · right; right; exact ⟨rfl, Nat.le_refl _, rfl, rfl, rfl⟩
  · left
    refine ⟨rfl, ?_⟩
    cases o <;> simp [Outcome.ofExcept]

end Alike

variable (U : UEnv σ P τ ε α CE) (e : Err P CE)

theorem UEnv.orErr_skipWhitespace (n : Nat) :
    (U.orErr e).skipWhitespace n = U.env.skipWhitespace n := by
  induction n with
  | zero => rfl
  | succ n ih =>
    unfold Env.skipWhitespace
    rw [ih]
    rfl

theorem UEnv.orErr_skipLeading (n : Nat) (m : Mode) :
    (U.orErr e).skipLeading n m = U.env.skipLeading n m := by
  unfold Env.skipLeading
  rw [orErr_skipWhitespace]

theorem UEnv.orErr_parseTextLoop (m : Mode) (n : Nat) :
    (U.orErr e).parseTextLoop m n = U.env.parseTextLoop m n := by
  induction n with
  | zero => rfl
  | succ n ih =>
    funext t l
    unfold Env.parseTextLoop
    rw [ih]
    rfl

theorem UEnv.orErr_parseText (n : Nat) (m : Mode) :
    (U.orErr e).parseText n m = U.env.parseText n m := by
  unfold Env.parseText
  rw [orErr_parseTextLoop]
  rfl

theorem UEnv.alike (n : Nat) :
    (∀ mode s, Alike e (s.ndepth + 1) (U.parseNext n mode s) ((U.orErr e).parseNext n mode s)) ∧
    (∀ s, Alike e s.ndepth (U.parseNested n s) ((U.orErr e).parseNested n s)) ∧
    (∀ mode acc s, Alike e s.ndepth (U.parseAll n mode acc s) ((U.orErr e).parseAll n mode acc s)) := by
  induction n with
  | zero =>
    refine ⟨fun mode s => ?_, fun s => ?_, fun mode acc s => ?_⟩
    · unfold UEnv.parseNext Env.parseNext; exact Alike.refl _
    · unfold UEnv.parseNested Env.parseNested; exact Alike.refl _
    · unfold UEnv.parseAll Env.parseAll; exact Alike.refl _
  | succ n ih =>
    obtain ⟨ihn, ihd, iha⟩ := ih
    have kn := ((U.orErr e).keeps_parse n).1
    have kd := ((U.orErr e).keeps_parse n).2.1
    have ka := ((U.orErr e).keeps_parse n).2.2
    refine ⟨fun mode s => ?_, fun s => ?_, fun mode acc s => ?_⟩
    · unfold UEnv.parseNext Env.parseNext
      simp only [UEnv.orErr_skipLeading, UEnv.orErr_parseText]
      refine Alike.seq (x := U.env.skipLeading n mode)
        (KeepsDepth.ite (U.env.keeps_skipWhitespace n) (KeepsDepth.pure _)) fun _ s₁ h₁ => ?_
      refine Alike.seq (x := U.env.peek) U.env.keeps_peek fun o s₂ h₂ => ?_
      cases o with
      | none => exact Alike.refl _
      | some it =>
        refine Alike.ite (fun _ => ?_) fun _ => Alike.refl _
        have hd : s₂.ndepth = s.ndepth := by omega
        refine Alike.bind ?_ (Env.keeps_nestedInDepth kd) fun o s₃ h₃ => ?_
        · rw [← hd]
          exact Alike.nested kd (ihd _)
        · cases o with
          | none =>
            have := ihn mode s₃
            rw [show s₃.ndepth = s.ndepth by omega] at this
            exact this
          | some d => exact Alike.refl _
    · unfold UEnv.parseNested Env.parseNested
      refine Alike.seq (x := U.env.next) U.env.keeps_next fun st s₁ h₁ => ?_
      refine Alike.seq (KeepsDepth.debugAssert _) fun _ s₂ h₂ => ?_
      refine Alike.bind ((ihn .operator s₂).weaken (by omega)) (kn _) fun o s₃ h₃ => ?_
      refine Alike.seq (x := U.env.skipSeparator) U.env.keeps_skipSeparator fun _ s₄ h₄ => ?_
      cases o with
      | none => exact Alike.refl _
      | some h =>
        have hl : (U.orErr e).lookup h = (U.lookup h).map (UCombiner.orErr e) := rfl
        simp only
        rw [hl, UEnv.orErr_parseText]
        rcases U.lookup h with _ | (f | f)
        · exact Alike.bind ((iha _ _ _).weaken (by omega)) (ka _ _) fun _ s₅ h₅ => Alike.refl _
        · refine Alike.seq (x := U.env.parseText n .operands) (U.env.keeps_parseText _ _) fun t s₅ h₅ => ?_
          refine Alike.seq (x := U.env.nestEnd) U.env.keeps_nestEnd fun _ s₆ h₆ => ?_
          exact (Alike.call (f h t) s₆).weaken (by omega)
        · refine Alike.bind ((iha _ _ _).weaken (by omega)) (ka _ _) fun l s₅ h₅ => ?_
          refine Alike.seq (x := U.env.nestEnd) U.env.keeps_nestEnd fun _ s₆ h₆ => ?_
          exact (Alike.call (f h l) s₆).weaken (by omega)
    · unfold UEnv.parseAll Env.parseAll
      refine Alike.bind ((ihn mode s).weaken (by omega)) (kn _) fun o s₁ h₁ => ?_
      cases o with
      | none => exact Alike.refl _
      | some d =>
        refine Alike.seq (x := U.env.newDatum d) (U.env.keeps_newDatum _) fun _ s₂ h₂ => ?_
        refine Alike.seq (x := U.env.newDatum .emptyList) (U.env.keeps_newDatum _) fun _ s₃ h₃ => ?_
        refine Alike.seq (x := U.env.getMutFresh) U.env.keeps_getMutFresh fun _ s₄ h₄ => ?_
        exact Alike.ite (fun _ => (iha _ _ _).weaken (by omega)) fun _ => Alike.refl _

/-! ## The budget does not matter -/

theorem Refines.nestedUnwind {x y : Act (St σ α) (Err P CE) A} (h : Refines x y)
    (hk : ∀ s, (x s).1 = .fuel → (x s).2.ndepth = s.ndepth) :
    Refines (nestedUnwind x) (nestedUnwind y) := by
  intro s
  unfold Kul.nestedUnwind
  have hk := hk { s with ndepth := s.ndepth + 1 }
  rcases h { s with ndepth := s.ndepth + 1 } with h | h
  · left
    rcases hx : x { s with ndepth := s.ndepth + 1 } with ⟨o, s'⟩
    rw [hx] at h hk
    cases h
    have hk := hk rfl
    simp only at hk ⊢
    rw [hk, if_neg (by omega)]
  · right; rw [h]

/-- A budget that runs out does so at the depth of the call. -/
theorem UEnv.fuel_depth (n : Nat) (s : St σ α) (h : (U.parseNested n s).1 = .fuel) :
    (U.parseNested n s).2.ndepth = s.ndepth := by
  have hk := ((U.orErr .missingEndChar).keeps_parse n).2.1 s
  rcases (U.alike .missingEndChar n).2.1 s with ⟨h1, _⟩ | ⟨h1, _⟩ | ⟨h1, _⟩
  · rw [h1]; exact hk
  · rw [h1] at h; cases h
  · rw [h1] at h; cases h

theorem UEnv.mono_step (n : Nat) :
    (∀ m, Refines (U.parseNext n m) (U.parseNext (n + 1) m)) ∧
    Refines (U.parseNested n) (U.parseNested (n + 1)) ∧
    (∀ m acc, Refines (U.parseAll n m acc) (U.parseAll (n + 1) m acc)) := by
  induction n with
  | zero =>
    refine ⟨fun m => ?_, ?_, fun m acc => ?_⟩
    · conv in U.parseNext 0 m => unfold UEnv.parseNext
      exact Refines.fuel _
    · conv in U.parseNested 0 => unfold UEnv.parseNested
      exact Refines.fuel _
    · conv in U.parseAll 0 m acc => unfold UEnv.parseAll
      exact Refines.fuel _
  | succ n ih =>
    obtain ⟨ihn, ihd, iha⟩ := ih
    refine ⟨fun m => ?_, ?_, fun m acc => ?_⟩
    · unfold UEnv.parseNext
      refine Refines.bind (U.env.mono_skipLeading n m) fun _ => Refines.bind (Refines.rfl' _) fun o => ?_
      cases o with
      | none => exact Refines.rfl' _
      | some it =>
        refine Refines.ite (Refines.bind (Refines.nestedUnwind ihd (U.fuel_depth n)) fun o => ?_)
          (Refines.ite (Refines.rfl' _) (Refines.bind (U.env.mono_parseTextLoop m n _ _) fun _ =>
            Refines.rfl' _))
        cases o with
        | none => exact ihn m
        | some d => exact Refines.rfl' _
    · unfold UEnv.parseNested
      refine Refines.bind (Refines.rfl' _) fun _ => Refines.bind (Refines.rfl' _) fun _ =>
        Refines.bind (ihn _) fun o => Refines.bind (Refines.rfl' _) fun _ => ?_
      cases o with
      | none => exact Refines.rfl' _
      | some h =>
        simp only
        rcases U.lookup h with _ | (f | f)
        · exact Refines.bind (iha _ _) fun _ => Refines.rfl' _
        · exact Refines.bind (U.env.mono_parseTextLoop _ n _ _) fun _ => Refines.rfl' _
        · exact Refines.bind (iha _ _) fun _ => Refines.rfl' _
    · unfold UEnv.parseAll
      refine Refines.bind (ihn _) fun o => ?_
      cases o with
      | none => exact Refines.rfl' _
      | some d =>
        exact Refines.bind (Refines.rfl' _) fun _ => Refines.bind (Refines.rfl' _) fun _ =>
          Refines.bind (Refines.rfl' _) fun _ => Refines.ite (iha _ _) (Refines.rfl' _)

theorem UEnv.parseNext_mono {n m : Nat} (h : n ≤ m) {s : St σ α} {o s'}
    (hn : U.parseNext n .base s = (o, s')) (ho : o ≠ .fuel) : U.parseNext m .base s = (o, s') := by
  induction h with
  | refl => exact hn
  | @step m _ ih =>
    rcases (U.mono_step m).1 .base s with h | h
    · rw [ih] at h
      exact absurd h ho
    · rw [← h, ih]

variable {U} {e}

/-- The result of a call does not depend on the budget. -/
theorem UEnv.Call.unique {s : St σ α} {o o' s' s''} (h : U.Call s o s') (h' : U.Call s o' s'') :
    o = o' ∧ s' = s'' := by
  obtain ⟨n, h1, h2⟩ := h
  obtain ⟨m, h3, h4⟩ := h'
  have h5 := U.parseNext_mono (Nat.le_max_left n m) h1 h2
  have h6 := U.parseNext_mono (Nat.le_max_right n m) h3 h4
  rw [h5] at h6
  cases h6
  exact ⟨rfl, rfl⟩

/-! ## Raising the nest depth -/

/-- What `x` does at depth `d` it does at every greater depth, unless it reports an end delimiter
without start. -/
def LiftsAt (d : Nat) (x : Act (St σ α) (Err P CE) A) : Prop :=
  ∀ s a k, match x ⟨s, a, d⟩ with
    | (.ok v, s') => x ⟨s, a, d + k⟩ = (.ok v, ⟨s'.strm, s'.alloc, d + k⟩)
    | (.err e, s') => (∀ p, e ≠ .unbalancedEndChar p) →
        x ⟨s, a, d + k⟩ = (.err e, ⟨s'.strm, s'.alloc, d + k⟩)
    | _ => True

namespace LiftsAt

variable {d : Nat}

theorem bind {x : Act (St σ α) (Err P CE) A} {f : A → Act (St σ α) (Err P CE) B}
    (hx : LiftsAt d x) (hk : KeepsDepth x) (hf : ∀ a, LiftsAt d (f a)) : LiftsAt d (x >>= f) := by
  intro s a k
  show match Act.bind x f ⟨s, a, d⟩ with
    | (.ok v, s') => Act.bind x f ⟨s, a, d + k⟩ = (.ok v, ⟨s'.strm, s'.alloc, d + k⟩)
    | (.err e, s') => (∀ p, e ≠ .unbalancedEndChar p) →
        Act.bind x f ⟨s, a, d + k⟩ = (.err e, ⟨s'.strm, s'.alloc, d + k⟩)
    | _ => True
  unfold Act.bind
  have hx := hx s a k
  have hk := hk ⟨s, a, d⟩
  rcases hxs : x ⟨s, a, d⟩ with ⟨_ | e | _ | _, s₁, a₁, d₁⟩
  · rw [hxs] at hx hk
    simp only at hx hk
    subst hk
    simp only
    rw [hx]
    exact hf _ s₁ a₁ k
  · rw [hxs] at hx
    simp only at hx ⊢
    intro he
    rw [hx he]
  all_goals trivial

/-- Actions that do not look at the depth. -/
theorem blind {x : Act (St σ α) (Err P CE) A}
    (h : ∀ s a d d', x ⟨s, a, d'⟩ = ((x ⟨s, a, d⟩).1, ⟨(x ⟨s, a, d⟩).2.strm, (x ⟨s, a, d⟩).2.alloc, d'⟩)) :
    LiftsAt d x := by
  intro s a k
  have h := h s a d (d + k)
  rcases hx : x ⟨s, a, d⟩ with ⟨_ | e | _ | _, s'⟩ <;> rw [hx] at h
  · exact h
  · exact fun _ => h
  all_goals trivial

theorem pure (a : A) : LiftsAt d (Pure.pure a : Act (St σ α) (Err P CE) A) := blind fun _ _ _ _ => rfl
theorem throw (e : Err P CE) : LiftsAt d (Act.throw e : Act (St σ α) (Err P CE) A) :=
  blind fun _ _ _ _ => rfl
theorem panic : LiftsAt d (Act.panic : Act (St σ α) (Err P CE) A) := blind fun _ _ _ _ => rfl
theorem fuel : LiftsAt d (Act.fuel : Act (St σ α) (Err P CE) A) := blind fun _ _ _ _ => rfl

theorem ite {p : Prop} [Decidable p] {x y : Act (St σ α) (Err P CE) A} (hx : LiftsAt d x)
    (hy : LiftsAt d y) : LiftsAt d (if p then x else y) := by
  split <;> assumption

theorem debugAssert (b : Bool) : LiftsAt d (Act.debugAssert b : Act (St σ α) (Err P CE) Unit) :=
  ite (pure _) panic

theorem nested {x : Act (St σ α) (Err P CE) A} (hk : KeepsDepth x) (h : LiftsAt (d + 1) x) :
    LiftsAt d (Env.nestedInDepth x) := by
  intro s a k
  rw [Env.nestedInDepth_eq hk, Env.nestedInDepth_eq hk]
  have h := h s a k
  simp only
  have hd : d + k + 1 = d + 1 + k := by omega
  rcases hx : x ⟨s, a, d + 1⟩ with ⟨_ | e | _ | _, s'⟩ <;> rw [hx] at h
  · simp only at h ⊢
    rw [hd, h]
  · simp only at h ⊢
    intro he
    rw [hd, h he]
  all_goals trivial

end LiftsAt

variable (E : Env σ P τ ε α CE) {d : Nat}

theorem Env.lifts_peek : LiftsAt d E.peek := LiftsAt.blind fun _ _ _ _ => rfl
theorem Env.lifts_next : LiftsAt d E.next := LiftsAt.blind fun _ _ _ _ => rfl
theorem Env.lifts_nextAccum : LiftsAt d E.nextAccum := LiftsAt.blind fun _ _ _ _ => rfl
theorem Env.lifts_newDatum (x) : LiftsAt d (E.newDatum x) := LiftsAt.blind fun _ _ _ _ => rfl
theorem Env.lifts_getMutFresh : LiftsAt d E.getMutFresh := LiftsAt.blind fun _ _ _ _ => rfl
theorem Env.lifts_concatAccum (t) : LiftsAt d (E.concatAccum t) :=
  LiftsAt.bind (LiftsAt.blind fun _ _ _ _ => rfl) (fun _ => rfl) fun _ => LiftsAt.blind fun _ _ _ _ => rfl
theorem lifts_liftCombiner (f : α → Except (Err P CE) A × α) :
    LiftsAt d (liftCombiner (σ := σ) f) := LiftsAt.blind fun _ _ _ _ => rfl

theorem Env.lifts_skipWhitespace (n : Nat) : LiftsAt d (E.skipWhitespace n) := by
  induction n with
  | zero => exact LiftsAt.fuel
  | succ n ih =>
    refine LiftsAt.bind E.lifts_peek E.keeps_peek fun a => ?_
    cases a with
    | none => exact LiftsAt.pure _
    | some it => exact LiftsAt.ite (LiftsAt.bind E.lifts_next E.keeps_next fun _ => ih) (LiftsAt.pure _)

/-- No success, and no error but `UnbalancedEndChar`. -/
def NoEnd (x : Outcome (Err P CE) A × St σ α) : Prop :=
  (∀ v, x.1 ≠ .ok v) ∧ ∀ e, x.1 = .err e → ∃ p, e = .unbalancedEndChar p

theorem NoEnd.bind {x : Act (St σ α) (Err P CE) A} {f : A → Act (St σ α) (Err P CE) B} {t : St σ α}
    (h1 : ∀ e, (x t).1 ≠ .err e) (h2 : ∀ v t', x t = (.ok v, t') → NoEnd (f v t')) :
    NoEnd ((x >>= f) t) := by
  show NoEnd (Act.bind x f t)
  unfold Act.bind
  rcases hx : x t with ⟨o | e | _ | _, s'⟩
  · exact h2 _ _ hx
  · exact absurd (by rw [hx]) (h1 e)
  · exact ⟨fun v h => (by cases h), fun e h => (by cases h)⟩
  · exact ⟨fun v h => (by cases h), fun e h => (by cases h)⟩

theorem liftEmpty_no_err (f : σ → Outcome Empty A × σ) (t : St σ α) (e : Err P CE) :
    (liftEmpty (E := Err P CE) f t).1 ≠ .err e := by
  intro hx
  unfold liftEmpty at hx
  rcases hn : f t.strm with ⟨_ | e' | _ | _, s₁⟩
  · rw [hn] at hx; cases hx
  · exact nomatch e'
  · rw [hn] at hx; cases hx
  · rw [hn] at hx; cases hx

/-- At top level an end delimiter is an error. -/
theorem Env.checkEndChar_top (t : St σ α) (h : t.ndepth = 0) : NoEnd (E.checkEndChar t) := by
  refine NoEnd.bind (liftEmpty_no_err _ _) fun o t₁ h₁ => ?_
  have hd : t₁.ndepth = 0 := by
    have := E.keeps_peek t
    rw [h₁] at this
    exact this.trans h
  refine NoEnd.bind (fun e => ?_) fun _ t₂ h₂ => ?_
  · unfold Act.debugAssert
    split <;> (intro h; cases h)
  have hd₂ : t₂.ndepth = 0 := by
    have := KeepsDepth.debugAssert (P := P) (CE := CE) (σ := σ) (α := α)
      (o.map (fun it => E.cc.isNestEnd it.ch) == some true) t₁
    rw [h₂] at this
    exact this.trans hd
  refine NoEnd.bind (x := Env.getDepth) (fun e h => by cases h) fun k t₃ h₃ => ?_
  cases h₃
  rw [if_neg (by omega)]
  refine NoEnd.bind (liftEmpty_no_err _ _) fun o t₄ h₄ => ?_
  cases o with
  | none => exact ⟨fun v h => (by cases h), fun e h => (by cases h)⟩
  | some n => exact ⟨fun v h => (by cases h), fun e h => (by cases h; exact ⟨_, rfl⟩)⟩

/-- Reading the depth. -/
theorem LiftsAt.depth {f : Nat → Act (St σ α) (Err P CE) A}
    (h : ∀ s a k, match f d ⟨s, a, d⟩ with
      | (.ok v, s') => f (d + k) ⟨s, a, d + k⟩ = (.ok v, ⟨s'.strm, s'.alloc, d + k⟩)
      | (.err e, s') => (∀ p, e ≠ .unbalancedEndChar p) →
          f (d + k) ⟨s, a, d + k⟩ = (.err e, ⟨s'.strm, s'.alloc, d + k⟩)
      | _ => True) : LiftsAt d (Env.getDepth >>= f) := h

theorem Env.lifts_checkEndChar : LiftsAt d E.checkEndChar := by
  by_cases hd : d = 0
  · intro s a k
    have h := E.checkEndChar_top ⟨s, a, d⟩ hd
    rcases hx : E.checkEndChar ⟨s, a, d⟩ with ⟨_ | e | _ | _, s'⟩ <;> rw [hx] at h
    · exact absurd rfl (h.1 _)
    · obtain ⟨p, hp⟩ := h.2 _ rfl
      exact fun h => absurd hp (h p)
    all_goals trivial
  · refine LiftsAt.bind E.lifts_peek E.keeps_peek fun a => ?_
    refine LiftsAt.bind (LiftsAt.debugAssert _) (KeepsDepth.debugAssert _) fun _ => ?_
    refine LiftsAt.depth fun s a k => ?_
    simp only [show d > 0 by omega, show d + k > 0 by omega, if_true]
    rfl

theorem Env.lifts_finishText (t l) : LiftsAt d (E.finishText t l) :=
  LiftsAt.ite (E.lifts_concatAccum t) (LiftsAt.throw _)

theorem Env.lifts_parseTextLoop (mode : Mode) (n : Nat) :
    ∀ t l, LiftsAt d (E.parseTextLoop mode n t l) := by
  induction n with
  | zero => intro _ _; exact LiftsAt.fuel
  | succ n ih =>
    intro t l
    refine LiftsAt.bind E.lifts_peek E.keeps_peek fun a => ?_
    cases a with
    | none => exact E.lifts_finishText _ _
    | some it =>
      refine LiftsAt.ite (E.lifts_finishText _ _) (LiftsAt.ite ?_ (LiftsAt.ite ?_
        (LiftsAt.ite (LiftsAt.ite ?_ ?_) ?_)))
      · exact LiftsAt.bind (E.lifts_concatAccum _) (E.keeps_concatAccum _) fun _ =>
          LiftsAt.bind E.lifts_next E.keeps_next fun _ =>
          LiftsAt.bind E.lifts_nextAccum E.keeps_nextAccum fun _ => ih _ _
      · exact LiftsAt.bind E.lifts_nextAccum E.keeps_nextAccum fun _ => ih _ _
      · exact LiftsAt.bind E.lifts_nextAccum E.keeps_nextAccum fun _ => ih _ _
      · exact LiftsAt.bind E.lifts_checkEndChar E.keeps_checkEndChar fun _ => E.lifts_finishText _ _
      · exact LiftsAt.bind E.lifts_nextAccum E.keeps_nextAccum fun _ => ih _ _

theorem Env.lifts_parseText (n mode) : LiftsAt d (E.parseText n mode) :=
  E.lifts_parseTextLoop mode n _ _

theorem Env.lifts_nestEnd : LiftsAt d E.nestEnd := by
  refine LiftsAt.bind E.lifts_next E.keeps_next fun a => ?_
  cases a with
  | none => exact LiftsAt.throw _
  | some _ => exact LiftsAt.debugAssert _

theorem Env.lifts_skipSeparator : LiftsAt d E.skipSeparator := by
  refine LiftsAt.bind E.lifts_peek E.keeps_peek fun a => ?_
  cases a with
  | none => exact LiftsAt.pure _
  | some _ =>
    exact LiftsAt.ite (LiftsAt.bind E.lifts_next E.keeps_next fun _ => LiftsAt.pure _)
      (LiftsAt.pure _)

theorem Env.keeps_skipLeading (n : Nat) (mode : Mode) : KeepsDepth (E.skipLeading n mode) :=
  KeepsDepth.ite (E.keeps_skipWhitespace n) (KeepsDepth.pure _)

theorem Env.lifts_skipLeading (n : Nat) (mode : Mode) : LiftsAt d (E.skipLeading n mode) :=
  LiftsAt.ite (E.lifts_skipWhitespace n) (LiftsAt.pure _)

/-- Inside a nest the depth does not matter. -/
theorem Env.lifts_parse (n : Nat) : ∀ d, 0 < d →
    (∀ mode, LiftsAt d (E.parseNext n mode)) ∧ LiftsAt d (E.parseNested n) ∧
    (∀ mode acc, LiftsAt d (E.parseAll n mode acc)) := by
  induction n with
  | zero =>
    intro d _
    refine ⟨fun mode => ?_, ?_, fun mode acc => ?_⟩
    · unfold Env.parseNext; exact LiftsAt.fuel
    · unfold Env.parseNested; exact LiftsAt.fuel
    · unfold Env.parseAll; exact LiftsAt.fuel
  | succ n ih =>
    intro d hd
    obtain ⟨ihn, ihd, iha⟩ := ih d hd
    have ihd' := (ih (d + 1) (by omega)).2.1
    have kn := (E.keeps_parse n).1
    have kd := (E.keeps_parse n).2.1
    have ka := (E.keeps_parse n).2.2
    refine ⟨fun mode => ?_, ?_, fun mode acc => ?_⟩
    · unfold Env.parseNext
      refine LiftsAt.bind (E.lifts_skipLeading n mode) (E.keeps_skipLeading n mode) fun _ => ?_
      refine LiftsAt.bind E.lifts_peek E.keeps_peek fun a => ?_
      cases a with
      | none =>
        refine LiftsAt.depth fun s a k => ?_
        simp only [show ¬ d = 0 by omega, show ¬ d + k = 0 by omega, if_false]
        exact fun _ => rfl
      | some it =>
        refine LiftsAt.ite (LiftsAt.bind (LiftsAt.nested kd ihd') (Env.keeps_nestedInDepth kd) fun o => ?_)
          (LiftsAt.ite (LiftsAt.bind E.lifts_checkEndChar E.keeps_checkEndChar fun _ => LiftsAt.pure _)
            (LiftsAt.bind (E.lifts_parseText _ _) (E.keeps_parseText _ _) fun _ => LiftsAt.pure _))
        cases o with
        | none => exact ihn mode
        | some d => exact LiftsAt.pure _
    · unfold Env.parseNested
      refine LiftsAt.bind E.lifts_next E.keeps_next fun _ => ?_
      refine LiftsAt.bind (LiftsAt.debugAssert _) (KeepsDepth.debugAssert _) fun _ => ?_
      refine LiftsAt.bind (ihn _) (kn _) fun o => ?_
      refine LiftsAt.bind E.lifts_skipSeparator E.keeps_skipSeparator fun _ => ?_
      cases o with
      | none => exact LiftsAt.bind E.lifts_nestEnd E.keeps_nestEnd fun _ => LiftsAt.pure _
      | some h =>
        dsimp only
        rcases E.lookup h with _ | (f | f)
        · exact LiftsAt.bind (iha _ _) (ka _ _) fun _ => LiftsAt.bind E.lifts_nestEnd E.keeps_nestEnd fun _ =>
            LiftsAt.bind (E.lifts_newDatum _) (E.keeps_newDatum _) fun _ =>
            LiftsAt.bind (E.lifts_newDatum _) (E.keeps_newDatum _) fun _ => LiftsAt.pure _
        · exact LiftsAt.bind (E.lifts_parseText _ _) (E.keeps_parseText _ _) fun _ =>
            LiftsAt.bind E.lifts_nestEnd E.keeps_nestEnd fun _ => lifts_liftCombiner _
        · exact LiftsAt.bind (iha _ _) (ka _ _) fun _ => LiftsAt.bind E.lifts_nestEnd E.keeps_nestEnd
            fun _ => lifts_liftCombiner _
    · unfold Env.parseAll
      refine LiftsAt.bind (ihn _) (kn _) fun o => ?_
      cases o with
      | none => exact LiftsAt.pure _
      | some x =>
        exact LiftsAt.bind (E.lifts_newDatum _) (E.keeps_newDatum _) fun _ =>
          LiftsAt.bind (E.lifts_newDatum _) (E.keeps_newDatum _) fun _ =>
          LiftsAt.bind E.lifts_getMutFresh E.keeps_getMutFresh fun _ =>
          LiftsAt.ite (iha _ _) (LiftsAt.throw _)

/-- `LiftsAt` from the top level, where the end of the source gives `None`, and inside a nest
`Err(MissingEndChar)`. -/
def LiftsTop (x : Act (St σ α) (Err P CE) (Option (Datum τ ε))) : Prop :=
  ∀ s a k, match x ⟨s, a, 0⟩ with
    | (.ok v, s') => x ⟨s, a, k + 1⟩ = (neverDone (.ok v), ⟨s'.strm, s'.alloc, k + 1⟩)
    | (.err e, s') => (∀ p, e ≠ .unbalancedEndChar p) →
        x ⟨s, a, k + 1⟩ = (.err e, ⟨s'.strm, s'.alloc, k + 1⟩)
    | _ => True

theorem LiftsTop.bind {x : Act (St σ α) (Err P CE) A}
    {f : A → Act (St σ α) (Err P CE) (Option (Datum τ ε))}
    (hx : LiftsAt 0 x) (hk : KeepsDepth x) (hf : ∀ a, LiftsTop (f a)) : LiftsTop (x >>= f) := by
  intro s a k
  show match Act.bind x f ⟨s, a, 0⟩ with
    | (.ok v, s') => Act.bind x f ⟨s, a, k + 1⟩ = (neverDone (.ok v), ⟨s'.strm, s'.alloc, k + 1⟩)
    | (.err e, s') => (∀ p, e ≠ .unbalancedEndChar p) →
        Act.bind x f ⟨s, a, k + 1⟩ = (.err e, ⟨s'.strm, s'.alloc, k + 1⟩)
    | _ => True
  unfold Act.bind
  have hx := hx s a (k + 1)
  have hk := hk ⟨s, a, 0⟩
  rcases hxs : x ⟨s, a, 0⟩ with ⟨_ | e | _ | _, s₁, a₁, d₁⟩
  · rw [hxs] at hx hk
    simp only [Nat.zero_add] at hx hk
    subst hk
    simp only
    rw [hx]
    exact hf _ s₁ a₁ k
  · rw [hxs] at hx
    simp only [Nat.zero_add] at hx ⊢
    intro he
    rw [hx he]
  all_goals trivial

theorem LiftsTop.fail {x : Act (St σ α) (Err P CE) A}
    {f : A → Act (St σ α) (Err P CE) (Option (Datum τ ε))}
    (hx : ∀ s a, NoEnd (x ⟨s, a, 0⟩)) : LiftsTop (x >>= f) := by
  intro s a k
  show match Act.bind x f ⟨s, a, 0⟩ with
    | (.ok v, s') => Act.bind x f ⟨s, a, k + 1⟩ = (neverDone (.ok v), ⟨s'.strm, s'.alloc, k + 1⟩)
    | (.err e, s') => (∀ p, e ≠ .unbalancedEndChar p) →
        Act.bind x f ⟨s, a, k + 1⟩ = (.err e, ⟨s'.strm, s'.alloc, k + 1⟩)
    | _ => True
  unfold Act.bind
  have h := hx s a
  rcases hx : x ⟨s, a, 0⟩ with ⟨_ | e | _ | _, s'⟩ <;> rw [hx] at h
  · exact absurd rfl (h.1 _)
  · obtain ⟨p, hp⟩ := h.2 _ rfl
    exact fun h => absurd hp (h p)
  all_goals trivial

theorem LiftsTop.ite {p : Prop} [Decidable p] {x y : Act (St σ α) (Err P CE) (Option (Datum τ ε))}
    (hx : LiftsTop x) (hy : LiftsTop y) : LiftsTop (if p then x else y) := by
  split <;> assumption

theorem Env.lifts_top (n : Nat) : LiftsTop (E.parseNext n .base) := by
  induction n with
  | zero => unfold Env.parseNext; intro s a k; trivial
  | succ n ih =>
    unfold Env.parseNext
    refine LiftsTop.bind (E.lifts_skipLeading n .base) (E.keeps_skipLeading n .base) fun _ => ?_
    refine LiftsTop.bind E.lifts_peek E.keeps_peek fun a => ?_
    cases a with
    | none => intro s a k; rfl
    | some it =>
      have kd := (E.keeps_parse n).2.1
      refine LiftsTop.ite (LiftsTop.bind
        (LiftsAt.nested kd (E.lifts_parse n 1 (by omega)).2.1) (Env.keeps_nestedInDepth kd) fun o => ?_)
        (LiftsTop.ite ?_ (LiftsTop.bind (E.lifts_parseText _ _) (E.keeps_parseText _ _) fun _ s a k => rfl))
      · cases o with
        | none => exact ih
        | some d => intro s a k; rfl
      · exact LiftsTop.fail fun s a => E.checkEndChar_top _ rfl

end Kul
