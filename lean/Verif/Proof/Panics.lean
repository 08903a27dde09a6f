import Verif.Spec.Panics
import Verif.Proof.Mono

/-! # Panics of any user code -/

namespace Kul

variable {σ P τ ε α CE : Type} {A B : Type}

/-- The first action panics, or does as the second one. If it panics then `Q` holds of what
it leaves, or the second one panics. It keeps `I`, and the nest depth unless it panics; then the depth is not less. -/
def CutOff (Q I : σ → α → Prop) (x y : Act (St σ α) (Err P CE) A) : Prop := ∀ s, I s.strm s.alloc →
  I (x s).2.strm (x s).2.alloc ∧ s.ndepth ≤ (x s).2.ndepth ∧
    (((x s).1 = .panic ∧ (Q (x s).2.strm (x s).2.alloc ∨ (y s).1 = .panic)) ∨ (x s = y s ∧ (x s).2.ndepth = s.ndepth))

namespace CutOff

variable {Q I : σ → α → Prop}

theorem pure (v : A) : CutOff (α := α) (P := P) (CE := CE) Q I (Pure.pure v) (Pure.pure v) :=
  fun _ h => ⟨h, Nat.le_refl _, Or.inr ⟨rfl, rfl⟩⟩

theorem fuel : CutOff (α := α) (P := P) (CE := CE) (A := A) Q I Act.fuel Act.fuel :=
  fun _ h => ⟨h, Nat.le_refl _, Or.inr ⟨rfl, rfl⟩⟩

theorem throw (e : Err P CE) : CutOff (α := α) (A := A) Q I (Act.throw e) (Act.throw e) :=
  fun _ h => ⟨h, Nat.le_refl _, Or.inr ⟨rfl, rfl⟩⟩

theorem panic : CutOff (α := α) (P := P) (CE := CE) (A := A) Q I Act.panic Act.panic :=
  fun _ h => ⟨h, Nat.le_refl _, Or.inr ⟨rfl, rfl⟩⟩

theorem getDepth : CutOff (α := α) (P := P) (CE := CE) Q I Env.getDepth Env.getDepth :=
  fun _ h => ⟨h, Nat.le_refl _, Or.inr ⟨rfl, rfl⟩⟩

theorem debugAssert (b : Bool) :
    CutOff (α := α) (P := P) (CE := CE) Q I (Act.debugAssert b) (Act.debugAssert b) := by
  cases b
  · exact panic
  · exact pure ()

theorem bind {x y : Act (St σ α) (Err P CE) A} {f g : A → Act (St σ α) (Err P CE) B}
    (hx : CutOff Q I x y) (hf : ∀ v, CutOff Q I (f v) (g v)) : CutOff Q I (x >>= f) (y >>= g) := by
  intro s hs
  show I (Act.bind x f s).2.strm (Act.bind x f s).2.alloc ∧ _ ≤ (Act.bind x f s).2.ndepth ∧
    (((Act.bind x f s).1 = _ ∧ (Q (Act.bind x f s).2.strm (Act.bind x f s).2.alloc ∨ (Act.bind y g s).1 = _)) ∨ (Act.bind x f s = Act.bind y g s ∧
      (Act.bind x f s).2.ndepth = s.ndepth))
  obtain ⟨h1, h2, h3⟩ := hx s hs
  unfold Act.bind
  rcases h3 with ⟨h3, h4⟩ | ⟨h3, h4⟩
  · rcases hxs : x s with ⟨o, s'⟩
    rw [hxs] at h1 h2 h3 h4
    cases h3
    refine ⟨h1, h2, Or.inl ⟨rfl, h4.imp id fun h => ?_⟩⟩
    rcases hys : y s with ⟨o', s''⟩
    rw [hys] at h
    cases h
    rfl
  · rw [← h3]
    rcases hxs : x s with ⟨_ | _ | _ | _, s'⟩
    · rw [hxs] at h1 h2 h4
      obtain ⟨h5, h6, h7⟩ := hf _ s' h1
      refine ⟨h5, by simp only at h4 ⊢; omega, h7.imp id fun h => ⟨h.1, h.2.trans h4⟩⟩
    all_goals
      rw [hxs] at h1 h2 h4
      exact ⟨h1, h2, Or.inr ⟨rfl, h4⟩⟩

theorem ite {p : Prop} [Decidable p] {x y x' y' : Act (St σ α) (Err P CE) A}
    (h : CutOff Q I x y) (h' : CutOff Q I x' y') : CutOff Q I (if p then x else x') (if p then y else y') := by
  split <;> assumption

theorem nested {x y : Act (St σ α) (Err P CE) A} (h : CutOff Q I x y) :
    CutOff Q I (nestedUnwind x) (Env.nestedInDepth y) := by
  intro s hs
  obtain ⟨h1, h2, h3⟩ := h { s with ndepth := s.ndepth + 1 } hs
  unfold nestedUnwind Env.nestedInDepth
  rcases h3 with ⟨h3, h4⟩ | ⟨h3, h4⟩
  · rcases hxs : x { s with ndepth := s.ndepth + 1 } with ⟨o, s'⟩
    rw [hxs] at h1 h2 h3 h4
    cases h3
    simp only at h2 h4 ⊢
    refine ⟨h1, by omega, Or.inl ⟨trivial, h4.imp id fun h => ?_⟩⟩
    rcases hys : y { s with ndepth := s.ndepth + 1 } with ⟨o', s''⟩
    rw [hys] at h
    cases h
    simp only
    split <;> rfl
  · rw [← h3]
    rcases hxs : x { s with ndepth := s.ndepth + 1 } with ⟨o, s'⟩
    rw [hxs] at h1 h4
    have hy : (y { s with ndepth := s.ndepth + 1 }).1 = o := by rw [← h3, hxs]
    simp only at h1 h4 ⊢
    have h5 : ¬ s'.ndepth = 0 := by omega
    cases o with
    | panic =>
      simp only [h5, if_false]
      exact ⟨h1, by omega, Or.inl ⟨trivial, Or.inr trivial⟩⟩
    | _ =>
      simp only [h5, if_false]
      exact ⟨h1, by omega, Or.inr ⟨trivial, by omega⟩⟩

/-- An operation on the state before which nothing panics. -/
theorem same {x : Act (St σ α) (Err P CE) A} (hk : KeepsDepth x) (hI : ∀ s, I s.strm s.alloc → I (x s).2.strm (x s).2.alloc) :
    CutOff Q I x x :=
  fun s hs => ⟨hI s hs, Nat.le_of_eq (hk s).symm, Or.inr ⟨rfl, hk s⟩⟩

/-- A panic may come before. -/
theorem after {g : Act (St σ α) (Err P CE) Unit} {x y : Act (St σ α) (Err P CE) A}
    (hg : CutOff Q I g (Pure.pure ())) (h : CutOff Q I x y) : CutOff Q I (g >>= fun _ => x) y :=
  bind (f := fun _ => x) (g := fun _ => y) hg fun _ => h

end CutOff

/-- What is needed of `I` and `Q`. -/
structure PEnv.Fair (U : PEnv σ P τ ε α CE) (Q I : σ → α → Prop) : Prop where
  peek : ∀ s a, I s a → I (U.env.strm.peek s).2 a
  next : ∀ s a, I s a → I (U.env.strm.next s).2 a
  nextAccum : ∀ s a, I s a → I (U.env.strm.nextAccum s a).2.1 (U.env.strm.nextAccum s a).2.2
  accumDone : ∀ s a, I s a → I (U.env.strm.accumDone s a).2.1 (U.env.strm.accumDone s a).2.2
  concat : ∀ t u s a, I s a → I s (U.env.text.concat t u a).2
  newDatum : ∀ d s a, I s a → I s (U.env.alloc.newDatum d a).2
  operative : ∀ d f, U.env.lookup d = some (.operative f) → ∀ t s a, I s a → I s (f d t a).2
  applicative : ∀ d f, U.env.lookup d = some (.applicative f) → ∀ l s a, I s a → I s (f d l a).2
  strm : ∀ c s a s' a', I s a → U.strmPanics c s a = some (s', a') → Q s' a' ∧ I s' a'
  user : ∀ c s a a', I s a → U.panics c a = some a' → Q s a' ∧ I s a'

section
variable {U : PEnv σ P τ ε α CE} {Q I : σ → α → Prop} (H : U.Fair Q I)
include H

theorem PEnv.Fair.ofStream (c : StreamCall) : CutOff Q I (U.ofStream c) (pure ()) := by
  intro s hs
  unfold PEnv.ofStream
  rcases hp : U.strmPanics c s.strm s.alloc with _ | ⟨s', a'⟩
  · exact ⟨hs, Nat.le_refl _, Or.inr ⟨rfl, rfl⟩⟩
  · obtain ⟨h1, h2⟩ := H.strm _ _ _ _ _ hs hp
    exact ⟨h2, Nat.le_refl _, Or.inl ⟨rfl, Or.inl h1⟩⟩

theorem PEnv.Fair.ofUser (c : UserCall τ ε) : CutOff Q I (U.ofUser c) (pure ()) := by
  intro s hs
  unfold PEnv.ofUser
  rcases hp : U.panics c s.alloc with _ | a'
  · exact ⟨hs, Nat.le_refl _, Or.inr ⟨rfl, rfl⟩⟩
  · obtain ⟨h1, h2⟩ := H.user _ _ _ _ hs hp
    exact ⟨h2, Nat.le_refl _, Or.inl ⟨rfl, Or.inl h1⟩⟩

theorem PEnv.Fair.c_peek : CutOff Q I U.peek U.env.peek :=
  (H.ofStream .peek).after (CutOff.same U.env.keeps_peek fun _ hs => H.peek _ _ hs)

theorem PEnv.Fair.c_next : CutOff Q I U.next U.env.next :=
  (H.ofStream .next).after (CutOff.same U.env.keeps_next fun _ hs => H.next _ _ hs)

theorem PEnv.Fair.c_nextAccum : CutOff Q I U.nextAccum U.env.nextAccum :=
  (H.ofStream .nextAccum).after (CutOff.same U.env.keeps_nextAccum fun _ hs => H.nextAccum _ _ hs)

/-- A question, and then what depends on the answer. -/
theorem PEnv.Fair.c_ask (q : Ask) (ch : Char) {f : Bool → Act (St σ α) (Err P CE) A} {y}
    (h : CutOff Q I (f (q.of U.env.cc ch)) y) : CutOff Q I (U.ask q ch >>= f) y := by
  have : (U.ask q ch >>= f) = (U.ofUser (.ask q ch) >>= fun _ => f (q.of U.env.cc ch)) := by
    unfold PEnv.ask
    rw [Act.bind_assoc]
    rfl
  rw [this]
  exact (H.ofUser _).after h

theorem PEnv.Fair.c_isEnd (mode : Mode) (ch : Char) {f : Bool → Act (St σ α) (Err P CE) A} {y}
    (h : CutOff Q I (f (isEndChar U.env.cc mode ch)) y) : CutOff Q I (U.isEnd mode ch >>= f) y := by
  cases mode with
  | base => exact H.c_ask _ _ h
  | operands => exact H.c_ask _ _ h
  | operator =>
    unfold PEnv.isEnd
    simp only
    rw [Act.bind_assoc]
    refine H.c_ask _ _ ?_
    by_cases hw : Ask.whitespace.of U.env.cc ch = true
    · rw [if_pos hw]
      simp only [Ask.of] at hw
      simp only [isEndChar, hw, Bool.true_or] at h
      exact h
    · rw [if_neg hw, Act.bind_assoc]
      refine H.c_ask _ _ ?_
      simp only [Ask.of, Bool.not_eq_true] at hw
      simp only [isEndChar, hw, Bool.false_or] at h
      by_cases hb : Ask.nestStart.of U.env.cc ch = true
      · rw [if_pos hb]
        simp only [Ask.of] at hb
        simp only [hb, Bool.true_or] at h
        exact h
      · rw [if_neg hb]
        simp only [Ask.of, Bool.not_eq_true] at hb
        simp only [hb, Bool.false_or] at h
        exact H.c_ask _ _ h

theorem PEnv.Fair.c_stops (mode : Mode) (l : Nat) (ch : Char) {f : Bool → Act (St σ α) (Err P CE) A} {y}
    (h : CutOff Q I (f (decide (l = 0 ∧ isEndChar U.env.cc mode ch = true))) y) :
    CutOff Q I (U.stops mode l ch >>= f) y := by
  unfold PEnv.stops
  by_cases hl : l = 0
  · rw [if_pos hl]
    refine H.c_isEnd _ _ ?_
    simpa [hl] using h
  · rw [if_neg hl]
    have : decide (l = 0 ∧ isEndChar U.env.cc mode ch = true) = false := by simp [hl]
    rw [this] at h
    exact h

theorem PEnv.Fair.c_concatAccum (t : τ) : CutOff Q I (U.concatAccum t) (U.env.concatAccum t) := by
  refine (H.ofStream .accumDone).after ?_
  refine CutOff.bind (CutOff.same ?_ fun s hs => ?_) fun u => ?_
  · intro s; rfl
  · exact H.accumDone _ _ hs
  · exact (H.ofUser _).after (CutOff.same (fun _ => rfl) fun _ hs => H.concat _ _ _ _ hs)

theorem PEnv.Fair.c_skipWhitespace (n : Nat) : CutOff Q I (U.skipWhitespace n) (U.env.skipWhitespace n) := by
  induction n with
  | zero => exact CutOff.fuel
  | succ n ih =>
    refine CutOff.bind H.c_peek fun o => ?_
    cases o with
    | none => exact CutOff.pure ()
    | some it =>
      refine H.c_ask _ _ ?_
      exact CutOff.ite (CutOff.bind H.c_next fun _ => ih) (CutOff.pure ())

theorem PEnv.Fair.c_askItem (q : Ask) (o : Option (Item P)) {f : Option Bool → Act (St σ α) (Err P CE) A} {y}
    (h : CutOff Q I (f (o.map fun it => q.of U.env.cc it.ch)) y) : CutOff Q I (U.askItem q o >>= f) y := by
  cases o with
  | none => exact h
  | some it =>
    unfold PEnv.askItem
    simp only
    rw [Act.bind_assoc]
    exact H.c_ask _ _ h

theorem PEnv.Fair.c_checkEndChar : CutOff Q I U.checkEndChar U.env.checkEndChar := by
  refine CutOff.bind H.c_peek fun o => ?_
  refine H.c_askItem _ _ ?_
  refine CutOff.bind (CutOff.debugAssert _) fun _ => ?_
  refine CutOff.bind CutOff.getDepth fun d => ?_
  refine CutOff.ite (CutOff.pure ()) (CutOff.bind H.c_next fun o => ?_)
  cases o with
  | none => exact CutOff.panic
  | some it => exact CutOff.throw _

theorem PEnv.Fair.c_finishText (t : τ) (l : Nat) : CutOff Q I (U.finishText t l) (U.env.finishText t l) :=
  CutOff.ite (H.c_concatAccum t) (CutOff.throw _)

theorem PEnv.Fair.c_parseTextLoop (mode : Mode) (n : Nat) : ∀ t l,
    CutOff Q I (U.parseTextLoop mode n t l) (U.env.parseTextLoop mode n t l) := by
  induction n with
  | zero => intro _ _; exact CutOff.fuel
  | succ n ih =>
    intro t l
    refine CutOff.bind H.c_peek fun o => ?_
    cases o with
    | none => exact H.c_finishText t l
    | some it =>
      refine H.c_stops _ _ _ ?_
      by_cases hs : l = 0 ∧ isEndChar U.env.cc mode it.ch = true
      · simp only [hs, and_self, decide_true, if_true]
        exact H.c_finishText t 0
      · rw [if_neg (by simpa using hs)]
        simp only [if_neg hs]
        refine H.c_ask _ _ (CutOff.ite ?_ (H.c_ask _ _ (CutOff.ite ?_ (H.c_ask _ _ (CutOff.ite (CutOff.ite ?_ ?_) ?_)))))
        · exact CutOff.bind (H.c_concatAccum t) fun _ => CutOff.bind H.c_next fun _ =>
            CutOff.bind H.c_nextAccum fun _ => ih _ _
        · exact CutOff.bind H.c_nextAccum fun _ => ih _ _
        · exact CutOff.bind H.c_nextAccum fun _ => ih _ _
        · exact CutOff.bind H.c_checkEndChar fun _ => H.c_finishText t l
        · exact CutOff.bind H.c_nextAccum fun _ => ih _ _

theorem PEnv.Fair.c_parseText (n : Nat) (mode : Mode) : CutOff Q I (U.parseText n mode) (U.env.parseText n mode) :=
  (H.ofUser _).after (H.c_parseTextLoop mode n _ _)

theorem PEnv.Fair.c_nestEnd : CutOff Q I U.nestEnd U.env.nestEnd := by
  refine CutOff.bind H.c_next fun o => ?_
  cases o with
  | none => exact CutOff.throw _
  | some it => exact H.c_ask _ _ (CutOff.debugAssert _)

theorem PEnv.Fair.c_skipSeparator : CutOff Q I U.skipSeparator U.env.skipSeparator := by
  refine CutOff.bind H.c_peek fun o => ?_
  cases o with
  | none => exact CutOff.pure ()
  | some it => exact H.c_ask _ _ (CutOff.ite (CutOff.bind H.c_next fun _ => CutOff.pure ()) (CutOff.pure ()))

theorem PEnv.Fair.c_newDatum (d : Datum τ ε) : CutOff Q I (U.newDatum d) (U.env.newDatum d) :=
  (H.ofUser _).after (CutOff.same (fun _ => rfl) fun _ h => H.newDatum _ _ _ h)

theorem PEnv.Fair.c_getMutFresh : CutOff Q I U.getMutFresh U.env.getMutFresh :=
  (H.ofUser _).after (CutOff.same (fun _ => rfl) fun _ h => h)

theorem PEnv.Fair.c_combiner (c : UserCall τ ε) (f : α → Except (Err P CE) A × α)
    (hf : ∀ s a, I s a → I s (f a).2) :
    CutOff Q I (U.ofUser c >>= fun _ => liftCombiner f) (liftCombiner f) :=
  (H.ofUser _).after (CutOff.same (fun _ => rfl) fun _ h => hf _ _ h)

theorem PEnv.Fair.cut (n : Nat) :
    (∀ mode, CutOff Q I (U.parseNext n mode) (U.env.parseNext n mode)) ∧
    CutOff Q I (U.parseNested n) (U.env.parseNested n) ∧
    (∀ mode acc, CutOff Q I (U.parseAll n mode acc) (U.env.parseAll n mode acc)) := by
  induction n with
  | zero =>
    refine ⟨fun m => ?_, ?_, fun m acc => ?_⟩
    · unfold PEnv.parseNext Env.parseNext; exact CutOff.fuel
    · unfold PEnv.parseNested Env.parseNested; exact CutOff.fuel
    · unfold PEnv.parseAll Env.parseAll; exact CutOff.fuel
  | succ n ih =>
    obtain ⟨ihn, ihd, iha⟩ := ih
    refine ⟨fun m => ?_, ?_, fun m acc => ?_⟩
    · unfold PEnv.parseNext Env.parseNext
      refine CutOff.bind (CutOff.ite (H.c_skipWhitespace n) (CutOff.pure ())) fun _ => ?_
      refine CutOff.bind H.c_peek fun o => ?_
      cases o with
      | none => exact CutOff.bind CutOff.getDepth fun _ => CutOff.ite (CutOff.pure _) (CutOff.throw _)
      | some it =>
        refine H.c_ask _ _ (CutOff.ite ?_ (H.c_ask _ _ (CutOff.ite ?_ ?_)))
        · refine CutOff.bind (CutOff.nested ihd) fun o => ?_
          cases o with
          | none => exact ihn m
          | some d => exact CutOff.pure _
        · exact CutOff.bind H.c_checkEndChar fun _ => CutOff.pure _
        · exact CutOff.bind (H.c_parseText n m) fun _ => CutOff.pure _
    · unfold PEnv.parseNested Env.parseNested
      refine CutOff.bind H.c_next fun o => ?_
      refine H.c_askItem _ _ ?_
      refine CutOff.bind (CutOff.debugAssert _) fun _ => ?_
      refine CutOff.bind (ihn _) fun o => ?_
      refine CutOff.bind H.c_skipSeparator fun _ => ?_
      cases o with
      | none => exact CutOff.bind H.c_nestEnd fun _ => CutOff.pure _
      | some d =>
        refine (H.ofUser _).after ?_
        dsimp only
        rcases hlk : U.env.lookup d with _ | (f | f)
        · exact CutOff.bind (iha _ _) fun _ => CutOff.bind H.c_nestEnd fun _ =>
            CutOff.bind (H.c_newDatum _) fun _ => CutOff.bind (H.c_newDatum _) fun _ => CutOff.pure _
        · exact CutOff.bind (H.c_parseText _ _) fun _ => CutOff.bind H.c_nestEnd fun _ =>
            H.c_combiner _ _ (H.operative _ _ hlk _)
        · exact CutOff.bind (iha _ _) fun _ => CutOff.bind H.c_nestEnd fun _ =>
            H.c_combiner _ _ (H.applicative _ _ hlk _)
    · unfold PEnv.parseAll Env.parseAll
      refine CutOff.bind (ihn _) fun o => ?_
      cases o with
      | none => exact CutOff.pure _
      | some d =>
        exact CutOff.bind (H.c_newDatum _) fun _ => CutOff.bind (H.c_newDatum _) fun _ =>
          CutOff.bind H.c_getMutFresh fun b => CutOff.ite (iha _ _) (CutOff.throw _)

end

/-! ## The budget does not matter -/

section
variable (U : PEnv σ P τ ε α CE)

theorem PEnv.mono_skipWhitespace (n : Nat) : Refines (U.skipWhitespace n) (U.skipWhitespace (n + 1)) := by
  induction n with
  | zero => exact Refines.fuel _
  | succ n ih =>
    refine Refines.bind (Refines.rfl' _) fun o => ?_
    cases o with
    | none => exact Refines.rfl' _
    | some it =>
      exact Refines.bind (Refines.rfl' _) fun _ =>
        Refines.ite (Refines.bind (Refines.rfl' _) fun _ => ih) (Refines.rfl' _)

theorem PEnv.mono_parseTextLoop (m : Mode) (n : Nat) : ∀ t l,
    Refines (U.parseTextLoop m n t l) (U.parseTextLoop m (n + 1) t l) := by
  induction n with
  | zero => intro t l; exact Refines.fuel _
  | succ n ih =>
    intro t l
    refine Refines.bind (Refines.rfl' _) fun o => ?_
    cases o with
    | none => exact Refines.rfl' _
    | some it =>
      refine Refines.bind (Refines.rfl' _) fun _ => ?_
      refine Refines.ite (Refines.rfl' _) ?_
      refine Refines.bind (Refines.rfl' _) fun _ => ?_
      refine Refines.ite ?_ ?_
      · exact Refines.bind (Refines.rfl' _) fun _ => Refines.bind (Refines.rfl' _) fun _ =>
          Refines.bind (Refines.rfl' _) fun _ => ih _ _
      refine Refines.bind (Refines.rfl' _) fun _ => ?_
      refine Refines.ite ?_ ?_
      · exact Refines.bind (Refines.rfl' _) fun _ => ih _ _
      refine Refines.bind (Refines.rfl' _) fun _ => ?_
      refine Refines.ite (Refines.ite ?_ (Refines.rfl' _)) ?_
      all_goals exact Refines.bind (Refines.rfl' _) fun _ => ih _ _

theorem Refines.nestedPanics {x y : Act (St σ α) (Err P CE) A} (h : Refines x y)
    (hk : ∀ s, (x s).1 = .fuel → (x s).2.ndepth ≠ 0 ∨ s.ndepth = 0) :
    Refines (nestedUnwind x) (nestedUnwind y) := by
  intro s
  unfold Kul.nestedUnwind
  rcases h { s with ndepth := s.ndepth + 1 } with h | h
  · have hk := hk { s with ndepth := s.ndepth + 1 } h
    rcases hx : x { s with ndepth := s.ndepth + 1 } with ⟨o, s'⟩
    rw [hx] at h hk
    cases h
    simp only at hk ⊢
    rcases hk with hk | hk
    · rw [if_neg hk]; exact Or.inl rfl
    · cases hk
  · rw [h]; exact Or.inr rfl

theorem PEnv.mono (n : Nat) :
    (∀ m, Refines (U.parseNext n m) (U.parseNext (n + 1) m)) ∧
    Refines (U.parseNested n) (U.parseNested (n + 1)) ∧
    (∀ m acc, Refines (U.parseAll n m acc) (U.parseAll (n + 1) m acc)) := by
  induction n with
  | zero =>
    refine ⟨fun m => ?_, ?_, fun m acc => ?_⟩
    · intro s; left; unfold PEnv.parseNext; rfl
    · intro s; left; unfold PEnv.parseNested; rfl
    · intro s; left; unfold PEnv.parseAll; rfl
  | succ n ih =>
    obtain ⟨ihn, ihd, iha⟩ := ih
    have H : U.Fair (fun _ _ => True) (fun _ _ => True) := by constructor <;> simp
    have text : ∀ m, Refines (U.parseText n m) (U.parseText (n + 1) m) := fun m =>
      Refines.bind (Refines.rfl' _) fun _ => U.mono_parseTextLoop m n _ _
    refine ⟨fun m => ?_, ?_, fun m acc => ?_⟩
    · rw [PEnv.parseNext, PEnv.parseNext]
      refine Refines.bind (Refines.ite (U.mono_skipWhitespace n) (Refines.rfl' _)) fun _ => ?_
      refine Refines.bind (Refines.rfl' _) fun o => ?_
      cases o with
      | none => exact Refines.rfl' _
      | some it =>
        refine Refines.bind (Refines.rfl' _) fun _ => ?_
        refine Refines.ite ?_ ?_
        · refine Refines.bind (Refines.nestedPanics ihd fun s hs => ?_) fun o => ?_
          · by_cases h0 : s.ndepth = 0
            · exact Or.inr h0
            · left
              have := ((H.cut n).2.1 s trivial).2.1
              omega
          · cases o with
            | none => exact ihn m
            | some d => exact Refines.rfl' _
        · refine Refines.bind (Refines.rfl' _) fun _ => ?_
          refine Refines.ite (Refines.rfl' _) ?_
          exact Refines.bind (text m) fun _ => Refines.rfl' _
    · rw [PEnv.parseNested, PEnv.parseNested]
      refine Refines.bind (Refines.rfl' _) fun o => Refines.bind (Refines.rfl' _) fun _ =>
        Refines.bind (Refines.rfl' _) fun _ => Refines.bind (ihn _) fun o => Refines.bind (Refines.rfl' _) fun _ => ?_
      cases o with
      | none => exact Refines.rfl' _
      | some d =>
        refine Refines.bind (Refines.rfl' _) fun _ => ?_
        rcases U.env.lookup d with _ | (f | f)
        · exact Refines.bind (iha _ _) fun _ => Refines.rfl' _
        · exact Refines.bind (text _) fun _ => Refines.rfl' _
        · exact Refines.bind (iha _ _) fun _ => Refines.rfl' _
    · rw [PEnv.parseAll, PEnv.parseAll]
      refine Refines.bind (ihn _) fun o => ?_
      cases o with
      | none => exact Refines.rfl' _
      | some d =>
        exact Refines.bind (Refines.rfl' _) fun _ => Refines.bind (Refines.rfl' _) fun _ =>
          Refines.bind (Refines.rfl' _) fun _ => Refines.ite (iha _ _) (Refines.rfl' _)

theorem PEnv.mono_le {n k : Nat} (h : n ≤ k) (m : Mode) : Refines (U.parseNext n m) (U.parseNext k m) := by
  induction h with
  | refl => exact Refines.rfl' _
  | @step k _ ih =>
    intro s
    rcases ih s with h | h
    · exact Or.inl h
    · rcases (U.mono k).1 m s with h' | h'
      · exact Or.inl (by rw [h]; exact h')
      · exact Or.inr (h.trans h')

variable {U}

/-- The result of a call is a function of the state. -/
theorem PEnv.Call.unique {s : St σ α} {o o' t t'} (h : U.Call s o t) (h' : U.Call s o' t') : o = o' ∧ t = t' := by
  obtain ⟨n, h1, h2⟩ := h
  obtain ⟨k, h3, h4⟩ := h'
  have a := U.mono_le (Nat.le_max_left n k) .base s
  have b := U.mono_le (Nat.le_max_right n k) .base s
  rw [h1] at a
  rw [h3] at b
  rcases a with a | a
  · exact absurd a h2
  rcases b with b | b
  · exact absurd b h4
  have := a.trans b.symm
  simp only [Prod.mk.injEq] at this
  exact this

end

end Kul
