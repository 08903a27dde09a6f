import Verif.Model.Api
import Verif.Proof.EvalRun

/-!
# The step budget does not matter

A larger budget gives the same result, unless the smaller one ran out. So `Call`
is a function.
-/

namespace Kul

variable {σ P τ ε α CE : Type}

/-- `x` ran out of its budget, or `y` does the same. -/
def Refines {S X A : Type} (x y : Act S X A) : Prop := ∀ s, (x s).1 = .fuel ∨ x s = y s

namespace Refines
variable {S X A B : Type}

theorem rfl' (x : Act S X A) : Refines x x := fun _ => Or.inr rfl

theorem fuel (y : Act S X A) : Refines Act.fuel y := fun _ => Or.inl rfl

theorem bind {x y : Act S X A} {f g : A → Act S X B} (h : Refines x y) (hf : ∀ a, Refines (f a) (g a)) :
    Refines (x >>= f) (y >>= g) := by
  intro s
  show (Act.bind x f s).1 = _ ∨ Act.bind x f s = Act.bind y g s
  unfold Act.bind
  rcases h s with h | h
  · rcases hx : x s with ⟨o, s'⟩
    rw [hx] at h
    cases h
    exact Or.inl rfl
  · rw [← h]
    rcases x s with ⟨_ | _ | _ | _, s'⟩
    · exact hf _ s'
    all_goals exact Or.inr rfl

theorem ite {p : Prop} [Decidable p] {x y x' y' : Act S X A} (h : Refines x y) (h' : Refines x' y') :
    Refines (if p then x else x') (if p then y else y') := by
  split <;> assumption

end Refines

variable (E : Env σ P τ ε α CE)

theorem Env.mono_skipWhitespace (n : Nat) : Refines (E.skipWhitespace n) (E.skipWhitespace (n + 1)) := by
  induction n with
  | zero => exact Refines.fuel _
  | succ n ih =>
    refine Refines.bind (Refines.rfl' _) fun o => ?_
    cases o with
    | none => exact Refines.rfl' _
    | some it => exact Refines.ite (Refines.bind (Refines.rfl' _) fun _ => ih) (Refines.rfl' _)

theorem Env.mono_parseTextLoop (m : Mode) (n : Nat) : ∀ t l,
    Refines (E.parseTextLoop m n t l) (E.parseTextLoop m (n + 1) t l) := by
  induction n with
  | zero => intro t l; exact Refines.fuel _
  | succ n ih =>
    intro t l
    refine Refines.bind (Refines.rfl' _) fun o => ?_
    cases o with
    | none => exact Refines.rfl' _
    | some it =>
      refine Refines.ite (Refines.rfl' _) (Refines.ite ?_ (Refines.ite ?_ (Refines.ite
        (Refines.ite ?_ (Refines.rfl' _)) ?_)))
      · exact Refines.bind (Refines.rfl' _) fun _ => Refines.bind (Refines.rfl' _) fun _ =>
          Refines.bind (Refines.rfl' _) fun _ => ih _ _
      all_goals exact Refines.bind (Refines.rfl' _) fun _ => ih _ _

theorem Env.mono_skipLeading (n : Nat) (m : Mode) : Refines (E.skipLeading n m) (E.skipLeading (n + 1) m) :=
  Refines.ite (E.mono_skipWhitespace n) (Refines.rfl' _)

theorem Refines.nestedInDepth {x y : Act (St σ α) (Err P CE) (Option (Datum τ ε))} (h : Refines x y)
    (hk : ∀ s, (x s).2.ndepth = s.ndepth) :
    Refines (Env.nestedInDepth x) (Env.nestedInDepth y) := by
  intro s
  unfold Env.nestedInDepth
  have hk := hk { s with ndepth := s.ndepth + 1 }
  rcases h { s with ndepth := s.ndepth + 1 } with h | h
  · left
    rcases hx : x { s with ndepth := s.ndepth + 1 } with ⟨o, s'⟩
    rw [hx] at h hk
    cases h
    simp only at hk ⊢
    rw [hk, if_neg (by omega)]
  · right; rw [h]

theorem Env.mono_step (n : Nat) :
    (∀ m, Refines (E.parseNext n m) (E.parseNext (n + 1) m)) ∧
    Refines (E.parseNested n) (E.parseNested (n + 1)) ∧
    (∀ m acc, Refines (E.parseAll n m acc) (E.parseAll (n + 1) m acc)) := by
  induction n with
  | zero =>
    refine ⟨fun m => ?_, ?_, fun m acc => ?_⟩
    · conv in E.parseNext 0 m => unfold Env.parseNext
      exact Refines.fuel _
    · conv in E.parseNested 0 => unfold Env.parseNested
      exact Refines.fuel _
    · conv in E.parseAll 0 m acc => unfold Env.parseAll
      exact Refines.fuel _
  | succ n ih =>
    obtain ⟨ihn, ihd, iha⟩ := ih
    refine ⟨fun m => ?_, ?_, fun m acc => ?_⟩
    · unfold Env.parseNext
      refine Refines.bind (E.mono_skipLeading n m) fun _ => Refines.bind (Refines.rfl' _) fun o => ?_
      cases o with
      | none => exact Refines.rfl' _
      | some it =>
        refine Refines.ite (Refines.bind (Refines.nestedInDepth ihd (E.keeps_parse n).2.1) fun o => ?_)
          (Refines.ite (Refines.rfl' _) (Refines.bind (E.mono_parseTextLoop m n _ _) fun _ =>
            Refines.rfl' _))
        cases o with
        | none => exact ihn m
        | some d => exact Refines.rfl' _
    · unfold Env.parseNested
      refine Refines.bind (Refines.rfl' _) fun _ => Refines.bind (Refines.rfl' _) fun _ =>
        Refines.bind (ihn _) fun o => Refines.bind (Refines.rfl' _) fun _ => ?_
      cases o with
      | none => exact Refines.rfl' _
      | some h =>
        simp only
        rcases E.lookup h with _ | (f | f)
        · exact Refines.bind (iha _ _) fun _ => Refines.rfl' _
        · exact Refines.bind (E.mono_parseTextLoop _ n _ _) fun _ => Refines.rfl' _
        · exact Refines.bind (iha _ _) fun _ => Refines.rfl' _
    · unfold Env.parseAll
      refine Refines.bind (ihn _) fun o => ?_
      cases o with
      | none => exact Refines.rfl' _
      | some d =>
        exact Refines.bind (Refines.rfl' _) fun _ => Refines.bind (Refines.rfl' _) fun _ =>
          Refines.bind (Refines.rfl' _) fun _ => Refines.ite (iha _ _) (Refines.rfl' _)

/-- A larger budget gives the same result. -/
theorem Env.doNext_mono {n m : Nat} (h : n ≤ m) {s : St σ α} {o s'}
    (hn : E.doNext n s = (o, s')) (ho : o ≠ .fuel) : E.doNext m s = (o, s') := by
  induction h with
  | refl => exact hn
  | @step m _ ih =>
    rcases (E.mono_step m).1 .base s with h | h
    · unfold Env.doNext at ih
      rw [ih] at h
      exact absurd h ho
    · unfold Env.doNext at ih ⊢
      rw [← h, ih]

variable {E}

/-- The result of a call does not depend on the budget. -/
theorem Env.Call.unique {s : St σ α} {o o' s' s''} (h : E.Call s o s') (h' : E.Call s o' s'') :
    o = o' ∧ s' = s'' := by
  obtain ⟨n, h1, h2⟩ := h
  obtain ⟨m, h3, h4⟩ := h'
  have h5 := E.doNext_mono (Nat.le_max_left n m) h1 h2
  have h6 := E.doNext_mono (Nat.le_max_right n m) h3 h4
  rw [h5] at h6
  cases h6
  exact ⟨rfl, rfl⟩

theorem optOut_ne_fuel (o : Except (Err P CE) (List (Datum τ ε))) : optOut o ≠ .fuel := by
  cases o <;> simp [optOut]

variable {RS : σ → Seq P → Prop} {X : TextSem P τ α} {J : List (Item P) → List (Item P) → Prop}

/-- A call of `next` on a conforming source follows the rules. -/
theorem ConfJ.call (C : ConfJ E RS X J) {s : σ} {r : List (Item P)} (h : AtItems RS s r) (a : α) :
    ∃ o s' r' a', E.Call ⟨s, a, 0⟩ (optOut o) ⟨s', a', 0⟩ ∧ AtItems RS s' r' ∧
      Eval E.cc X E.alloc E.lookup (.next .base 0) r a o r' a' := by
  obtain ⟨p, hs, hc⟩ := h
  obtain ⟨o, s', r', a', h1, ⟨p', h2, h3, _⟩, h4⟩ :=
    (C.run (3 * r.length + 2)).1 .base p r s a 0 (by simp) hs hc (Nat.le_refl _)
  exact ⟨o, s', r', a', ⟨_, h1, optOut_ne_fuel o⟩, ⟨p', h2, h3⟩, h4⟩

/-- Every call of `next` on a conforming source follows the rules. -/
theorem ConfJ.call_inv (C : ConfJ E RS X J) {s : σ} {r : List (Item P)} (h : AtItems RS s r) {a : α} {x t}
    (hx : E.Call ⟨s, a, 0⟩ x t) :
    ∃ o s' r' a', x = optOut o ∧ t = ⟨s', a', 0⟩ ∧ AtItems RS s' r' ∧
      Eval E.cc X E.alloc E.lookup (.next .base 0) r a o r' a' := by
  obtain ⟨o, s', r', a', h1, h2, h3⟩ := C.call h a
  obtain ⟨rfl, rfl⟩ := hx.unique h1
  exact ⟨o, s', r', a', rfl, rfl, h2, h3⟩

/-- `ConfJ.call`, for `Conf`. -/
theorem Conf.call (C : Conf E RS X) {s : σ} {r : List (Item P)} (h : AtItems RS s r) (a : α) :
    ∃ o s' r' a', E.Call ⟨s, a, 0⟩ (optOut o) ⟨s', a', 0⟩ ∧ AtItems RS s' r' ∧
      Eval E.cc X E.alloc E.lookup (.next .base 0) r a o r' a' := C.toJ.call h a

/-- `ConfJ.call_inv`, for `Conf`. -/
theorem Conf.call_inv (C : Conf E RS X) {s : σ} {r : List (Item P)} (h : AtItems RS s r) {a : α} {x t}
    (hx : E.Call ⟨s, a, 0⟩ x t) :
    ∃ o s' r' a', x = optOut o ∧ t = ⟨s', a', 0⟩ ∧ AtItems RS s' r' ∧
      Eval E.cc X E.alloc E.lookup (.next .base 0) r a o r' a' := C.toJ.call_inv h hx

end Kul
