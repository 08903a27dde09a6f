import Verif.Model.Api
import Verif.Model.Classifier
import Verif.Spec.Grammar
import Verif.Spec.Contract

/-!
# Help for concrete examples

Used only in the `example`s that show that the hypotheses of theorems can be met.
-/

namespace Kul

variable {σ P τ ε α CE : Type}

/-- Runs a parse: at most `k` results, budget `n` each. -/
def Env.yieldsOf (E : Env σ P τ ε α CE) (n : Nat) : Nat → St σ α →
    Option (List (Except (Err P CE) (Datum τ ε)) × St σ α)
  | 0, _ => none
  | k + 1, s =>
    match E.doNext n s with
    | (.ok none, s') => some ([], s')
    | (.ok (some d), s') => (Env.yieldsOf E n k s').map fun (l, t) => (.ok d :: l, t)
    | (.err e, s') => (Env.yieldsOf E n k s').map fun (l, t) => (.error e :: l, t)
    | (.panic, _) => none
    | (.fuel, _) => none

theorem Env.yields_of {E : Env σ P τ ε α CE} {n k : Nat} {s : St σ α} {l t}
    (h : E.yieldsOf n k s = some (l, t)) : E.Yields s l t := by
  induction k generalizing s l t with
  | zero => cases h
  | succ k ih =>
    simp only [Env.yieldsOf] at h
    rcases hd : E.doNext n s with ⟨(_ | d) | e | _ | _, s'⟩ <;> rw [hd] at h <;> simp only at h
    · cases h
      exact .done ⟨n, hd, by simp⟩
    · rcases hy : E.yieldsOf n k s' with _ | ⟨l', t'⟩ <;> rw [hy] at h <;> cases h
      exact .datum ⟨n, hd, by simp⟩ (ih hy)
    · rcases hy : E.yieldsOf n k s' with _ | ⟨l', t'⟩ <;> rw [hy] at h <;> cases h
      exact .error ⟨n, hd, by simp⟩ (ih hy)
    · cases h
    · cases h

theorem Env.yields_of' {E : Env σ P τ ε α CE} (n k : Nat) {s : St σ α} {l}
    (h : (E.yieldsOf n k s).map Prod.fst = some l) : ∃ t, E.Yields s l t := by
  rcases hy : E.yieldsOf n k s with _ | ⟨l', t⟩ <;> rw [hy] at h <;> cases h
  exact ⟨t, Env.yields_of hy⟩

theorem Env.yields_of_view {E : Env σ P τ ε α CE} {n k : Nat} {s : St σ α} {β : Type} {v : β}
    (f : List (Except (Err P CE) (Datum τ ε)) × St σ α → β)
    (h : (E.yieldsOf n k s).map f = some v) : ∃ l t, E.Yields s l t ∧ f (l, t) = v := by
  rcases hy : E.yieldsOf n k s with _ | ⟨l', t⟩ <;> rw [hy] at h <;> cases h
  exact ⟨_, _, Env.yields_of hy, rfl⟩

/-- Makes `k` calls, budget `n` each. -/
def Env.callsOf (E : Env σ P τ ε α CE) (n : Nat) : Nat → St σ α →
    List (Outcome (Err P CE) (Option (Datum τ ε))) × St σ α
  | 0, s => ([], s)
  | k + 1, s =>
    match E.doNext n s with
    | (o, s') => match Env.callsOf E n k s' with
      | (os, t) => (o :: os, t)

theorem Env.calls_of {E : Env σ P τ ε α CE} (n k : Nat) {s : St σ α} {os}
    (h : (E.callsOf n k s).1 = os) (hf : ∀ o ∈ os, o ≠ .fuel) : ∃ t, E.Calls s os t := by
  induction k generalizing s os with
  | zero => subst h; exact ⟨s, .nil⟩
  | succ k ih =>
    subst h
    simp only [Env.callsOf] at hf ⊢
    obtain ⟨t, ht⟩ := ih (s := (E.doNext n s).2) rfl (fun o ho => hf o (by simp [ho]))
    exact ⟨t, .cons ⟨n, rfl, hf _ (by simp)⟩ ht⟩

/-- The same, observing only a function `f` of the results, whose values tell them apart from
an exhausted budget. -/
theorem Env.calls_of_view {E : Env σ P τ ε α CE} {n k : Nat} {s : St σ α} {β : Type} {v : List β}
    (f : Outcome (Err P CE) (Option (Datum τ ε)) → β)
    (h : (E.callsOf n k s).1.map f = v) (hf : f .fuel ∉ v) : ∃ os t, E.Calls s os t ∧ os.map f = v := by
  obtain ⟨t, ht⟩ := Env.calls_of (E := E) n k (s := s) rfl (fun o ho hfu => hf (by
    subst hfu; rw [← h]; exact List.mem_map_of_mem ho))
  exact ⟨_, t, ht, h⟩

deriving instance DecidableEq for St

/-- The items of a string, with character positions. -/
def itemsOf (s : String) : List (Item Nat) := go 0 s.toList where
  go : Nat → List Char → List (Item Nat)
    | _, [] => []
    | i, c :: cs => ⟨c, i⟩ :: go (i + 1) cs

/-- Items of a string without positions. -/
def charsOf (s : String) : List (Item Unit) := s.toList.map fun c => ⟨c, ()⟩

/-- The default classifier's classes are disjoint. -/
theorem defaultClassifier_disjoint : defaultClassifier.Disjoint := by
  constructor <;> intro c h <;> simp only [defaultClassifier, beq_iff_eq, charIsWhitespace] at h ⊢ <;>
    subst h <;> decide

/-- A plain abstract parse of a string. -/
def sampleEnv : Env (Seq Unit) Unit (List (Item Unit)) Empty Unit Empty :=
  seqEnv defaultClassifier (freeAlloc _ _ _) (noBindings _ _ _ _ _)

instance {ε A : Type} [DecidableEq ε] [DecidableEq A] : DecidableEq (Except ε A) := fun x y =>
  match x, y with
  | .ok a, .ok b => if h : a = b then isTrue (by rw [h]) else isFalse (by simp [h])
  | .error a, .error b => if h : a = b then isTrue (by rw [h]) else isFalse (by simp [h])
  | .ok _, .error _ => isFalse (by simp)
  | .error _, .ok _ => isFalse (by simp)

example : (sampleEnv.yieldsOf 40 9 (St.init ⟨[], charsOf "a {b c}"⟩ ())).map Prod.fst =
    some [.ok (.text (charsOf "a ")),
      .ok (.combination (.text (charsOf "b")) (listOf [.text (charsOf "c")]))] := by decide +kernel

end Kul
