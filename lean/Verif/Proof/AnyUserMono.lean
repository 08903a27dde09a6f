import Verif.Proof.AnyUser

/-! # A call has one result -/

namespace Kul

variable {W P τ ε CE A B E : Type}

namespace AnyUser

/-- What ends in `x` is the same in `y`. -/
def Grows (x y : Act (St W Unit) (Err P CE) A) : Prop := ∀ s, (x s).1 ≠ .fuel → y s = x s

theorem Grows.refl (x : Act (St W Unit) (Err P CE) A) : Grows x x := fun _ _ => rfl

theorem Grows.fuel {y : Act (St W Unit) (Err P CE) A} : Grows Act.fuel y := fun _ h => absurd rfl h

theorem Grows.bind {x y : Act (St W Unit) (Err P CE) A} {f g : A → Act (St W Unit) (Err P CE) B} (hx : Grows x y)
    (hf : ∀ a, Grows (f a) (g a)) : Grows (x >>= f) (y >>= g) := by
  intro s h
  change Act.bind y g s = Act.bind x f s
  change (Act.bind x f s).1 ≠ .fuel at h
  unfold Act.bind at h ⊢
  have hs := hx s
  rcases hr : x s with ⟨a | e | _ | _, s'⟩ <;> rw [hr] at h hs
  · rw [hs nofun]
    exact hf a s' h
  · rw [hs nofun]
  · rw [hs nofun]
  · exact absurd rfl h

theorem Grows.ite {c : Prop} [Decidable c] {x y x' y' : Act (St W Unit) (Err P CE) A} (hx : Grows x y) (hy : Grows x' y') :
    Grows (if c then x else x') (if c then y else y') := by
  split
  · exact hx
  · exact hy

theorem Grows.nested {U : AnyUser W P τ ε CE} {x y : Act (St W Unit) (Err P CE) A} (hF : ∀ w₀, Fine U w₀ x) (h : Grows x y) :
    Grows (nestedUnwind x) (nestedUnwind y) := by
  intro s hs
  have hd := (hF s.strm { s with ndepth := s.ndepth + 1 } .start).2.1
  have hx := h { s with ndepth := s.ndepth + 1 }
  unfold nestedUnwind at hs ⊢
  rcases hr : x { s with ndepth := s.ndepth + 1 } with ⟨a | e | _ | _, s'⟩ <;> rw [hr] at hs hx hd
  · rw [hx nofun]
  · rw [hx nofun]
  · rw [hx nofun]
  · have hz : s'.ndepth ≠ 0 := by simp only at hd; omega
    simp only [hz, if_false] at hs
    exact absurd rfl hs

variable (U : AnyUser W P τ ε CE)

theorem grows_skipWhitespace (n : Nat) : Grows (U.skipWhitespace n) (U.skipWhitespace (n + 1)) := by
  induction n with
  | zero => exact .fuel
  | succ n ih =>
    refine (Grows.refl _).bind fun o => ?_
    cases o with
    | none => exact .refl _
    | some it => exact (Grows.refl _).bind fun b => .ite ((Grows.refl _).bind fun _ => ih) (.refl _)

theorem grows_parseTextLoop (m : Mode) (n : Nat) : ∀ t k, Grows (U.parseTextLoop m n t k) (U.parseTextLoop m (n + 1) t k) := by
  induction n with
  | zero => exact fun _ _ => .fuel
  | succ n ih =>
    refine fun t k => (Grows.refl _).bind fun o => ?_
    cases o with
    | none => exact .refl _
    | some it =>
      have next : ∀ t k, Grows (ofUserAlloc U.nextAccum >>= fun _ => U.parseTextLoop m n t k)
          (ofUserAlloc U.nextAccum >>= fun _ => U.parseTextLoop m (n + 1) t k) := fun t k => (Grows.refl _).bind fun _ => ih t k
      exact (Grows.refl _).bind fun _ => .ite (.refl _) ((Grows.refl _).bind fun _ => .ite
        ((Grows.refl _).bind fun t => (Grows.refl _).bind fun _ => next t k)
        ((Grows.refl _).bind fun _ => .ite (next _ _) ((Grows.refl _).bind fun _ => .ite (.ite (next _ _) (.refl _)) (next _ _))))

theorem grows_parseText (n : Nat) (m : Mode) : Grows (U.parseText n m) (U.parseText (n + 1) m) :=
  (Grows.refl _).bind fun t => grows_parseTextLoop U m n t 0

theorem grows_skipLeading (n : Nat) (m : Mode) : Grows (U.skipLeading n m) (U.skipLeading (n + 1) m) :=
  .ite (grows_skipWhitespace U n) (.refl _)

theorem grows_parse (n : Nat) : (∀ m, Grows (U.parseNext n m) (U.parseNext (n + 1) m)) ∧
    Grows (U.parseNested n) (U.parseNested (n + 1)) ∧
    ∀ m acc last, Grows (U.parseAll n m acc last) (U.parseAll (n + 1) m acc last) := by
  induction n with
  | zero =>
    refine ⟨fun m => ?_, ?_, fun m acc last => ?_⟩
    · rw [parseNext]; exact .fuel
    · rw [parseNested]; exact .fuel
    · rw [parseAll]; exact .fuel
  | succ n ih =>
    obtain ⟨ihn, ihd, iha⟩ := ih
    refine ⟨fun m => ?_, ?_, fun m acc last => ?_⟩
    · rw [parseNext, parseNext.eq_def U (n + 1 + 1)]
      refine (grows_skipLeading U n m).bind fun _ => (Grows.refl _).bind fun o => ?_
      cases o with
      | none => exact .refl _
      | some it =>
        refine (Grows.refl _).bind fun b => .ite ?_ ((Grows.refl _).bind fun b => .ite (.refl _)
          ((grows_parseText U n m).bind fun _ => .refl _))
        refine (Grows.nested (fun w₀ => (fine_parse U w₀ n).2.1) ihd).bind fun o => ?_
        cases o with
        | none => exact ihn m
        | some d => exact .refl _
    · rw [parseNested, parseNested.eq_def U (n + 1 + 1)]
      refine (Grows.refl _).bind fun _ => (Grows.refl _).bind fun _ => (Grows.refl _).bind fun _ => (ihn _).bind fun o =>
        (Grows.refl _).bind fun _ => ?_
      cases o with
      | none => exact .refl _
      | some d =>
        refine (Grows.refl _).bind fun c => ?_
        rcases c with _ | (f | f)
        · exact (iha _ _ _).bind fun _ => .refl _
        · exact (grows_parseText U n _).bind fun _ => .refl _
        · exact (iha _ _ _).bind fun _ => .refl _
    · rw [parseAll, parseAll.eq_def U (n + 1 + 1)]
      refine (ihn m).bind fun o => ?_
      cases o with
      | none => exact .refl _
      | some d =>
        exact (Grows.refl _).bind fun _ => (Grows.refl _).bind fun _ => (Grows.refl _).bind fun b => .ite (iha _ _ _) (.refl _)

theorem parseNext_le {n k : Nat} (h : n ≤ k) (m : Mode) : Grows (U.parseNext n m) (U.parseNext k m) := by
  induction h with
  | refl => exact .refl _
  | step h ih =>
    intro s hs
    have e := ih s hs
    rw [← e]
    exact (grows_parse U _).1 m s (by rw [e]; exact hs)

end AnyUser

end Kul
