import Verif.Spec.Wrap
import Verif.Spec.Depth
import Verif.Proof.Release

/-! # Release builds with wrapping arithmetic do what debug builds with checked arithmetic do, unless these panic -/

namespace Kul

variable {σ P τ ε α CE A B : Type}

theorem addWrap_of_le {M a b : Nat} (h : a + b ≤ M) : addWrap (M + 1) a b = a + b := Nat.mod_eq_of_lt (by omega)

/-! ## The parser -/

section

variable {E : Env σ P τ ε α CE} {R : StreamOps σ P τ α} (M : Nat) (H : E.strm.SameUnlessPanic R) (Q : E.strm.Repeats)

include H Q

theorem wrap_parseTextLoop (m : Mode) (n : Nat) (t : τ) (k : Nat) :
    UnlessPanic (E.parseTextLoopK M m n t k) ((E.withStream R).wrapParseTextLoop (M + 1) m n t k) := by
  induction n generalizing t k with
  | zero => exact .refl _
  | succ n ih =>
    refine rel_peeked H Q fun o s hp => ?_
    cases o with
    | none => exact rel_finishText H t k s
    | some it =>
      refine .ite (rel_finishText H t k s) (.ite ?_ (.ite ?_ (.ite (.ite ?_ ?_) ?_)))
      · exact .bind' (rel_concatAccum H t s) fun t => .bind (rel_next H) fun _ => .bind (rel_nextAccum H) fun _ => ih _ _
      · refine .bind' (rel_nextAccum H s) fun _ => ?_
        by_cases hk : k + 1 ≤ M
        · rw [if_pos hk, addWrap_of_le hk]
          exact ih _ _
        · rw [if_neg hk]
          exact fun _ => Or.inl rfl
      · exact .bind' (rel_nextAccum H s) fun _ => ih _ _
      · exact .bind' (rel_checkEndChar H hp) fun _ => rel_finishText H t k
      · exact .bind' (rel_nextAccum H s) fun _ => ih _ _

theorem wrap_parseText (m : Mode) (n k : Nat) :
    UnlessPanic (E.parseTextK M n k m) ((E.withStream R).wrapParseText (M + 1) n m) := by
  cases k with
  | zero => exact fun _ => Or.inl rfl
  | succ k => exact wrap_parseTextLoop M H Q m n _ _

omit H Q in
theorem wrap_nested {x y : Act (St σ α) (Err P CE) A} (h : UnlessPanic x y) :
    UnlessPanic (Env.nestedInDepthK M x) (Env.wrapNestedInDepth (M + 1) y) := by
  intro s
  unfold UnlessPanicAt Env.nestedInDepthK Env.nestedInDepth Env.wrapNestedInDepth
  by_cases hk : s.ndepth + 1 ≤ M
  · rw [if_pos hk, addWrap_of_le hk]
    rcases h { s with ndepth := s.ndepth + 1 } with h | h
    · rcases hx : x { s with ndepth := s.ndepth + 1 } with ⟨o, s'⟩
      rw [hx] at h
      cases h
      left
      simp only
      split <;> rfl
    · rw [h]
      rcases x { s with ndepth := s.ndepth + 1 } with ⟨o, s'⟩
      simp only
      split
      · exact Or.inl rfl
      · right
        rw [subWrap, if_pos (by omega)]
  · rw [if_neg hk]
    exact Or.inl rfl

theorem wrap_parse (n : Nat) :
    (∀ k m, UnlessPanic (E.parseNextK M n k m) ((E.withStream R).wrapParseNext (M + 1) n m)) ∧
    (∀ k, UnlessPanic (E.parseNestedK M n k) ((E.withStream R).wrapParseNested (M + 1) n)) ∧
    (∀ k m acc, UnlessPanic (E.parseAllK M n k m acc) ((E.withStream R).wrapParseAll (M + 1) n m acc)) := by
  induction n with
  | zero =>
    refine ⟨fun k m => ?_, fun k => ?_, fun k m acc => ?_⟩
    · unfold Env.parseNextK Env.wrapParseNext; exact .refl _
    · unfold Env.parseNestedK Env.wrapParseNested; exact .refl _
    · unfold Env.parseAllK Env.wrapParseAll; exact .refl _
  | succ n ih =>
    obtain ⟨ihn, ihd, iha⟩ := ih
    refine ⟨fun k m => ?_, fun k => ?_, fun k m acc => ?_⟩
    · cases k with
      | zero => unfold Env.parseNextK; exact fun _ => Or.inl rfl
      | succ k =>
        unfold Env.parseNextK Env.wrapParseNext
        refine .bind (rel_skipLeading H n m) fun _ => rel_peeked H Q fun o s hp => ?_
        cases o with
        | none => exact .refl _ _
        | some it =>
          refine .ite (.bind' (wrap_nested M (ihd k) s) fun o => ?_) (.ite (.bind' (rel_checkEndChar H hp) fun _ => .refl _)
            (.bind' (wrap_parseText M H Q m n k s) fun _ => .refl _))
          cases o with
          | none => exact ihn _ m
          | some d => exact .refl _
    · cases k with
      | zero => unfold Env.parseNestedK; exact fun _ => Or.inl rfl
      | succ k =>
        unfold Env.parseNestedK Env.wrapParseNested
        refine .bind (rel_next H) fun _ s => .assert (.bind' (ihn k _ s) fun o => .bind (rel_skipSeparator H) fun _ => ?_)
        cases o with
        | none => exact .bind (rel_nestEnd H) fun _ => .refl _
        | some d =>
          simp only
          rcases E.lookup d with _ | (f | f)
          rotate_left
          · exact .bind (wrap_parseText M H Q _ n k) fun _ => .bind (rel_nestEnd H) fun _ => .refl _
          · exact .bind (iha k _ _) fun _ => .bind (rel_nestEnd H) fun _ => .refl _
          · exact .bind (iha k _ _) fun _ => .bind (rel_nestEnd H) fun _ => .refl _
    · cases k with
      | zero => unfold Env.parseAllK; exact fun _ => Or.inl rfl
      | succ k =>
        unfold Env.parseAllK Env.wrapParseAll
        refine .bind (ihn k _) fun o => ?_
        cases o with
        | none => exact .refl _
        | some d =>
          exact .bind (.refl _) fun _ => .bind (.refl _) fun _ => .bind (.refl _) fun m s => .ite (iha _ _ _ s) (.refl _ _)

end

end Kul
