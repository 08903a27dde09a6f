import Verif.Spec.Release
import Verif.Spec.Contract

/-! # Streams that do the same in the states that occur -/

namespace Kul

variable {σ P τ ε α CE A B : Type}

/-- `R` does what `S` does in the states with `I`, and then `I` holds still. -/
structure StreamOps.SameOn (S R : StreamOps σ P τ α) (I : σ → Prop) : Prop where
  peek : ∀ s, I s → R.peek s = S.peek s ∧ I (S.peek s).2
  next : ∀ s, I s → R.next s = S.next s ∧ I (S.next s).2
  nextAccum : ∀ s a, I s → R.nextAccum s a = S.nextAccum s a ∧ I (S.nextAccum s a).2.1
  accumDone : ∀ s a, I s → R.accumDone s a = S.accumDone s a ∧ I (S.accumDone s a).2.1

/-- The same for a part of the parser. -/
def SameAct (I : σ → Prop) (x y : Act (St σ α) (Err P CE) A) : Prop := ∀ s, I s.strm → y s = x s ∧ I (x s).2.strm

section

variable {I : σ → Prop} {x y : Act (St σ α) (Err P CE) A} {f g : A → Act (St σ α) (Err P CE) B}

/-- For what leaves the stream alone. -/
theorem SameAct.keep (h : ∀ s, (x s).2.strm = s.strm) : SameAct I x x := fun s hs => ⟨rfl, (h s).symm ▸ hs⟩

theorem SameAct.pure (v : A) : SameAct I (pure v : Act (St σ α) (Err P CE) A) (Pure.pure v) := .keep fun _ => rfl

theorem SameAct.throw (e : Err P CE) : SameAct I (Act.throw e : Act (St σ α) (Err P CE) A) (Act.throw e) := .keep fun _ => rfl

theorem SameAct.bind (h : SameAct I x y) (hf : ∀ v, SameAct I (f v) (g v)) : SameAct I (x >>= f) (y >>= g) := by
  intro s hs
  obtain ⟨h1, h2⟩ := h s hs
  change Act.bind y g s = Act.bind x f s ∧ I (Act.bind x f s).2.strm
  unfold Act.bind
  rw [h1]
  rcases hx : x s with ⟨_ | _ | _ | _, s'⟩
  · rw [hx] at h2; exact hf _ _ h2
  all_goals rw [hx] at h2; exact ⟨rfl, h2⟩

theorem SameAct.ite {p : Prop} [Decidable p] {x' y' : Act (St σ α) (Err P CE) A} (h : SameAct I x y) (h' : SameAct I x' y') :
    SameAct I (if p then x else x') (if p then y else y') := by
  split
  · exact h
  · exact h'

theorem SameAct.assert (b : Bool) : SameAct I (Act.debugAssert b : Act (St σ α) (Err P CE) Unit) (Act.debugAssert b) :=
  .keep fun _ => by unfold Act.debugAssert; split <;> rfl

theorem SameAct.depth : SameAct I (Env.getDepth : Act (St σ α) (Err P CE) Nat) Env.getDepth := .keep fun _ => rfl

theorem SameAct.alloc (f : α → Outcome AllocErr A × α) : SameAct I (liftAlloc f : Act (St σ α) (Err P CE) A) (liftAlloc f) :=
  .keep fun s => by unfold liftAlloc; rcases f s.alloc with ⟨o, a⟩; cases o <;> rfl

theorem SameAct.combiner (f : α → Except (Err P CE) A × α) :
    SameAct I (liftCombiner f : Act (St σ α) (Err P CE) A) (liftCombiner f) :=
  .keep fun s => by unfold liftCombiner; rcases f s.alloc with ⟨o, a⟩; cases o <;> rfl

theorem SameAct.empty {f g : σ → Outcome Empty A × σ} (h : ∀ s, I s → g s = f s ∧ I (f s).2) :
    SameAct I (liftEmpty f : Act (St σ α) (Err P CE) A) (liftEmpty g) := by
  intro s hs
  obtain ⟨h1, h2⟩ := h s.strm hs
  unfold liftEmpty
  rw [h1]
  exact ⟨rfl, h2⟩

theorem SameAct.accum {f g : σ → α → Outcome AllocErr A × σ × α} (h : ∀ s a, I s → g s a = f s a ∧ I (f s a).2.1) :
    SameAct I (liftAccum f : Act (St σ α) (Err P CE) A) (liftAccum g) := by
  intro s hs
  obtain ⟨h1, h2⟩ := h s.strm s.alloc hs
  unfold liftAccum
  rw [h1]
  exact ⟨rfl, h2⟩

theorem SameAct.nested (h : SameAct I x y) : SameAct I (Env.nestedInDepth x) (Env.nestedInDepth y) := by
  intro s hs
  obtain ⟨h1, h2⟩ := h { s with ndepth := s.ndepth + 1 } hs
  unfold Env.nestedInDepth
  rw [h1]
  refine ⟨rfl, ?_⟩
  rcases hx : x { s with ndepth := s.ndepth + 1 } with ⟨o, s'⟩
  rw [hx] at h2
  simp only
  split <;> exact h2

end

section

variable {E : Env σ P τ ε α CE} {R : StreamOps σ P τ α} {I : σ → Prop} (H : E.strm.SameOn R I)

include H

theorem on_peek : SameAct I E.peek (E.withStream R).peek := .empty H.peek

theorem on_next : SameAct I E.next (E.withStream R).next := .empty H.next

theorem on_nextAccum : SameAct I E.nextAccum (E.withStream R).nextAccum := .accum H.nextAccum

theorem on_concatAccum (t : τ) : SameAct I (E.concatAccum t) ((E.withStream R).concatAccum t) :=
  .bind (.accum H.accumDone) fun _ => .alloc _

theorem on_finishText (t : τ) (n : Nat) : SameAct I (E.finishText t n) ((E.withStream R).finishText t n) := by
  unfold Env.finishText
  exact .ite (on_concatAccum H t) (.throw _)

theorem on_skipWhitespace (n : Nat) : SameAct I (E.skipWhitespace n) ((E.withStream R).skipWhitespace n) := by
  induction n with
  | zero => exact .keep fun _ => rfl
  | succ n ih =>
    refine .bind (on_peek H) fun o => ?_
    cases o with
    | none => exact .pure _
    | some it => exact .ite (.bind (on_next H) fun _ => ih) (.pure _)

theorem on_skipLeading (n : Nat) (m : Mode) : SameAct I (E.skipLeading n m) ((E.withStream R).skipLeading n m) := by
  unfold Env.skipLeading
  exact .ite (on_skipWhitespace H n) (.pure _)

theorem on_skipSeparator : SameAct I E.skipSeparator (E.withStream R).skipSeparator := by
  refine .bind (on_peek H) fun o => ?_
  cases o with
  | none => exact .pure _
  | some it => exact .ite (.bind (on_next H) fun _ => .pure _) (.pure _)

theorem on_nestEnd : SameAct I E.nestEnd (E.withStream R).nestEnd := by
  refine .bind (on_next H) fun o => ?_
  cases o with
  | none => exact .throw _
  | some it => exact .assert _

theorem on_checkEndChar : SameAct I E.checkEndChar (E.withStream R).checkEndChar := by
  refine .bind (on_peek H) fun o => .bind (.assert _) fun _ => .bind .depth fun d => .ite (.pure _) (.bind (on_next H) fun o => ?_)
  cases o with
  | none => exact .keep fun _ => rfl
  | some n => exact .throw _

theorem on_parseTextLoop (m : Mode) (n : Nat) (t : τ) (k : Nat) :
    SameAct I (E.parseTextLoop m n t k) ((E.withStream R).parseTextLoop m n t k) := by
  induction n generalizing t k with
  | zero => exact .keep fun _ => rfl
  | succ n ih =>
    refine .bind (on_peek H) fun o => ?_
    cases o with
    | none => exact on_finishText H t k
    | some it =>
      refine .ite (on_finishText H t k) (.ite ?_ (.ite ?_ (.ite (.ite ?_ ?_) ?_)))
      · exact .bind (on_concatAccum H t) fun t => .bind (on_next H) fun _ => .bind (on_nextAccum H) fun _ => ih _ _
      · exact .bind (on_nextAccum H) fun _ => ih _ _
      · exact .bind (on_nextAccum H) fun _ => ih _ _
      · exact .bind (on_checkEndChar H) fun _ => on_finishText H t k
      · exact .bind (on_nextAccum H) fun _ => ih _ _

theorem on_parse (n : Nat) :
    (∀ m, SameAct I (E.parseNext n m) ((E.withStream R).parseNext n m)) ∧
    SameAct I (E.parseNested n) ((E.withStream R).parseNested n) ∧
    (∀ m acc, SameAct I (E.parseAll n m acc) ((E.withStream R).parseAll n m acc)) := by
  induction n with
  | zero =>
    refine ⟨fun m => ?_, ?_, fun m acc => ?_⟩
    · unfold Env.parseNext; exact .keep fun _ => rfl
    · unfold Env.parseNested; exact .keep fun _ => rfl
    · unfold Env.parseAll; exact .keep fun _ => rfl
  | succ n ih =>
    obtain ⟨ihn, ihd, iha⟩ := ih
    refine ⟨fun m => ?_, ?_, fun m acc => ?_⟩
    · unfold Env.parseNext
      refine .bind (on_skipLeading H n m) fun _ => .bind (on_peek H) fun o => ?_
      cases o with
      | none => exact .bind .depth fun d => .ite (.pure _) (.throw _)
      | some it =>
        refine .ite (.bind (.nested ihd) fun o => ?_) (.ite (.bind (on_checkEndChar H) fun _ => .pure _)
          (.bind (on_parseTextLoop H m n _ _) fun _ => .pure _))
        cases o with
        | none => exact ihn m
        | some d => exact .pure _
    · unfold Env.parseNested
      refine .bind (on_next H) fun _ => .bind (.assert _) fun _ => .bind (ihn _) fun o => .bind (on_skipSeparator H) fun _ => ?_
      cases o with
      | none => exact .bind (on_nestEnd H) fun _ => .pure _
      | some d =>
        simp only
        rcases E.lookup d with _ | (f | f)
        · exact .bind (iha _ _) fun _ => .bind (on_nestEnd H) fun _ => .bind (.alloc _) fun _ => .bind (.alloc _) fun _ => .pure _
        · exact .bind (on_parseTextLoop H _ n _ _) fun _ => .bind (on_nestEnd H) fun _ => .combiner _
        · exact .bind (iha _ _) fun _ => .bind (on_nestEnd H) fun _ => .combiner _
    · unfold Env.parseAll
      refine .bind (ihn _) fun o => ?_
      cases o with
      | none => exact .pure _
      | some d =>
        exact .bind (.alloc _) fun _ => .bind (.alloc _) fun _ => .bind (.keep fun _ => rfl) fun m => .ite (iha _ _) (.throw _)

theorem call_on {s : St σ α} (hs : I s.strm) {o s'} :
    ((E.withStream R).Call s o s' ↔ E.Call s o s') ∧ (E.Call s o s' → I s'.strm) := by
  have key : ∀ n, (E.withStream R).parseNext n .base s = E.parseNext n .base s ∧ I (E.parseNext n .base s).2.strm :=
    fun n => (on_parse H n).1 .base s hs
  refine ⟨⟨fun ⟨n, h1, h2⟩ => ⟨n, (key n).1.symm.trans h1, h2⟩, fun ⟨n, h1, h2⟩ => ⟨n, (key n).1.trans h1, h2⟩⟩, ?_⟩
  rintro ⟨n, h1, h2⟩
  have h := (key n).2
  have h1' : E.parseNext n .base s = (o, s') := h1
  rw [h1'] at h
  exact h

/-- Histories of calls are the same. -/
theorem calls_on {s : St σ α} (hs : I s.strm) {os s'} : (E.withStream R).Calls s os s' ↔ E.Calls s os s' := by
  constructor
  · intro h
    induction h with
    | nil => exact .nil
    | cons h1 _ ih =>
      have h1' := (call_on H hs).1.1 h1
      exact .cons h1' (ih ((call_on H hs).2 h1'))
  · intro h
    induction h with
    | nil => exact .nil
    | cons h1 _ ih => exact .cons ((call_on H hs).1.2 h1) (ih ((call_on H hs).2 h1))

end

end Kul
