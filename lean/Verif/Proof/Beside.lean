import Verif.Model.Api

/-!
# Two parsers with the same stream and different states of their allocators

`Both Q x y`: actions `x` and `y` of two parsers, in states with the same stream, have the same outcome and leave the same
stream, and keep `Q`. If the operations of two parsers do, then also calls of the parsers do (`Beside.calls`). With the
same parser twice, this says that `Q` is an invariant.
-/

namespace Kul

variable {σ P τ ε α β CE A B : Type}

/-- The same outcome, the same stream, and `Q` is kept. -/
def Both (Q : σ → α → β → Prop) (x : Act (St σ α) (Err P CE) A) (y : Act (St σ β) (Err P CE) A) : Prop :=
  ∀ s a b d, Q s a b → ∃ o s' a' b' d', x ⟨s, a, d⟩ = (o, ⟨s', a', d'⟩) ∧ y ⟨s, b, d⟩ = (o, ⟨s', b', d'⟩) ∧ Q s' a' b'

/-- The same for the two functions of a combiner. -/
inductive BothCombiner (Q : σ → α → β → Prop) : Combiner τ ε α P CE → Combiner τ ε β P CE → Prop where
  | operative {f g} : (∀ s d t a b, Q s a b → (f d t a).1 = (g d t b).1 ∧ Q s (f d t a).2 (g d t b).2) →
    BothCombiner Q (.operative f) (.operative g)
  | applicative {f g} : (∀ s d l a b, Q s a b → (f d l a).1 = (g d l b).1 ∧ Q s (f d l a).2 (g d l b).2) →
    BothCombiner Q (.applicative f) (.applicative g)

/-- The operations of two parsers. -/
structure Beside (Q : σ → α → β → Prop) (E : Env σ P τ ε α CE) (E' : Env σ P τ ε β CE) : Prop where
  cc : E'.cc = E.cc
  empty : E'.text.empty = E.text.empty
  peek : Both Q E.peek E'.peek
  next : Both Q E.next E'.next
  nextAccum : Both Q E.nextAccum E'.nextAccum
  concatAccum : ∀ t, Both Q (E.concatAccum t) (E'.concatAccum t)
  newDatum : ∀ d, Both Q (E.newDatum d) (E'.newDatum d)
  getMutFresh : Both Q E.getMutFresh E'.getMutFresh
  lookup : ∀ d, (E.lookup d = none ∧ E'.lookup d = none) ∨
    ∃ c c', E.lookup d = some c ∧ E'.lookup d = some c' ∧ BothCombiner Q c c'

variable {Q : σ → α → β → Prop}

theorem Both.bind {x : Act (St σ α) (Err P CE) A} {y : Act (St σ β) (Err P CE) A}
    {f : A → Act (St σ α) (Err P CE) B} {g : A → Act (St σ β) (Err P CE) B} (hx : Both Q x y)
    (hf : ∀ a, Both Q (f a) (g a)) : Both Q (x >>= f) (y >>= g) := by
  intro s a b d h
  obtain ⟨o, s', a', b', d', h1, h2, h3⟩ := hx s a b d h
  change ∃ o s' a' b' d', Act.bind x f _ = _ ∧ Act.bind y g _ = _ ∧ _
  unfold Act.bind
  rw [h1, h2]
  cases o with
  | ok v => exact hf v s' a' b' d' h3
  | err e => exact ⟨_, _, _, _, _, rfl, rfl, h3⟩
  | panic => exact ⟨_, _, _, _, _, rfl, rfl, h3⟩
  | fuel => exact ⟨_, _, _, _, _, rfl, rfl, h3⟩

theorem Both.out (o : Outcome (Err P CE) A) : Both Q (fun s => (o, s)) (fun s => (o, s)) :=
  fun _ _ _ _ h => ⟨_, _, _, _, _, rfl, rfl, h⟩

theorem Both.pure (v : A) : Both (P := P) (CE := CE) Q (Pure.pure v) (Pure.pure v) := .out (.ok v)
theorem Both.throw (e : Err P CE) : Both (A := A) Q (Act.throw e) (Act.throw e) := .out (.err e)
theorem Both.panic : Both (P := P) (CE := CE) (A := A) Q Act.panic Act.panic := .out .panic
theorem Both.fuel : Both (P := P) (CE := CE) (A := A) Q Act.fuel Act.fuel := .out .fuel

theorem Both.ite {p : Prop} [Decidable p] {x x' : Act (St σ α) (Err P CE) A} {y y' : Act (St σ β) (Err P CE) A}
    (h : Both Q x y) (h' : Both Q x' y') : Both Q (if p then x else x') (if p then y else y') := by
  split <;> assumption

theorem Both.debugAssert (v : Bool) : Both (P := P) (CE := CE) Q (Act.debugAssert v) (Act.debugAssert v) :=
  .ite (.pure _) .panic

theorem Both.getDepth : Both (P := P) (CE := CE) Q Env.getDepth Env.getDepth :=
  fun _ _ _ _ h => ⟨_, _, _, _, _, rfl, rfl, h⟩

theorem Both.nestedInDepth {x : Act (St σ α) (Err P CE) A} {y : Act (St σ β) (Err P CE) A} (h : Both Q x y) :
    Both Q (Env.nestedInDepth x) (Env.nestedInDepth y) := by
  intro s a b d hq
  obtain ⟨o, s', a', b', d', h1, h2, h3⟩ := h s a b (d + 1) hq
  unfold Env.nestedInDepth
  dsimp only
  rw [h1, h2]
  dsimp only
  split
  · exact ⟨_, _, _, _, _, rfl, rfl, h3⟩
  · exact ⟨_, _, _, _, _, rfl, rfl, h3⟩

theorem Both.liftCombiner {f : α → Except (Err P CE) A × α} {g : β → Except (Err P CE) A × β}
    (h : ∀ s a b, Q s a b → (f a).1 = (g b).1 ∧ Q s (f a).2 (g b).2) : Both Q (Kul.liftCombiner f) (Kul.liftCombiner g) := by
  intro s a b d hq
  obtain ⟨h1, h2⟩ := h s a b hq
  refine ⟨_, _, _, _, _, rfl, ?_, h2⟩
  unfold Kul.liftCombiner
  simp only [h1]

variable {E : Env σ P τ ε α CE} {E' : Env σ P τ ε β CE} (T : Beside Q E E')
include T

theorem Beside.b_skipWhitespace (n : Nat) : Both Q (E.skipWhitespace n) (E'.skipWhitespace n) := by
  induction n with
  | zero => exact .fuel
  | succ n ih =>
    refine .bind T.peek fun a => ?_
    cases a with
    | none => exact .pure _
    | some it =>
      rw [T.cc]
      exact .ite (.bind T.next fun _ => ih) (.pure _)

theorem Beside.b_checkEndChar : Both Q E.checkEndChar E'.checkEndChar := by
  refine .bind T.peek fun a => ?_
  rw [T.cc]
  refine .bind (.debugAssert _) fun _ => ?_
  refine .bind .getDepth fun _ => ?_
  refine .ite (.pure _) (.bind T.next fun o => ?_)
  cases o with
  | none => exact .panic
  | some _ => exact .throw _

theorem Beside.b_finishText (t l) : Both Q (E.finishText t l) (E'.finishText t l) :=
  .ite (T.concatAccum t) (.throw _)

theorem Beside.b_parseTextLoop (mode : Mode) (n : Nat) : ∀ t l,
    Both Q (E.parseTextLoop mode n t l) (E'.parseTextLoop mode n t l) := by
  induction n with
  | zero => intro _ _; exact .fuel
  | succ n ih =>
    intro t l
    refine .bind T.peek fun a => ?_
    cases a with
    | none => exact T.b_finishText _ _
    | some it =>
      rw [T.cc]
      refine .ite (T.b_finishText _ _) (.ite ?_ (.ite ?_ (.ite (.ite ?_ ?_) ?_)))
      · exact .bind (T.concatAccum _) fun _ => .bind T.next fun _ => .bind T.nextAccum fun _ => ih _ _
      · exact .bind T.nextAccum fun _ => ih _ _
      · exact .bind T.nextAccum fun _ => ih _ _
      · exact .bind T.b_checkEndChar fun _ => T.b_finishText _ _
      · exact .bind T.nextAccum fun _ => ih _ _

theorem Beside.b_parseText (n mode) : Both Q (E.parseText n mode) (E'.parseText n mode) := by
  unfold Env.parseText
  rw [T.empty]
  exact T.b_parseTextLoop mode n _ _

theorem Beside.b_nestEnd : Both Q E.nestEnd E'.nestEnd := by
  refine .bind T.next fun a => ?_
  rw [T.cc]
  cases a with
  | none => exact .throw _
  | some _ => exact .debugAssert _

theorem Beside.b_skipSeparator : Both Q E.skipSeparator E'.skipSeparator := by
  refine .bind T.peek fun a => ?_
  rw [T.cc]
  cases a with
  | none => exact .pure _
  | some _ => exact .ite (.bind T.next fun _ => .pure _) (.pure _)

theorem Beside.b_parse (n : Nat) :
    (∀ mode, Both Q (E.parseNext n mode) (E'.parseNext n mode)) ∧
    Both Q (E.parseNested n) (E'.parseNested n) ∧
    (∀ mode acc, Both Q (E.parseAll n mode acc) (E'.parseAll n mode acc)) := by
  induction n with
  | zero =>
    refine ⟨fun mode => ?_, ?_, fun mode acc => ?_⟩
    · unfold Env.parseNext; exact .fuel
    · unfold Env.parseNested; exact .fuel
    · unfold Env.parseAll; exact .fuel
  | succ n ih =>
    obtain ⟨ihn, ihd, iha⟩ := ih
    refine ⟨fun mode => ?_, ?_, fun mode acc => ?_⟩
    · unfold Env.parseNext
      rw [T.cc]
      refine .bind (.ite (T.b_skipWhitespace n) (.pure _)) fun _ => ?_
      refine .bind T.peek fun a => ?_
      cases a with
      | none => exact .bind .getDepth fun _ => .ite (.pure _) (.throw _)
      | some it =>
        refine .ite (.bind (.nestedInDepth ihd) fun o => ?_)
          (.ite (.bind T.b_checkEndChar fun _ => .pure _) (.bind (T.b_parseText _ _) fun _ => .pure _))
        cases o with
        | none => exact ihn mode
        | some d => exact .pure _
    · unfold Env.parseNested
      rw [T.cc]
      refine .bind T.next fun _ => ?_
      refine .bind (.debugAssert _) fun _ => ?_
      refine .bind (ihn _) fun o => ?_
      refine .bind T.b_skipSeparator fun _ => ?_
      cases o with
      | none => exact .bind T.b_nestEnd fun _ => .pure _
      | some d =>
        dsimp only
        rcases T.lookup d with ⟨h1, h2⟩ | ⟨c, c', h1, h2, hc⟩ <;> rw [h1, h2]
        · exact .bind (iha _ _) fun _ => .bind T.b_nestEnd fun _ => .bind (T.newDatum _) fun _ =>
            .bind (T.newDatum _) fun _ => .pure _
        · cases hc with
          | operative hc =>
            exact .bind (T.b_parseText _ _) fun _ => .bind T.b_nestEnd fun _ => .liftCombiner fun s a b => hc s _ _ a b
          | applicative hc =>
            exact .bind (iha _ _) fun _ => .bind T.b_nestEnd fun _ => .liftCombiner fun s a b => hc s _ _ a b
    · unfold Env.parseAll
      refine .bind (ihn _) fun o => ?_
      cases o with
      | none => exact .pure _
      | some d =>
        exact .bind (T.newDatum _) fun _ => .bind (T.newDatum _) fun _ =>
          .bind T.getMutFresh fun _ => .ite (iha _ _) (.throw _)

/-- A call of the one is a call of the other. -/
theorem Beside.call {s a b d o t} (hq : Q s a b) (h : E.Call ⟨s, a, d⟩ o t) :
    ∃ b', E'.Call ⟨s, b, d⟩ o ⟨t.strm, b', t.ndepth⟩ ∧ Q t.strm t.alloc b' := by
  obtain ⟨n, h1, h2⟩ := h
  obtain ⟨o', s', a', b', d', h3, h4, h5⟩ := (T.b_parse n).1 .base s a b d hq
  unfold Env.doNext at h1
  cases h1.symm.trans h3
  exact ⟨b', ⟨n, h4, h2⟩, h5⟩

/-- A history of calls of the one is a history of calls of the other. -/
theorem Beside.calls {s a b d os t} (hq : Q s a b) (h : E.Calls ⟨s, a, d⟩ os t) :
    ∃ b', E'.Calls ⟨s, b, d⟩ os ⟨t.strm, b', t.ndepth⟩ ∧ Q t.strm t.alloc b' := by
  generalize hs : (⟨s, a, d⟩ : St σ α) = s₀ at h
  induction h generalizing s a b d with
  | nil => subst hs; exact ⟨b, .nil, hq⟩
  | @cons _ _ t₁ _ _ hc _ ih =>
    subst hs
    obtain ⟨b₁, h1, h2⟩ := T.call hq hc
    obtain ⟨b₂, h3, h4⟩ := ih h2 rfl
    exact ⟨b₂, .cons h1 h3, h4⟩

omit T in
theorem Both.symm {x : Act (St σ α) (Err P CE) A} {y : Act (St σ β) (Err P CE) A} (h : Both Q x y) :
    Both (fun s b a => Q s a b) y x := fun s b a d hq =>
  have ⟨o, s', a', b', d', h1, h2, h3⟩ := h s a b d hq
  ⟨o, s', b', a', d', h2, h1, h3⟩

theorem Beside.symm : Beside (fun s b a => Q s a b) E' E where
  cc := T.cc.symm
  empty := T.empty.symm
  peek := T.peek.symm
  next := T.next.symm
  nextAccum := T.nextAccum.symm
  concatAccum t := (T.concatAccum t).symm
  newDatum d := (T.newDatum d).symm
  getMutFresh := T.getMutFresh.symm
  lookup d := by
    rcases T.lookup d with ⟨h1, h2⟩ | ⟨c, c', h1, h2, h3⟩
    · exact .inl ⟨h2, h1⟩
    · refine .inr ⟨c', c, h2, h1, ?_⟩
      cases h3 with
      | operative h => exact .operative fun s d t b a hq => ⟨(h s d t a b hq).1.symm, (h s d t a b hq).2⟩
      | applicative h => exact .applicative fun s d t b a hq => ⟨(h s d t a b hq).1.symm, (h s d t a b hq).2⟩

end Kul
