import Verif.Model.Api
import Verif.Proof.SimParser

/-!
# Two streams under the same parser, in step as long as one of them is good

`E.on S` is the parser `E` with the stream `S` in place of its own. `Track R G f g` relates an
operation of one stream to the same operation of another: while the second stays in good
states `G`, both return the same and stay related. An operation of the second stream that
exceeds a budget of steps is exempt (`TrackOut`). If this holds of all the operations of two
streams, then it holds of the whole parser (`Tracks.parse`), and of any history of calls of
`Iterator::next` (`Tracks.calls`).
-/

namespace Kul

/-- The same parser over another stream. -/
def Env.on {σ σ' P τ ε α CE : Type} (E : Env σ P τ ε α CE) (S : StreamOps σ' P τ α) :
    Env σ' P τ ε α CE where
  cc := E.cc
  strm := S
  text := E.text
  alloc := E.alloc
  lookup := E.lookup

section

variable {σ σ₁ σ₂ P τ ε α CE : Type}

/-- An operation on two streams in step, as long as the second is good. -/
def Track {A : Type} (R : σ₁ → σ₂ → Prop) (G : σ₂ → Prop) (f : σ₁ → A × σ₁) (g : σ₂ → A × σ₂) : Prop :=
  (∀ t, G (g t).2 → G t) ∧
  ∀ s t, R s t → G (g t).2 → (f s).1 = (g t).1 ∧ R (f s).2 (g t).2

/-- The same for an operation that may exceed its budget. -/
def TrackOut {e A : Type} (R : σ₁ → σ₂ → Prop) (G : σ₂ → Prop) (f : σ₁ → Outcome e A × σ₁)
    (g : σ₂ → Outcome e A × σ₂) : Prop :=
  (∀ t, G (g t).2 → G t) ∧
  ∀ s t, R s t → G (g t).2 → (g t).1 ≠ .fuel → (f s).1 = (g t).1 ∧ R (f s).2 (g t).2

/-- The same for an operation that gets the allocator. -/
def TrackAcc {e A : Type} (R : σ₁ → σ₂ → Prop) (G : σ₂ → Prop) (f : σ₁ → α → Outcome e A × σ₁ × α)
    (g : σ₂ → α → Outcome e A × σ₂ × α) : Prop :=
  (∀ t a, G (g t a).2.1 → G t) ∧
  ∀ s t a, R s t → G (g t a).2.1 → (g t a).1 ≠ .fuel → (f s a).1 = (g t a).1 ∧ (f s a).2.2 = (g t a).2.2 ∧
    R (f s a).2.1 (g t a).2.1

/-- All the operations of two streams. -/
structure Tracks (R : σ₁ → σ₂ → Prop) (G : σ₂ → Prop) (S₁ : StreamOps σ₁ P τ α)
    (S₂ : StreamOps σ₂ P τ α) : Prop where
  peek : TrackOut R G S₁.peek S₂.peek
  next : TrackOut R G S₁.next S₂.next
  nextAccum : TrackAcc R G S₁.nextAccum S₂.nextAccum
  accumDone : TrackAcc R G S₁.accumDone S₂.accumDone

/-- Related states of two parses. -/
def TrackSt (R : σ₁ → σ₂ → Prop) (s : St σ₁ α) (t : St σ₂ α) : Prop :=
  R s.strm t.strm ∧ s.alloc = t.alloc ∧ s.ndepth = t.ndepth

/-- Two actions in step, as long as the second parse is in good states. -/
def Lock {A : Type} (R : σ₁ → σ₂ → Prop) (G : σ₂ → Prop) (x : Act (St σ₁ α) (Err P CE) A)
    (y : Act (St σ₂ α) (Err P CE) A) : Prop :=
  (∀ t, G (y t).2.strm → G t.strm) ∧
  ∀ s t, TrackSt R s t → G (y t).2.strm → (y t).1 ≠ .fuel → (x s).1 = (y t).1 ∧ TrackSt R (x s).2 (y t).2

variable {R : σ₁ → σ₂ → Prop} {G : σ₂ → Prop} {A B : Type}

theorem Lock.bind {x : Act (St σ₁ α) (Err P CE) A} {y : Act (St σ₂ α) (Err P CE) A}
    {f : A → Act (St σ₁ α) (Err P CE) B} {g : A → Act (St σ₂ α) (Err P CE) B} (hx : Lock R G x y)
    (hf : ∀ a, Lock R G (f a) (g a)) : Lock R G (x >>= f) (y >>= g) := by
  refine ⟨fun t h => ?_, fun s t hs h hn => ?_⟩
  · change G (Act.bind y g t).2.strm at h
    unfold Act.bind at h
    have h0 := hx.1 t
    rcases hy : y t with ⟨o, t'⟩
    rw [hy] at h h0
    cases o with
    | ok b => exact h0 ((hf b).1 t' h)
    | _ => exact h0 h
  · change G (Act.bind y g t).2.strm at h
    change (Act.bind y g t).1 ≠ _ at hn
    change (Act.bind x f s).1 = (Act.bind y g t).1 ∧ TrackSt R (Act.bind x f s).2 (Act.bind y g t).2
    have h2 := hx.2 s t hs
    unfold Act.bind at h hn ⊢
    rcases hy : y t with ⟨o, t'⟩
    rcases hxs : x s with ⟨o₁, s'⟩
    rw [hy] at h h2 hn
    rw [hxs] at h2
    cases o with
    | ok b =>
      obtain ⟨h3, h4⟩ := h2 ((hf b).1 t' h) (by simp)
      cases h3
      exact (hf b).2 s' t' h4 h hn
    | fuel => exact absurd rfl hn
    | _ =>
      obtain ⟨h3, h4⟩ := h2 h (by simp)
      cases h3
      exact ⟨rfl, h4⟩

theorem Lock.out (o : Outcome (Err P CE) A) :
    Lock (α := α) R G (fun s => (o, s)) (fun t => (o, t)) := ⟨fun _ h => h, fun _ _ hs _ _ => ⟨rfl, hs⟩⟩

theorem Lock.pure (a : A) :
    Lock (α := α) (P := P) (CE := CE) R G (Pure.pure a) (Pure.pure a) := Lock.out (.ok a)

theorem Lock.throw (e : Err P CE) : Lock (α := α) (A := A) R G (Act.throw e) (Act.throw e) :=
  Lock.out (.err e)

theorem Lock.panic : Lock (α := α) (P := P) (CE := CE) (A := A) R G Act.panic Act.panic :=
  Lock.out .panic

theorem Lock.fuel : Lock (α := α) (P := P) (CE := CE) (A := A) R G Act.fuel Act.fuel :=
  Lock.out .fuel

theorem Lock.ite {p : Prop} [Decidable p] {x x' : Act (St σ₁ α) (Err P CE) A}
    {y y' : Act (St σ₂ α) (Err P CE) A} (h : Lock R G x y) (h' : Lock R G x' y') :
    Lock R G (if p then x else x') (if p then y else y') := by
  split <;> assumption

theorem Lock.debugAssert (b : Bool) :
    Lock (α := α) (P := P) (CE := CE) R G (Act.debugAssert b) (Act.debugAssert b) :=
  Lock.ite (Lock.pure _) Lock.panic

theorem Lock.getDepth : Lock (α := α) (P := P) (CE := CE) R G Env.getDepth Env.getDepth :=
  ⟨fun _ h => h, fun _ _ hs _ _ => ⟨by simp [Env.getDepth, hs.2.2], hs⟩⟩

theorem Lock.liftAlloc (f : α → Outcome AllocErr A × α) :
    Lock (P := P) (CE := CE) R G (Kul.liftAlloc f) (Kul.liftAlloc f) := by
  refine ⟨fun t h => h, ?_⟩
  rintro ⟨s, a, d⟩ ⟨t, _, _⟩ ⟨h, rfl, rfl⟩ _ _
  exact ⟨rfl, h, rfl, rfl⟩

theorem Lock.liftCombiner (f : α → Except (Err P CE) A × α) :
    Lock R G (Kul.liftCombiner f) (Kul.liftCombiner f) := by
  refine ⟨fun t h => h, ?_⟩
  rintro ⟨s, a, d⟩ ⟨t, _, _⟩ ⟨h, rfl, rfl⟩ _ _
  exact ⟨rfl, h, rfl, rfl⟩

theorem Lock.liftEmpty {f : σ₁ → Outcome Empty A × σ₁} {g : σ₂ → Outcome Empty A × σ₂}
    (h : TrackOut R G f g) :
    Lock (α := α) (P := P) (CE := CE) R G (Kul.liftEmpty f) (Kul.liftEmpty g) := by
  refine ⟨fun t => h.1 t.strm, ?_⟩
  rintro ⟨s, a, d⟩ ⟨t, _, _⟩ ⟨hs, rfl, rfl⟩ hg hf
  obtain ⟨h1, h2⟩ := h.2 s t hs hg (fun e => hf (by
    change Outcome.mapErr _ (g t).1 = _; rw [e]; rfl))
  refine ⟨?_, h2, rfl, rfl⟩
  change Outcome.mapErr _ (f s).1 = Outcome.mapErr _ (g t).1
  rw [h1]

theorem Lock.liftAccum {f : σ₁ → α → Outcome AllocErr A × σ₁ × α}
    {g : σ₂ → α → Outcome AllocErr A × σ₂ × α} (h : TrackAcc R G f g) :
    Lock (P := P) (CE := CE) R G (Kul.liftAccum f) (Kul.liftAccum g) := by
  refine ⟨fun t => h.1 t.strm t.alloc, ?_⟩
  rintro ⟨s, a, d⟩ ⟨t, _, _⟩ ⟨hs, rfl, rfl⟩ hg hf
  obtain ⟨h1, h2, h3⟩ := h.2 s t a hs hg (fun e => hf (by
    change Outcome.mapErr _ (g t a).1 = _; rw [e]; rfl))
  refine ⟨?_, h3, h2, rfl⟩
  change Outcome.mapErr _ (f s a).1 = Outcome.mapErr _ (g t a).1
  rw [h1]

theorem Lock.nestedInDepth {x : Act (St σ₁ α) (Err P CE) A} {y : Act (St σ₂ α) (Err P CE) A}
    (h : Lock R G x y) (hk : KeepsDepth y) : Lock R G (Env.nestedInDepth x) (Env.nestedInDepth y) := by
  have e : ∀ t, (Env.nestedInDepth y t).2.strm = (y { t with ndepth := t.ndepth + 1 }).2.strm := by
    intro t
    unfold Env.nestedInDepth
    rcases y { t with ndepth := t.ndepth + 1 } with ⟨o, t'⟩
    dsimp only
    split <;> rfl
  refine ⟨fun t hg => h.1 { t with ndepth := t.ndepth + 1 } (by rw [e] at hg; exact hg), ?_⟩
  rintro ⟨s, a, d⟩ ⟨t, _, _⟩ ⟨hs, rfl, rfl⟩ hg hf
  rw [e] at hg
  have hd := hk ⟨t, a, d + 1⟩
  have h1 := h.2 ⟨s, a, d + 1⟩ ⟨t, a, d + 1⟩ ⟨hs, rfl, rfl⟩ hg fun e => hf (by
    unfold Env.nestedInDepth
    dsimp only
    rcases hy : y ⟨t, a, d + 1⟩ with ⟨o₂, t', a₂, d₂⟩
    rw [hy] at e hd
    cases e
    cases hd
    rfl)
  unfold Env.nestedInDepth
  dsimp only
  rcases hx : x ⟨s, a, d + 1⟩ with ⟨o₁, s', a₁, d₁⟩
  rcases hy : y ⟨t, a, d + 1⟩ with ⟨o₂, t', a₂, d₂⟩
  rw [hx, hy] at h1
  obtain ⟨h2, h3, h4, h5⟩ := h1
  dsimp only at h2 h3 h4 h5
  subst h2 h4 h5
  dsimp only
  split
  · exact ⟨rfl, h3, rfl, rfl⟩
  · exact ⟨rfl, h3, rfl, rfl⟩

variable {E : Env σ P τ ε α CE} {S₁ : StreamOps σ₁ P τ α} {S₂ : StreamOps σ₂ P τ α}
  (T : Tracks R G S₁ S₂)
include T

theorem Tracks.l_peek : Lock R G (E.on S₁).peek (E.on S₂).peek := Lock.liftEmpty T.peek
theorem Tracks.l_next : Lock R G (E.on S₁).next (E.on S₂).next := Lock.liftEmpty T.next
theorem Tracks.l_nextAccum : Lock R G (E.on S₁).nextAccum (E.on S₂).nextAccum :=
  Lock.liftAccum T.nextAccum
omit T in
theorem Tracks.l_newDatum (d) : Lock R G ((E.on S₁).newDatum d) ((E.on S₂).newDatum d) :=
  Lock.liftAlloc _
omit T in
theorem Tracks.l_getMutFresh : Lock R G (E.on S₁).getMutFresh (E.on S₂).getMutFresh := by
  refine ⟨fun t h => h, ?_⟩
  rintro ⟨s, a, d⟩ ⟨t, _, _⟩ ⟨h, rfl, rfl⟩ _ _
  exact ⟨rfl, h, rfl, rfl⟩
theorem Tracks.l_concatAccum (t) : Lock R G ((E.on S₁).concatAccum t) ((E.on S₂).concatAccum t) :=
  Lock.bind (Lock.liftAccum T.accumDone) fun _ => Lock.liftAlloc _

theorem Tracks.l_skipWhitespace (n : Nat) :
    Lock R G ((E.on S₁).skipWhitespace n) ((E.on S₂).skipWhitespace n) := by
  induction n with
  | zero => exact Lock.fuel
  | succ n ih =>
    refine Lock.bind T.l_peek fun a => ?_
    cases a with
    | none => exact Lock.pure _
    | some it => exact Lock.ite (Lock.bind T.l_next fun _ => ih) (Lock.pure _)

theorem Tracks.l_checkEndChar : Lock R G (E.on S₁).checkEndChar (E.on S₂).checkEndChar := by
  refine Lock.bind T.l_peek fun a => ?_
  refine Lock.bind (Lock.debugAssert _) fun _ => ?_
  refine Lock.bind Lock.getDepth fun _ => ?_
  refine Lock.ite (Lock.pure _) (Lock.bind T.l_next fun o => ?_)
  cases o with
  | none => exact Lock.panic
  | some _ => exact Lock.throw _

theorem Tracks.l_finishText (t l) : Lock R G ((E.on S₁).finishText t l) ((E.on S₂).finishText t l) :=
  Lock.ite (T.l_concatAccum t) (Lock.throw _)

theorem Tracks.l_parseTextLoop (mode : Mode) (n : Nat) : ∀ t l,
    Lock R G ((E.on S₁).parseTextLoop mode n t l) ((E.on S₂).parseTextLoop mode n t l) := by
  induction n with
  | zero => intro _ _; exact Lock.fuel
  | succ n ih =>
    intro t l
    refine Lock.bind T.l_peek fun a => ?_
    cases a with
    | none => exact T.l_finishText _ _
    | some it =>
      refine Lock.ite (T.l_finishText _ _) (Lock.ite ?_ (Lock.ite ?_ (Lock.ite (Lock.ite ?_ ?_) ?_)))
      · exact Lock.bind (T.l_concatAccum _) fun _ => Lock.bind T.l_next fun _ =>
          Lock.bind T.l_nextAccum fun _ => ih _ _
      · exact Lock.bind T.l_nextAccum fun _ => ih _ _
      · exact Lock.bind T.l_nextAccum fun _ => ih _ _
      · exact Lock.bind T.l_checkEndChar fun _ => T.l_finishText _ _
      · exact Lock.bind T.l_nextAccum fun _ => ih _ _

theorem Tracks.l_parseText (n mode) : Lock R G ((E.on S₁).parseText n mode) ((E.on S₂).parseText n mode) :=
  T.l_parseTextLoop mode n _ _

theorem Tracks.l_nestEnd : Lock R G (E.on S₁).nestEnd (E.on S₂).nestEnd := by
  refine Lock.bind T.l_next fun a => ?_
  cases a with
  | none => exact Lock.throw _
  | some _ => exact Lock.debugAssert _

theorem Tracks.l_skipSeparator : Lock R G (E.on S₁).skipSeparator (E.on S₂).skipSeparator := by
  refine Lock.bind T.l_peek fun a => ?_
  cases a with
  | none => exact Lock.pure _
  | some _ => exact Lock.ite (Lock.bind T.l_next fun _ => Lock.pure _) (Lock.pure _)

theorem Tracks.l_parse (n : Nat) :
    (∀ mode, Lock R G ((E.on S₁).parseNext n mode) ((E.on S₂).parseNext n mode)) ∧
    Lock R G ((E.on S₁).parseNested n) ((E.on S₂).parseNested n) ∧
    (∀ mode acc, Lock R G ((E.on S₁).parseAll n mode acc) ((E.on S₂).parseAll n mode acc)) := by
  induction n with
  | zero =>
    refine ⟨fun mode => ?_, ?_, fun mode acc => ?_⟩
    · unfold Env.parseNext; exact Lock.fuel
    · unfold Env.parseNested; exact Lock.fuel
    · unfold Env.parseAll; exact Lock.fuel
  | succ n ih =>
    obtain ⟨ihn, ihd, iha⟩ := ih
    refine ⟨fun mode => ?_, ?_, fun mode acc => ?_⟩
    · unfold Env.parseNext
      refine Lock.bind (Lock.ite (T.l_skipWhitespace n) (Lock.pure _)) fun _ => ?_
      refine Lock.bind T.l_peek fun a => ?_
      cases a with
      | none => exact Lock.bind Lock.getDepth fun _ => Lock.ite (Lock.pure _) (Lock.throw _)
      | some it =>
        refine Lock.ite (Lock.bind (Lock.nestedInDepth ihd ((E.on S₂).keeps_parse n).2.1) fun o => ?_)
          (Lock.ite (Lock.bind T.l_checkEndChar fun _ => Lock.pure _)
            (Lock.bind (T.l_parseText _ _) fun _ => Lock.pure _))
        cases o with
        | none => exact ihn mode
        | some d => exact Lock.pure _
    · unfold Env.parseNested
      refine Lock.bind T.l_next fun _ => ?_
      refine Lock.bind (Lock.debugAssert _) fun _ => ?_
      refine Lock.bind (ihn _) fun o => ?_
      refine Lock.bind T.l_skipSeparator fun _ => ?_
      cases o with
      | none => exact Lock.bind T.l_nestEnd fun _ => Lock.pure _
      | some d =>
        dsimp only
        rcases hl : E.lookup d with _ | (f | f)
        · rw [show (E.on S₁).lookup d = none from hl, show (E.on S₂).lookup d = none from hl]
          exact Lock.bind (iha _ _) fun _ => Lock.bind T.l_nestEnd fun _ =>
            Lock.bind (Tracks.l_newDatum _) fun _ =>
            Lock.bind (Tracks.l_newDatum _) fun _ => Lock.pure _
        · rw [show (E.on S₁).lookup d = _ from hl, show (E.on S₂).lookup d = _ from hl]
          exact Lock.bind (T.l_parseText _ _) fun _ => Lock.bind T.l_nestEnd fun _ => Lock.liftCombiner _
        · rw [show (E.on S₁).lookup d = _ from hl, show (E.on S₂).lookup d = _ from hl]
          exact Lock.bind (iha _ _) fun _ => Lock.bind T.l_nestEnd fun _ => Lock.liftCombiner _
    · unfold Env.parseAll
      refine Lock.bind (ihn _) fun o => ?_
      cases o with
      | none => exact Lock.pure _
      | some d =>
        exact Lock.bind (Tracks.l_newDatum _) fun _ => Lock.bind (Tracks.l_newDatum _) fun _ =>
          Lock.bind Tracks.l_getMutFresh fun _ => Lock.ite (iha _ _) (Lock.throw _)

/-- A call on the second stream that ends well is also one on the first. -/
theorem Tracks.call {s t o t'} (hs : TrackSt R s t) (h : (E.on S₂).Call t o t') (hg : G t'.strm) :
    ∃ s', (E.on S₁).Call s o s' ∧ TrackSt R s' t' := by
  obtain ⟨n, h1, h2⟩ := h
  have h3 := (T.l_parse (E := E) n).1 .base
  change (E.on S₂).parseNext n .base t = _ at h1
  have h4 := h3.2 s t hs (by rw [h1]; exact hg) (by rw [h1]; exact h2)
  rw [h1] at h4
  refine ⟨_, ⟨n, ?_, h2⟩, h4.2⟩
  exact Prod.ext h4.1 rfl

omit S₁ T in
/-- The state before a call is good if that after it is. -/
theorem Tracks.call_good {S₁ : StreamOps σ₁ P τ α} (T : Tracks R G S₁ S₂) {t o t'}
    (h : (E.on S₂).Call t o t') (hg : G t'.strm) : G t.strm := by
  obtain ⟨n, h1, _⟩ := h
  have h3 := ((T.l_parse (E := E) n).1 .base).1 t
  change (E.on S₂).parseNext n .base t = _ at h1
  rw [h1] at h3
  exact h3 hg

omit S₁ T in
theorem Tracks.calls_good {S₁ : StreamOps σ₁ P τ α} (T : Tracks R G S₁ S₂) {t os t'}
    (h : (E.on S₂).Calls t os t') : G t'.strm → G t.strm := by
  induction h with
  | nil => exact id
  | cons hc _ ih => exact fun hg => T.call_good hc (ih hg)

/-- A history of calls on the second stream that ends well is also one on the first. -/
theorem Tracks.calls {t os t'} (h : (E.on S₂).Calls t os t') (hg : G t'.strm) :
    ∀ {s}, TrackSt R s t → ∃ s', (E.on S₁).Calls s os s' ∧ TrackSt R s' t' := by
  induction h with
  | nil => exact fun hs => ⟨_, .nil, hs⟩
  | cons hc hcs ih =>
    intro s hs
    obtain ⟨s₁, h1, h2⟩ := T.call hs hc (T.calls_good hcs hg)
    obtain ⟨s₂, h3, h4⟩ := ih hg h2
    exact ⟨s₂, .cons h1 h3, h4⟩

end

end Kul
