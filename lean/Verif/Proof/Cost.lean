import Verif.Spec.Memory
import Verif.Spec.Text
import Verif.Proof.Mono

/-!
# The number of allocations of a successful parse

Two runs of the parser side by side: one with memory that does not run out, one with at
most `N` allocations. As long as the first succeeds and has not made more than `N`
allocations, the second does the same; and what the first allocates is counted.
-/

namespace Kul

variable {σ P τ ε α β CE : Type}

/-- What is assumed of the operations. `used` counts the allocations, `held` the references
in what the stream has accumulated, `refs` those in a text; `okS`, `okT`, `okA` are
invariants. `RB a b` says that the states of the two allocators correspond. -/
structure Cost (E : Env σ P τ ε α CE) (E' : Env σ P τ ε β CE) (N : Nat) (used : α → Nat) (held : σ → Nat)
    (refs : τ → Nat) (okS : σ → Prop) (okT : τ → Prop) (okA : α → Prop) (RB : α → β → Prop) : Prop where
  cc : E'.cc = E.cc
  unbound : ∀ d, E.lookup d = none
  unbound' : ∀ d, E'.lookup d = none
  peekEq : E'.strm.peek = E.strm.peek
  nextEq : E'.strm.next = E.strm.next
  emptyEq : E'.text.empty = E.text.empty
  peek : ∀ s o s', okS s → E.strm.peek s = (.ok o, s') → okS s' ∧ held s' = held s
  next : ∀ s o s', okS s → E.strm.next s = (.ok o, s') → okS s' ∧ held s' = 0
  nextAccum : ∀ s a o s' a', okS s → okA a → E.strm.nextAccum s a = (.ok o, s', a') →
    okS s' ∧ okA a' ∧ ∃ k, used a' = used a + k ∧ k + held s = held s' ∧
      (used a' ≤ N → ∀ b, RB a b → ∃ b', E'.strm.nextAccum s b = (.ok o, s', b') ∧ RB a' b')
  accumDone : ∀ s a t s' a', okS s → okA a → E.strm.accumDone s a = (.ok t, s', a') →
    okS s' ∧ okA a' ∧ okT t ∧ held s' = 0 ∧ ∃ k, used a' = used a + k ∧ k + held s = refs t ∧
      (used a' ≤ N → ∀ b, RB a b → ∃ b', E'.strm.accumDone s b = (.ok t, s', b') ∧ RB a' b')
  empty : okT E.text.empty ∧ refs E.text.empty = 0
  concat : ∀ t u a v a', okT t → okT u → okA a → E.text.concat t u a = (.ok v, a') →
    okA a' ∧ okT v ∧ ∃ k, used a' = used a + k ∧ k + refs t + refs u = refs v ∧
      (used a' ≤ N → ∀ b, RB a b → ∃ b', E'.text.concat t u b = (.ok v, b') ∧ RB a' b')
  newDatum : ∀ d a a', okA a → E.alloc.newDatum d a = (.ok (), a') →
    okA a' ∧ used a' = used a + 1 ∧
      (used a' ≤ N → ∀ b, RB a b → ∃ b', E'.alloc.newDatum d b = (.ok (), b') ∧ RB a' b')
  getMutFresh : ∀ a b, RB a b → E'.alloc.getMutFresh b = E.alloc.getMutFresh a

variable {E : Env σ P τ ε α CE} {E' : Env σ P τ ε β CE} {N : Nat} {used : α → Nat} {held : σ → Nat}
  {refs : τ → Nat} {okS : σ → Prop} {okT : τ → Prop} {okA : α → Prop} {RB : α → β → Prop}

/-- The two parses are in the same state. -/
structure SameSt (RB : α → β → Prop) (s : St σ α) (t : St σ β) : Prop where
  strm : t.strm = s.strm
  ndepth : t.ndepth = s.ndepth
  alloc : RB s.alloc t.alloc

/-- If `x` succeeds, what it allocates and holds is as `Post` says; and `y` does the same
if the allocations fit. -/
def Tri (N : Nat) (used : α → Nat) (held : σ → Nat) (okS : σ → Prop) (okA : α → Prop) (RB : α → β → Prop)
    {V : Type} (x : Act (St σ α) (Err P CE) V) (y : Act (St σ β) (Err P CE) V)
    (Post : Nat → V → Nat → Nat → Prop) : Prop :=
  ∀ s v s', okS s.strm → okA s.alloc → x s = (.ok v, s') →
    okS s'.strm ∧ okA s'.alloc ∧ ∃ k, used s'.alloc = used s.alloc + k ∧ Post (held s.strm) v (held s'.strm) k ∧
      (used s'.alloc ≤ N → ∀ t, SameSt RB s t → ∃ t', y t = (.ok v, t') ∧ SameSt RB s' t')

section

variable {V W : Type}

local notation "𝐓" => Tri (P := P) (CE := CE) N used held okS okA RB

theorem Tri.pure {v : V} {Post : Nat → V → Nat → Nat → Prop} (h : ∀ k, Post k v k 0) :
    𝐓 (Pure.pure v) (Pure.pure v) Post := by
  intro s v' s' hS hA hx
  cases hx
  exact ⟨hS, hA, 0, rfl, h _, fun _ t hs => ⟨t, rfl, hs⟩⟩

theorem Tri.throw {e e' : Err P CE} {Post : Nat → V → Nat → Nat → Prop} :
    𝐓 (Act.throw e) (Act.throw e') Post := by
  intro s v s' _ _ hx
  cases hx

theorem Tri.panic {Post : Nat → V → Nat → Nat → Prop} : 𝐓 Act.panic Act.panic Post := by
  intro s v s' _ _ hx
  cases hx

theorem Tri.fuel {Post : Nat → V → Nat → Nat → Prop} : 𝐓 Act.fuel Act.fuel Post := by
  intro s v s' _ _ hx
  cases hx

theorem Tri.bind {x : Act (St σ α) (Err P CE) V} {y : Act (St σ β) (Err P CE) V}
    {f : V → Act (St σ α) (Err P CE) W} {g : V → Act (St σ β) (Err P CE) W}
    {Post : Nat → V → Nat → Nat → Prop} {Post' : V → Nat → W → Nat → Nat → Prop}
    {Post'' : Nat → W → Nat → Nat → Prop}
    (hx : 𝐓 x y Post) (hf : ∀ h v h₁ k, Post h v h₁ k → 𝐓 (f v) (g v) (Post' v))
    (hp : ∀ h v h₁ k w h₂ k', Post h v h₁ k → Post' v h₁ w h₂ k' → Post'' h w h₂ (k + k')) :
    𝐓 (x >>= f) (y >>= g) Post'' := by
  intro s w s' hS hA h
  change Act.bind x f s = _ at h
  simp only [Act.bind] at h
  rcases h1 : x s with ⟨v | e | _ | _, s₁⟩ <;> rw [h1] at h <;> simp only at h
  · obtain ⟨hS₁, hA₁, k, g1, g2, g3⟩ := hx s v s₁ hS hA h1
    obtain ⟨hS₂, hA₂, k', g6, g7, g8⟩ := hf _ _ _ _ g2 s₁ w s' hS₁ hA₁ h
    refine ⟨hS₂, hA₂, k + k', by omega, hp _ _ _ _ _ _ _ g2 g7, fun hN t hs => ?_⟩
    obtain ⟨t₁, g4, g5⟩ := g3 (by omega) t hs
    obtain ⟨t₂, g9, g10⟩ := g8 hN t₁ g5
    refine ⟨t₂, ?_, g10⟩
    change Act.bind y g t = _
    simp only [Act.bind, g4]
    exact g9
  · cases h
  · cases h
  · cases h

theorem Tri.weaken {x : Act (St σ α) (Err P CE) V} {y : Act (St σ β) (Err P CE) V}
    {Post Post' : Nat → V → Nat → Nat → Prop} (h : 𝐓 x y Post)
    (hp : ∀ h v h' k, Post h v h' k → Post' h v h' k) : 𝐓 x y Post' := by
  intro s v s' hS hA hx
  obtain ⟨h1, h2, k, h3, h4, h5⟩ := h s v s' hS hA hx
  exact ⟨h1, h2, k, h3, hp _ _ _ _ h4, h5⟩

theorem Tri.ite {p : Prop} [Decidable p] {x x' : Act (St σ α) (Err P CE) V}
    {y y' : Act (St σ β) (Err P CE) V} {Post : Nat → V → Nat → Nat → Prop}
    (h : p → 𝐓 x y Post) (h' : ¬ p → 𝐓 x' y' Post) :
    𝐓 (if p then x else x') (if p then y else y') Post := by
  by_cases hp : p
  · rw [if_pos hp, if_pos hp]; exact h hp
  · rw [if_neg hp, if_neg hp]; exact h' hp

theorem Tri.getDepth : 𝐓 Env.getDepth Env.getDepth (fun h _ h' k => h' = h ∧ k = 0) := by
  intro s v s' hS hA hx
  cases hx
  exact ⟨hS, hA, 0, rfl, ⟨rfl, rfl⟩, fun _ t hs => ⟨t, by simp only [Env.getDepth, hs.ndepth], hs⟩⟩

theorem Tri.debugAssert {b : Bool} :
    𝐓 (Act.debugAssert b) (Act.debugAssert b) (fun h _ h' k => h' = h ∧ k = 0) := by
  cases b
  · exact Tri.panic
  · exact Tri.pure fun _ => ⟨rfl, rfl⟩

variable (C : Cost E E' N used held refs okS okT okA RB)
include C

theorem Cost.t_peek : 𝐓 E.peek E'.peek (fun h _ h' k => h' = h ∧ k = 0) := by
  intro s v s' hS hA hx
  change (Outcome.mapErr _ (E.strm.peek s.strm).1, ({ s with strm := (E.strm.peek s.strm).2 } : St σ α)) = _ at hx
  rcases h1 : E.strm.peek s.strm with ⟨o | e | _ | _, s₁⟩ <;> rw [h1] at hx <;>
    simp only [Outcome.mapErr] at hx
  · cases hx
    obtain ⟨h2, h3⟩ := C.peek _ _ _ hS h1
    refine ⟨h2, hA, 0, rfl, ⟨h3, rfl⟩, fun _ t hs => ⟨{ t with strm := s₁ }, ?_, ⟨rfl, hs.ndepth, hs.alloc⟩⟩⟩
    change (Outcome.mapErr _ (E'.strm.peek t.strm).1, ({ t with strm := (E'.strm.peek t.strm).2 } : St σ β)) = _
    rw [C.peekEq, hs.strm, h1]
    rfl
  · cases e
  · cases hx
  · cases hx

theorem Cost.t_next : 𝐓 E.next E'.next (fun _ _ h' k => h' = 0 ∧ k = 0) := by
  intro s v s' hS hA hx
  change (Outcome.mapErr _ (E.strm.next s.strm).1, ({ s with strm := (E.strm.next s.strm).2 } : St σ α)) = _ at hx
  rcases h1 : E.strm.next s.strm with ⟨o | e | _ | _, s₁⟩ <;> rw [h1] at hx <;>
    simp only [Outcome.mapErr] at hx
  · cases hx
    obtain ⟨h2, h3⟩ := C.next _ _ _ hS h1
    refine ⟨h2, hA, 0, rfl, ⟨h3, rfl⟩, fun _ t hs => ⟨{ t with strm := s₁ }, ?_, ⟨rfl, hs.ndepth, hs.alloc⟩⟩⟩
    change (Outcome.mapErr _ (E'.strm.next t.strm).1, ({ t with strm := (E'.strm.next t.strm).2 } : St σ β)) = _
    rw [C.nextEq, hs.strm, h1]
    rfl
  · cases e
  · cases hx
  · cases hx

theorem Cost.t_nextAccum : 𝐓 E.nextAccum E'.nextAccum (fun h _ h' k => k + h = h') := by
  intro s v s' hS hA hx
  change (Outcome.mapErr _ (E.strm.nextAccum s.strm s.alloc).1,
    ({ s with strm := (E.strm.nextAccum s.strm s.alloc).2.1, alloc := (E.strm.nextAccum s.strm s.alloc).2.2 } : St σ α)) = _ at hx
  rcases h1 : E.strm.nextAccum s.strm s.alloc with ⟨o | e | _ | _, s₁, a₁⟩ <;> rw [h1] at hx <;>
    simp only [Outcome.mapErr] at hx <;> cases hx
  obtain ⟨h2, h3, k, h4, h5, h6⟩ := C.nextAccum _ _ _ _ _ hS hA h1
  refine ⟨h2, h3, k, h4, h5, fun hN t hs => ?_⟩
  obtain ⟨b', h7, h8⟩ := h6 hN _ hs.alloc
  refine ⟨{ t with strm := s₁, alloc := b' }, ?_, ⟨rfl, hs.ndepth, h8⟩⟩
  change (Outcome.mapErr _ (E'.strm.nextAccum t.strm t.alloc).1,
    ({ t with strm := (E'.strm.nextAccum t.strm t.alloc).2.1, alloc := (E'.strm.nextAccum t.strm t.alloc).2.2 } : St σ β)) = _
  rw [hs.strm, h7]
  rfl

theorem Cost.t_concatAccum {text : τ} (ht : okT text) : 𝐓 (E.concatAccum text) (E'.concatAccum text)
    (fun h v h' k => okT v ∧ h' = 0 ∧ k + h + refs text = refs v) := by
  refine Tri.bind (Post := fun h v h' k => okT v ∧ h' = 0 ∧ k + h = refs v)
    (Post' := fun u h v h' k => okT v ∧ h' = h ∧ k + refs text + refs u = refs v) ?_ ?_ ?_
  · intro s v s' hS hA hx
    change (Outcome.mapErr _ (E.strm.accumDone s.strm s.alloc).1,
      ({ s with strm := (E.strm.accumDone s.strm s.alloc).2.1, alloc := (E.strm.accumDone s.strm s.alloc).2.2 } : St σ α)) = _ at hx
    rcases h1 : E.strm.accumDone s.strm s.alloc with ⟨o | e | _ | _, s₁, a₁⟩ <;> rw [h1] at hx <;>
      simp only [Outcome.mapErr] at hx <;> cases hx
    obtain ⟨h2, h3, h3', h3'', k, h4, h5, h6⟩ := C.accumDone _ _ _ _ _ hS hA h1
    refine ⟨h2, h3, k, h4, ⟨h3', h3'', h5⟩, fun hN t hs => ?_⟩
    obtain ⟨b', h7, h8⟩ := h6 hN _ hs.alloc
    refine ⟨{ t with strm := s₁, alloc := b' }, ?_, ⟨rfl, hs.ndepth, h8⟩⟩
    change (Outcome.mapErr _ (E'.strm.accumDone t.strm t.alloc).1,
      ({ t with strm := (E'.strm.accumDone t.strm t.alloc).2.1, alloc := (E'.strm.accumDone t.strm t.alloc).2.2 } : St σ β)) = _
    rw [hs.strm, h7]
    rfl
  · rintro h u h₁ k ⟨hu, _, _⟩ s v s' hS hA hx
    change (Outcome.mapErr _ (E.text.concat text u s.alloc).1,
      ({ s with alloc := (E.text.concat text u s.alloc).2 } : St σ α)) = _ at hx
    rcases h1 : E.text.concat text u s.alloc with ⟨o | e | _ | _, a₁⟩ <;> rw [h1] at hx <;>
      simp only [Outcome.mapErr] at hx <;> cases hx
    obtain ⟨h3, h3', k, h4, h5, h6⟩ := C.concat _ _ _ _ _ ht hu hA h1
    refine ⟨hS, h3, k, h4, ⟨h3', rfl, h5⟩, fun hN t hs => ?_⟩
    obtain ⟨b', h7, h8⟩ := h6 hN _ hs.alloc
    refine ⟨{ t with alloc := b' }, ?_, ⟨hs.strm, hs.ndepth, h8⟩⟩
    change (Outcome.mapErr _ (E'.text.concat text u t.alloc).1,
      ({ t with alloc := (E'.text.concat text u t.alloc).2 } : St σ β)) = _
    rw [h7]
    rfl
  · rintro h u h₁ k v h₂ k' ⟨_, rfl, h1⟩ ⟨h2, rfl, h3⟩
    exact ⟨h2, rfl, by omega⟩

theorem Cost.t_newDatum (d : Datum τ ε) : 𝐓 (E.newDatum d) (E'.newDatum d)
    (fun h _ h' k => h' = h ∧ k = 1) := by
  intro s v s' hS hA hx
  change (Outcome.mapErr _ (Outcome.ofExcept (E.alloc.newDatum d s.alloc).1),
    ({ s with alloc := (E.alloc.newDatum d s.alloc).2 } : St σ α)) = _ at hx
  rcases h1 : E.alloc.newDatum d s.alloc with ⟨e | u, a₁⟩ <;> rw [h1] at hx <;>
    simp only [Outcome.mapErr, Outcome.ofExcept] at hx <;> cases hx
  obtain ⟨h2, h3, h4⟩ := C.newDatum _ _ _ hA h1
  refine ⟨hS, h2, 1, h3, ⟨rfl, rfl⟩, fun hN t hs => ?_⟩
  obtain ⟨b', h7, h8⟩ := h4 hN _ hs.alloc
  refine ⟨{ t with alloc := b' }, ?_, ⟨hs.strm, hs.ndepth, h8⟩⟩
  change (Outcome.mapErr _ (Outcome.ofExcept (E'.alloc.newDatum d t.alloc).1),
    ({ t with alloc := (E'.alloc.newDatum d t.alloc).2 } : St σ β)) = _
  rw [h7]
  rfl

theorem Cost.t_getMutFresh : 𝐓 E.getMutFresh E'.getMutFresh (fun h _ h' k => h' = h ∧ k = 0) := by
  intro s v s' hS hA hx
  cases hx
  refine ⟨hS, hA, 0, rfl, ⟨rfl, rfl⟩, fun _ t hs => ⟨t, ?_, hs⟩⟩
  simp only [Env.getMutFresh, C.getMutFresh _ _ hs.alloc]

theorem Cost.t_skipWhitespace (n : Nat) : 𝐓 (E.skipWhitespace n) (E'.skipWhitespace n)
    (fun h _ h' k => h = 0 → h' = 0 ∧ k = 0) := by
  induction n with
  | zero => exact Tri.fuel
  | succ n ih =>
    refine Tri.bind (Post' := fun _ h _ h' k => h = 0 → h' = 0 ∧ k = 0) C.t_peek ?_ ?_
    · rintro h (_ | it) h₁ k _
      · exact Tri.pure fun _ h => ⟨h, rfl⟩
      · simp only [C.cc]
        refine Tri.ite (fun _ => ?_) fun _ => Tri.pure fun _ h => ⟨h, rfl⟩
        refine Tri.bind (Post' := fun _ h _ h' k => h = 0 → h' = 0 ∧ k = 0) C.t_next (fun _ _ _ _ _ => ih) ?_
        rintro h v h₁ k w h₂ k' ⟨rfl, rfl⟩ h3 _
        obtain ⟨rfl, rfl⟩ := h3 rfl
        exact ⟨rfl, rfl⟩
    · rintro h v h₁ k w h₂ k' ⟨rfl, rfl⟩ h3 h4
      obtain ⟨rfl, rfl⟩ := h3 h4
      exact ⟨rfl, rfl⟩

theorem Cost.t_checkEndChar : 𝐓 E.checkEndChar E'.checkEndChar (fun h _ h' k => h' = h ∧ k = 0) := by
  have key : ∀ {h : Nat} {v : Unit} {h₁ k h₂ k' : Nat}, (h₁ = h ∧ k = 0) → (h₂ = h₁ ∧ k' = 0) →
      h₂ = h ∧ k + k' = 0 := by rintro h v h₁ k h₂ k' ⟨rfl, rfl⟩ ⟨rfl, rfl⟩; exact ⟨rfl, rfl⟩
  refine Tri.bind (Post' := fun _ h _ h' k => h' = h ∧ k = 0) C.t_peek ?_
    (fun _ _ _ _ w _ _ h h' => key (v := w) h h')
  intro _ o _ _ _
  simp only [C.cc]
  refine Tri.bind (Post' := fun _ h _ h' k => h' = h ∧ k = 0) Tri.debugAssert ?_
    (fun _ _ _ _ w _ _ h h' => key (v := w) h h')
  intro _ _ _ _ _
  refine Tri.bind (Post' := fun _ h _ h' k => h' = h ∧ k = 0) Tri.getDepth ?_
    (fun _ _ _ _ w _ _ h h' => key (v := w) h h')
  intro _ d _ _ _
  refine Tri.ite (fun _ => Tri.pure fun _ => ⟨rfl, rfl⟩) fun _ => ?_
  refine Tri.bind (Post' := fun _ _ _ _ _ => False) C.t_next ?_ (fun _ _ _ _ _ _ _ _ h => h.elim)
  rintro _ (_ | it) _ _ _
  · exact Tri.panic
  · exact Tri.throw

theorem Cost.t_finishText {text : τ} (ht : okT text) (nl : Nat) : 𝐓 (E.finishText text nl) (E'.finishText text nl)
    (fun h v h' k => okT v ∧ h' = 0 ∧ k + h + refs text = refs v) :=
  Tri.ite (fun _ => C.t_concatAccum ht) fun _ => Tri.throw

theorem Cost.t_parseTextLoop (m : Mode) (n : Nat) : ∀ {text : τ}, okT text → ∀ nl,
    𝐓 (E.parseTextLoop m n text nl) (E'.parseTextLoop m n text nl)
      (fun h v h' k => okT v ∧ h' = 0 ∧ k + h + refs text = refs v) := by
  induction n with
  | zero => intros; exact Tri.fuel
  | succ n ih =>
    intro text ht nl
    have acc : ∀ nl', 𝐓 (E.nextAccum >>= fun _ => E.parseTextLoop m n text nl')
        (E'.nextAccum >>= fun _ => E'.parseTextLoop m n text nl')
        (fun h v h' k => okT v ∧ h' = 0 ∧ k + h + refs text = refs v) := by
      intro nl'
      refine Tri.bind (Post' := fun _ h v h' k => okT v ∧ h' = 0 ∧ k + h + refs text = refs v)
        C.t_nextAccum (fun _ _ _ _ _ => ih ht nl') ?_
      rintro h _ h₁ k v h₂ k' h1 ⟨h2, rfl, h3⟩
      exact ⟨h2, rfl, by omega⟩
    refine Tri.bind (Post' := fun _ h v h' k => okT v ∧ h' = 0 ∧ k + h + refs text = refs v) C.t_peek ?_ ?_
    · rintro h (_ | it) h₁ k _
      · exact C.t_finishText ht nl
      · simp only [C.cc]
        refine Tri.ite (fun _ => C.t_finishText ht nl) fun _ => ?_
        refine Tri.ite (fun _ => ?_) fun _ => ?_
        · refine Tri.bind (Post' := fun u h v h' k => h = 0 → okT v ∧ h' = 0 ∧ k + refs u = refs v)
            (C.t_concatAccum ht) ?_ ?_
          · rintro h u h₁ k ⟨hu, _, _⟩
            refine Tri.bind (Post' := fun _ h v h' k => h = 0 → okT v ∧ h' = 0 ∧ k + refs u = refs v)
              C.t_next ?_ ?_
            · rintro _ _ _ _ ⟨rfl, rfl⟩
              refine Tri.bind (Post' := fun _ h v h' k => okT v ∧ h' = 0 ∧ k + h + refs u = refs v)
                C.t_nextAccum (fun _ _ _ _ _ => ih hu nl) ?_
              rintro h _ h₁ k v h₂ k' h1 ⟨h2, rfl, h3⟩ rfl
              exact ⟨h2, rfl, by omega⟩
            · rintro h _ h₁ k v h₂ k' ⟨rfl, rfl⟩ h3 _
              obtain ⟨h4, rfl, h5⟩ := h3 rfl
              exact ⟨h4, rfl, by omega⟩
          · rintro h u h₁ k v h₂ k' ⟨_, rfl, h1⟩ h3
            obtain ⟨h4, rfl, h5⟩ := h3 rfl
            exact ⟨h4, rfl, by omega⟩
        · refine Tri.ite (fun _ => acc _) fun _ => ?_
          refine Tri.ite (fun _ => ?_) fun _ => acc _
          refine Tri.ite (fun _ => acc _) fun _ => ?_
          refine Tri.bind (Post' := fun _ h v h' k => okT v ∧ h' = 0 ∧ k + h + refs text = refs v)
            C.t_checkEndChar (fun _ _ _ _ _ => C.t_finishText ht nl) ?_
          rintro h _ h₁ k v h₂ k' ⟨rfl, rfl⟩ ⟨h2, rfl, h3⟩
          exact ⟨h2, rfl, by omega⟩
    · rintro h _ h₁ k v h₂ k' ⟨rfl, rfl⟩ ⟨h2, rfl, h3⟩
      exact ⟨h2, rfl, by omega⟩

theorem Cost.t_parseText (n : Nat) (m : Mode) : 𝐓 (E.parseText n m) (E'.parseText n m)
    (fun h v h' k => h = 0 → h' = 0 ∧ k = refs v) := by
  unfold Env.parseText
  rw [C.emptyEq]
  refine (C.t_parseTextLoop m n C.empty.1 0).weaken ?_
  rintro h v h' k ⟨_, rfl, h1⟩ rfl
  rw [C.empty.2] at h1
  exact ⟨rfl, by omega⟩

theorem Cost.t_nestEnd : 𝐓 E.nestEnd E'.nestEnd (fun _ _ h' k => h' = 0 ∧ k = 0) := by
  refine Tri.bind (Post' := fun _ h _ h' k => h' = h ∧ k = 0) C.t_next ?_ ?_
  · rintro _ (_ | it) _ _ _
    · exact Tri.throw
    · simp only [C.cc]
      exact Tri.debugAssert
  · rintro h _ h₁ k _ h₂ k' ⟨rfl, rfl⟩ ⟨rfl, rfl⟩
    exact ⟨rfl, rfl⟩

theorem Cost.t_skipSeparator : 𝐓 E.skipSeparator E'.skipSeparator (fun h _ h' k => h = 0 → h' = 0 ∧ k = 0) := by
  refine Tri.bind (Post' := fun _ h _ h' k => h = 0 → h' = 0 ∧ k = 0) C.t_peek ?_ ?_
  · rintro _ (_ | it) _ _ _
    · exact Tri.pure fun _ h => ⟨h, rfl⟩
    · simp only [C.cc]
      refine Tri.ite (fun _ => ?_) fun _ => Tri.pure fun _ h => ⟨h, rfl⟩
      refine Tri.bind (Post' := fun _ h _ h' k => h' = h ∧ k = 0) C.t_next
        (fun _ _ _ _ _ => Tri.pure fun _ => ⟨rfl, rfl⟩) ?_
      rintro h _ h₁ k _ h₂ k' ⟨rfl, rfl⟩ ⟨rfl, rfl⟩ _
      exact ⟨rfl, rfl⟩
  · rintro h v h₁ k w h₂ k' ⟨rfl, rfl⟩ h3 h4
    obtain ⟨rfl, rfl⟩ := h3 h4
    exact ⟨rfl, rfl⟩

theorem Cost.t_skipLeading (n : Nat) (m : Mode) : 𝐓 (E.skipLeading n m) (E'.skipLeading n m)
    (fun h _ h' k => h = 0 → h' = 0 ∧ k = 0) :=
  Tri.ite (fun _ => C.t_skipWhitespace n) fun _ => Tri.pure fun _ h => ⟨h, rfl⟩

omit C in
theorem Tri.nestedInDepth {x : Act (St σ α) (Err P CE) (Option (Datum τ ε))}
    {y : Act (St σ β) (Err P CE) (Option (Datum τ ε))}
    {Post : Nat → Option (Datum τ ε) → Nat → Nat → Prop} (h : 𝐓 x y Post) :
    𝐓 (Env.nestedInDepth x) (Env.nestedInDepth y) Post := by
  intro s v s' hS hA hx
  simp only [Env.nestedInDepth] at hx
  rcases h1 : x { s with ndepth := s.ndepth + 1 } with ⟨o, s₁⟩
  rw [h1] at hx
  simp only at hx
  split at hx
  · cases hx
  · rename_i hd
    cases hx
    obtain ⟨h2, h3, k, h4, h5, h6⟩ := h { s with ndepth := s.ndepth + 1 } v s₁ hS hA h1
    refine ⟨h2, h3, k, h4, h5, fun hN t hs => ?_⟩
    obtain ⟨t', h7, h8⟩ := h6 hN { t with ndepth := t.ndepth + 1 }
      ⟨hs.strm, congrArg (· + 1) hs.ndepth, hs.alloc⟩
    refine ⟨{ t' with ndepth := t'.ndepth - 1 }, ?_, ⟨h8.strm, congrArg (· - 1) h8.ndepth, h8.alloc⟩⟩
    simp only [Env.nestedInDepth, h7]
    rw [if_neg (by rw [h8.ndepth]; exact hd)]

/-- The references in an optional datum. -/
def optRefs (refs : τ → Nat) (o : Option (Datum τ ε)) : Nat := (o.map (Datum.refs refs)).getD 0

omit C in
theorem mkList_refs (ds : List (Datum τ ε)) (d : Datum τ ε) :
    (mkList (ds ++ [d])).refs refs = (mkList ds).refs refs + 2 + d.refs refs := by
  induction ds with
  | nil => simp only [List.nil_append, mkList, Datum.refs]; omega
  | cons x ds ih =>
    simp only [List.cons_append, mkList, Datum.refs, ih]
    omega

theorem Cost.t_parse (n : Nat) :
    (∀ m, 𝐓 (E.parseNext n m) (E'.parseNext n m) (fun h v h' k => h = 0 → h' = 0 ∧ k = optRefs refs v)) ∧
    (𝐓 (E.parseNested n) (E'.parseNested n) (fun h v h' k => h = 0 → h' = 0 ∧ k = optRefs refs v)) ∧
    (∀ m acc, 𝐓 (E.parseAll n m acc) (E'.parseAll n m acc)
      (fun h v h' k => h = 0 → h' = 0 ∧ k + (mkList acc).refs refs = v.refs refs)) := by
  induction n with
  | zero =>
    refine ⟨fun _ => ?_, ?_, fun _ _ => ?_⟩ <;>
      simp only [Env.parseNext, Env.parseNested, Env.parseAll] <;> exact Tri.fuel
  | succ n ih =>
    obtain ⟨ih1, ih2, ih3⟩ := ih
    refine ⟨fun m => ?_, ?_, fun m acc => ?_⟩
    · simp only [Env.parseNext]
      refine Tri.bind (Post' := fun _ h v h' k => h = 0 → h' = 0 ∧ k = optRefs refs v)
        (C.t_skipLeading n m) ?_ ?_
      · intro _ _ _ _ _
        refine Tri.bind (Post' := fun _ h v h' k => h = 0 → h' = 0 ∧ k = optRefs refs v) C.t_peek ?_ ?_
        · rintro _ (_ | it) _ _ _
          · refine Tri.bind (Post' := fun _ h v h' k => h = 0 → h' = 0 ∧ k = optRefs refs v) Tri.getDepth ?_ ?_
            · intro _ d _ _ _
              exact Tri.ite (fun _ => Tri.pure fun _ h => ⟨h, rfl⟩) fun _ => Tri.throw
            · rintro h _ h₁ k v h₂ k' ⟨rfl, rfl⟩ h3 h4
              obtain ⟨rfl, rfl⟩ := h3 h4
              exact ⟨rfl, by omega⟩
          · simp only [C.cc]
            refine Tri.ite (fun _ => ?_) fun _ => Tri.ite (fun _ => ?_) fun _ => ?_
            · refine Tri.bind (Post' := fun o h v h' k => h = 0 → h' = 0 ∧ k + optRefs refs o = optRefs refs v)
                (Tri.nestedInDepth ih2) ?_ ?_
              · rintro _ (_ | d) _ _ _
                · refine (ih1 m).weaken ?_
                  rintro h v h' k h1 h2
                  obtain ⟨rfl, rfl⟩ := h1 h2
                  exact ⟨rfl, rfl⟩
                · exact Tri.pure fun _ h => ⟨h, by omega⟩
              · rintro h o h₁ k v h₂ k' h1 h2 h3
                obtain ⟨rfl, rfl⟩ := h1 h3
                obtain ⟨rfl, h4⟩ := h2 rfl
                exact ⟨rfl, by omega⟩
            · refine Tri.bind (Post' := fun _ h v h' k => h = 0 → h' = 0 ∧ k = optRefs refs v)
                C.t_checkEndChar (fun _ _ _ _ _ => Tri.pure fun _ h => ⟨h, rfl⟩) ?_
              rintro h _ h₁ k v h₂ k' ⟨rfl, rfl⟩ h3 h4
              obtain ⟨rfl, rfl⟩ := h3 h4
              exact ⟨rfl, by omega⟩
            · refine Tri.bind (Post' := fun t h v h' k => h' = h ∧ k = 0 ∧ v = some (.text t))
                (C.t_parseText n m) (fun _ _ _ _ _ => Tri.pure fun _ => ⟨rfl, rfl, rfl⟩) ?_
              rintro h t h₁ k v h₂ k' h1 ⟨rfl, rfl, rfl⟩ h3
              obtain ⟨rfl, rfl⟩ := h1 h3
              exact ⟨rfl, rfl⟩
        · rintro h _ h₁ k v h₂ k' ⟨rfl, rfl⟩ h3 h4
          obtain ⟨rfl, rfl⟩ := h3 h4
          exact ⟨rfl, by omega⟩
      · rintro h _ h₁ k v h₂ k' h1 h2 h3
        obtain ⟨rfl, rfl⟩ := h1 h3
        obtain ⟨rfl, rfl⟩ := h2 rfl
        exact ⟨rfl, by omega⟩
    · simp only [Env.parseNested, C.cc]
      refine Tri.bind (Post' := fun _ h v h' k => h = 0 → h' = 0 ∧ k = optRefs refs v) C.t_next ?_ ?_
      · intro _ start _ _ _
        refine Tri.bind (Post' := fun _ h v h' k => h = 0 → h' = 0 ∧ k = optRefs refs v) Tri.debugAssert ?_ ?_
        · intro _ _ _ _ _
          refine Tri.bind (Post' := fun o h v h' k => h = 0 → h' = 0 ∧ k + optRefs refs o = optRefs refs v)
            (ih1 .operator) ?_ ?_
          · intro _ operator _ _ _
            refine Tri.bind (Post' := fun _ h v h' k => h = 0 → h' = 0 ∧
              k + optRefs refs operator = optRefs refs v) C.t_skipSeparator ?_ ?_
            · intro _ _ _ _ _
              cases operator with
              | none =>
                refine Tri.bind (Post' := fun _ h v h' k => h' = h ∧ k = 0 ∧ v = some .emptyNest)
                  C.t_nestEnd (fun _ _ _ _ _ => Tri.pure fun _ => ⟨rfl, rfl, rfl⟩) ?_
                rintro h _ h₁ k v h₂ k' ⟨rfl, rfl⟩ ⟨rfl, rfl, rfl⟩ _
                exact ⟨rfl, rfl⟩
              | some d =>
                simp only [C.unbound, C.unbound']
                refine Tri.bind (Post' := fun l h v h' k => h = 0 → h' = 0 ∧ k = 2 ∧ v = some (.combination d l))
                  (ih3 .base []) ?_ ?_
                · intro _ l _ _ _
                  refine Tri.bind (Post' := fun _ h v h' k => h' = h ∧ k = 2 ∧ v = some (.combination d l))
                    C.t_nestEnd ?_ ?_
                  · intro _ _ _ _ _
                    refine Tri.bind (Post' := fun _ h v h' k => h' = h ∧ k = 1 ∧ v = some (.combination d l))
                      (C.t_newDatum d) ?_ ?_
                    · intro _ _ _ _ _
                      refine Tri.bind (Post' := fun _ h v h' k => h' = h ∧ k = 0 ∧ v = some (.combination d l))
                        (C.t_newDatum l) (fun _ _ _ _ _ => Tri.pure fun _ => ⟨rfl, rfl, rfl⟩) ?_
                      rintro h _ h₁ k v h₂ k' ⟨rfl, rfl⟩ ⟨rfl, rfl, rfl⟩
                      exact ⟨rfl, rfl, rfl⟩
                    · rintro h _ h₁ k v h₂ k' ⟨rfl, rfl⟩ ⟨rfl, rfl, rfl⟩
                      exact ⟨rfl, rfl, rfl⟩
                  · rintro h _ h₁ k v h₂ k' ⟨rfl, rfl⟩ ⟨rfl, rfl, rfl⟩ _
                    exact ⟨rfl, rfl, rfl⟩
                · rintro h l h₁ k v h₂ k' h1 h2 h3
                  obtain ⟨rfl, h4⟩ := h1 h3
                  obtain ⟨rfl, rfl, rfl⟩ := h2 rfl
                  refine ⟨rfl, ?_⟩
                  simp only [mkList, Datum.refs, optRefs, Option.map_some, Option.getD_some] at h4 ⊢
                  omega
            · rintro h _ h₁ k v h₂ k' h1 h2 h3
              obtain ⟨rfl, rfl⟩ := h1 h3
              obtain ⟨rfl, h4⟩ := h2 rfl
              exact ⟨rfl, by omega⟩
          · rintro h o h₁ k v h₂ k' h1 h2 h3
            obtain ⟨rfl, rfl⟩ := h1 h3
            obtain ⟨rfl, h4⟩ := h2 rfl
            exact ⟨rfl, by omega⟩
        · rintro h _ h₁ k v h₂ k' ⟨rfl, rfl⟩ h3 h4
          obtain ⟨rfl, rfl⟩ := h3 h4
          exact ⟨rfl, by omega⟩
      · rintro h _ h₁ k v h₂ k' ⟨rfl, rfl⟩ h3 _
        obtain ⟨rfl, rfl⟩ := h3 rfl
        exact ⟨rfl, by omega⟩
    · simp only [Env.parseAll]
      refine Tri.bind (Post' := fun o h v h' k => h = 0 → h' = 0 ∧
        k + optRefs refs o + (mkList acc).refs refs = v.refs refs) (ih1 m) ?_ ?_
      · rintro _ (_ | it) _ _ _
        · exact Tri.pure fun _ h => ⟨h, by simp [optRefs]⟩
        · refine Tri.bind (Post' := fun _ h v h' k => h = 0 → h' = 0 ∧
            k + 1 + it.refs refs + (mkList acc).refs refs = v.refs refs) (C.t_newDatum it) ?_ ?_
          · intro _ _ _ _ _
            refine Tri.bind (Post' := fun _ h v h' k => h = 0 → h' = 0 ∧
              k + 2 + it.refs refs + (mkList acc).refs refs = v.refs refs) (C.t_newDatum .emptyList) ?_ ?_
            · intro _ _ _ _ _
              refine Tri.bind (Post' := fun _ h v h' k => h = 0 → h' = 0 ∧
                k + 2 + it.refs refs + (mkList acc).refs refs = v.refs refs) C.t_getMutFresh ?_ ?_
              · intro _ b _ _ _
                refine Tri.ite (fun _ => ?_) fun _ => Tri.throw
                refine (ih3 m (acc ++ [it])).weaken ?_
                rintro h v h' k h1 h2
                obtain ⟨rfl, h3⟩ := h1 h2
                rw [mkList_refs] at h3
                exact ⟨rfl, by omega⟩
              · rintro h _ h₁ k v h₂ k' ⟨rfl, rfl⟩ h3 h4
                obtain ⟨rfl, h5⟩ := h3 h4
                exact ⟨rfl, by omega⟩
            · rintro h _ h₁ k v h₂ k' ⟨rfl, rfl⟩ h3 h4
              obtain ⟨rfl, h5⟩ := h3 h4
              exact ⟨rfl, by omega⟩
          · rintro h _ h₁ k v h₂ k' ⟨rfl, rfl⟩ h3 h4
            obtain ⟨rfl, h5⟩ := h3 h4
            refine ⟨rfl, ?_⟩
            simp only [optRefs, Option.map_some, Option.getD_some]
            omega
      · rintro h o h₁ k v h₂ k' h1 h2 h3
        obtain ⟨rfl, rfl⟩ := h1 h3
        obtain ⟨rfl, h4⟩ := h2 rfl
        exact ⟨rfl, by omega⟩

end

/-- A whole parse without errors: what it allocates is the references in its results, and
the limited parse yields the same if that fits. -/
theorem Cost.yields (C : Cost E E' N used held refs okS okT okA RB) {s : St σ α} {l s'}
    (h : E.Yields s l s') (hl : ∀ x ∈ l, ∃ d, x = .ok d) (hS : okS s.strm) (hA : okA s.alloc)
    (hh : held s.strm = 0) :
    okA s'.alloc ∧ used s'.alloc = used s.alloc + totalRefs refs l ∧
      (used s'.alloc ≤ N → ∀ t, SameSt RB s t → ∃ t', E'.Yields t l t' ∧ SameSt RB s' t') := by
  induction h with
  | @done s s' hc =>
    obtain ⟨n, h1, _⟩ := hc
    obtain ⟨_, h3, k, h4, h5, h6⟩ := (C.t_parse n).1 .base s none s' hS hA h1
    obtain ⟨_, rfl⟩ := h5 hh
    refine ⟨h3, h4, fun hN t hs => ?_⟩
    obtain ⟨t', h7, h8⟩ := h6 hN t hs
    exact ⟨t', .done ⟨n, h7, by simp⟩, h8⟩
  | @datum s d s₁ l s' hc _ ih =>
    obtain ⟨n, h1, _⟩ := hc
    obtain ⟨h2, h3, k, h4, h5, h6⟩ := (C.t_parse n).1 .base s (some d) s₁ hS hA h1
    obtain ⟨h5', rfl⟩ := h5 hh
    obtain ⟨g1, g2, g3⟩ := ih (fun x hx => hl x (by simp [hx])) h2 h3 h5'
    simp only [optRefs, Option.map_some, Option.getD_some] at h4
    refine ⟨g1, by simp only [totalRefs]; omega, fun hN t hs => ?_⟩
    obtain ⟨t₁, h7, h8⟩ := h6 (by omega) t hs
    obtain ⟨t', h9, h10⟩ := g3 hN t₁ h8
    exact ⟨t', .datum ⟨n, h7, by simp⟩ h9, h10⟩
  | error => obtain ⟨d, hd⟩ := hl _ (List.mem_cons_self ..); cases hd

end Kul
