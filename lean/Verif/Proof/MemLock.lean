import Verif.Model.Premade
import Verif.Spec.MemParser

/-! # Streams and texts do the same with corresponding allocators -/

namespace Kul

variable {C CS P τ ε α β : Type}

/-- Text types that differ in the allocators that they use, in lock step. -/
structure TextType.Lock (R : α → β → Prop) (T : TextType C τ α) (T' : TextType C τ β) : Prop where
  ofChunk : T.ofChunk = T'.ofChunk
  empty : T.empty = T'.empty
  concat : ∀ {a b}, R a b → ∀ t u, ∃ o a' b', T.concat t u a = (o, a') ∧ T'.concat t u b = (o, b') ∧ R a' b'

theorem textVec_lock (O : ChunkOps C CS P) (R : α → β → Prop) : (textVec α O).Lock R (textVec β O) where
  ofChunk := rfl
  empty := rfl
  concat := by
    intro a b h t u
    simp only [textVec, TextVec.concat]
    split
    · exact ⟨_, _, _, rfl, rfl, h⟩
    · split <;> exact ⟨_, _, _, rfl, rfl, h⟩
    · exact ⟨_, _, _, rfl, rfl, h⟩

theorem TextDatumList.link_lock {al : AllocOps (TextDatumList C ε) ε α} {al' : AllocOps (TextDatumList C ε) ε β}
    {R : α → β → Prop} (h : ∀ {a b}, R a b → ∀ t, ∃ o a' b', al.newDatum (.text t) a = (o, a') ∧
      al'.newDatum (.text t) b = (o, b') ∧ R a' b') :
    ∀ (t u : TextDatumList C ε) {a b}, R a b → ∃ o a' b', link al t u a = (o, a') ∧ link al' t u b = (o, b') ∧ R a' b'
  | .mk c none, u, a, b, hr => by
    obtain ⟨o, a', b', h1, h2, h3⟩ := h hr u
    cases o <;> simp only [link, h1, h2] <;> exact ⟨_, _, _, rfl, rfl, h3⟩
  | .mk c (some (.text t)), u, a, b, hr => by
    obtain ⟨o, a', b', h1, h2, h3⟩ := link_lock h t u hr
    cases o <;> simp only [link, h1, h2] <;> exact ⟨_, _, _, rfl, rfl, h3⟩
  | .mk c (some (.combination _ _)), u, a, b, hr => ⟨.panic, a, b, by simp [link], by simp [link], hr⟩
  | .mk c (some .emptyNest), u, a, b, hr => ⟨.panic, a, b, by simp [link], by simp [link], hr⟩
  | .mk c (some (.list _ _)), u, a, b, hr => ⟨.panic, a, b, by simp [link], by simp [link], hr⟩
  | .mk c (some .emptyList), u, a, b, hr => ⟨.panic, a, b, by simp [link], by simp [link], hr⟩
  | .mk c (some (.extra _)), u, a, b, hr => ⟨.panic, a, b, by simp [link], by simp [link], hr⟩

theorem textDatumList_lock (O : ChunkOps C CS P) {al : AllocOps (TextDatumList C ε) ε α}
    {al' : AllocOps (TextDatumList C ε) ε β} {R : α → β → Prop}
    (h : ∀ {a b}, R a b → ∀ t, ∃ o a' b', al.newDatum (.text t) a = (o, a') ∧
      al'.newDatum (.text t) b = (o, b') ∧ R a' b') :
    (textDatumList O al).Lock R (textDatumList O al') where
  ofChunk := rfl
  empty := rfl
  concat := by
    intro a b hr t u
    simp only [textDatumList, TextDatumList.concat]
    split
    · exact ⟨_, _, _, rfl, rfl, hr⟩
    · split
      · exact ⟨_, _, _, rfl, rfl, hr⟩
      · exact TextDatumList.link_lock h t u hr
      · exact ⟨_, _, _, rfl, rfl, hr⟩
    · exact ⟨_, _, _, rfl, rfl, hr⟩

/-- Streams that differ in the allocators that they use, in lock step. -/
structure StreamOps.Lock {σ : Type} (R : α → β → Prop) (S : StreamOps σ P τ α) (S' : StreamOps σ P τ β) : Prop where
  peek : S.peek = S'.peek
  next : S.next = S'.next
  nextAccum : ∀ {a b}, R a b → ∀ s, ∃ o s' a' b', S.nextAccum s a = (o, s', a') ∧
    S'.nextAccum s b = (o, s', b') ∧ R a' b'
  accumDone : ∀ {a b}, R a b → ∀ s, ∃ o s' a' b', S.accumDone s a = (o, s', a') ∧
    S'.accumDone s b = (o, s', b') ∧ R a' b'

variable {R : α → β → Prop}

theorem TextIter.nextAccumLoop_lock (O : ChunkOps C CS P) {T : TextType C τ α} {T' : TextType C τ β} (h : T.Lock R T') :
    ∀ cs cur acc {a b}, R a b → ∃ o s a' b', nextAccumLoop O T cs cur acc a = (o, s, a') ∧
      nextAccumLoop O T' cs cur acc b = (o, s, b') ∧ R a' b' := by
  intro cs
  induction cs with
  | nil =>
    intro cur acc a b hr
    cases cur with
    | none => exact ⟨_, _, _, _, by rw [nextAccumLoop], by rw [nextAccumLoop], hr⟩
    | some s =>
      rw [nextAccumLoop, nextAccumLoop]
      rcases O.nextAccum s with ⟨o, s⟩
      rcases o with (_ | x) | e | _ | _
      · simp only
        rcases O.accumDone s with ⟨o, s⟩
        rcases o with c | e | _ | _
        · obtain ⟨o, a', b', h1, h2, h3⟩ := h.concat hr (acc.getD T.empty) (T.ofChunk c)
          simp only [← h.empty, ← h.ofChunk, h1, h2]
          cases o <;> exact ⟨_, _, _, _, rfl, rfl, h3⟩
        all_goals exact ⟨_, _, _, _, rfl, rfl, hr⟩
      all_goals exact ⟨_, _, _, _, rfl, rfl, hr⟩
  | cons c' cs ih =>
    intro cur acc a b hr
    cases cur with
    | none => exact ⟨_, _, _, _, by rw [nextAccumLoop], by rw [nextAccumLoop], hr⟩
    | some s =>
      rw [nextAccumLoop, nextAccumLoop]
      rcases O.nextAccum s with ⟨o, s⟩
      rcases o with (_ | x) | e | _ | _
      · simp only
        rcases O.accumDone s with ⟨o, s⟩
        rcases o with c | e | _ | _
        · obtain ⟨o, a', b', h1, h2, h3⟩ := h.concat hr (acc.getD T.empty) (T.ofChunk c)
          simp only [← h.empty, ← h.ofChunk, h1, h2]
          cases o
          · exact ih _ _ h3
          all_goals exact ⟨_, _, _, _, rfl, rfl, h3⟩
        all_goals exact ⟨_, _, _, _, rfl, rfl, hr⟩
      all_goals exact ⟨_, _, _, _, rfl, rfl, hr⟩

theorem textIterOps_lock (O : ChunkOps C CS P) {T : TextType C τ α} {T' : TextType C τ β} (h : T.Lock R T') :
    (textIterOps O T).Lock R (textIterOps O T') where
  peek := rfl
  next := rfl
  nextAccum := by
    intro a b hr s
    obtain ⟨o, s', a', b', h1, h2, h3⟩ := TextIter.nextAccumLoop_lock O h s.nextChunks s.cur s.accum hr
    simp only [textIterOps, TextIter.nextAccum, h1, h2]
    exact ⟨_, _, _, _, rfl, rfl, h3⟩
  accumDone := by
    intro a b hr s
    simp only [textIterOps, TextIter.accumDone, ← h.empty, ← h.ofChunk]
    rcases s.cur with _ | c
    · exact ⟨_, _, _, _, rfl, rfl, hr⟩
    · simp only
      rcases O.accumDone c with ⟨o, s'⟩
      rcases o with c | e | _ | _
      · obtain ⟨o, a', b', h1, h2, h3⟩ := h.concat hr (s.accum.getD T.empty) (T.ofChunk c)
        simp only [h1, h2]
        exact ⟨_, _, _, _, rfl, rfl, h3⟩
      all_goals exact ⟨_, _, _, _, rfl, rfl, hr⟩

theorem StrishIter.nextAccumLoop_lock {T : TextType PosStrish τ α} {T' : TextType PosStrish τ β} (h : T.Lock R T')
    (n : Nat) : ∀ it {a b}, R a b → ∃ o s a' b', nextAccumLoop T n it a = (o, s, a') ∧
      nextAccumLoop T' n it b = (o, s, b') ∧ R a' b' := by
  induction n with
  | zero => intro it a b hr; exact ⟨_, _, _, _, rfl, rfl, hr⟩
  | succ n ih =>
    intro it a b hr
    rw [nextAccumLoop, nextAccumLoop]
    rcases it.cur with _ | s
    · exact ⟨_, _, _, _, rfl, rfl, hr⟩
    simp only
    rcases s.nextAccum with ⟨o, s⟩
    rcases o with (_ | x) | e | _ | _
    · simp only
      rcases s.accumDone with ⟨o, s⟩
      rcases o with c | e | _ | _
      · obtain ⟨o, a', b', h1, h2, h3⟩ := h.concat hr (it.accum.getD T.empty) (T.ofChunk c)
        simp only [← h.empty, ← h.ofChunk, h1, h2]
        cases o with
        | ok acc =>
          simp only
          rcases nextPosstrish { it with cur := some s, accum := some acc } with _ | it'
          · exact ⟨_, _, _, _, rfl, rfl, h3⟩
          · exact ih _ h3
        | _ => exact ⟨_, _, _, _, rfl, rfl, h3⟩
      all_goals exact ⟨_, _, _, _, rfl, rfl, hr⟩
    all_goals exact ⟨_, _, _, _, rfl, rfl, hr⟩

theorem strishIterOps_lock {T : TextType PosStrish τ α} {T' : TextType PosStrish τ β} (h : T.Lock R T') :
    (strishIterOps T).Lock R (strishIterOps T') where
  peek := rfl
  next := rfl
  nextAccum := fun hr s => StrishIter.nextAccumLoop_lock h _ s hr
  accumDone := by
    intro a b hr s
    simp only [strishIterOps, StrishIter.accumDone, ← h.empty, ← h.ofChunk]
    rcases s.cur with _ | c
    · exact ⟨_, _, _, _, rfl, rfl, hr⟩
    · simp only
      rcases c.accumDone with ⟨o, s'⟩
      rcases o with c | e | _ | _
      · obtain ⟨o, a', b', h1, h2, h3⟩ := h.concat hr (s.accum.getD T.empty) (T.ofChunk c)
        simp only [h1, h2]
        exact ⟨_, _, _, _, rfl, rfl, h3⟩
      all_goals exact ⟨_, _, _, _, rfl, rfl, hr⟩

end Kul
