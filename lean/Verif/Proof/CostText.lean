import Verif.Proof.Cost
import Verif.Proof.Texts

/-!
# The number of allocations of a parse of chunked texts

The streams of the characters of a text, with texts whose chunks are linked by datum
references, satisfy `Cost`.
-/

namespace Kul

variable {C CS P ε α β CE : Type}

/-- What `Cost` assumes of the allocators. -/
structure CostAlloc (al : AllocOps (TextDatumList C ε) ε α) (al' : AllocOps (TextDatumList C ε) ε β)
    (N : Nat) (used : α → Nat) (okA : α → Prop) (RB : α → β → Prop) : Prop where
  newDatum : ∀ d a a', okA a → al.newDatum d a = (.ok (), a') →
    okA a' ∧ used a' = used a + 1 ∧
      (used a' ≤ N → ∀ b, RB a b → ∃ b', al'.newDatum d b = (.ok (), b') ∧ RB a' b')
  getMutFresh : ∀ a b, RB a b → al'.getMutFresh b = al.getMutFresh a

namespace TextDatumList

/-- No chunk is empty, unless it is the only one. -/
def Tight (O : ChunkOps C CS P) (t : TextDatumList C ε) : Prop :=
  t.refs = 0 ∨ ∃ cs, t.chunks = .ok cs ∧ ∀ c ∈ cs, O.isEmpty c = .ok false

/-- A text has a reference between each chunk and the next. -/
theorem refs_chunks : ∀ (t : TextDatumList C ε) (cs : List C), t.chunks = .ok cs → t.refs + 1 = cs.length
  | .mk c none, cs, h => by
    simp only [chunks] at h
    cases h
    simp [refs]
  | .mk c (some (.text t)), cs, h => by
    simp only [chunks] at h
    rcases h1 : t.chunks with cs' | _ | _ | _ <;> rw [h1] at h <;> simp only at h <;> cases h
    have := refs_chunks t cs' h1
    simp only [refs, List.length_cons]
    omega
  | .mk c (some (.combination _ _)), _, h => by simp [chunks] at h
  | .mk c (some .emptyNest), _, h => by simp [chunks] at h
  | .mk c (some (.list _ _)), _, h => by simp [chunks] at h
  | .mk c (some .emptyList), _, h => by simp [chunks] at h
  | .mk c (some (.extra _)), _, h => by simp [chunks] at h

theorem link_cost (al : AllocOps (TextDatumList C ε) ε α) (al' : AllocOps (TextDatumList C ε) ε β) :
    ∀ (t u v : TextDatumList C ε) (a a' : α), link al t u a = (.ok v, a') →
    al.newDatum (.text u) a = (.ok (), a') ∧ v.refs = t.refs + 1 + u.refs ∧
      ∀ b b', al'.newDatum (.text u) b = (.ok (), b') → link al' t u b = (.ok v, b')
  | .mk c none, u, v, a, a', h => by
    simp only [link] at h
    rcases h1 : al.newDatum (.text u) a with ⟨_ | _, a₁⟩ <;> rw [h1] at h <;> simp only at h <;> cases h
    refine ⟨rfl, by simp [refs], fun b b' hb => ?_⟩
    simp only [link, hb]
  | .mk c (some (.text t)), u, v, a, a', h => by
    simp only [link] at h
    rcases h1 : link al t u a with ⟨v₁ | _ | _ | _, a₁⟩ <;> rw [h1] at h <;> simp only at h <;> cases h
    obtain ⟨h2, h3, h4⟩ := link_cost al al' t u v₁ a _ h1
    refine ⟨h2, by simp only [refs]; omega, fun b b' hb => ?_⟩
    simp only [link, h4 b b' hb]
  | .mk c (some (.combination _ _)), u, v, a, a', h => by simp [link] at h
  | .mk c (some .emptyNest), u, v, a, a', h => by simp [link] at h
  | .mk c (some (.list _ _)), u, v, a, a', h => by simp [link] at h
  | .mk c (some .emptyList), u, v, a, a', h => by simp [link] at h
  | .mk c (some (.extra _)), u, v, a, a', h => by simp [link] at h

theorem isEmpty_chunks {O : ChunkOps C CS P} {t : TextDatumList C ε} {x} (h : t.isEmpty O = .ok x) :
    ∃ cs, t.chunks = .ok cs ∧ allChunks O.isEmpty cs = .ok x := by
  simp only [isEmpty] at h
  rcases hc : t.chunks with cs | _ | _ | _ <;> rw [hc] at h <;> simp only at h
  · exact ⟨cs, rfl, h⟩
  · cases h
  · cases h
  · cases h

theorem Tight.empty {O : ChunkOps C CS P} {t : TextDatumList C ε} (h : t.Tight O) (he : t.isEmpty O = .ok true) :
    t.refs = 0 := by
  rcases h with h | ⟨cs, h1, h2⟩
  · exact h
  · obtain ⟨cs', h3, h4⟩ := isEmpty_chunks he
    rw [h1] at h3
    cases h3
    have := refs_chunks t cs h1
    cases cs with
    | nil => simp at this
    | cons c cs => simp [allChunks, h2 c List.mem_cons_self] at h4

theorem Tight.nonempty {O : ChunkOps C CS P} {t : TextDatumList C ε} (h : t.Tight O)
    (he : t.isEmpty O = .ok false) : ∃ cs, t.chunks = .ok cs ∧ ∀ c ∈ cs, O.isEmpty c = .ok false := by
  rcases h with h | h
  · obtain ⟨cs, h3, h4⟩ := isEmpty_chunks he
    have := refs_chunks t cs h3
    match cs with
    | [] => simp at this
    | [c] =>
      refine ⟨_, h3, fun c' hc => ?_⟩
      simp only [List.mem_singleton] at hc
      subst hc
      simp only [allChunks] at h4
      rcases hx : O.isEmpty c' with (_ | _) | e | _ | _ <;> rw [hx] at h4 <;> simp only at h4
      · cases h4
      · cases e
      · cases h4
      · cases h4
    | _ :: _ :: _ => simp at this; omega
  · exact h

theorem concat_cost {O : ChunkOps C CS P} {al : AllocOps (TextDatumList C ε) ε α}
    {al' : AllocOps (TextDatumList C ε) ε β} {N used okA RB} (A : CostAlloc al al' N used okA RB)
    {t u v : TextDatumList C ε} {a a' : α} (ht : t.Tight O) (hu : u.Tight O) (ha : okA a)
    (h : concat O al t u a = (.ok v, a')) :
    okA a' ∧ v.Tight O ∧ ∃ k, used a' = used a + k ∧ k + t.refs + u.refs = v.refs ∧
      (used a' ≤ N → ∀ b, RB a b → ∃ b', concat O al' t u b = (.ok v, b') ∧ RB a' b') := by
  simp only [concat] at h ⊢
  rcases h1 : t.isEmpty O with (_ | _) | e | _ | _ <;> rw [h1] at h <;> simp only at h ⊢
  · rcases h2 : u.isEmpty O with (_ | _) | e | _ | _ <;> rw [h2] at h <;> simp only at h ⊢
    · obtain ⟨g1, g2, g3⟩ := link_cost al al' t u v a a' h
      obtain ⟨g4, g5, g6⟩ := A.newDatum _ _ _ ha g1
      refine ⟨g4, .inr ?_, 1, g5, by omega, fun hN b hb => ?_⟩
      · obtain ⟨cs, c1, c2⟩ := ht.nonempty h1
        obtain ⟨cs', c3, c4⟩ := hu.nonempty h2
        obtain ⟨o, a₁, l1, l2, l3⟩ := link_spec al t u cs cs' a c1 c3
        rw [h] at l1
        cases l1
        rcases l3 with ⟨w, hw, hcs⟩ | ⟨_, e, he⟩
        · cases hw
          exact ⟨_, hcs, fun c hc => (List.mem_append.1 hc).elim (c2 c) (c4 c)⟩
        · cases he
      · obtain ⟨b', g7, g8⟩ := g6 hN b hb
        exact ⟨b', g3 b b' g7, g8⟩
    · cases h
      exact ⟨ha, ht, 0, rfl, by rw [hu.empty h2]; omega, fun _ b hb => ⟨b, rfl, hb⟩⟩
    · cases h
    · cases h
    · cases h
  · cases h
    exact ⟨ha, hu, 0, rfl, by rw [ht.empty h1]; omega, fun _ b hb => ⟨b, rfl, hb⟩⟩
  · cases h
  · cases h
  · cases h

end TextDatumList

open TextDatumList

variable {O : ChunkOps C CS P} {al : AllocOps (TextDatumList C ε) ε α}
    {al' : AllocOps (TextDatumList C ε) ε β} {N : Nat} {used : α → Nat} {okA : α → Prop} {RB : α → β → Prop}

/-- The references in what is accumulated. -/
def accRefs (acc : Option (TextDatumList C ε)) : Nat := (acc.map refs).getD 0

theorem nextAccumLoop_cost (A : CostAlloc al al' N used okA RB)
    (hO : ∀ c, (TextDatumList.mk c none : TextDatumList C ε).Tight O) (hE : (textDatumList O al).empty.Tight O) :
    ∀ (cs : List C) (cur : Option CS) (acc : Option (TextDatumList C ε)) (a : α) (o r a'),
      (∀ t ∈ acc, t.Tight O) → okA a →
      TextIter.nextAccumLoop O (textDatumList O al) cs cur acc a = (.ok o, r, a') →
      (∀ t ∈ r.2.2, t.Tight O) ∧ okA a' ∧ ∃ k, used a' = used a + k ∧
        k + accRefs acc = accRefs r.2.2 ∧
        (used a' ≤ N → ∀ b, RB a b →
          ∃ b', TextIter.nextAccumLoop O (textDatumList O al') cs cur acc b = (.ok o, r, b') ∧ RB a' b') := by
  have key : ∀ {acc : Option (TextDatumList C ε)} {c : C} {v a a'}, (∀ t ∈ acc, t.Tight O) → okA a →
      concat O al (acc.getD (.mk O.empty none)) (.mk c none) a = (.ok v, a') →
      okA a' ∧ v.Tight O ∧ ∃ k, used a' = used a + k ∧ k + accRefs acc = accRefs (some v) ∧
        (used a' ≤ N → ∀ b, RB a b →
          ∃ b', concat O al' (acc.getD (.mk O.empty none)) (.mk c none) b = (.ok v, b') ∧ RB a' b') := by
    intro acc c v a a' hacc ha h
    have ht : (acc.getD (.mk O.empty none)).Tight O := by
      cases acc with
      | none => exact hE
      | some t => exact hacc t rfl
    obtain ⟨h1, h2, k, h3, h4, h5⟩ := concat_cost A ht (hO c) ha h
    refine ⟨h1, h2, k, h3, ?_, h5⟩
    simp only [refs, accRefs, Option.map_some, Option.getD_some] at h4 ⊢
    cases acc <;> simpa [refs] using h4
  intro cs
  induction cs with
  | nil =>
    intro cur acc a o r a' hacc ha h
    cases cur with
    | none =>
      simp only [TextIter.nextAccumLoop] at h
      cases h
      exact ⟨hacc, ha, 0, rfl, by simp, fun _ b hb => ⟨b, by simp [TextIter.nextAccumLoop], hb⟩⟩
    | some s =>
      simp only [TextIter.nextAccumLoop, textDatumList] at h ⊢
      rcases h1 : O.nextAccum s with ⟨(_ | x) | e | _ | _, s₁⟩ <;> rw [h1] at h <;> simp only at h ⊢
      · rcases h2 : O.accumDone s₁ with ⟨c | e | _ | _, s₂⟩ <;> rw [h2] at h <;> simp only at h ⊢
        · rcases h3 : concat O al (acc.getD (.mk O.empty none)) (.mk c none) a with ⟨v | e | _ | _, a₁⟩ <;>
            rw [h3] at h <;> simp only at h
          · cases h
            obtain ⟨g1, g2, k, g3, g4, g5⟩ := key hacc ha h3
            refine ⟨by rintro t ⟨⟩; exact g2, g1, k, g3, g4, fun hN b hb => ?_⟩
            obtain ⟨b', g6, g7⟩ := g5 hN b hb
            exact ⟨b', by rw [g6], g7⟩
          · cases h
          · cases h
          · cases h
        · cases h
        · cases h
        · cases h
      · cases h
        exact ⟨hacc, ha, 0, rfl, by simp, fun _ b hb => ⟨b, rfl, hb⟩⟩
      · cases e
      · cases h
      · cases h
  | cons c' cs ih =>
    intro cur acc a o r a' hacc ha h
    cases cur with
    | none =>
      simp only [TextIter.nextAccumLoop] at h
      cases h
      exact ⟨hacc, ha, 0, rfl, by simp, fun _ b hb => ⟨b, by simp [TextIter.nextAccumLoop], hb⟩⟩
    | some s =>
      rw [TextIter.nextAccumLoop] at h
      conv => enter [2, 2, 1, k, 2, 2, hN, b, hb, 1, b', 1, 1]; rw [TextIter.nextAccumLoop]
      rcases h1 : O.nextAccum s with ⟨(_ | x) | e | _ | _, s₁⟩ <;> rw [h1] at h <;> simp only at h ⊢
      · rcases h2 : O.accumDone s₁ with ⟨c | e | _ | _, s₂⟩ <;> rw [h2] at h <;> simp only at h ⊢
        · rcases h3 : concat O al (acc.getD (.mk O.empty none)) (.mk c none) a with ⟨v | e | _ | _, a₁⟩ <;>
            simp only [textDatumList] at h <;>
            rw [h3] at h <;> simp only at h
          · obtain ⟨g1, g2, k, g3, g4, g5⟩ := key hacc ha h3
            obtain ⟨i1, i2, k', i3, i4, i5⟩ := ih (some (O.srcStrm c')) (some v) a₁ o r a'
              (by rintro t ⟨⟩; exact g2) g1 h
            refine ⟨i1, i2, k + k', by omega, by omega, fun hN b hb => ?_⟩
            obtain ⟨b', g6, g7⟩ := g5 (by omega) b hb
            obtain ⟨b'', i6, i7⟩ := i5 hN b' g7
            refine ⟨b'', ?_, i7⟩
            simp only [textDatumList] at i6 ⊢
            rw [g6]
            exact i6
          · cases h
          · cases h
          · cases h
        · cases h
        · cases h
        · cases h
      · cases h
        exact ⟨hacc, ha, 0, rfl, by simp, fun _ b hb => ⟨b, rfl, hb⟩⟩
      · cases e
      · cases h
      · cases h

/-- A parser on the characters of a text, with texts linked by datum references. -/
theorem textEnv_cost (A : CostAlloc al al' N used okA RB) (cc : Classifier) :
    Cost (textEnv (CE := CE) O (textDatumList O al) cc al fun _ => none)
      (textEnv (CE := CE) O (textDatumList O al') cc al' fun _ => none) N used
      (fun s : TextIter C CS P (TextDatumList C ε) => accRefs s.accum) refs
      (fun s => ∀ t ∈ s.accum, t.Tight O) (Tight O) okA RB := by
  have hO : ∀ c, (TextDatumList.mk c none : TextDatumList C ε).Tight O := fun c => .inl rfl
  have hE : (textDatumList O al).empty.Tight O := .inl rfl
  refine { cc := rfl, unbound := fun _ => rfl, unbound' := fun _ => rfl, peekEq := rfl, nextEq := rfl,
           emptyEq := rfl, empty := ⟨hE, rfl⟩, newDatum := A.newDatum, getMutFresh := A.getMutFresh,
           concat := fun t u a v a' ht hu ha h => concat_cost A ht hu ha h,
           peek := ?_, next := ?_, nextAccum := ?_, accumDone := ?_ }
  · intro s o s' hS h
    simp only [textEnv, textIterOps, TextIter.peek] at h
    have key : s'.accum = s.accum := by
      split at h
      · cases h; rfl
      · split at h
        · cases h; rfl
        · split at h
          · split at h <;> (injection h with _ h; subst h; rfl)
          · injection h with _ h; subst h; rfl
          · injection h with _ h; subst h; rfl
    rw [key]
    exact ⟨hS, rfl⟩
  · intro s o s' hS h
    simp only [textEnv, textIterOps, TextIter.next] at h
    injection h with _ h
    subst h
    exact ⟨by rintro t ⟨⟩, rfl⟩
  · intro s a o s' a' hS ha h
    simp only [textEnv, textIterOps, TextIter.nextAccum] at h ⊢
    rcases h1 : TextIter.nextAccumLoop O (textDatumList O al) s.nextChunks s.cur s.accum a with ⟨o₁, r, a₁⟩
    rw [h1] at h
    cases h
    obtain ⟨g1, g2, k, g3, g4, g5⟩ := nextAccumLoop_cost A hO hE _ _ _ _ _ _ _ hS ha h1
    refine ⟨g1, g2, k, g3, g4, fun hN b hb => ?_⟩
    obtain ⟨b', g6, g7⟩ := g5 hN b hb
    exact ⟨b', by rw [g6], g7⟩
  · intro s a t s' a' hS ha h
    simp only [textEnv, textIterOps, TextIter.accumDone] at h ⊢
    have ht : (s.accum.getD (textDatumList O al).empty).Tight O := by
      cases hacc : s.accum with
      | none => exact hE
      | some t => exact hS t hacc
    have hr : (s.accum.getD (textDatumList O al).empty).refs = accRefs s.accum := by
      cases s.accum <;> rfl
    rcases hcur : s.cur with _ | cur <;> rw [hcur] at h <;> simp only at h ⊢
    · cases h
      refine ⟨by rintro t ⟨⟩, ha, ht, rfl, 0, rfl, by rw [hr]; omega, fun _ b hb => ⟨b, rfl, hb⟩⟩
    · rcases h2 : O.accumDone cur with ⟨c | e | _ | _, s₂⟩ <;> rw [h2] at h <;> simp only at h ⊢
      · change (((textDatumList O al).concat _ (.mk c none) a).1, _,
          ((textDatumList O al).concat _ (.mk c none) a).2) = _ at h
        rcases h3 : (textDatumList O al).concat (s.accum.getD (textDatumList O al).empty) (.mk c none) a
          with ⟨v, a₁⟩
        rw [h3] at h
        cases h
        obtain ⟨g1, g2, k, g3, g4, g5⟩ := concat_cost A ht (hO c) ha h3
        refine ⟨by rintro t ⟨⟩, g1, g2, rfl, k, g3, by rw [hr] at g4; exact g4, fun hN b hb => ?_⟩
        obtain ⟨b', g6, g7⟩ := g5 hN b hb
        refine ⟨b', ?_, g7⟩
        change (((textDatumList O al').concat _ (.mk c none) b).1, _,
          ((textDatumList O al').concat _ (.mk c none) b).2) = _
        have g8 : (textDatumList O al').concat (s.accum.getD (textDatumList O al').empty) (.mk c none) b =
          (.ok t, b') := g6
        rw [g8]
      · cases h
      · cases h
      · cases h

end Kul
