import Verif.Spec.Release

/-! # Release builds do what debug builds do, unless these panic -/

namespace Kul

variable {σ P τ ε α CE A B : Type}

/-- In state `s`, `y` does what `x` does, unless that panics. -/
def UnlessPanicAt {S E A : Type} (s : S) (x y : Act S E A) : Prop := (x s).1 = .panic ∨ y s = x s

/-- In any state. -/
def UnlessPanic {S E A : Type} (x y : Act S E A) : Prop := ∀ s, UnlessPanicAt s x y

section

variable {S E : Type} {x y : Act S E A} {f g : A → Act S E B}

theorem UnlessPanicAt.refl (s : S) (x : Act S E A) : UnlessPanicAt s x x := Or.inr rfl

theorem UnlessPanic.refl (x : Act S E A) : UnlessPanic x x := fun _ => Or.inr rfl

theorem UnlessPanicAt.bind {s : S} (h : UnlessPanicAt s x y) (hf : ∀ v s', x s = (.ok v, s') → UnlessPanicAt s' (f v) (g v)) :
    UnlessPanicAt s (x >>= f) (y >>= g) := by
  change (Act.bind x f s).1 = .panic ∨ Act.bind y g s = Act.bind x f s
  unfold Act.bind
  rcases h with h | h
  · rcases hx : x s with ⟨o, s'⟩
    rw [hx] at h
    cases h
    exact Or.inl rfl
  · rw [h]
    rcases hx : x s with ⟨_ | _ | _ | _, s'⟩
    · exact hf _ _ hx
    all_goals exact Or.inr rfl

theorem UnlessPanicAt.bind' {s : S} (h : UnlessPanicAt s x y) (hf : ∀ v, UnlessPanic (f v) (g v)) :
    UnlessPanicAt s (x >>= f) (y >>= g) := h.bind fun v s' _ => hf v s'

theorem UnlessPanic.bind (h : UnlessPanic x y) (hf : ∀ v, UnlessPanic (f v) (g v)) : UnlessPanic (x >>= f) (y >>= g) :=
  fun s => (h s).bind' hf

theorem UnlessPanicAt.ite {s : S} {p : Prop} [Decidable p] {x' y' : Act S E A} (h : UnlessPanicAt s x y)
    (h' : UnlessPanicAt s x' y') : UnlessPanicAt s (if p then x else x') (if p then y else y') := by
  split
  · exact h
  · exact h'

/-- An assertion that is left out. -/
theorem UnlessPanicAt.assert {s : S} {b : Bool} {x y : Act S E A} (h : UnlessPanicAt s x y) :
    UnlessPanicAt s (Act.debugAssert b >>= fun _ => x) y := by
  cases b with
  | false => exact Or.inl rfl
  | true => exact h

end

section

variable {E : Env σ P τ ε α CE} {R : StreamOps σ P τ α} (W : Nat)

theorem liftEmpty_unless {f g : σ → Outcome Empty A × σ} (h : ∀ s, (f s).1 = .panic ∨ g s = f s) :
    UnlessPanic (liftEmpty (α := α) (E := Err P CE) f) (liftEmpty g) := by
  intro s
  unfold UnlessPanicAt liftEmpty
  rcases h s.strm with h | h
  · rcases hx : f s.strm with ⟨o, s'⟩
    rw [hx] at h
    cases h
    exact Or.inl rfl
  · rw [h]
    exact Or.inr rfl

theorem liftAccum_unless {f g : σ → α → Outcome AllocErr A × σ × α} (h : ∀ s a, (f s a).1 = .panic ∨ g s a = f s a) :
    UnlessPanic (liftAccum (P := P) (CE := CE) f) (liftAccum g) := by
  intro s
  unfold UnlessPanicAt liftAccum
  rcases h s.strm s.alloc with h | h
  · rcases hx : f s.strm s.alloc with ⟨o, s', a'⟩
    rw [hx] at h
    cases h
    exact Or.inl rfl
  · rw [h]
    exact Or.inr rfl

variable (H : E.strm.SameUnlessPanic R)

include H

theorem rel_next : UnlessPanic E.next (E.withStream R).next := liftEmpty_unless H.next

theorem rel_peek : UnlessPanic E.peek (E.withStream R).peek := liftEmpty_unless H.peek

theorem rel_nextAccum : UnlessPanic E.nextAccum (E.withStream R).nextAccum := liftAccum_unless H.nextAccum

theorem rel_concatAccum (t : τ) : UnlessPanic (E.concatAccum t) ((E.withStream R).concatAccum t) :=
  .bind (liftAccum_unless H.accumDone) fun _ => .refl _

theorem rel_finishText (t : τ) (n : Nat) : UnlessPanic (E.finishText t n) ((E.withStream R).finishText t n) := by
  unfold Env.finishText
  exact fun s => .ite (rel_concatAccum H t s) (.refl _ _)

theorem rel_skipWhitespace (n : Nat) : UnlessPanic (E.skipWhitespace n) ((E.withStream R).skipWhitespace n) := by
  induction n with
  | zero => exact .refl _
  | succ n ih =>
    refine .bind (rel_peek H) fun o => ?_
    cases o with
    | none => exact .refl _
    | some it => exact fun s => .ite (UnlessPanicAt.bind' (rel_next H s) fun _ => ih) (.refl _ _)

theorem rel_skipLeading (n : Nat) (m : Mode) : UnlessPanic (E.skipLeading n m) ((E.withStream R).skipLeading n m) := by
  unfold Env.skipLeading
  exact fun s => .ite (rel_skipWhitespace H n s) (.refl _ _)

theorem rel_skipSeparator : UnlessPanic E.skipSeparator (E.withStream R).skipSeparator := by
  refine .bind (rel_peek H) fun o => ?_
  cases o with
  | none => exact .refl _
  | some it => exact fun s => .ite (UnlessPanicAt.bind' (rel_next H s) fun _ => .refl _) (.refl _ _)

theorem rel_nestEnd : UnlessPanic E.nestEnd (E.withStream R).relNestEnd := by
  refine .bind (rel_next H) fun o => ?_
  cases o with
  | none => exact .refl _
  | some it =>
    intro s
    simp only [UnlessPanicAt, Act.debugAssert]
    split
    · exact Or.inr rfl
    · exact Or.inl rfl

variable (Q : E.strm.Repeats)

include Q

/-- What comes after a peek can rely on that it was done. -/
theorem rel_peeked {f g : Option (Item P) → Act (St σ α) (Err P CE) A}
    (h : ∀ o s, E.strm.peek s.strm = (.ok o, s.strm) → UnlessPanicAt s (f o) (g o)) :
    UnlessPanic (E.peek >>= f) ((E.withStream R).peek >>= g) := by
  refine fun s => (rel_peek H s).bind fun o s' hp => h o s' ?_
  unfold Env.peek liftEmpty at hp
  rcases hx : E.strm.peek s.strm with ⟨_ | e | _ | _, s₁⟩
  · rw [hx] at hp
    cases hp
    exact Q _ _ _ hx
  · exact e.elim
  · rw [hx] at hp; cases hp
  · rw [hx] at hp; cases hp

omit Q in
theorem rel_checkEndChar {s : St σ α} {o} (hp : E.strm.peek s.strm = (.ok o, s.strm)) :
    UnlessPanicAt s E.checkEndChar (E.withStream R).relCheckEndChar := by
  have e : E.peek s = ((.ok o, s) : Outcome (Err P CE) _ × _) := by
    unfold Env.peek liftEmpty
    rw [hp]
    rfl
  have e2 : E.checkEndChar s = (Act.debugAssert (o.map (fun it => E.cc.isNestEnd it.ch) == some true) >>= fun _ =>
      (Env.getDepth >>= fun d => if d > 0 then pure () else E.next >>= fun n => match n with
        | none => Act.panic
        | some n => Act.throw (.unbalancedEndChar n.pos) : Act (St σ α) (Err P CE) Unit)) s := by
    change Act.bind E.peek _ s = _
    unfold Act.bind
    rw [e]
    rfl
  unfold UnlessPanicAt
  rw [e2]
  refine UnlessPanicAt.assert (UnlessPanicAt.bind' (.refl _ _) fun d s => .ite (.refl _ _) (.bind' (rel_next H s) fun o => ?_))
  cases o <;> exact .refl _

theorem rel_parseTextLoop (m : Mode) (n : Nat) (t : τ) (k : Nat) :
    UnlessPanic (E.parseTextLoop m n t k) ((E.withStream R).relParseTextLoop m n t k) := by
  induction n generalizing t k with
  | zero => exact .refl _
  | succ n ih =>
    refine rel_peeked H Q fun o s hp => ?_
    cases o with
    | none => exact rel_finishText H t k s
    | some it =>
      refine .ite (rel_finishText H t k s) (.ite ?_ (.ite ?_ (.ite (.ite ?_ ?_) ?_)))
      · exact .bind' (rel_concatAccum H t s) fun t => .bind (rel_next H) fun _ => .bind (rel_nextAccum H) fun _ => ih _ _
      · exact .bind' (rel_nextAccum H s) fun _ => ih _ _
      · exact .bind' (rel_nextAccum H s) fun _ => ih _ _
      · exact .bind' (rel_checkEndChar H hp) fun _ => rel_finishText H t k
      · exact .bind' (rel_nextAccum H s) fun _ => ih _ _

omit H Q in
theorem rel_nested {x y : Act (St σ α) (Err P CE) A} (h : UnlessPanic x y) :
    UnlessPanic (Env.nestedInDepth x) (Env.relNestedInDepth W y) := by
  intro s
  unfold UnlessPanicAt Env.nestedInDepth Env.relNestedInDepth
  rcases h { s with ndepth := s.ndepth + 1 } with h | h
  · rcases hx : x { s with ndepth := s.ndepth + 1 } with ⟨o, s'⟩
    rw [hx] at h
    cases h
    left
    simp only
    split <;> rfl
  · rw [h]
    rcases x { s with ndepth := s.ndepth + 1 } with ⟨o, s'⟩
    simp only
    split
    · exact Or.inl rfl
    · right
      rw [subWrap, if_pos (by omega)]

theorem rel_parse (n : Nat) :
    (∀ m, UnlessPanic (E.parseNext n m) ((E.withStream R).relParseNext W n m)) ∧
    UnlessPanic (E.parseNested n) ((E.withStream R).relParseNested W n) ∧
    (∀ m acc, UnlessPanic (E.parseAll n m acc) ((E.withStream R).relParseAll W n m acc)) := by
  induction n with
  | zero =>
    refine ⟨fun m => ?_, ?_, fun m acc => ?_⟩
    · unfold Env.parseNext Env.relParseNext; exact .refl _
    · unfold Env.parseNested Env.relParseNested; exact .refl _
    · unfold Env.parseAll Env.relParseAll; exact .refl _
  | succ n ih =>
    obtain ⟨ihn, ihd, iha⟩ := ih
    refine ⟨fun m => ?_, ?_, fun m acc => ?_⟩
    · unfold Env.parseNext Env.relParseNext
      refine .bind (rel_skipLeading H n m) fun _ => rel_peeked H Q fun o s hp => ?_
      cases o with
      | none => exact .refl _ _
      | some it =>
        refine .ite (.bind' (rel_nested W ihd s) fun o => ?_) (.ite (.bind' (rel_checkEndChar H hp) fun _ => .refl _)
          (.bind' (rel_parseTextLoop H Q m n _ _ s) fun _ => .refl _))
        cases o with
        | none => exact ihn m
        | some d => exact .refl _
    · unfold Env.parseNested Env.relParseNested
      refine .bind (rel_next H) fun _ s => .assert (.bind' (ihn _ s) fun o => .bind (rel_skipSeparator H) fun _ => ?_)
      cases o with
      | none => exact .bind (rel_nestEnd H) fun _ => .refl _
      | some d =>
        simp only
        rcases E.lookup d with _ | (f | f)
        rotate_left
        · exact .bind (rel_parseTextLoop H Q _ n _ _) fun _ => .bind (rel_nestEnd H) fun _ => .refl _
        · exact .bind (iha _ _) fun _ => .bind (rel_nestEnd H) fun _ => .refl _
        · exact .bind (iha _ _) fun _ => .bind (rel_nestEnd H) fun _ => .refl _
    · unfold Env.parseAll Env.relParseAll
      refine .bind (ihn _) fun o => ?_
      cases o with
      | none => exact .refl _
      | some d => exact .bind (.refl _) fun _ => .bind (.refl _) fun _ => .bind (.refl _) fun m s => .ite (iha _ _ s) (.refl _ _)

end

/-! ## The provided streams -/

section

variable {C CS : Type}

/-- The same for streams of chunks. -/
def ChunkOps.Repeats (O : ChunkOps C CS P) : Prop := ∀ s o s', O.peek s = (.ok o, s') → O.peek s' = (.ok o, s')

theorem textIter_repeats {O : ChunkOps C CS P} (hO : O.Repeats) (T : TextType C τ α) : (textIterOps O T).Repeats := by
  rintro ⟨cur, cs, acc, pk⟩ o s' h
  simp only [textIterOps, TextIter.peek] at h ⊢
  cases pk with
  | some x => simp only [Prod.mk.injEq] at h; obtain ⟨h1, rfl⟩ := h; simp only [h1]
  | none =>
    cases cur with
    | none => simp only [Prod.mk.injEq] at h; obtain ⟨h1, rfl⟩ := h; simp only [h1]
    | some s =>
      simp only at h
      rcases hp : O.peek s with ⟨o₁ | e | _ | _, s₁⟩
      · rw [hp] at h
        cases o₁ with
        | some x =>
          simp only [Prod.mk.injEq, Outcome.ok.injEq] at h
          obtain ⟨rfl, rfl⟩ := h
          rfl
        | none =>
          simp only at h
          rcases ha : TextIter.peekAhead O cs with o₂ | e | _ | _
          · rw [ha] at h
            simp only [Prod.mk.injEq, Outcome.ok.injEq] at h
            obtain ⟨rfl, rfl⟩ := h
            cases o₂ with
            | some x => rfl
            | none => simp only [hO _ _ _ hp, ha]
          · exact e.elim
          · rw [ha] at h; cases h
          · rw [ha] at h; cases h
      · exact e.elim
      · rw [hp] at h; cases h
      · rw [hp] at h; cases h

theorem posStr_repeats : posStrOps.Repeats := by
  intro s o s' h
  simp only [posStrOps, PosStrIter.peek, Prod.mk.injEq] at h ⊢
  obtain ⟨h, rfl⟩ := h
  exact ⟨h, trivial⟩

theorem PosStrishIter.peek_repeats {s : PosStrishIter} {o s'} (h : s.peek = (.ok o, s')) : s'.peek = (.ok o, s') := by
  unfold PosStrishIter.peek at h
  split at h
  · next x hx =>
    cases h
    simp only [PosStrishIter.peek, hx]
  · next hx =>
    split at h
    · next o₁ it hd =>
      simp only [Prod.mk.injEq, Outcome.ok.injEq] at h
      obtain ⟨rfl, rfl⟩ := h
      cases o₁ with
      | some x => rfl
      | none =>
        unfold PosStrishIter.doNextNoPeeked at hd
        split at hd
        · cases hd
        · next hs =>
          cases hd
          simp only [PosStrishIter.peek, PosStrishIter.doNextNoPeeked, hs]
        · cases hd
    · next hne _ => cases h; exact (hne _ rfl).elim

theorem posStrish_repeats : posStrishOps.Repeats := fun _ _ _ h => PosStrishIter.peek_repeats h

theorem charIter_repeats (T : TextType PosStrish τ α) : (charIterOps T).Repeats := by
  intro s o s' h
  simp only [charIterOps, CharIter.peek, Prod.mk.injEq] at h ⊢
  obtain ⟨h, rfl⟩ := h
  exact ⟨h, trivial⟩

theorem strishIter_repeats (T : TextType PosStrish τ α) : (strishIterOps T).Repeats := by
  rintro ⟨cur, ci, ss, pk, acc⟩ o s' h
  simp only [strishIterOps, StrishIter.peek] at h ⊢
  cases cur with
  | none => simp only [Prod.mk.injEq] at h; obtain ⟨h1, rfl⟩ := h; simp only [h1]
  | some s =>
    simp only at h
    rcases hp : s.peek with ⟨o₁ | e | _ | _, s₁⟩
    · rw [hp] at h
      have hp' := PosStrishIter.peek_repeats hp
      cases o₁ with
      | some x =>
        simp only [Prod.mk.injEq, Outcome.ok.injEq] at h
        obtain ⟨rfl, rfl⟩ := h
        simp only [hp']
      | none =>
        simp only at h
        cases pk with
        | some p =>
          simp only at h
          rcases hq : p.peek with ⟨o₂, p'⟩
          rw [hq] at h
          simp only [Prod.mk.injEq] at h
          obtain ⟨rfl, rfl⟩ := h
          simp only [hp', PosStrishIter.peek_repeats hq]
        | none =>
          simp only at h
          rcases hn : StrishIter.nextPosstrishOf ci ss with ⟨p, ss'⟩
          rw [hn] at h
          cases p with
          | none =>
            simp only [Prod.mk.injEq, Outcome.ok.injEq] at h
            obtain ⟨rfl, rfl⟩ := h
            have hn' : StrishIter.nextPosstrishOf ci ss' = (none, ss') := by
              clear hp hp'
              induction ss with
              | nil => cases hn; rfl
              | cons x ss ih =>
                unfold StrishIter.nextPosstrishOf at hn
                split at hn
                · cases hn
                · exact ih hn
            simp only [hp', hn']
          | some p =>
            simp only at h
            rcases hq : p.peek with ⟨o₂, p'⟩
            rw [hq] at h
            simp only [Prod.mk.injEq] at h
            obtain ⟨rfl, rfl⟩ := h
            simp only [hp', PosStrishIter.peek_repeats hq]
    · exact e.elim
    · rw [hp] at h; cases h
    · rw [hp] at h; cases h

theorem PosStrishIter.rel_nextAccum (W : Nat) (s : PosStrishIter) :
    s.nextAccum.1 = .panic ∨ s.relNextAccum W = s.nextAccum := by
  unfold PosStrishIter.nextAccum PosStrishIter.relNextAccum
  rcases s.doNext with ⟨(_ | x) | e | _ | _, it⟩
  · exact Or.inr rfl
  · simp only
    rcases it.accum with _ | ⟨a, b, c⟩
    · simp only
      split
      · next h =>
        right
        simp only [subWrap, if_pos h.1, if_pos h.2]
      · exact Or.inl rfl
    · exact Or.inr rfl
  · exact e.elim
  · exact Or.inl rfl
  · exact Or.inr rfl

theorem PosStrishIter.rel_accumDone (s : PosStrishIter) : s.accumDone.1 = .panic ∨ s.relAccumDone = s.accumDone := by
  unfold PosStrishIter.accumDone PosStrishIter.relAccumDone RefCntSlice.slice RefCntSlice.relSlice
  rcases s.accum with _ | ⟨a, b, c⟩
  · exact Or.inr rfl
  · simp only
    by_cases h : a ≤ b ∧ s.chunk.val.start ≤ s.chunk.val.end ∧ b ≤ s.chunk.val.end - s.chunk.val.start
    · rw [if_pos h]
      exact Or.inr rfl
    · rw [if_neg h]
      exact Or.inl rfl

theorem StrishIter.rel_nextPosstrish {it it' : StrishIter τ} (h : nextPosstrish it = some it') :
    relNextPosstrish it = it' := by
  unfold nextPosstrish at h
  split at h
  · cases h
  · split at h
    · unfold relNextPosstrish
      split at h
      · next hp => cases h; simp only [hp]
      · next hp => cases h; simp only [hp]
    · cases h

theorem StrishIter.rel_nextLoop (n : Nat) (it : StrishIter τ) :
    (nextLoop n it).1 = .panic ∨ relNextLoop n it = nextLoop n it := by
  induction n generalizing it with
  | zero => exact Or.inr rfl
  | succ n ih =>
    unfold nextLoop relNextLoop
    cases it.cur with
    | none => exact Or.inr rfl
    | some s =>
      simp only
      rcases s.next with ⟨(_ | x) | e | _ | _, s'⟩
      · simp only
        cases hn : nextPosstrish { it with cur := some s' } with
        | none => exact Or.inl rfl
        | some it' =>
          simp only
          rw [rel_nextPosstrish hn]
          exact ih it'
      · exact Or.inr rfl
      · exact e.elim
      · exact Or.inl rfl
      · exact Or.inr rfl

theorem StrishIter.rel_nextAccumLoop (W : Nat) (T : TextType PosStrish τ α) (n : Nat) (it : StrishIter τ) (a : α) :
    (nextAccumLoop T n it a).1 = .panic ∨ relNextAccumLoop W T n it a = nextAccumLoop T n it a := by
  induction n generalizing it a with
  | zero => exact Or.inr rfl
  | succ n ih =>
    unfold nextAccumLoop relNextAccumLoop
    cases it.cur with
    | none => exact Or.inr rfl
    | some s =>
      simp only
      rcases s.rel_nextAccum W with h | h
      · rcases hx : s.nextAccum with ⟨o, s'⟩
        rw [hx] at h
        cases h
        exact Or.inl rfl
      rw [h]
      rcases s.nextAccum with ⟨(_ | x) | e | _ | _, s'⟩
      · simp only
        rcases s'.rel_accumDone with h | h
        · rcases hx : s'.accumDone with ⟨o, s''⟩
          rw [hx] at h
          cases h
          exact Or.inl rfl
        rw [h]
        rcases s'.accumDone with ⟨c | e | _ | _, s''⟩
        · simp only
          rcases T.concat (it.accum.getD T.empty) (T.ofChunk c) a with ⟨acc | e | _ | _, a'⟩
          · simp only
            cases hn : nextPosstrish { it with cur := some s'', accum := some acc } with
            | none => exact Or.inl rfl
            | some it' =>
              simp only
              rw [rel_nextPosstrish hn]
              exact ih it' a'
          all_goals exact Or.inr rfl
        · exact e.elim
        · exact Or.inl rfl
        · exact Or.inr rfl
      · exact Or.inr rfl
      · exact e.elim
      · exact Or.inl rfl
      · exact Or.inr rfl

theorem strishIter_same (W : Nat) (T : TextType PosStrish τ α) : (strishIterOps T).SameUnlessPanic (strishIterRel W T) where
  peek _ := Or.inr rfl
  next s := StrishIter.rel_nextLoop _ _
  nextAccum s a := StrishIter.rel_nextAccumLoop W T _ s a
  accumDone s a := by
    simp only [strishIterOps, strishIterRel, StrishIter.accumDone, StrishIter.relAccumDone]
    cases s.cur with
    | none => exact Or.inr rfl
    | some c =>
      simp only
      rcases c.rel_accumDone with h | h
      · rcases hx : c.accumDone with ⟨o, s''⟩
        rw [hx] at h
        cases h
        exact Or.inl rfl
      · rw [h]
        exact Or.inr rfl

/-- Chunk types of which only the accumulating differs, and only where the first panics. -/
structure ChunkOps.RelOf (O O' : ChunkOps C CS P) : Prop where
  eq : O' = { O with nextAccum := O'.nextAccum, accumDone := O'.accumDone }
  nextAccum : ∀ s, (O.nextAccum s).1 = .panic ∨ O'.nextAccum s = O.nextAccum s
  accumDone : ∀ s, (O.accumDone s).1 = .panic ∨ O'.accumDone s = O.accumDone s

theorem ChunkOps.RelOf.peek {O O' : ChunkOps C CS P} (h : O.RelOf O') : O'.peek = O.peek := by rw [h.eq]

theorem ChunkOps.RelOf.next {O O' : ChunkOps C CS P} (h : O.RelOf O') : O'.next = O.next := by rw [h.eq]

theorem ChunkOps.RelOf.srcStrm {O O' : ChunkOps C CS P} (h : O.RelOf O') : O'.srcStrm = O.srcStrm := by rw [h.eq]

theorem ChunkOps.RelOf.refl (O : ChunkOps C CS P) : O.RelOf O := ⟨rfl, fun _ => Or.inr rfl, fun _ => Or.inr rfl⟩

theorem textIter_rel_nextAccumLoop {O O' : ChunkOps C CS P} (hO : O.RelOf O') (T : TextType C τ α) (cs : List C)
    (cur : Option CS) (acc : Option τ) (a : α) :
    (TextIter.nextAccumLoop O T cs cur acc a).1 = .panic ∨
      TextIter.nextAccumLoop O' T cs cur acc a = TextIter.nextAccumLoop O T cs cur acc a := by
  induction cs generalizing cur acc a with
  | nil =>
    cases cur with
    | none => unfold TextIter.nextAccumLoop; exact Or.inr rfl
    | some s =>
      unfold TextIter.nextAccumLoop
      rcases hO.nextAccum s with h | h
      · rcases hx : O.nextAccum s with ⟨o, s'⟩
        rw [hx] at h
        cases h
        exact Or.inl rfl
      rw [h]
      rcases O.nextAccum s with ⟨(_ | x) | e | _ | _, s'⟩
      · simp only
        rcases hO.accumDone s' with h | h
        · rcases hx : O.accumDone s' with ⟨o, s''⟩
          rw [hx] at h
          cases h
          exact Or.inl rfl
        rw [h]
        exact Or.inr rfl
      · exact Or.inr rfl
      · exact e.elim
      · exact Or.inl rfl
      · exact Or.inr rfl
  | cons c₀ cs ih =>
    cases cur with
    | none => unfold TextIter.nextAccumLoop; exact Or.inr rfl
    | some s =>
      unfold TextIter.nextAccumLoop
      rcases hO.nextAccum s with h | h
      · rcases hx : O.nextAccum s with ⟨o, s'⟩
        rw [hx] at h
        cases h
        exact Or.inl rfl
      rw [h]
      rcases O.nextAccum s with ⟨(_ | x) | e | _ | _, s'⟩
      · simp only
        rcases hO.accumDone s' with h | h
        · rcases hx : O.accumDone s' with ⟨o, s''⟩
          rw [hx] at h
          cases h
          exact Or.inl rfl
        rw [h, hO.srcStrm]
        rcases O.accumDone s' with ⟨c | e | _ | _, s''⟩
        · simp only
          rcases T.concat (acc.getD T.empty) (T.ofChunk c) a with ⟨acc' | e | _ | _, a'⟩
          · exact ih _ _ _
          all_goals exact Or.inr rfl
        · exact e.elim
        · exact Or.inl rfl
        · exact Or.inr rfl
      · exact Or.inr rfl
      · exact e.elim
      · exact Or.inl rfl
      · exact Or.inr rfl

theorem textIter_rel_nextLoop {O O' : ChunkOps C CS P} (hO : O.RelOf O') (cs : List C) (cur : Option CS) :
    TextIter.nextLoop O' cs cur = TextIter.nextLoop O cs cur := by
  induction cs generalizing cur with
  | nil => cases cur <;> (unfold TextIter.nextLoop; simp only [hO.next])
  | cons c cs ih =>
    cases cur with
    | none => unfold TextIter.nextLoop; rfl
    | some s =>
      unfold TextIter.nextLoop
      simp only [hO.next, hO.srcStrm, ih]

theorem textIter_rel_peekAhead {O O' : ChunkOps C CS P} (hO : O.RelOf O') (cs : List C) :
    TextIter.peekAhead O' cs = TextIter.peekAhead O cs := by
  induction cs with
  | nil => rfl
  | cons c cs ih =>
    unfold TextIter.peekAhead
    rw [ih, hO.peek, hO.srcStrm]

theorem textIter_same {O O' : ChunkOps C CS P} (hO : O.RelOf O') (T : TextType C τ α) :
    (textIterOps O T).SameUnlessPanic (textIterOps O' T) where
  peek s := by
    right
    simp only [textIterOps, TextIter.peek, textIter_rel_peekAhead hO, hO.peek]
  next s := by
    right
    simp only [textIterOps, TextIter.next, textIter_rel_nextLoop hO]
  nextAccum s a := by
    simp only [textIterOps, TextIter.nextAccum]
    rcases textIter_rel_nextAccumLoop hO T s.nextChunks s.cur s.accum a with h | h
    · left
      exact h
    · rw [h]
      exact Or.inr rfl
  accumDone s a := by
    simp only [textIterOps, TextIter.accumDone]
    cases s.cur with
    | none => exact Or.inr rfl
    | some c =>
      simp only
      rcases hO.accumDone c with h | h
      · rcases hx : O.accumDone c with ⟨o, s''⟩
        rw [hx] at h
        cases h
        exact Or.inl rfl
      · rw [h]
        exact Or.inr rfl

theorem posStrish_relOf (W : Nat) : posStrishOps.RelOf (posStrishRel W) :=
  ⟨rfl, PosStrishIter.rel_nextAccum W, PosStrishIter.rel_accumDone⟩

/-! ### The same with states -/

section

variable {S : Type}

theorem stateIter_rel_advance (N : ChunksState C S) {O O' : ChunkOps C CS P} (hO : O.RelOf O') (st : Option S) :
    StateIter.advance N O' st = StateIter.advance N O st := by
  unfold StateIter.advance
  rw [hO.srcStrm]

theorem stateIter_rel_nextLoop (N : ChunksState C S) {O O' : ChunkOps C CS P} (hO : O.RelOf O') (n : Nat)
    (st : Option S) (cur : Option CS) : StateIter.nextLoop N O' n st cur = StateIter.nextLoop N O n st cur := by
  induction n generalizing st cur with
  | zero => rfl
  | succ n ih =>
    cases cur with
    | none => rfl
    | some s =>
      unfold StateIter.nextLoop
      simp only [hO.next, stateIter_rel_advance N hO, ih]

theorem stateIter_rel_peekLoop (N : ChunksState C S) {O O' : ChunkOps C CS P} (hO : O.RelOf O') (n : Nat)
    (st : Option S) (cur : Option CS) : StateIter.peekLoop N O' n st cur = StateIter.peekLoop N O n st cur := by
  induction n generalizing st cur with
  | zero => rfl
  | succ n ih =>
    cases cur with
    | none => rfl
    | some s =>
      unfold StateIter.peekLoop
      simp only [hO.peek, stateIter_rel_advance N hO, ih]

theorem stateIter_rel_nextAccumLoop (N : ChunksState C S) {O O' : ChunkOps C CS P} (hO : O.RelOf O') (T : TextType C τ α)
    (n : Nat) (st : Option S) (cur : Option CS) (acc : Option τ) (a : α) :
    (StateIter.nextAccumLoop N O T n st cur acc a).1 = .panic ∨
      StateIter.nextAccumLoop N O' T n st cur acc a = StateIter.nextAccumLoop N O T n st cur acc a := by
  induction n generalizing st cur acc a with
  | zero => exact Or.inr rfl
  | succ n ih =>
    cases cur with
    | none => exact Or.inr rfl
    | some s =>
      unfold StateIter.nextAccumLoop
      rcases hO.nextAccum s with h | h
      · rcases hx : O.nextAccum s with ⟨o, s'⟩
        rw [hx] at h
        cases h
        exact Or.inl rfl
      rw [h]
      rcases O.nextAccum s with ⟨(_ | x) | e | _ | _, s'⟩
      · simp only
        rcases hO.accumDone s' with h | h
        · rcases hx : O.accumDone s' with ⟨o, s''⟩
          rw [hx] at h
          cases h
          exact Or.inl rfl
        rw [h]
        rcases O.accumDone s' with ⟨c | e | _ | _, s''⟩
        · simp only [stateIter_rel_advance N hO]
          rcases T.concat (acc.getD T.empty) (T.ofChunk c) a with ⟨acc' | e | _ | _, a'⟩
          · simp only
            rcases StateIter.advance N O st with ⟨c' | e | _ | _, st'⟩
            · exact ih _ _ _ _
            · exact e.elim
            all_goals exact Or.inr rfl
          all_goals exact Or.inr rfl
        · exact e.elim
        · exact Or.inl rfl
        · exact Or.inr rfl
      · exact Or.inr rfl
      · exact e.elim
      · exact Or.inl rfl
      · exact Or.inr rfl

theorem stateIter_same (N : ChunksState C S) {O O' : ChunkOps C CS P} (hO : O.RelOf O') (T : TextType C τ α) (fuel : Nat) :
    (stateIterOps N O T fuel).SameUnlessPanic (stateIterOps N O' T fuel) where
  peek s := by
    right
    simp only [stateIterOps, StateIter.peek, stateIter_rel_peekLoop N hO]
  next s := by
    right
    simp only [stateIterOps, StateIter.nextItem, stateIter_rel_nextLoop N hO]
  nextAccum s a := by
    simp only [stateIterOps, StateIter.nextAccum]
    rcases stateIter_rel_nextAccumLoop N hO T fuel s.next s.cur s.accum a with h | h
    · left
      exact h
    · rw [h]
      exact Or.inr rfl
  accumDone s a := by
    simp only [stateIterOps, StateIter.accumDone]
    cases s.cur with
    | none => exact Or.inr rfl
    | some c =>
      simp only
      rcases hO.accumDone c with h | h
      · rcases hx : O.accumDone c with ⟨o, s''⟩
        rw [hx] at h
        cases h
        exact Or.inl rfl
      · rw [h]
        exact Or.inr rfl

theorem stateIter_repeats (N : ChunksState C S) {O : ChunkOps C CS P} (hO : O.Repeats) (T : TextType C τ α) (fuel : Nat) :
    (stateIterOps N O T fuel).Repeats := by
  rintro ⟨cur, st, acc, pk⟩ o s' h
  simp only [stateIterOps, StateIter.peek] at h ⊢
  cases pk with
  | some x => simp only [Prod.mk.injEq] at h; obtain ⟨h1, rfl⟩ := h; simp only [h1]
  | none =>
    simp only at h
    rcases hp : StateIter.peekLoop N O fuel st cur with ⟨o₁ | e | _ | _, cur'⟩
    · rw [hp] at h
      cases o₁ with
      | some x =>
        simp only [Prod.mk.injEq, Outcome.ok.injEq] at h
        obtain ⟨rfl, rfl⟩ := h
        rfl
      | none =>
        simp only [Prod.mk.injEq, Outcome.ok.injEq] at h
        obtain ⟨rfl, rfl⟩ := h
        have : StateIter.peekLoop N O fuel st cur' = (.ok none, cur') := by
          cases fuel with
          | zero => cases hp
          | succ n =>
            cases cur with
            | none => cases hp; rfl
            | some s =>
              unfold StateIter.peekLoop at hp
              rcases hs : O.peek s with ⟨(_ | x) | e | _ | _, s₁⟩
              · rw [hs] at hp
                simp only at hp
                rcases ha : StateIter.advance N O st with ⟨c | e | _ | _, st'⟩
                · rw [ha] at hp
                  simp only [Prod.mk.injEq] at hp
                  obtain ⟨hp, rfl⟩ := hp
                  unfold StateIter.peekLoop
                  simp only [hO _ _ _ hs, ha, hp]
                · exact e.elim
                · rw [ha] at hp; cases hp
                · rw [ha] at hp; cases hp
              · rw [hs] at hp; cases hp
              · exact e.elim
              · rw [hs] at hp; cases hp
              · rw [hs] at hp; cases hp
        simp only [this]
    · exact e.elim
    · rw [hp] at h; cases h
    · rw [hp] at h; cases h

end

/-! ### With strings that are told apart -/

section

variable {R : Type}

theorem SharedChunkIter.peek_repeats {A : StrishOps R} {s : SharedChunkIter R} {o s'} (h : s.peek A = (.ok o, s')) : s'.peek A = (.ok o, s') := by
  unfold SharedChunkIter.peek at h
  split at h
  · next x hx =>
    cases h
    simp only [SharedChunkIter.peek, hx]
  · next hx =>
    split at h
    · next o₁ it hd =>
      simp only [Prod.mk.injEq, Outcome.ok.injEq] at h
      obtain ⟨rfl, rfl⟩ := h
      cases o₁ with
      | some x => rfl
      | none =>
        unfold SharedChunkIter.doNextNoPeeked at hd
        split at hd
        · cases hd
        · next hs =>
          cases hd
          simp only [SharedChunkIter.peek, SharedChunkIter.doNextNoPeeked, hs]
        · cases hd
    · next hne _ => cases h; exact (hne _ rfl).elim

theorem sharedChunk_repeats (A : StrishOps R) : (sharedChunkOps A).Repeats := fun _ _ _ h => SharedChunkIter.peek_repeats h

theorem sharedStream_repeats (A : StrishOps R) (T : TextType (SharedChunk R) τ α) : (sharedStreamOps A T).Repeats := by
  rintro ⟨cur, ci, ss, pk, acc⟩ o s' h
  simp only [sharedStreamOps, SharedStream.peek] at h ⊢
  cases cur with
  | none => simp only [Prod.mk.injEq] at h; obtain ⟨h1, rfl⟩ := h; simp only [h1]
  | some s =>
    simp only at h
    rcases hp : s.peek A with ⟨o₁ | e | _ | _, s₁⟩
    · rw [hp] at h
      have hp' := SharedChunkIter.peek_repeats hp
      cases o₁ with
      | some x =>
        simp only [Prod.mk.injEq, Outcome.ok.injEq] at h
        obtain ⟨rfl, rfl⟩ := h
        simp only [hp']
      | none =>
        simp only at h
        cases pk with
        | some p =>
          simp only at h
          rcases hq : p.peek A with ⟨o₂, p'⟩
          rw [hq] at h
          simp only [Prod.mk.injEq] at h
          obtain ⟨rfl, rfl⟩ := h
          simp only [hp', SharedChunkIter.peek_repeats hq]
        | none =>
          simp only at h
          rcases hn : SharedStream.nextPosstrishOf A ci ss with ⟨p, ss'⟩
          rw [hn] at h
          cases p with
          | none =>
            simp only [Prod.mk.injEq, Outcome.ok.injEq] at h
            obtain ⟨rfl, rfl⟩ := h
            have hn' : SharedStream.nextPosstrishOf A ci ss' = (none, ss') := by
              clear hp hp'
              induction ss with
              | nil => cases hn; rfl
              | cons x ss ih =>
                unfold SharedStream.nextPosstrishOf at hn
                split at hn
                · cases hn
                · exact ih hn
            simp only [hp', hn']
          | some p =>
            simp only at h
            rcases hq : p.peek A with ⟨o₂, p'⟩
            rw [hq] at h
            simp only [Prod.mk.injEq] at h
            obtain ⟨rfl, rfl⟩ := h
            simp only [hp', SharedChunkIter.peek_repeats hq]
    · exact e.elim
    · rw [hp] at h; cases h
    · rw [hp] at h; cases h

theorem SharedChunkIter.rel_nextAccum (W : Nat) (A : StrishOps R) (s : SharedChunkIter R) :
    (s.nextAccum A).1 = .panic ∨ s.relNextAccum W A = s.nextAccum A := by
  unfold SharedChunkIter.nextAccum SharedChunkIter.relNextAccum
  rcases s.doNext A with ⟨(_ | x) | e | _ | _, it⟩
  · exact Or.inr rfl
  · simp only
    rcases it.accum with _ | ⟨a, b, c⟩
    · simp only
      split
      · next h =>
        right
        simp only [subWrap, if_pos h.1, if_pos h.2]
      · exact Or.inl rfl
    · exact Or.inr rfl
  · exact e.elim
  · exact Or.inl rfl
  · exact Or.inr rfl

theorem SharedChunkIter.rel_accumDone (A : StrishOps R) (s : SharedChunkIter R) : (s.accumDone A).1 = .panic ∨ s.relAccumDone A = s.accumDone A := by
  unfold SharedChunkIter.accumDone SharedChunkIter.relAccumDone SharedSlice.slice SharedSlice.relSlice
  rcases s.accum with _ | ⟨a, b, c⟩
  · exact Or.inr rfl
  · simp only
    by_cases h : a ≤ b ∧ s.chunk.val.start ≤ s.chunk.val.end ∧ b ≤ s.chunk.val.end - s.chunk.val.start
    · rw [if_pos h]
      exact Or.inr rfl
    · rw [if_neg h]
      exact Or.inl rfl

theorem SharedStream.rel_nextPosstrish {A : StrishOps R} {it it' : SharedStream R τ} (h : nextPosstrish A it = some it') :
    relNextPosstrish A it = it' := by
  unfold nextPosstrish at h
  split at h
  · cases h
  · split at h
    · unfold relNextPosstrish
      split at h
      · next hp => cases h; simp only [hp]
      · next hp => cases h; simp only [hp]
    · cases h

theorem SharedStream.rel_nextLoop (A : StrishOps R) (n : Nat) (it : SharedStream R τ) :
    (nextLoop A n it).1 = .panic ∨ relNextLoop A n it = nextLoop A n it := by
  induction n generalizing it with
  | zero => exact Or.inr rfl
  | succ n ih =>
    unfold nextLoop relNextLoop
    cases it.cur with
    | none => exact Or.inr rfl
    | some s =>
      simp only
      rcases s.next A with ⟨(_ | x) | e | _ | _, s'⟩
      · simp only
        cases hn : nextPosstrish A { it with cur := some s' } with
        | none => exact Or.inl rfl
        | some it' =>
          simp only
          rw [rel_nextPosstrish hn]
          exact ih it'
      · exact Or.inr rfl
      · exact e.elim
      · exact Or.inl rfl
      · exact Or.inr rfl

theorem SharedStream.rel_nextAccumLoop (W : Nat) (A : StrishOps R) (T : TextType (SharedChunk R) τ α) (n : Nat) (it : SharedStream R τ) (a : α) :
    (nextAccumLoop A T n it a).1 = .panic ∨ relNextAccumLoop W A T n it a = nextAccumLoop A T n it a := by
  induction n generalizing it a with
  | zero => exact Or.inr rfl
  | succ n ih =>
    unfold nextAccumLoop relNextAccumLoop
    cases it.cur with
    | none => exact Or.inr rfl
    | some s =>
      simp only
      rcases s.rel_nextAccum W A with h | h
      · rcases hx : s.nextAccum A with ⟨o, s'⟩
        rw [hx] at h
        cases h
        exact Or.inl rfl
      rw [h]
      rcases s.nextAccum A with ⟨(_ | x) | e | _ | _, s'⟩
      · simp only
        rcases s'.rel_accumDone A with h | h
        · rcases hx : s'.accumDone A with ⟨o, s''⟩
          rw [hx] at h
          cases h
          exact Or.inl rfl
        rw [h]
        rcases s'.accumDone A with ⟨c | e | _ | _, s''⟩
        · simp only
          rcases T.concat (it.accum.getD T.empty) (T.ofChunk c) a with ⟨acc | e | _ | _, a'⟩
          · simp only
            cases hn : nextPosstrish A { it with cur := some s'', accum := some acc } with
            | none => exact Or.inl rfl
            | some it' =>
              simp only
              rw [rel_nextPosstrish hn]
              exact ih it' a'
          all_goals exact Or.inr rfl
        · exact e.elim
        · exact Or.inl rfl
        · exact Or.inr rfl
      · exact Or.inr rfl
      · exact e.elim
      · exact Or.inl rfl
      · exact Or.inr rfl

theorem sharedStream_same (W : Nat) (A : StrishOps R) (T : TextType (SharedChunk R) τ α) : (sharedStreamOps A T).SameUnlessPanic (sharedStreamRel W A T) where
  peek _ := Or.inr rfl
  next s := SharedStream.rel_nextLoop _ _ _
  nextAccum s a := SharedStream.rel_nextAccumLoop W A T _ s a
  accumDone s a := by
    simp only [sharedStreamOps, sharedStreamRel, SharedStream.accumDone, SharedStream.relAccumDone]
    cases s.cur with
    | none => exact Or.inr rfl
    | some c =>
      simp only
      rcases c.rel_accumDone A with h | h
      · rcases hx : c.accumDone A with ⟨o, s''⟩
        rw [hx] at h
        cases h
        exact Or.inl rfl
      · rw [h]
        exact Or.inr rfl

theorem sharedChunk_relOf (W : Nat) (A : StrishOps R) : (sharedChunkOps A).RelOf (sharedChunkRel W A) :=
  ⟨rfl, SharedChunkIter.rel_nextAccum W A, SharedChunkIter.rel_accumDone A⟩

end

end

theorem StreamOps.SameUnlessPanic.refl (S : StreamOps σ P τ α) : S.SameUnlessPanic S :=
  ⟨fun _ => Or.inr rfl, fun _ => Or.inr rfl, fun _ _ => Or.inr rfl, fun _ _ => Or.inr rfl⟩

theorem ReleaseChunk.same {C CS : Type} {W : Nat} {O O' : ChunkOps C CS P} (h : ReleaseChunk W O O') :
    O.RelOf O' ∧ O.Repeats := by
  cases h with
  | posStr => exact ⟨.refl _, posStr_repeats⟩
  | posStrish => exact ⟨posStrish_relOf _, posStrish_repeats⟩
  | shared => exact ⟨sharedChunk_relOf _ _, sharedChunk_repeats _⟩

theorem ReleaseOf.same {W : Nat} {E : Env σ P τ ε α CE} {R} (h : ReleaseOf W E R) :
    E.strm.SameUnlessPanic R ∧ E.strm.Repeats := by
  cases h with
  | text hO => exact ⟨textIter_same hO.same.1 _, textIter_repeats hO.same.2 _⟩
  | strs => exact ⟨strishIter_same _ _, strishIter_repeats _⟩
  | chars => exact ⟨.refl _, charIter_repeats _⟩
  | shared => exact ⟨sharedStream_same _ _ _, sharedStream_repeats _ _⟩
  | byStates hO => exact ⟨stateIter_same _ hO.same.1 _ _, stateIter_repeats _ hO.same.2 _ _⟩

end Kul
