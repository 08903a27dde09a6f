import Verif.Proof.Wrap

/-! # Source streams with wrapping arithmetic do what those with checked arithmetic do, unless these panic -/

namespace Kul

variable {σ C CS P τ ε α CE : Type}

/-- `O'` does what `O` does, wherever that does not panic. -/
structure ChunkOps.SameUnlessPanic (O O' : ChunkOps C CS P) : Prop where
  srcStrm : O'.srcStrm = O.srcStrm
  peek : ∀ s, (O.peek s).1 = .panic ∨ O'.peek s = O.peek s
  next : ∀ s, (O.next s).1 = .panic ∨ O'.next s = O.next s
  nextAccum : ∀ s, (O.nextAccum s).1 = .panic ∨ O'.nextAccum s = O.nextAccum s
  accumDone : ∀ s, (O.accumDone s).1 = .panic ∨ O'.accumDone s = O.accumDone s

/-! ## `text::Iter` -/

theorem textIter_wrap_nextAccumLoop {O O' : ChunkOps C CS P} (hO : O.SameUnlessPanic O') (T : TextType C τ α) (cs : List C)
    (cur : Option CS) (acc : Option τ) (a : α) :
    (TextIter.nextAccumLoop O T cs cur acc a).1 = .panic ∨
      TextIter.nextAccumLoop O' T cs cur acc a = TextIter.nextAccumLoop O T cs cur acc a := by
  induction cs generalizing cur acc a with
  | nil =>
    cases cur with
    | none => unfold TextIter.nextAccumLoop; exact Or.inr rfl
    | some s =>
      unfold TextIter.nextAccumLoop
      rcases hO.nextAccum s with h | h
      · rcases hx : O.nextAccum s with ⟨o, s'⟩
        rw [hx] at h
        cases h
        exact Or.inl rfl
      rw [h]
      rcases O.nextAccum s with ⟨(_ | x) | e | _ | _, s'⟩
      · simp only
        rcases hO.accumDone s' with h | h
        · rcases hx : O.accumDone s' with ⟨o, s''⟩
          rw [hx] at h
          cases h
          exact Or.inl rfl
        rw [h]
        exact Or.inr rfl
      · exact Or.inr rfl
      · exact e.elim
      · exact Or.inl rfl
      · exact Or.inr rfl
  | cons c₀ cs ih =>
    cases cur with
    | none => unfold TextIter.nextAccumLoop; exact Or.inr rfl
    | some s =>
      unfold TextIter.nextAccumLoop
      rcases hO.nextAccum s with h | h
      · rcases hx : O.nextAccum s with ⟨o, s'⟩
        rw [hx] at h
        cases h
        exact Or.inl rfl
      rw [h]
      rcases O.nextAccum s with ⟨(_ | x) | e | _ | _, s'⟩
      · simp only
        rcases hO.accumDone s' with h | h
        · rcases hx : O.accumDone s' with ⟨o, s''⟩
          rw [hx] at h
          cases h
          exact Or.inl rfl
        rw [h, hO.srcStrm]
        rcases O.accumDone s' with ⟨c | e | _ | _, s''⟩
        · simp only
          rcases T.concat (acc.getD T.empty) (T.ofChunk c) a with ⟨acc' | e | _ | _, a'⟩
          · exact ih _ _ _
          all_goals exact Or.inr rfl
        · exact e.elim
        · exact Or.inl rfl
        · exact Or.inr rfl
      · exact Or.inr rfl
      · exact e.elim
      · exact Or.inl rfl
      · exact Or.inr rfl

theorem textIter_wrap_nextLoop {O O' : ChunkOps C CS P} (hO : O.SameUnlessPanic O') (cs : List C) (cur : Option CS) :
    (TextIter.nextLoop O cs cur).1 = .panic ∨ TextIter.nextLoop O' cs cur = TextIter.nextLoop O cs cur := by
  induction cs generalizing cur with
  | nil =>
    cases cur with
    | none => unfold TextIter.nextLoop; exact Or.inr rfl
    | some s =>
      unfold TextIter.nextLoop
      rcases hO.next s with h | h
      · rcases hx : O.next s with ⟨o, s'⟩
        rw [hx] at h
        cases h
        exact Or.inl rfl
      · rw [h]
        exact Or.inr rfl
  | cons c cs ih =>
    cases cur with
    | none => unfold TextIter.nextLoop; exact Or.inr rfl
    | some s =>
      unfold TextIter.nextLoop
      rcases hO.next s with h | h
      · rcases hx : O.next s with ⟨o, s'⟩
        rw [hx] at h
        cases h
        exact Or.inl rfl
      · rw [h, hO.srcStrm]
        rcases O.next s with ⟨(_ | x) | e | _ | _, s'⟩
        · exact ih _
        all_goals exact Or.inr rfl

theorem textIter_wrap_peekAhead {O O' : ChunkOps C CS P} (hO : O.SameUnlessPanic O') (cs : List C) :
    TextIter.peekAhead O cs = .panic ∨ TextIter.peekAhead O' cs = TextIter.peekAhead O cs := by
  induction cs with
  | nil => exact Or.inr rfl
  | cons c cs ih =>
    unfold TextIter.peekAhead
    rw [hO.srcStrm]
    rcases hO.peek (O.srcStrm c) with h | h
    · rcases hx : O.peek (O.srcStrm c) with ⟨o, s'⟩
      rw [hx] at h
      cases h
      exact Or.inl rfl
    · rw [h]
      rcases O.peek (O.srcStrm c) with ⟨(_ | x) | e | _ | _, s'⟩
      · exact ih
      all_goals exact Or.inr rfl

theorem textIter_wrap {O O' : ChunkOps C CS P} (hO : O.SameUnlessPanic O') (T : TextType C τ α) :
    (textIterOps O T).SameUnlessPanic (textIterOps O' T) where
  peek s := by
    simp only [textIterOps, TextIter.peek]
    rcases s.peeked with _ | x
    · rcases s.cur with _ | c
      · exact Or.inr rfl
      · simp only
        rcases hO.peek c with h | h
        · rcases hx : O.peek c with ⟨o, s'⟩
          rw [hx] at h
          cases h
          exact Or.inl rfl
        · rw [h]
          rcases O.peek c with ⟨(_ | x) | e | _ | _, s'⟩
          · simp only
            rcases textIter_wrap_peekAhead hO s.nextChunks with h | h
            · rw [h]
              exact Or.inl rfl
            · rw [h]
              exact Or.inr rfl
          all_goals exact Or.inr rfl
    · exact Or.inr rfl
  next s := by
    simp only [textIterOps, TextIter.next]
    rcases textIter_wrap_nextLoop hO s.nextChunks s.cur with h | h
    · exact Or.inl h
    · rw [h]
      exact Or.inr rfl
  nextAccum s a := by
    simp only [textIterOps, TextIter.nextAccum]
    rcases textIter_wrap_nextAccumLoop hO T s.nextChunks s.cur s.accum a with h | h
    · left
      exact h
    · rw [h]
      exact Or.inr rfl
  accumDone s a := by
    simp only [textIterOps, TextIter.accumDone]
    cases s.cur with
    | none => exact Or.inr rfl
    | some c =>
      simp only
      rcases hO.accumDone c with h | h
      · rcases hx : O.accumDone c with ⟨o, s''⟩
        rw [hx] at h
        cases h
        exact Or.inl rfl
      · rw [h]
        exact Or.inr rfl

/-! ## `text::Iter` over states -/

section

variable {S : Type}

theorem stateIter_wrap_advance (N : ChunksState C S) {O O' : ChunkOps C CS P} (hO : O.SameUnlessPanic O') (st : Option S) :
    StateIter.advance N O' st = StateIter.advance N O st := by
  unfold StateIter.advance
  rw [hO.srcStrm]

theorem stateIter_wrap_nextLoop (N : ChunksState C S) {O O' : ChunkOps C CS P} (hO : O.SameUnlessPanic O') (n : Nat)
    (st : Option S) (cur : Option CS) :
    (StateIter.nextLoop N O n st cur).1 = .panic ∨ StateIter.nextLoop N O' n st cur = StateIter.nextLoop N O n st cur := by
  induction n generalizing st cur with
  | zero => exact Or.inr rfl
  | succ n ih =>
    cases cur with
    | none => exact Or.inr rfl
    | some s =>
      unfold StateIter.nextLoop
      rcases hO.next s with h | h
      · rcases hx : O.next s with ⟨o, s'⟩
        rw [hx] at h
        cases h
        exact Or.inl rfl
      · rw [h, stateIter_wrap_advance N hO]
        rcases O.next s with ⟨(_ | x) | e | _ | _, s'⟩
        · simp only
          rcases StateIter.advance N O st with ⟨c | e | _ | _, st'⟩
          · exact ih _ _
          · exact e.elim
          all_goals exact Or.inr rfl
        all_goals exact Or.inr rfl

theorem stateIter_wrap_peekLoop (N : ChunksState C S) {O O' : ChunkOps C CS P} (hO : O.SameUnlessPanic O') (n : Nat)
    (st : Option S) (cur : Option CS) :
    (StateIter.peekLoop N O n st cur).1 = .panic ∨ StateIter.peekLoop N O' n st cur = StateIter.peekLoop N O n st cur := by
  induction n generalizing st cur with
  | zero => exact Or.inr rfl
  | succ n ih =>
    cases cur with
    | none => exact Or.inr rfl
    | some s =>
      unfold StateIter.peekLoop
      rcases hO.peek s with h | h
      · rcases hx : O.peek s with ⟨o, s'⟩
        rw [hx] at h
        cases h
        exact Or.inl rfl
      · rw [h, stateIter_wrap_advance N hO]
        rcases O.peek s with ⟨(_ | x) | e | _ | _, s'⟩
        · simp only
          rcases StateIter.advance N O st with ⟨c | e | _ | _, st'⟩
          · simp only
            rcases ih st' c with h | h
            · exact Or.inl h
            · rw [h]
              exact Or.inr rfl
          · exact e.elim
          all_goals exact Or.inr rfl
        all_goals exact Or.inr rfl

theorem stateIter_wrap_nextAccumLoop (N : ChunksState C S) {O O' : ChunkOps C CS P} (hO : O.SameUnlessPanic O') (T : TextType C τ α)
    (n : Nat) (st : Option S) (cur : Option CS) (acc : Option τ) (a : α) :
    (StateIter.nextAccumLoop N O T n st cur acc a).1 = .panic ∨
      StateIter.nextAccumLoop N O' T n st cur acc a = StateIter.nextAccumLoop N O T n st cur acc a := by
  induction n generalizing st cur acc a with
  | zero => exact Or.inr rfl
  | succ n ih =>
    cases cur with
    | none => exact Or.inr rfl
    | some s =>
      unfold StateIter.nextAccumLoop
      rcases hO.nextAccum s with h | h
      · rcases hx : O.nextAccum s with ⟨o, s'⟩
        rw [hx] at h
        cases h
        exact Or.inl rfl
      rw [h]
      rcases O.nextAccum s with ⟨(_ | x) | e | _ | _, s'⟩
      · simp only
        rcases hO.accumDone s' with h | h
        · rcases hx : O.accumDone s' with ⟨o, s''⟩
          rw [hx] at h
          cases h
          exact Or.inl rfl
        rw [h]
        rcases O.accumDone s' with ⟨c | e | _ | _, s''⟩
        · simp only [stateIter_wrap_advance N hO]
          rcases T.concat (acc.getD T.empty) (T.ofChunk c) a with ⟨acc' | e | _ | _, a'⟩
          · simp only
            rcases StateIter.advance N O st with ⟨c' | e | _ | _, st'⟩
            · exact ih _ _ _ _
            · exact e.elim
            all_goals exact Or.inr rfl
          all_goals exact Or.inr rfl
        · exact e.elim
        · exact Or.inl rfl
        · exact Or.inr rfl
      · exact Or.inr rfl
      · exact e.elim
      · exact Or.inl rfl
      · exact Or.inr rfl

theorem stateIter_wrap (N : ChunksState C S) {O O' : ChunkOps C CS P} (hO : O.SameUnlessPanic O') (T : TextType C τ α) (fuel : Nat) :
    (stateIterOps N O T fuel).SameUnlessPanic (stateIterOps N O' T fuel) where
  peek s := by
    simp only [stateIterOps, StateIter.peek]
    rcases s.peeked with _ | x
    · simp only
      rcases stateIter_wrap_peekLoop N hO fuel s.next s.cur with h | h
      · rcases hx : StateIter.peekLoop N O fuel s.next s.cur with ⟨o, c⟩
        rw [hx] at h
        cases h
        exact Or.inl rfl
      · rw [h]
        exact Or.inr rfl
    · exact Or.inr rfl
  next s := by
    simp only [stateIterOps, StateIter.nextItem]
    rcases stateIter_wrap_nextLoop N hO fuel s.next s.cur with h | h
    · exact Or.inl h
    · rw [h]
      exact Or.inr rfl
  nextAccum s a := by
    simp only [stateIterOps, StateIter.nextAccum]
    rcases stateIter_wrap_nextAccumLoop N hO T fuel s.next s.cur s.accum a with h | h
    · left
      exact h
    · rw [h]
      exact Or.inr rfl
  accumDone s a := by
    simp only [stateIterOps, StateIter.accumDone]
    cases s.cur with
    | none => exact Or.inr rfl
    | some c =>
      simp only
      rcases hO.accumDone c with h | h
      · rcases hx : O.accumDone c with ⟨o, s''⟩
        rw [hx] at h
        cases h
        exact Or.inl rfl
      · rw [h]
        exact Or.inr rfl

end

/-! ## `PosStr` -/

section

variable {M : Nat}

theorem StrPos.wrap_inRange {x : Item StrPos} (h : StrPos.inRange M x) : StrPos.wrap (M + 1) x = x := by
  obtain ⟨ch, src, b, k⟩ := x
  obtain ⟨h1, h2⟩ := h
  simp only at h1 h2
  simp only [StrPos.wrap, Nat.mod_eq_of_lt (show b < M + 1 by omega), Nat.mod_eq_of_lt (show k < M + 1 by omega)]

theorem posStr_wrap : (posStrM M).SameUnlessPanic (posStrWrap (M + 1)) where
  srcStrm := rfl
  peek s := by
    simp only [posStrM, posStrWrap, PosStrIter.peekM, PosStrIter.peekWrap]
    rcases hs : s.pei with _ | ⟨x, rest⟩
    · exact Or.inr rfl
    · by_cases h : StrPos.inRange M x
      · simp only [if_pos h, List.head?_cons, Option.map_some, StrPos.wrap_inRange h, or_true]
      · simp only [if_neg h, true_or]
  next s := by
    simp only [posStrM, posStrWrap, PosStrIter.nextM, PosStrIter.nextWrap]
    rcases hs : s.pei with _ | ⟨x, rest⟩
    · exact Or.inr rfl
    · by_cases h : StrPos.inRange M x
      · simp only [if_pos h, List.head?_cons, Option.map_some, StrPos.wrap_inRange h, List.tail_cons, or_true]
      · simp only [if_neg h, true_or]
  nextAccum s := by
    simp only [posStrM, posStrWrap, PosStrIter.nextAccumM, PosStrIter.nextAccumWrap, PosStrIter.nextAccum]
    rcases hs : s.pei with _ | ⟨x, rest⟩
    · exact Or.inr rfl
    · by_cases h : StrPos.inRange M x ∧ x.pos.bytePos + Str.lenUtf8 x.ch ≤ M
      · simp only [if_pos h, StrPos.wrap_inRange h.1, addWrap_of_le h.2]
        exact Or.inr rfl
      · simp only [if_neg h, true_or]
  accumDone s := Or.inr rfl

theorem posStrM_repeats : (posStrM M).Repeats := by
  intro s o s' h
  simp only [posStrM, PosStrIter.peekM] at h ⊢
  rcases hs : s.pei with _ | ⟨x, rest⟩
  · rw [hs] at h
    cases h
    simp only [hs]
  · rw [hs] at h
    simp only at h
    by_cases hx : StrPos.inRange M x
    · rw [if_pos hx] at h
      cases h
      simp only [hs, if_pos hx]
    · rw [if_neg hx] at h
      cases h

/-! ## `CharIterSourceStream` -/

theorem CharPos.wrap_of_le {x : Item CharPos} (h : x.pos.n + 1 ≤ M) : CharPos.wrap (M + 1) x = x := by
  obtain ⟨ch, n⟩ := x
  obtain ⟨n⟩ := n
  simp only at h
  simp only [CharPos.wrap, Nat.mod_eq_of_lt (show n < M + 1 by omega)]

theorem charIter_wrap (T : TextType PosStrish τ α) : (charIterM M T).SameUnlessPanic (charIterWrap (M + 1) T) where
  peek s := by
    simp only [charIterM, charIterWrap, CharIter.peekM, CharIter.peekWrap]
    rcases hs : s.peIter with _ | ⟨x, rest⟩
    · exact Or.inr rfl
    · by_cases h : x.pos.n + 1 ≤ M
      · simp only [if_pos h, List.head?_cons, Option.map_some, CharPos.wrap_of_le h, or_true]
      · simp only [if_neg h, true_or]
  next s := by
    simp only [charIterM, charIterWrap, CharIter.nextM, CharIter.nextWrap]
    rcases hs : s.peIter with _ | ⟨x, rest⟩
    · exact Or.inr rfl
    · by_cases h : x.pos.n + 1 ≤ M
      · simp only [if_pos h, List.head?_cons, Option.map_some, CharPos.wrap_of_le h, List.tail_cons, or_true]
      · simp only [if_neg h, true_or]
  nextAccum s a := by
    simp only [charIterM, charIterWrap, CharIter.nextAccumM, CharIter.nextAccumWrap, CharIter.nextAccum]
    rcases hs : s.peIter with _ | ⟨x, rest⟩
    · exact Or.inr rfl
    · by_cases h : x.pos.n + 1 ≤ M
      · simp only [if_pos h, CharPos.wrap_of_le h]
        right
        rcases s.accum with _ | ⟨s, p⟩ <;> rfl
      · simp only [if_neg h, true_or]
  accumDone s a := Or.inr rfl

theorem charIterM_repeats (T : TextType PosStrish τ α) : (charIterM M T).Repeats := by
  intro s o s' h
  simp only [charIterM, CharIter.peekM] at h ⊢
  rcases hs : s.peIter with _ | ⟨x, rest⟩
  · rw [hs] at h
    cases h
    simp only [hs]
  · rw [hs] at h
    simp only at h
    by_cases hx : x.pos.n + 1 ≤ M
    · rw [if_pos hx] at h
      cases h
      simp only [hs, if_pos hx]
    · rw [if_neg hx] at h
      cases h

/-! ## `PosStrish` -/

namespace PosStrishIter

theorem wrap_doNextNoPeeked (s : PosStrishIter) :
    (s.doNextNoPeekedM M).1 = .panic ∨ s.doNextNoPeekedWrap (M + 1) = s.doNextNoPeekedM M := by
  unfold doNextNoPeekedM doNextNoPeekedWrap
  rcases s.chunk.val.asStr.bind (Str.sliceFrom · s.byteIdx) with _ | _ | ⟨ch, _⟩
  · exact Or.inl rfl
  · exact Or.inr rfl
  · simp only
    split
    · next h => right; rw [addWrap_of_le h.1, addWrap_of_le h.2.1, addWrap_of_le h.2.2]
    · exact Or.inl rfl

theorem wrap_doNext (s : PosStrishIter) : (s.doNextM M).1 = .panic ∨ s.doNextWrap (M + 1) = s.doNextM M := by
  unfold doNextM doNextWrap
  rcases s.peeked with _ | x
  · exact wrap_doNextNoPeeked s
  · exact Or.inr rfl

theorem wrap_next (s : PosStrishIter) : (s.nextM M).1 = .panic ∨ s.nextWrap (M + 1) = s.nextM M := wrap_doNext _

theorem wrap_peek (s : PosStrishIter) : (s.peekM M).1 = .panic ∨ s.peekWrap (M + 1) = s.peekM M := by
  unfold peekM peekWrap
  rcases s.peeked with _ | x
  · simp only
    rcases wrap_doNextNoPeeked (M := M) s with h | h
    · rcases hx : s.doNextNoPeekedM M with ⟨o, s'⟩
      rw [hx] at h
      cases h
      exact Or.inl rfl
    · rw [h]
      exact Or.inr rfl
  · exact Or.inr rfl

theorem wrap_nextAccum (s : PosStrishIter) : (s.nextAccumM M).1 = .panic ∨ s.nextAccumWrap (M + 1) = s.nextAccumM M := by
  unfold nextAccumM nextAccumWrap
  rcases wrap_doNext (M := M) s with h | h
  · rcases hx : s.doNextM M with ⟨o, s'⟩
    rw [hx] at h
    cases h
    exact Or.inl rfl
  rw [h]
  rcases s.doNextM M with ⟨(_ | x) | e | _ | _, it⟩
  · exact Or.inr rfl
  · simp only
    rcases it.accum with _ | ⟨a, b, c⟩
    · simp only
      split
      · next h =>
        right
        simp only [subWrap, if_pos h.1, if_pos h.2.1, addWrap_of_le h.2.2]
      · exact Or.inl rfl
    · exact Or.inr rfl
  · exact e.elim
  · exact Or.inl rfl
  · exact Or.inr rfl

theorem wrap_accumDone (s : PosStrishIter) : (s.accumDoneM M).1 = .panic ∨ s.accumDoneWrap (M + 1) = s.accumDoneM M := by
  unfold accumDoneM accumDoneWrap RefCntSlice.sliceM RefCntSlice.slice RefCntSlice.sliceWrap
  rcases s.accum with _ | ⟨a, b, c⟩
  · exact Or.inr rfl
  · simp only
    by_cases hM : s.chunk.val.start + a ≤ M ∧ s.chunk.val.start + b ≤ M
    · rw [if_pos hM, addWrap_of_le hM.1, addWrap_of_le hM.2]
      by_cases h : a ≤ b ∧ s.chunk.val.start ≤ s.chunk.val.end ∧ b ≤ s.chunk.val.end - s.chunk.val.start
      · rw [if_pos h]
        exact Or.inr rfl
      · rw [if_neg h]
        exact Or.inl rfl
    · rw [if_neg hM]
      exact Or.inl rfl

theorem peekM_repeats {s : PosStrishIter} {o s'} (h : s.peekM M = (.ok o, s')) : s'.peekM M = (.ok o, s') := by
  unfold peekM at h
  split at h
  · next x hx =>
    cases h
    simp only [peekM, hx]
  · next hx =>
    split at h
    · next o₁ it hd =>
      simp only [Prod.mk.injEq, Outcome.ok.injEq] at h
      obtain ⟨rfl, rfl⟩ := h
      cases o₁ with
      | some x => rfl
      | none =>
        unfold doNextNoPeekedM at hd
        split at hd
        · cases hd
        · next hs =>
          cases hd
          simp only [peekM, doNextNoPeekedM, hs]
        · split at hd <;> cases hd
    · next hne _ => cases h; exact (hne _ rfl).elim

end PosStrishIter

theorem posStrish_wrap : (posStrishM M).SameUnlessPanic (posStrishWrap (M + 1)) where
  srcStrm := rfl
  peek := PosStrishIter.wrap_peek
  next := PosStrishIter.wrap_next
  nextAccum := PosStrishIter.wrap_nextAccum
  accumDone := PosStrishIter.wrap_accumDone

theorem posStrishM_repeats : (posStrishM M).Repeats := fun _ _ _ h => PosStrishIter.peekM_repeats h

/-! ## `StrishIterSourceStream` -/

namespace StrishIter

theorem wrap_nextPosstrish {it it' : StrishIter τ} (h : nextPosstrishM M it = some it') : relNextPosstrish it = it' := by
  unfold nextPosstrishM at h
  split at h
  · cases h
  · split at h
    · unfold relNextPosstrish
      split at h
      · next hp => cases h; simp only [hp]
      · next hp => cases h; simp only [hp]
    · cases h

theorem wrap_nextLoop (n : Nat) (it : StrishIter τ) :
    (nextLoopM M n it).1 = .panic ∨ nextLoopWrap (M + 1) n it = nextLoopM M n it := by
  induction n generalizing it with
  | zero => exact Or.inr rfl
  | succ n ih =>
    unfold nextLoopM nextLoopWrap
    cases it.cur with
    | none => exact Or.inr rfl
    | some s =>
      simp only
      rcases s.wrap_next (M := M) with h | h
      · rcases hx : s.nextM M with ⟨o, s'⟩
        rw [hx] at h
        cases h
        exact Or.inl rfl
      rw [h]
      rcases s.nextM M with ⟨(_ | x) | e | _ | _, s'⟩
      · simp only
        cases hn : nextPosstrishM M { it with cur := some s' } with
        | none => exact Or.inl rfl
        | some it' =>
          simp only
          rw [wrap_nextPosstrish hn]
          exact ih it'
      · simp only
        split
        · next h => right; rw [addWrap_of_le h]
        · exact Or.inl rfl
      · exact e.elim
      · exact Or.inl rfl
      · exact Or.inr rfl

theorem wrap_peek (it : StrishIter τ) : (peekM M it).1 = .panic ∨ peekWrap (M + 1) it = peekM M it := by
  obtain ⟨cur, ci, ss, pk, acc⟩ := it
  unfold peekM peekWrap
  cases cur with
  | none => exact Or.inr rfl
  | some s =>
    simp only
    rcases s.wrap_peek (M := M) with h | h
    · rcases hx : s.peekM M with ⟨o, s'⟩
      rw [hx] at h
      cases h
      exact Or.inl rfl
    rw [h]
    rcases s.peekM M with ⟨(_ | x) | e | _ | _, s'⟩
    · simp only
      cases pk with
      | some p =>
        simp only
        rcases p.wrap_peek (M := M) with h | h
        · exact Or.inl h
        · rw [h]
          exact Or.inr rfl
      | none =>
        simp only
        rcases nextPosstrishOf ci ss with ⟨_ | p, ss'⟩
        · exact Or.inr rfl
        · simp only
          rcases p.wrap_peek (M := M) with h | h
          · exact Or.inl h
          · rw [h]
            exact Or.inr rfl
    all_goals exact Or.inr rfl

theorem wrap_nextAccumLoop (T : TextType PosStrish τ α) (n : Nat) (it : StrishIter τ) (a : α) :
    (nextAccumLoopM M T n it a).1 = .panic ∨ nextAccumLoopWrap (M + 1) T n it a = nextAccumLoopM M T n it a := by
  induction n generalizing it a with
  | zero => exact Or.inr rfl
  | succ n ih =>
    unfold nextAccumLoopM nextAccumLoopWrap
    cases it.cur with
    | none => exact Or.inr rfl
    | some s =>
      simp only
      rcases s.wrap_nextAccum (M := M) with h | h
      · rcases hx : s.nextAccumM M with ⟨o, s'⟩
        rw [hx] at h
        cases h
        exact Or.inl rfl
      rw [h]
      rcases s.nextAccumM M with ⟨(_ | x) | e | _ | _, s'⟩
      · simp only
        rcases s'.wrap_accumDone (M := M) with h | h
        · rcases hx : s'.accumDoneM M with ⟨o, s''⟩
          rw [hx] at h
          cases h
          exact Or.inl rfl
        rw [h]
        rcases s'.accumDoneM M with ⟨c | e | _ | _, s''⟩
        · simp only
          rcases T.concat (it.accum.getD T.empty) (T.ofChunk c) a with ⟨acc | e | _ | _, a'⟩
          · simp only
            cases hn : nextPosstrishM M { it with cur := some s'', accum := some acc } with
            | none => exact Or.inl rfl
            | some it' =>
              simp only
              rw [wrap_nextPosstrish hn]
              exact ih it' a'
          all_goals exact Or.inr rfl
        · exact e.elim
        · exact Or.inl rfl
        · exact Or.inr rfl
      · simp only
        split
        · next h => right; rw [addWrap_of_le h]
        · exact Or.inl rfl
      · exact e.elim
      · exact Or.inl rfl
      · exact Or.inr rfl

end StrishIter

theorem strishIter_wrap (T : TextType PosStrish τ α) : (strishIterM M T).SameUnlessPanic (strishIterWrap (M + 1) T) where
  peek := StrishIter.wrap_peek
  next s := StrishIter.wrap_nextLoop _ _
  nextAccum s a := StrishIter.wrap_nextAccumLoop T _ s a
  accumDone s a := by
    simp only [strishIterM, strishIterWrap, StrishIter.accumDoneM, StrishIter.accumDoneWrap]
    cases s.cur with
    | none => exact Or.inr rfl
    | some c =>
      simp only
      rcases c.wrap_accumDone (M := M) with h | h
      · rcases hx : c.accumDoneM M with ⟨o, s''⟩
        rw [hx] at h
        cases h
        exact Or.inl rfl
      · rw [h]
        exact Or.inr rfl

theorem strishIterM_repeats (T : TextType PosStrish τ α) : (strishIterM M T).Repeats := by
  rintro ⟨cur, ci, ss, pk, acc⟩ o s' h
  simp only [strishIterM, StrishIter.peekM] at h ⊢
  cases cur with
  | none => simp only [Prod.mk.injEq] at h; obtain ⟨h1, rfl⟩ := h; simp only [h1]
  | some s =>
    simp only at h
    rcases hp : s.peekM M with ⟨o₁ | e | _ | _, s₁⟩
    · rw [hp] at h
      have hp' := PosStrishIter.peekM_repeats hp
      cases o₁ with
      | some x =>
        simp only [Prod.mk.injEq, Outcome.ok.injEq] at h
        obtain ⟨rfl, rfl⟩ := h
        simp only [hp']
      | none =>
        simp only at h
        cases pk with
        | some p =>
          simp only at h
          rcases hq : p.peekM M with ⟨o₂, p'⟩
          rw [hq] at h
          simp only [Prod.mk.injEq] at h
          obtain ⟨rfl, rfl⟩ := h
          simp only [hp', PosStrishIter.peekM_repeats hq]
        | none =>
          simp only at h
          rcases hn : StrishIter.nextPosstrishOf ci ss with ⟨p, ss'⟩
          rw [hn] at h
          cases p with
          | none =>
            simp only [Prod.mk.injEq, Outcome.ok.injEq] at h
            obtain ⟨rfl, rfl⟩ := h
            have hn' : StrishIter.nextPosstrishOf ci ss' = (none, ss') := by
              clear hp hp'
              induction ss with
              | nil => cases hn; rfl
              | cons x ss ih =>
                unfold StrishIter.nextPosstrishOf at hn
                split at hn
                · cases hn
                · exact ih hn
            simp only [hp', hn']
          | some p =>
            simp only at h
            rcases hq : p.peekM M with ⟨o₂, p'⟩
            rw [hq] at h
            simp only [Prod.mk.injEq] at h
            obtain ⟨rfl, rfl⟩ := h
            simp only [hp', PosStrishIter.peekM_repeats hq]
    · exact e.elim
    · rw [hp] at h; cases h
    · rw [hp] at h; cases h

/-! ## With strings that are told apart -/

section

variable {R : Type} {A : StrishOps R}

namespace SharedChunkIter

theorem wrap_doNextNoPeeked (s : SharedChunkIter R) :
    (s.doNextNoPeekedM M A).1 = .panic ∨ s.doNextNoPeekedWrap (M + 1) A = s.doNextNoPeekedM M A := by
  unfold doNextNoPeekedM doNextNoPeekedWrap
  rcases (s.chunk.val.asStr A).bind (Str.sliceFrom · s.byteIdx) with _ | _ | ⟨ch, _⟩
  · exact Or.inl rfl
  · exact Or.inr rfl
  · simp only
    split
    · next h => right; rw [addWrap_of_le h.1, addWrap_of_le h.2.1, addWrap_of_le h.2.2]
    · exact Or.inl rfl

theorem wrap_doNext (s : SharedChunkIter R) : (s.doNextM M A).1 = .panic ∨ s.doNextWrap (M + 1) A = s.doNextM M A := by
  unfold doNextM doNextWrap
  rcases s.peeked with _ | x
  · exact wrap_doNextNoPeeked s
  · exact Or.inr rfl

theorem wrap_next (s : SharedChunkIter R) : (s.nextM M A).1 = .panic ∨ s.nextWrap (M + 1) A = s.nextM M A := wrap_doNext _

theorem wrap_peek (s : SharedChunkIter R) : (s.peekM M A).1 = .panic ∨ s.peekWrap (M + 1) A = s.peekM M A := by
  unfold peekM peekWrap
  rcases s.peeked with _ | x
  · simp only
    rcases wrap_doNextNoPeeked (M := M) (A := A) s with h | h
    · rcases hx : s.doNextNoPeekedM M A with ⟨o, s'⟩
      rw [hx] at h
      cases h
      exact Or.inl rfl
    · rw [h]
      exact Or.inr rfl
  · exact Or.inr rfl

theorem wrap_nextAccum (s : SharedChunkIter R) : (s.nextAccumM M A).1 = .panic ∨ s.nextAccumWrap (M + 1) A = s.nextAccumM M A := by
  unfold nextAccumM nextAccumWrap
  rcases wrap_doNext (M := M) (A := A) s with h | h
  · rcases hx : s.doNextM M A with ⟨o, s'⟩
    rw [hx] at h
    cases h
    exact Or.inl rfl
  rw [h]
  rcases s.doNextM M A with ⟨(_ | x) | e | _ | _, it⟩
  · exact Or.inr rfl
  · simp only
    rcases it.accum with _ | ⟨a, b, c⟩
    · simp only
      split
      · next h =>
        right
        simp only [subWrap, if_pos h.1, if_pos h.2.1, addWrap_of_le h.2.2]
      · exact Or.inl rfl
    · exact Or.inr rfl
  · exact e.elim
  · exact Or.inl rfl
  · exact Or.inr rfl

theorem wrap_accumDone (s : SharedChunkIter R) : (s.accumDoneM M A).1 = .panic ∨ s.accumDoneWrap (M + 1) A = s.accumDoneM M A := by
  unfold accumDoneM accumDoneWrap SharedSlice.sliceM SharedSlice.slice SharedSlice.sliceWrap
  rcases s.accum with _ | ⟨a, b, c⟩
  · exact Or.inr rfl
  · simp only
    by_cases hM : s.chunk.val.start + a ≤ M ∧ s.chunk.val.start + b ≤ M
    · rw [if_pos hM, addWrap_of_le hM.1, addWrap_of_le hM.2]
      by_cases h : a ≤ b ∧ s.chunk.val.start ≤ s.chunk.val.end ∧ b ≤ s.chunk.val.end - s.chunk.val.start
      · rw [if_pos h]
        exact Or.inr rfl
      · rw [if_neg h]
        exact Or.inl rfl
    · rw [if_neg hM]
      exact Or.inl rfl

theorem peekM_repeats {s : SharedChunkIter R} {o s'} (h : s.peekM M A = (.ok o, s')) : s'.peekM M A = (.ok o, s') := by
  unfold peekM at h
  split at h
  · next x hx =>
    cases h
    simp only [peekM, hx]
  · next hx =>
    split at h
    · next o₁ it hd =>
      simp only [Prod.mk.injEq, Outcome.ok.injEq] at h
      obtain ⟨rfl, rfl⟩ := h
      cases o₁ with
      | some x => rfl
      | none =>
        unfold doNextNoPeekedM at hd
        split at hd
        · cases hd
        · next hs =>
          cases hd
          simp only [peekM, doNextNoPeekedM, hs]
        · split at hd <;> cases hd
    · next hne _ => cases h; exact (hne _ rfl).elim

end SharedChunkIter

theorem sharedChunk_wrap : (sharedChunkM M A).SameUnlessPanic (sharedChunkWrap (M + 1) A) where
  srcStrm := rfl
  peek := SharedChunkIter.wrap_peek
  next := SharedChunkIter.wrap_next
  nextAccum := SharedChunkIter.wrap_nextAccum
  accumDone := SharedChunkIter.wrap_accumDone

theorem sharedChunkM_repeats : (sharedChunkM M A).Repeats := fun _ _ _ h => SharedChunkIter.peekM_repeats h

namespace SharedStream

theorem wrap_nextPosstrish {it it' : SharedStream R τ} (h : nextPosstrishM M A it = some it') : relNextPosstrish A it = it' := by
  unfold nextPosstrishM at h
  split at h
  · cases h
  · split at h
    · unfold relNextPosstrish
      split at h
      · next hp => cases h; simp only [hp]
      · next hp => cases h; simp only [hp]
    · cases h

theorem wrap_nextLoop (n : Nat) (it : SharedStream R τ) :
    (nextLoopM M A n it).1 = .panic ∨ nextLoopWrap (M + 1) A n it = nextLoopM M A n it := by
  induction n generalizing it with
  | zero => exact Or.inr rfl
  | succ n ih =>
    unfold nextLoopM nextLoopWrap
    cases it.cur with
    | none => exact Or.inr rfl
    | some s =>
      simp only
      rcases s.wrap_next (M := M) (A := A) with h | h
      · rcases hx : s.nextM M A with ⟨o, s'⟩
        rw [hx] at h
        cases h
        exact Or.inl rfl
      rw [h]
      rcases s.nextM M A with ⟨(_ | x) | e | _ | _, s'⟩
      · simp only
        cases hn : nextPosstrishM M A { it with cur := some s' } with
        | none => exact Or.inl rfl
        | some it' =>
          simp only
          rw [wrap_nextPosstrish hn]
          exact ih it'
      · simp only
        split
        · next h => right; rw [addWrap_of_le h]
        · exact Or.inl rfl
      · exact e.elim
      · exact Or.inl rfl
      · exact Or.inr rfl

theorem wrap_peek (it : SharedStream R τ) : (peekM M A it).1 = .panic ∨ peekWrap (M + 1) A it = peekM M A it := by
  obtain ⟨cur, ci, ss, pk, acc⟩ := it
  unfold peekM peekWrap
  cases cur with
  | none => exact Or.inr rfl
  | some s =>
    simp only
    rcases s.wrap_peek (M := M) (A := A) with h | h
    · rcases hx : s.peekM M A with ⟨o, s'⟩
      rw [hx] at h
      cases h
      exact Or.inl rfl
    rw [h]
    rcases s.peekM M A with ⟨(_ | x) | e | _ | _, s'⟩
    · simp only
      cases pk with
      | some p =>
        simp only
        rcases p.wrap_peek (M := M) (A := A) with h | h
        · exact Or.inl h
        · rw [h]
          exact Or.inr rfl
      | none =>
        simp only
        rcases nextPosstrishOf A ci ss with ⟨_ | p, ss'⟩
        · exact Or.inr rfl
        · simp only
          rcases p.wrap_peek (M := M) (A := A) with h | h
          · exact Or.inl h
          · rw [h]
            exact Or.inr rfl
    all_goals exact Or.inr rfl

theorem wrap_nextAccumLoop (T : TextType (SharedChunk R) τ α) (n : Nat) (it : SharedStream R τ) (a : α) :
    (nextAccumLoopM M A T n it a).1 = .panic ∨ nextAccumLoopWrap (M + 1) A T n it a = nextAccumLoopM M A T n it a := by
  induction n generalizing it a with
  | zero => exact Or.inr rfl
  | succ n ih =>
    unfold nextAccumLoopM nextAccumLoopWrap
    cases it.cur with
    | none => exact Or.inr rfl
    | some s =>
      simp only
      rcases s.wrap_nextAccum (M := M) (A := A) with h | h
      · rcases hx : s.nextAccumM M A with ⟨o, s'⟩
        rw [hx] at h
        cases h
        exact Or.inl rfl
      rw [h]
      rcases s.nextAccumM M A with ⟨(_ | x) | e | _ | _, s'⟩
      · simp only
        rcases s'.wrap_accumDone (M := M) (A := A) with h | h
        · rcases hx : s'.accumDoneM M A with ⟨o, s''⟩
          rw [hx] at h
          cases h
          exact Or.inl rfl
        rw [h]
        rcases s'.accumDoneM M A with ⟨c | e | _ | _, s''⟩
        · simp only
          rcases T.concat (it.accum.getD T.empty) (T.ofChunk c) a with ⟨acc | e | _ | _, a'⟩
          · simp only
            cases hn : nextPosstrishM M A { it with cur := some s'', accum := some acc } with
            | none => exact Or.inl rfl
            | some it' =>
              simp only
              rw [wrap_nextPosstrish hn]
              exact ih it' a'
          all_goals exact Or.inr rfl
        · exact e.elim
        · exact Or.inl rfl
        · exact Or.inr rfl
      · simp only
        split
        · next h => right; rw [addWrap_of_le h]
        · exact Or.inl rfl
      · exact e.elim
      · exact Or.inl rfl
      · exact Or.inr rfl

end SharedStream

theorem sharedStream_wrap (T : TextType (SharedChunk R) τ α) : (sharedStreamM M A T).SameUnlessPanic (sharedStreamWrap (M + 1) A T) where
  peek := SharedStream.wrap_peek
  next s := SharedStream.wrap_nextLoop _ _
  nextAccum s a := SharedStream.wrap_nextAccumLoop T _ s a
  accumDone s a := by
    simp only [sharedStreamM, sharedStreamWrap, SharedStream.accumDoneM, SharedStream.accumDoneWrap]
    cases s.cur with
    | none => exact Or.inr rfl
    | some c =>
      simp only
      rcases c.wrap_accumDone (M := M) (A := A) with h | h
      · rcases hx : c.accumDoneM M A with ⟨o, s''⟩
        rw [hx] at h
        cases h
        exact Or.inl rfl
      · rw [h]
        exact Or.inr rfl

theorem sharedStreamM_repeats (T : TextType (SharedChunk R) τ α) : (sharedStreamM M A T).Repeats := by
  rintro ⟨cur, ci, ss, pk, acc⟩ o s' h
  simp only [sharedStreamM, SharedStream.peekM] at h ⊢
  cases cur with
  | none => simp only [Prod.mk.injEq] at h; obtain ⟨h1, rfl⟩ := h; simp only [h1]
  | some s =>
    simp only at h
    rcases hp : s.peekM M A with ⟨o₁ | e | _ | _, s₁⟩
    · rw [hp] at h
      have hp' := SharedChunkIter.peekM_repeats hp
      cases o₁ with
      | some x =>
        simp only [Prod.mk.injEq, Outcome.ok.injEq] at h
        obtain ⟨rfl, rfl⟩ := h
        simp only [hp']
      | none =>
        simp only at h
        cases pk with
        | some p =>
          simp only at h
          rcases hq : p.peekM M A with ⟨o₂, p'⟩
          rw [hq] at h
          simp only [Prod.mk.injEq] at h
          obtain ⟨rfl, rfl⟩ := h
          simp only [hp', SharedChunkIter.peekM_repeats hq]
        | none =>
          simp only at h
          rcases hn : SharedStream.nextPosstrishOf A ci ss with ⟨p, ss'⟩
          rw [hn] at h
          cases p with
          | none =>
            simp only [Prod.mk.injEq, Outcome.ok.injEq] at h
            obtain ⟨rfl, rfl⟩ := h
            have hn' : SharedStream.nextPosstrishOf A ci ss' = (none, ss') := by
              clear hp hp'
              induction ss with
              | nil => cases hn; rfl
              | cons x ss ih =>
                unfold SharedStream.nextPosstrishOf at hn
                split at hn
                · cases hn
                · exact ih hn
            simp only [hp', hn']
          | some p =>
            simp only at h
            rcases hq : p.peekM M A with ⟨o₂, p'⟩
            rw [hq] at h
            simp only [Prod.mk.injEq] at h
            obtain ⟨rfl, rfl⟩ := h
            simp only [hp', SharedChunkIter.peekM_repeats hq]
    · exact e.elim
    · rw [hp] at h; cases h
    · rw [hp] at h; cases h

end

end

theorem WrapChunk.same {M : Nat} {O O' : ChunkOps C CS P} (h : WrapChunk M O O') : O.SameUnlessPanic O' ∧ O.Repeats := by
  cases h with
  | posStr => exact ⟨posStr_wrap, posStrM_repeats⟩
  | posStrish => exact ⟨posStrish_wrap, posStrishM_repeats⟩
  | shared => exact ⟨sharedChunk_wrap, sharedChunkM_repeats⟩

theorem WrapOf.same {M : Nat} {S R : StreamOps σ P τ α} (h : WrapOf M S R) : S.SameUnlessPanic R ∧ S.Repeats := by
  cases h with
  | text hO => exact ⟨textIter_wrap hO.same.1 _, textIter_repeats hO.same.2 _⟩
  | strs => exact ⟨strishIter_wrap _, strishIterM_repeats _⟩
  | chars => exact ⟨charIter_wrap _, charIterM_repeats _⟩
  | shared => exact ⟨sharedStream_wrap _, sharedStreamM_repeats _⟩
  | byStates hO => exact ⟨stateIter_wrap _ hO.same.1 _ _, stateIter_repeats _ hO.same.2 _ _⟩

end Kul
