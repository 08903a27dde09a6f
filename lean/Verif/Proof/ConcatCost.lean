import Verif.Spec.ConcatCost
import Verif.Spec.Work
import Verif.Proof.Beside
import Verif.Proof.Slices

/-!
# The number of concatenations, and of their steps
-/

namespace Kul

variable {σ C CS P τ ε α CE : Type} {O : ChunkOps C CS P} {RC : C → List (Item P) → Prop} {T : TextType C τ α}
  {st : τ → τ → Nat}

/-- The steps of a concatenation are few but for those that the second text accounts for: `W` measures texts. -/
structure CheapLast (T : TextType C τ α) (st : τ → τ → Nat) (W : τ → Nat) : Prop where
  empty : W T.empty = 0
  ofChunk : ∀ c, W (T.ofChunk c) ≤ 1
  steps : ∀ t u, st t u ≤ W u + 1
  concat : ∀ t u a v a', T.concat t u a = (.ok v, a') → W v ≤ W t + W u

/-- A stream and the same with counts. At most two concatenations per call, but for `left`; `held` measures what
is accumulated. -/
structure TallyStream (T : TextType C τ α) (st : τ → τ → Nat) (V : (τ → Nat) → Prop) (S : StreamOps σ P τ α) (S' : StreamOps σ P τ (Tally α))
    (left : σ → Nat) (held : (τ → Nat) → σ → Nat) : Prop where
  peek : S'.peek = S.peek
  next : S'.next = S.next
  peekLeft : ∀ s, left (S.peek s).2 ≤ left s ∧ ∀ W, held W (S.peek s).2 ≤ held W s
  nextLeft : ∀ s, left (S.next s).2 ≤ left s ∧ ∀ W, held W (S.next s).2 ≤ held W s
  nextAccum : ∀ s a, ∃ o s' a' i k, S.nextAccum s a.state = (o, s', a') ∧ S'.nextAccum s a = (o, s', ⟨a', i, k⟩) ∧
    a.concats ≤ i ∧ i + left s' ≤ a.concats + left s + 2 ∧
    ∀ W, V W → k + held W s' + 3 * a.concats ≤ a.steps + held W s + 3 * i
  accumDone : ∀ s a, ∃ o s' a' i k, S.accumDone s a.state = (o, s', a') ∧ S'.accumDone s a = (o, s', ⟨a', i, k⟩) ∧
    a.concats ≤ i ∧ i + left s' ≤ a.concats + left s + 1 ∧
    ∀ W, V W → k + held W s' + 3 * a.concats ≤ a.steps + held W s + 3 * i ∧
      ∀ u, o = .ok u → k + W u + held W s' + 3 * a.concats ≤ a.steps + held W s + 3 * i + 1

theorem tallied_concat (t u : τ) (a : Tally α) : (T.tallied st).concat t u a =
    ((T.concat t u a.state).1, ⟨(T.concat t u a.state).2, a.concats + 1, a.steps + st t u⟩) := rfl

/-! ## `text::Iter` -/

/-- How many chunks a `text::Iter` is not at the end of. -/
def TextIter.left (it : TextIter C CS P τ) : Nat := it.nextChunks.length + if it.cur.isSome then 1 else 0

/-- The measure of what a `text::Iter` has accumulated. -/
def TextIter.held (W : τ → Nat) (it : TextIter C CS P τ) : Nat := (it.accum.map W).getD 0

theorem TextIter.nextLoop_left : ∀ (cs : List C) (cur : Option CS),
    (TextIter.nextLoop O cs cur).2.2.length + (if (TextIter.nextLoop O cs cur).2.1.isSome then 1 else 0) ≤
      cs.length + if cur.isSome then 1 else 0 := by
  intro cs
  induction cs with
  | nil =>
    intro cur
    rcases cur with _ | s
    · simp [TextIter.nextLoop]
    · rw [TextIter.nextLoop]
      split <;> simp
  | cons c cs ih =>
    intro cur
    rcases cur with _ | s
    · simp [TextIter.nextLoop]
    · rw [TextIter.nextLoop]
      split
      · have := ih (some (O.srcStrm c))
        simp at this ⊢; omega
      · simp

theorem TextIter.nextAccumLoop_tallied : ∀ (cs : List C) (cur : Option CS) (acc : Option τ) (a : Tally α),
    ∃ o cur' cs' acc' a' i k, TextIter.nextAccumLoop O T cs cur acc a.state = (o, (cur', cs', acc'), a') ∧
      TextIter.nextAccumLoop O (T.tallied st) cs cur acc a = (o, (cur', cs', acc'), ⟨a', i, k⟩) ∧
      a.concats ≤ i ∧ i + (cs'.length + if cur'.isSome then 1 else 0) ≤ a.concats + (cs.length + if cur.isSome then 1 else 0) + 1 ∧
      ∀ W, CheapLast T st W → k + (acc'.map W).getD 0 + 3 * a.concats ≤ a.steps + (acc.map W).getD 0 + 3 * i := by
  intro cs
  induction cs with
  | nil =>
    rintro (_ | s) acc a
    · exact ⟨_, _, _, _, _, _, _, rfl, rfl, Nat.le_refl _, by omega, by intros; omega⟩
    · rw [TextIter.nextAccumLoop, TextIter.nextAccumLoop]
      rcases h1 : O.nextAccum s with ⟨(_ | x) | e | _ | _, s'⟩ <;> dsimp only
      · rcases h2 : O.accumDone s' with ⟨c | e | _ | _, s''⟩ <;> dsimp only
        · rw [show (T.tallied st).empty = T.empty from rfl, show (T.tallied st).ofChunk c = T.ofChunk c from rfl, tallied_concat]
          rcases h3 : T.concat (acc.getD T.empty) (T.ofChunk c) a.state with ⟨v | e | _ | _, a'⟩ <;> dsimp only
          · refine ⟨_, _, _, _, _, _, _, rfl, rfl, by omega, by simp, fun W hW => ?_⟩
            have h4 := hW.concat _ _ _ _ _ h3
            have h5 := hW.steps (acc.getD T.empty) (T.ofChunk c)
            have h6 := hW.ofChunk c
            have h7 : W (acc.getD T.empty) = (acc.map W).getD 0 := by cases acc <;> simp [hW.empty]
            simp only [Option.map_some, Option.getD_some]
            omega
          all_goals
            refine ⟨_, _, _, _, _, _, _, rfl, rfl, by omega, by simp, fun W hW => ?_⟩
            have h5 := hW.steps (acc.getD T.empty) (T.ofChunk c)
            have h6 := hW.ofChunk c
            simp only [Option.map_none, Option.getD_none]
            omega
        · exact e.elim
        all_goals exact ⟨_, _, _, _, _, _, _, rfl, rfl, by omega, by simp, by intros; omega⟩
      all_goals exact ⟨_, _, _, _, _, _, _, rfl, rfl, by omega, by simp, by intros; omega⟩
  | cons c₂ cs ih =>
    rintro (_ | s) acc a
    · exact ⟨_, _, _, _, _, _, _, rfl, rfl, Nat.le_refl _, by omega, by intros; omega⟩
    · rw [TextIter.nextAccumLoop, TextIter.nextAccumLoop]
      rcases h1 : O.nextAccum s with ⟨(_ | x) | e | _ | _, s'⟩ <;> dsimp only
      · rcases h2 : O.accumDone s' with ⟨c | e | _ | _, s''⟩ <;> dsimp only
        · rw [show (T.tallied st).empty = T.empty from rfl, show (T.tallied st).ofChunk c = T.ofChunk c from rfl, tallied_concat]
          rcases h3 : T.concat (acc.getD T.empty) (T.ofChunk c) a.state with ⟨v | e | _ | _, a'⟩ <;> dsimp only
          · obtain ⟨o, cur', cs', acc', a'', i, k, g1, g2, g3, g4, g5⟩ := ih (some (O.srcStrm c₂)) (some v)
              ⟨a', a.concats + 1, a.steps + st (acc.getD T.empty) (T.ofChunk c)⟩
            refine ⟨o, cur', cs', acc', a'', i, k, g1, g2, by simp at g3; omega, ?_, fun W hW => ?_⟩
            · simp at g4 ⊢; omega
            have h4 := hW.concat _ _ _ _ _ h3
            have h5 := hW.steps (acc.getD T.empty) (T.ofChunk c)
            have h6 := hW.ofChunk c
            have h7 : W (acc.getD T.empty) = (acc.map W).getD 0 := by cases acc <;> simp [hW.empty]
            have h8 := g5 W hW
            simp only [Option.map_some, Option.getD_some] at h8
            omega
          all_goals
            refine ⟨_, _, _, _, _, _, _, rfl, rfl, by omega, by simp; omega, fun W hW => ?_⟩
            have h5 := hW.steps (acc.getD T.empty) (T.ofChunk c)
            have h6 := hW.ofChunk c
            simp only [Option.map_none, Option.getD_none]
            omega
        · exact e.elim
        all_goals exact ⟨_, _, _, _, _, _, _, rfl, rfl, by omega, by simp, by intros; omega⟩
      all_goals exact ⟨_, _, _, _, _, _, _, rfl, rfl, by omega, by simp, by intros; omega⟩

theorem TextIter.peek_shape (it : TextIter C CS P τ) : ∃ o cur' pk', TextIter.peek O it =
    (o, { it with cur := cur', peeked := pk' }) ∧ cur'.isSome = it.cur.isSome := by
  obtain ⟨cur, cs, acc, pk⟩ := it
  unfold TextIter.peek
  rcases pk with _ | x <;> dsimp only
  · rcases cur with _ | s <;> dsimp only
    · exact ⟨_, _, _, rfl, rfl⟩
    · rcases O.peek s with ⟨(_ | x) | e | _ | _, s'⟩ <;> dsimp only
      · rcases TextIter.peekAhead O cs with o | e | _ | _ <;> exact ⟨_, _, _, rfl, rfl⟩
      all_goals exact ⟨_, _, _, rfl, rfl⟩
  · exact ⟨_, _, _, rfl, rfl⟩

theorem TextIter.tally : TallyStream T st (CheapLast T st) (textIterOps O T) (textIterOps O (T.tallied st)) TextIter.left TextIter.held where
  peek := rfl
  next := rfl
  peekLeft := by
    intro it
    obtain ⟨o, cur', pk', h1, h2⟩ := TextIter.peek_shape (O := O) it
    simp only [textIterOps, h1, TextIter.left, TextIter.held, h2]
    exact ⟨Nat.le_refl _, fun _ => Nat.le_refl _⟩
  nextLeft := by
    rintro ⟨cur, cs, acc, pk⟩
    have := TextIter.nextLoop_left (O := O) cs cur
    simp only [textIterOps, TextIter.next, TextIter.left, TextIter.held]
    exact ⟨this, fun _ => by simp⟩
  nextAccum := by
    rintro ⟨cur, cs, acc, pk⟩ a
    obtain ⟨o, cur', cs', acc', a', i, k, h1, h2, h3, h4, h5⟩ := TextIter.nextAccumLoop_tallied (O := O) (T := T) (st := st) cs cur acc a
    simp only [textIterOps, TextIter.nextAccum, h1, h2, TextIter.left, TextIter.held]
    exact ⟨_, _, _, _, _, rfl, rfl, h3, by dsimp only; omega, h5⟩
  accumDone := by
    rintro ⟨cur, cs, acc, pk⟩ a
    have h7 : ∀ W, CheapLast T st W → W (acc.getD T.empty) = (acc.map W).getD 0 := by
      intro W hW; cases acc <;> simp [hW.empty]
    simp only [textIterOps, TextIter.accumDone, TextIter.left, TextIter.held]
    rcases cur with _ | s <;> dsimp only
    · refine ⟨_, _, _, _, _, rfl, rfl, Nat.le_refl _, by simp, fun W hW => ?_⟩
      refine ⟨by simp only [Option.map_none, Option.getD_none]; omega, ?_⟩
      rintro u ⟨⟩
      have := h7 W hW
      simp only [Option.map_none, Option.getD_none]
      omega
    · rcases h2 : O.accumDone s with ⟨c | e | _ | _, s'⟩ <;> dsimp only
      · refine ⟨_, _, _, a.concats + 1, a.steps + st (acc.getD T.empty) (T.ofChunk c), rfl, rfl, by omega, by simp; omega, fun W hW => ?_⟩
        have h5 := hW.steps (acc.getD T.empty) (T.ofChunk c)
        have h6 := hW.ofChunk c
        have h8 := h7 W hW
        refine ⟨by simp only [Option.map_none, Option.getD_none]; omega, ?_⟩
        intro v hv
        have h4 := hW.concat _ _ _ _ _ (Prod.ext hv rfl)
        simp only [Option.map_none, Option.getD_none]
        omega
      · exact e.elim
      all_goals
        refine ⟨_, _, _, _, _, rfl, rfl, by omega, by simp, fun W hW => ?_⟩
        exact ⟨by simp only [Option.map_none, Option.getD_none]; omega, by simp⟩

/-! ## `CharIterSourceStream` -/

theorem CharIter.tally {T : TextType PosStrish τ α} {st : τ → τ → Nat} :
    TallyStream T st (CheapLast T st) (charIterOps T) (charIterOps (T.tallied st)) (fun _ => 0) (fun _ _ => 0) where
  peek := rfl
  next := rfl
  peekLeft _ := ⟨Nat.le_refl _, fun _ => Nat.le_refl _⟩
  nextLeft _ := ⟨Nat.le_refl _, fun _ => Nat.le_refl _⟩
  nextAccum s a := ⟨_, _, _, _, _, rfl, rfl, Nat.le_refl _, by omega, by intros; omega⟩
  accumDone s a := by
    refine ⟨_, _, _, a.concats, a.steps, rfl, rfl, Nat.le_refl _, by omega, fun W hW => ⟨by omega, ?_⟩⟩
    rintro u ⟨⟩
    exact Nat.add_le_add_right (Nat.add_le_add_left (hW.ofChunk s.accumDone.1) a.steps) _ |>.trans (by omega)

/-! ## `StrishIterSourceStream` -/

/-- The measure of what a `StrishIterSourceStream` has accumulated. -/
def StrishIter.held (W : τ → Nat) (it : StrishIter τ) : Nat := (it.accum.map W).getD 0

theorem StrishIter.nextPosstrish_accum {it it' : StrishIter τ} (h : it.nextPosstrish = some it') : it'.accum = it.accum := by
  unfold StrishIter.nextPosstrish at h
  rcases hc : it.cur with _ | s <;> rw [hc] at h <;> dsimp only at h
  · cases h
  · split at h <;> try cases h
    split at h <;> cases h <;> rfl

theorem StrishIter.nextLoop_accum : ∀ (n : Nat) (it : StrishIter τ), (StrishIter.nextLoop n it).2.accum = it.accum := by
  intro n
  induction n with
  | zero => intro it; rfl
  | succ n ih =>
    intro it
    rw [StrishIter.nextLoop]
    rcases hc : it.cur with _ | s <;> dsimp only
    rcases s.next with ⟨(_ | x) | e | _ | _, s'⟩ <;> dsimp only
    rcases hp : StrishIter.nextPosstrish { it with cur := some s' } with _ | it' <;> dsimp only
    rw [ih, StrishIter.nextPosstrish_accum hp]

theorem StrishIter.peek_accum (it : StrishIter τ) : it.peek.2.accum = it.accum := by
  unfold StrishIter.peek
  rcases hc : it.cur with _ | s <;> dsimp only
  rcases s.peek with ⟨(_ | x) | e | _ | _, s'⟩ <;> dsimp only
  rcases hp : it.peekedStrm with _ | p <;> dsimp only
  rcases nextPosstrishOf it.charIdx it.strishIter with ⟨_ | p, ss⟩ <;> rfl

theorem StrishIter.nextAccumLoop_tallied {T : TextType PosStrish τ α} {st : τ → τ → Nat} : ∀ (n : Nat) (it : StrishIter τ) (a : Tally α),
    ∃ o it' a' i k, StrishIter.nextAccumLoop T n it a.state = (o, it', a') ∧
      StrishIter.nextAccumLoop (T.tallied st) n it a = (o, it', ⟨a', i, k⟩) ∧
      a.concats ≤ i ∧ i ≤ a.concats + n ∧
      ∀ W, CheapLast T st W → k + it'.held W + 3 * a.concats ≤ a.steps + it.held W + 3 * i := by
  intro n
  induction n with
  | zero => intro it a; exact ⟨_, _, _, _, _, rfl, rfl, Nat.le_refl _, by omega, by intros; omega⟩
  | succ n ih =>
    intro it a
    rw [StrishIter.nextAccumLoop, StrishIter.nextAccumLoop]
    rcases hcur : it.cur with _ | s <;> dsimp only
    · exact ⟨_, _, _, _, _, rfl, rfl, Nat.le_refl _, by omega, by intros; omega⟩
    rcases h1 : s.nextAccum with ⟨(_ | x) | e | _ | _, s'⟩ <;> dsimp only
    · rcases h2 : s'.accumDone with ⟨c | e | _ | _, s''⟩ <;> dsimp only
      · rw [show (T.tallied st).empty = T.empty from rfl, show (T.tallied st).ofChunk c = T.ofChunk c from rfl, tallied_concat]
        rcases h3 : T.concat (it.accum.getD T.empty) (T.ofChunk c) a.state with ⟨v | e | _ | _, a'⟩ <;> dsimp only
        · rcases hp : StrishIter.nextPosstrish { it with cur := some s'', accum := some v } with _ | it₁ <;> dsimp only
          · refine ⟨_, _, _, _, _, rfl, rfl, by omega, by omega, fun W hW => ?_⟩
            have h4 := hW.concat _ _ _ _ _ h3
            have h5 := hW.steps (it.accum.getD T.empty) (T.ofChunk c)
            have h6 := hW.ofChunk c
            have h7 : W (it.accum.getD T.empty) = it.held W := by
              unfold StrishIter.held; cases it.accum <;> simp [hW.empty]
            simp only [StrishIter.held, Option.map_some, Option.getD_some]
            unfold StrishIter.held at h7
            omega
          · obtain ⟨o, it', a'', i, k, g1, g2, g3, g4, g5⟩ := ih it₁
              ⟨a', a.concats + 1, a.steps + st (it.accum.getD T.empty) (T.ofChunk c)⟩
            refine ⟨o, it', a'', i, k, g1, g2, by simp at g3; omega, by simp at g4; omega, fun W hW => ?_⟩
            have h4 := hW.concat _ _ _ _ _ h3
            have h5 := hW.steps (it.accum.getD T.empty) (T.ofChunk c)
            have h6 := hW.ofChunk c
            have h7 : W (it.accum.getD T.empty) = it.held W := by
              unfold StrishIter.held; cases it.accum <;> simp [hW.empty]
            have h8 := g5 W hW
            have h9 : it₁.held W = W v := by
              unfold StrishIter.held; rw [StrishIter.nextPosstrish_accum hp]; rfl
            dsimp only at h8
            omega
        all_goals
          refine ⟨_, _, _, _, _, rfl, rfl, by omega, by omega, fun W hW => ?_⟩
          have h5 := hW.steps (it.accum.getD T.empty) (T.ofChunk c)
          have h6 := hW.ofChunk c
          simp only [StrishIter.held, Option.map_none, Option.getD_none]
          omega
      · exact e.elim
      all_goals exact ⟨_, _, _, _, _, rfl, rfl, by omega, by omega, by intros; simp only [StrishIter.held]; omega⟩
    all_goals exact ⟨_, _, _, _, _, rfl, rfl, by omega, by omega, by intros; simp only [StrishIter.held]; omega⟩

theorem StrishIter.tally {T : TextType PosStrish τ α} {st : τ → τ → Nat} :
    TallyStream T st (CheapLast T st) (strishIterOps T) (strishIterOps (T.tallied st)) (fun _ => 0) StrishIter.held where
  peek := rfl
  next := rfl
  peekLeft s := ⟨Nat.le_refl _, fun W => by simp only [strishIterOps, StrishIter.held, StrishIter.peek_accum]; omega⟩
  nextLeft s := ⟨Nat.le_refl _, fun W => by simp [strishIterOps, StrishIter.held, StrishIter.next, StrishIter.nextLoop_accum]⟩
  nextAccum s a := by
    obtain ⟨o, it', a', i, k, h1, h2, h3, h4, h5⟩ := StrishIter.nextAccumLoop_tallied (T := T) (st := st) StrishIter.turns s a
    exact ⟨o, it', a', i, k, h1, h2, h3, h4, h5⟩
  accumDone := by
    intro it a
    have h7 : ∀ W, CheapLast T st W → W (it.accum.getD T.empty) = it.held W := by
      intro W hW; unfold StrishIter.held; cases it.accum <;> simp [hW.empty]
    simp only [strishIterOps, StrishIter.accumDone]
    rcases hc : it.cur with _ | s <;> dsimp only
    · refine ⟨_, _, _, _, _, rfl, rfl, Nat.le_refl _, by simp, fun W hW => ?_⟩
      have := h7 W hW
      refine ⟨by simp only [StrishIter.held, Option.map_none, Option.getD_none]; omega, ?_⟩
      rintro u ⟨⟩
      change a.steps + W (it.accum.getD T.empty) + 0 + _ ≤ _
      omega
    · rcases h2 : s.accumDone with ⟨c | e | _ | _, s'⟩ <;> dsimp only
      · refine ⟨_, _, _, a.concats + 1, a.steps + st (it.accum.getD T.empty) (T.ofChunk c), rfl, rfl, by omega, by omega, fun W hW => ?_⟩
        have h5 := hW.steps (it.accum.getD T.empty) (T.ofChunk c)
        have h6 := hW.ofChunk c
        have h8 := h7 W hW
        refine ⟨by simp only [StrishIter.held, Option.map_none, Option.getD_none] at *; omega, ?_⟩
        intro v hv
        have h4 := hW.concat _ _ _ _ _ (Prod.ext hv rfl)
        change _ + W v + 0 + _ ≤ _
        omega
      · exact e.elim
      all_goals
        refine ⟨_, _, _, _, _, rfl, rfl, by omega, by omega, fun W hW => ?_⟩
        exact ⟨by simp only [StrishIter.held, Option.map_none, Option.getD_none]; omega, by simp⟩

/-! ## The parser with and without counts -/

/-- A parser and the same with counts. -/
structure TallyEnv (T : TextType C τ α) (st : τ → τ → Nat) (E : Env σ P τ ε α CE) (E' : Env σ P τ ε (Tally α) CE) : Prop where
  cc : E'.cc = E.cc
  text : E.text = T.ops
  text' : E'.text = (T.tallied st).ops
  alloc : E'.alloc = E.alloc.tallied
  lookup : E'.lookup = tallyLookup E.lookup

/-- The states of the two parsers: the counts are in proportion to the calls. -/
def TallyInv (V : (τ → Nat) → Prop) (left : σ → Nat) (held : (τ → Nat) → σ → Nat) (L : Nat) (s : σ × Nat) (a : α) (b : Tally α) : Prop :=
  b.state = a ∧ b.concats + left s.1 ≤ 2 * s.2 + L ∧ ∀ W, V W → b.steps + held W s.1 ≤ 3 * b.concats

theorem TallyStream.beside {E : Env σ P τ ε α CE} {E' : Env σ P τ ε (Tally α) CE} {left : σ → Nat} {held : (τ → Nat) → σ → Nat}
    {V : (τ → Nat) → Prop} (H : TallyStream T st (CheapLast T st) E.strm E'.strm left held) (hE : TallyEnv T st E E')
    (hV : ∀ W, V W → CheapLast T st W) (L : Nat) : Beside (TallyInv V left held L) E.counted E'.counted where
  cc := hE.cc
  empty := by
    change E'.text.empty = E.text.empty
    rw [hE.text, hE.text']
    rfl
  peek := by
    rintro ⟨s, c⟩ a b d ⟨rfl, h2, h3⟩
    obtain ⟨h4, h5⟩ := H.peekLeft s
    refine ⟨_, _, _, _, _, rfl, ?_, rfl, ?_, fun W hW => ?_⟩
    · simp only [Env.peek, liftEmpty, Env.counted, StreamOps.counted, H.peek]
    · simp only [Env.counted, StreamOps.counted] at h2 ⊢; omega
    · have := h3 W hW; have := h5 W; simp only [Env.counted, StreamOps.counted] at *; omega
  next := by
    rintro ⟨s, c⟩ a b d ⟨rfl, h2, h3⟩
    obtain ⟨h4, h5⟩ := H.nextLeft s
    refine ⟨_, _, _, _, _, rfl, ?_, rfl, ?_, fun W hW => ?_⟩
    · simp only [Env.next, liftEmpty, Env.counted, StreamOps.counted, H.next]
    · simp only [Env.counted, StreamOps.counted] at h2 ⊢; omega
    · have := h3 W hW; have := h5 W; simp only [Env.counted, StreamOps.counted] at *; omega
  nextAccum := by
    rintro ⟨s, c⟩ a b d ⟨rfl, h2, h3⟩
    obtain ⟨o, s', a', i, k, h4, h5, h6, h7, h8⟩ := H.nextAccum s b
    refine ⟨o.mapErr .failedAlloc, (s', c + 1), a', ⟨a', i, k⟩, d, ?_, ?_, rfl, ?_, fun W hW => ?_⟩
    · simp only [Env.nextAccum, liftAccum, Env.counted, StreamOps.counted, h4]
    · simp only [Env.nextAccum, liftAccum, Env.counted, StreamOps.counted, h5]
    · dsimp only at *; omega
    · have := h3 W hW; have := h8 W (hV W hW); dsimp only at *; omega
  concatAccum := by
    rintro t ⟨s, c⟩ a b d ⟨rfl, h2, h3⟩
    obtain ⟨o, s', a', i, k, h4, h5, h6, h7, h8⟩ := H.accumDone s b
    have g1 : liftAccum (P := P) (CE := CE) E.counted.strm.accumDone ⟨(s, c), b.state, d⟩ = (o.mapErr .failedAlloc, ⟨(s', c + 1), a', d⟩) := by
      simp only [liftAccum, Env.counted, StreamOps.counted, h4]
    have g2 : liftAccum (P := P) (CE := CE) E'.counted.strm.accumDone ⟨(s, c), b, d⟩ = (o.mapErr .failedAlloc, ⟨(s', c + 1), ⟨a', i, k⟩, d⟩) := by
      simp only [liftAccum, Env.counted, StreamOps.counted, h5]
    unfold Env.concatAccum
    cases o with
    | ok u =>
      refine ⟨((T.concat t u a').1).mapErr .failedAlloc, (s', c + 1), (T.concat t u a').2,
        ⟨(T.concat t u a').2, i + 1, k + st t u⟩, d, ?_, ?_, rfl, ?_, fun W hW => ?_⟩
      · refine (Act.bind_ok g1).trans ?_
        simp only [liftAlloc, Env.counted, hE.text, TextType.ops]
      · refine (Act.bind_ok g2).trans ?_
        simp only [liftAlloc, Env.counted, hE.text', TextType.ops, TextType.tallied]
      · dsimp only at *; omega
      · have := h3 W hW
        have := (h8 W (hV W hW)).2 u rfl
        have := (hV W hW).steps t u
        dsimp only at *; omega
    | err e =>
      refine ⟨_, _, _, _, _, Act.bind_err g1, Act.bind_err g2, rfl, ?_, fun W hW => ?_⟩
      · dsimp only at *; omega
      · have := h3 W hW; have := (h8 W (hV W hW)).1; dsimp only at *; omega
    | panic =>
      refine ⟨.panic, (s', c + 1), a', ⟨a', i, k⟩, d, ?_, ?_, rfl, ?_, fun W hW => ?_⟩
      · show Act.bind _ _ _ = _
        unfold Act.bind; rw [g1]; rfl
      · show Act.bind _ _ _ = _
        unfold Act.bind; rw [g2]; rfl
      · dsimp only at *; omega
      · have := h3 W hW; have := (h8 W (hV W hW)).1; dsimp only at *; omega
    | fuel =>
      refine ⟨.fuel, (s', c + 1), a', ⟨a', i, k⟩, d, ?_, ?_, rfl, ?_, fun W hW => ?_⟩
      · show Act.bind _ _ _ = _
        unfold Act.bind; rw [g1]; rfl
      · show Act.bind _ _ _ = _
        unfold Act.bind; rw [g2]; rfl
      · dsimp only at *; omega
      · have := h3 W hW; have := (h8 W (hV W hW)).1; dsimp only at *; omega
  newDatum := by
    rintro x ⟨s, c⟩ a b d ⟨rfl, h2, h3⟩
    refine ⟨_, (s, c), (E.alloc.newDatum x b.state).2,
      { b with state := (E.alloc.newDatum x b.state).2 }, d, rfl, ?_, rfl, h2, h3⟩
    simp only [Env.newDatum, liftAlloc, Env.counted, hE.alloc, AllocOps.tallied]
  getMutFresh := by
    rintro ⟨s, c⟩ a b d ⟨rfl, h2, h3⟩
    refine ⟨_, _, _, _, _, rfl, ?_, rfl, h2, h3⟩
    simp only [Env.getMutFresh, Env.counted, hE.alloc, AllocOps.tallied]
  lookup := by
    intro d
    change (E.lookup d = none ∧ E'.lookup d = none) ∨ ∃ c c', E.lookup d = some c ∧ E'.lookup d = some c' ∧ _
    rw [hE.lookup]
    unfold tallyLookup
    rcases E.lookup d with _ | (f | f)
    · exact .inl ⟨rfl, rfl⟩
    · refine .inr ⟨_, _, rfl, rfl, .operative ?_⟩
      rintro ⟨s, c⟩ d t a b ⟨rfl, h2, h3⟩
      exact ⟨rfl, rfl, h2, h3⟩
    · refine .inr ⟨_, _, rfl, rfl, .applicative ?_⟩
      rintro ⟨s, c⟩ d t a b ⟨rfl, h2, h3⟩
      exact ⟨rfl, rfl, h2, h3⟩

/-! ## The library's parsers -/

/-- The streams of the two parsers. -/
theorem Tallied.stream {E : Env σ P τ ε α CE} {E' : Env σ P τ ε (Tally α) CE} {s : σ} {pieces : List (List (Item P))}
    (h : Tallied O RC T st E E' s pieces) : ∃ left held, TallyStream T st (CheapLast T st) E.strm E'.strm left held ∧
      TallyEnv T st E E' ∧ left s ≤ pieces.length ∧ ∀ W, held W s = 0 := by
  cases h with
  | @text _ _ _ _ _ _ _ O RC hC T st cc al lookup cs pieces h =>
    refine ⟨_, _, TextIter.tally, ⟨rfl, rfl, rfl, rfl, rfl⟩, ?_, ?_⟩
    · rw [← h.length_eq]
      cases cs with
      | nil => exact Nat.le_refl _
      | cons c cs => exact Nat.le_refl _
    · intro W
      cases cs <;> rfl
  | strs T st cc al lookup ss => exact ⟨_, _, StrishIter.tally, ⟨rfl, rfl, rfl, rfl, rfl⟩, Nat.zero_le _, fun _ => rfl⟩
  | chars T st cc al lookup ss => exact ⟨_, _, CharIter.tally, ⟨rfl, rfl, rfl, rfl, rfl⟩, Nat.zero_le _, fun _ => rfl⟩

theorem Tallied.chunk {E : Env σ P τ ε α CE} {E' : Env σ P τ ε (Tally α) CE} {s : σ} {pieces : List (List (Item P))}
    (h : Tallied O RC T st E E' s pieces) : ∃ RCS, ChunkConf O RC RCS := by
  cases h with
  | text hC => exact hC.conf
  | strs => exact ⟨_, posStrish_conf⟩
  | chars => exact ⟨_, posStrish_conf⟩

theorem Tallied.conf {E : Env σ P τ ε α CE} {E' : Env σ P τ ε (Tally α) CE} {s : σ} {pieces : List (List (Item P))}
    {X : TextSem P τ α} (hT : LibText O RC T X) (h : Tallied O RC T st E E' s pieces) :
    ∃ RS, Conf E RS X ∧ RS s ⟨[], pieces.flatten⟩ := by
  cases h with
  | text hC _ _ cc al lookup h =>
    obtain ⟨RCS, H⟩ := hC.conf
    have := textEnv_conf (cc := cc) (al := al) (lookup := lookup) H (hT.conf H).2
    rw [← hT.sem] at this
    exact ⟨_, this, TextIter.ofChunks_means H h⟩
  | strs _ _ cc al lookup ss =>
    have := strishEnv_conf (cc := cc) (al := al) (lookup := lookup) (hT.conf posStrish_conf).2
    rw [← hT.sem] at this
    rw [charPieces_flatten]
    exact ⟨_, this, StrishIter.new_means _ ss⟩
  | chars _ _ cc al lookup s =>
    have := charEnv_conf (cc := cc) (al := al) (lookup := lookup) (hT.conf posStrish_conf).2
    rw [← hT.sem] at this
    exact ⟨_, this, by simpa [charItems] using CharIter.new_means s⟩

/-! ## Texts in slices, with counts -/

/-- The counts went up, by at most `B` steps for each concatenation. -/
def Tally.Within (B : Nat) (RA : α → α → Prop) (a b : Tally α) : Prop :=
  RA a.state b.state ∧ b.steps + B * a.concats ≤ a.steps + B * b.concats

theorem SliceConf.tallied {cc : Classifier} {RA : α → α → Prop} {F : Prop} {pieces : List (List (Item P))}
    (K : SliceConf cc T RC RA F pieces) {B : Nat}
    (hB : ∀ t u c e, T.SlicesOf cc RC pieces t c → T.SlicesOf cc RC pieces u e → st t u ≤ B) :
    SliceConf cc (T.tallied st) RC (Tally.Within B RA) F pieces where
  refl a := ⟨K.refl _, Nat.le_refl _⟩
  trans a b c h h' := ⟨K.trans _ _ _ h.1 h'.1, by have := h.2; have := h'.2; omega⟩
  ofChunk := K.ofChunk
  empty := K.empty
  concat := by
    intro t u c e a ht hu hce
    obtain ⟨o, a', h1, h2, h3⟩ := K.concat t u c e a.state ht hu hce
    refine ⟨o, ⟨a', a.concats + 1, a.steps + st t u⟩, by rw [tallied_concat, h1], ⟨h2, ?_⟩, h3⟩
    have := hB t u c e ht hu
    simp only [Nat.mul_add]
    omega

theorem TextConf.tallied {RA : α → α → Prop} {F : Prop} (K : TextConf T RC RA F) :
    TextConf (T.tallied st) RC (fun a b => RA a.state b.state) F where
  refl a := K.refl _
  trans a b c h h' := K.trans _ _ _ h h'
  ofChunk := K.ofChunk
  empty := K.empty
  concat := by
    intro t u c e a ht hu
    obtain ⟨o, a', h1, h2, h3⟩ := K.concat t u c e a.state ht hu
    exact ⟨o, _, by rw [tallied_concat, h1], h2, h3⟩

theorem Tallied.slices {E : Env σ P τ ε α CE} {E' : Env σ P τ ε (Tally α) CE} {s : σ} {pieces : List (List (Item P))}
    {X : TextSem P τ α} (hT : LibText O RC T X) (h : Tallied O RC T st E E' s pieces) {B : Nat}
    (hB : ∀ t u c e, T.SlicesOf E.cc RC pieces t c → T.SlicesOf E.cc RC pieces u e → st t u ≤ B) :
    ∃ RS, ConfJ E' RS ⟨T.SlicesOf E.cc RC pieces, Tally.Within B X.RA, X.F⟩ (CutBetween E.cc pieces) ∧
      RS s ⟨[], pieces.flatten⟩ := by
  cases h with
  | @text _ _ _ _ _ _ _ O RC hC T st cc al lookup cs pieces h =>
    obtain ⟨RCS, H⟩ := hC.conf
    have K := (hT.slices H cc pieces).tallied hB
    exact ⟨_, (textIter_slices (E := textEnv O (T.tallied st) cc al.tallied (tallyLookup lookup)) H K rfl).conf K rfl,
      TextIter.ofChunks_slices H h⟩
  | strs T st cc al lookup ss =>
    have K := (hT.slices posStrish_conf cc (charPieces 0 ss)).tallied hB
    refine ⟨_, (strishIter_slices (E := strishEnv (T.tallied st) cc al.tallied (tallyLookup lookup)) K rfl).conf K rfl, ?_⟩
    rw [charPieces_flatten]
    exact StrishIter.new_slices cc (T.tallied st) ss
  | chars T st cc al lookup s =>
    have K := (hT.slices posStrish_conf cc [charItems s]).tallied hB
    refine ⟨_, (charIter_slices (E := charEnv (T.tallied st) cc al.tallied (tallyLookup lookup)) K
      (hT.conf posStrish_conf).2.tallied rfl rfl).conf K rfl, ?_⟩
    exact ⟨by simpa [charItems] using CharIter.new_means s, by simp⟩

/-- If each concatenation of texts in slices has at most `B` steps, all have at most `B` on average. -/
theorem Tallied.steps_le {E : Env σ P τ ε α CE} {E' : Env σ P τ ε (Tally α) CE} {s : σ} {pieces : List (List (Item P))}
    {X : TextSem P τ α} (hT : LibText O RC T X) (h : Tallied O RC T st E E' s pieces) {B : Nat}
    (hB : ∀ t u c e, T.SlicesOf E.cc RC pieces t c → T.SlicesOf E.cc RC pieces u e → st t u ≤ B) {a : α} {os t}
    (hc : E'.Calls (St.init s ⟨a, 0, 0⟩) os t) : t.alloc.steps ≤ B * t.alloc.concats := by
  obtain ⟨RS, C, hs⟩ := h.slices hT hB
  obtain ⟨_, _, _, hE, _⟩ := h.stream
  have tr : ∀ d : Datum τ ε, d.All (fun _ => True) fun _ => True := fun d => by
    induction d with
    | text _ => exact .text trivial
    | combination _ _ h1 h2 => exact .combination h1 h2
    | emptyNest => exact .emptyNest
    | list _ _ h1 h2 => exact .list h1 h2
    | emptyList => exact .emptyList
    | extra _ => exact .extra trivial
  refine (C.history (QT := fun _ => True) (QX := fun _ => True) (QE := fun _ => True)
    (I := fun a : Tally α => a.steps ≤ B * a.concats) ⟨?_, ?_, ?_, ?_⟩ hs (fun _ _ _ _ => trivial) (by simp) hc).1
  · intro d f u b hl _ _ hb
    rw [hE.lookup] at hl
    unfold tallyLookup at hl
    rcases hx : E.lookup d with _ | (g | g) <;> rw [hx] at hl
    · cases hl
    · cases hl
      exact ⟨fun _ _ => tr _, fun _ _ => trivial, hb⟩
    · cases hl
  · intro d f u b hl _ _ hb
    rw [hE.lookup] at hl
    unfold tallyLookup at hl
    rcases hx : E.lookup d with _ | (g | g) <;> rw [hx] at hl
    · cases hl
    · cases hl
    · cases hl
      exact ⟨fun _ _ => tr _, fun _ _ => trivial, hb⟩
  · rintro a b ⟨_, h2⟩ hb
    omega
  · intro d b _ hb
    rw [hE.alloc]
    exact hb

/-! ## The text types -/

theorem TextVec.chunks_link (t u : TextVec C) : (link t u).chunks = t.chunks ++ u.chunks := by
  cases t <;> cases u <;> rfl

/-- A `Vec` is appended to. -/
theorem textVec_cheap : CheapLast (textVec α O) (TextVec.moves O) (fun t => t.chunks.length) where
  empty := rfl
  ofChunk _ := Nat.le_refl _
  steps t u := by
    unfold TextVec.moves
    split
    · cases t <;> cases u <;> simp [TextVec.chunks]
    · omega
  concat t u a v a' h := by
    simp only [textVec, TextVec.concat] at h
    split at h
    · cases h; omega
    · split at h
      · cases h; omega
      · cases h
        rw [TextVec.chunks_link, List.length_append]
      · cases h
    · cases h

theorem looks_le {RCS : CS → Seq P → Prop} (H : ChunkConf O RC RCS) {cs : List C} {ls : List (List (Item P))} (h : List.Forall₂ RC cs ls)
    (hl : cs.length ≤ 1 ∨ ∀ l ∈ ls, l ≠ []) : looks O cs ≤ 1 := by
  cases h with
  | nil => exact Nat.zero_le _
  | @cons c l cs ls hc hcs =>
    unfold looks
    rw [H.isEmpty c l hc]
    cases l with
    | nil =>
      rcases hl with hl | hl
      · have : cs = [] := by simpa using hl
        subst this
        exact Nat.le_refl _
      · exact absurd rfl (hl [] (by simp))
    | cons x l => exact Nat.le_refl _

theorem TextType.looks_le {RCS : CS → Seq P → Prop} (H : ChunkConf O RC RCS) {cc : Classifier} {pieces : List (List (Item P))} {t u : τ}
    {c e : List (Item P)} (ht : T.SlicesOf cc RC pieces t c) (hu : T.SlicesOf cc RC pieces u e) : T.looks O t u ≤ 2 := by
  obtain ⟨cs, ls, h1, h2, rfl, h3⟩ := ht
  obtain ⟨cs', ls', h4, h5, rfl, h6⟩ := hu
  have g1 := Kul.looks_le H h2 (h3.imp And.right Slices.ne)
  have g2 := Kul.looks_le H h5 (h6.imp And.right Slices.ne)
  simp only [TextType.looks, h1, h4]
  split <;> omega

theorem TextDatumList.toEnd_eq : ∀ {t : TextDatumList C ε} {cs : List C}, t.chunks = .ok cs → t.toEnd = cs.length
  | .mk c none, cs, h => by cases h; rfl
  | .mk c (some (.text t)), cs, h => by
    unfold chunks at h
    unfold toEnd
    split at h
    · rename_i cs' h'
      cases h
      rw [toEnd_eq h']
      rfl
    · rename_i h'
      exact absurd h (h' cs)
  | .mk c (some (.combination _ _)), cs, h => by cases h
  | .mk c (some .emptyNest), cs, h => by cases h
  | .mk c (some (.list _ _)), cs, h => by cases h
  | .mk c (some .emptyList), cs, h => by cases h
  | .mk c (some (.extra _)), cs, h => by cases h

theorem TextDatumList.turns_le {RCS : CS → Seq P → Prop} (H : ChunkConf O RC RCS) {cc : Classifier} {pieces : List (List (Item P))}
    (hn : pieces.flatten.Nodup) {al : AllocOps (TextDatumList C ε) ε α} {t u : TextDatumList C ε} {c : List (Item P)}
    (ht : (textDatumList O al).SlicesOf cc RC pieces t c) : TextDatumList.turns O t u ≤ pieces.flatten.length := by
  obtain ⟨cs, ls, h1, h2, rfl, h3⟩ := ht
  simp only [textDatumList] at h1
  unfold TextDatumList.turns
  rw [toEnd_eq h1, h2.length_eq]
  simp only [TextDatumList.isEmpty, h1, allChunks_isEmpty H h2]
  rcases h3 with ⟨h3, _⟩ | h3
  · simp [h3]
  · have := h3.length_le hn
    split <;> split <;> omega

end Kul
