import Verif.Spec.ChunkIter
import Verif.Spec.History
import Verif.Spec.Contract

/-! # Iterating by states agrees with iterating a list of chunks -/

namespace Kul

variable {S C CS P τ ε α CE : Type}

/-- The iterator of chunks that is in state `st` yields `cs`. -/
inductive GivesChunks (N : ChunksState C S) : Option S → List C → Prop where
  | nil {st} : N.iterNext st = (.ok none, none) → GivesChunks N st []
  | cons {st c st' cs} : N.iterNext st = (.ok (some c), st') → GivesChunks N st' cs → GivesChunks N st (c :: cs)

theorem GivesChunks.done (N : ChunksState C S) : GivesChunks N none [] := .nil rfl

theorem GivesChunks.results {N : ChunksState C S} {st : Option S} {cs : List C} (h : GivesChunks N st cs) (n : Nat) :
    N.results n st = yieldsOnly cs n := by
  induction n generalizing st cs with
  | zero => simp [ChunksState.results, yieldsOnly]
  | succ n ih =>
    cases h with
    | nil h1 =>
      simp only [ChunksState.results, h1, ih (.done N)]
      simp [yieldsOnly, List.replicate_succ]
    | cons h1 h2 =>
      simp only [ChunksState.results, h1, ih h2]
      simp [yieldsOnly]

theorem GivesChunks.slice (c : C) (cs : List C) : GivesChunks (sliceState C) (some (c :: cs)) (c :: cs) := by
  induction cs generalizing c with
  | nil => exact .cons rfl (.done _)
  | cons c' cs ih => exact .cons rfl (ih c')

theorem GivesChunks.vec (t : TextVec C) : GivesChunks (sliceState C) t.state t.chunks := by
  cases t with
  | single c => exact GivesChunks.slice c []
  | multi cs =>
    cases cs with
    | nil => exact .nil rfl
    | cons c cs => exact GivesChunks.slice c cs

theorem GivesChunks.list : ∀ {t : TextDatumList C ε} {cs : List C}, t.chunks = .ok cs →
    GivesChunks TextDatumList.stateNext (some t) cs
  | .mk c none, cs, h => by
    simp only [TextDatumList.chunks, Outcome.ok.injEq] at h
    subst h
    exact .cons rfl (.done _)
  | .mk c (some (.text t)), cs, h => by
    simp only [TextDatumList.chunks] at h
    split at h
    · next cs' e =>
      simp only [Outcome.ok.injEq] at h
      subst h
      exact .cons rfl (GivesChunks.list e)
    · next hne => exact absurd h (hne cs)
  | .mk c (some (.combination ..)), cs, h => by simp [TextDatumList.chunks] at h
  | .mk c (some .emptyNest), cs, h => by simp [TextDatumList.chunks] at h
  | .mk c (some (.list ..)), cs, h => by simp [TextDatumList.chunks] at h
  | .mk c (some .emptyList), cs, h => by simp [TextDatumList.chunks] at h
  | .mk c (some (.extra ..)), cs, h => by simp [TextDatumList.chunks] at h

theorem LibIteration.gives {O : ChunkOps C CS P} {T : TextType C τ α} {state : τ → Option S}
    {N : ChunksState C S} (h : LibIteration O T state N) {t : τ} {cs : List C} (ht : T.chunks t = .ok cs) :
    GivesChunks N (state t) cs := by
  cases h with
  | vec => cases ht; exact GivesChunks.vec t
  | datumList => exact GivesChunks.list ht

/-- The two iterators are in corresponding states, and there is enough fuel. -/
structure StateIter.Sim (N : ChunksState C S) (fuel : Nat) (s : StateIter S CS P τ) (it : TextIter C CS P τ) : Prop where
  cur : s.cur = it.cur
  accum : s.accum = it.accum
  peeked : s.peeked = it.peeked
  gives : GivesChunks N s.next it.nextChunks
  fuel : it.nextChunks.length + 2 ≤ fuel

section
variable {N : ChunksState C S} {O : ChunkOps C CS P}

theorem advance_nil {st : Option S} (h : GivesChunks N st []) : StateIter.advance N O st = (.ok none, none) := by
  cases h with
  | nil h => simp [StateIter.advance, h]

theorem advance_cons {st : Option S} {c : C} {cs : List C} (h : GivesChunks N st (c :: cs)) :
    ∃ st', StateIter.advance N O st = (.ok (some (O.srcStrm c)), st') ∧ GivesChunks N st' cs := by
  cases h with
  | cons h h' => exact ⟨_, by simp [StateIter.advance, h], h'⟩

theorem StateIter.new_sim {st : Option S} {cs : List C} (h : GivesChunks N st cs) {fuel : Nat} (hf : cs.length < fuel) :
    ∃ s : StateIter S CS P τ, StateIter.new N O st = .ok s ∧ Sim N (fuel + 1) s (.ofChunks O cs) := by
  cases cs with
  | nil => exact ⟨⟨none, none, none, none⟩, by simp [StateIter.new, advance_nil h], rfl, rfl, rfl, .done _, by simp only [TextIter.ofChunks, List.length_nil] at *; omega⟩
  | cons c cs =>
    obtain ⟨st', h1, h2⟩ := advance_cons (O := O) h
    refine ⟨⟨some (O.srcStrm c), st', none, none⟩, by simp only [StateIter.new, h1], rfl, rfl, rfl, h2, ?_⟩
    simp only [TextIter.ofChunks, List.length_cons] at *
    omega

theorem nextLoop_sim {cs : List C} {st : Option S} (h : GivesChunks N st cs) {fuel : Nat} (hf : cs.length + 2 ≤ fuel)
    (cur : Option CS) : ∃ o cur' st' cs', StateIter.nextLoop N O fuel st cur = (o, cur', st') ∧
      TextIter.nextLoop O cs cur = (o, cur', cs') ∧ GivesChunks N st' cs' ∧ cs'.length ≤ cs.length := by
  induction cs generalizing st fuel cur with
  | nil =>
    obtain ⟨fuel, rfl⟩ : ∃ f, fuel = f + 2 := ⟨fuel - 2, by simp at hf; omega⟩
    cases cur with
    | none => exact ⟨_, _, _, _, rfl, by simp [TextIter.nextLoop], h, Nat.le_refl _⟩
    | some s =>
      simp only [StateIter.nextLoop, TextIter.nextLoop]
      rcases e : O.next s with ⟨_ | _ | _ | _, s'⟩
      · next o => cases o with
        | none =>
          simp only [advance_nil h, StateIter.nextLoop]
          exact ⟨_, _, _, _, rfl, rfl, .done _, Nat.le_refl _⟩
        | some x => exact ⟨_, _, _, _, rfl, rfl, h, Nat.le_refl _⟩
      · exact Empty.elim ‹_›
      all_goals exact ⟨_, _, _, _, rfl, rfl, h, Nat.le_refl _⟩
  | cons c cs ih =>
    obtain ⟨fuel, rfl⟩ : ∃ f, fuel = f + 1 := ⟨fuel - 1, by omega⟩
    cases cur with
    | none => exact ⟨_, _, _, _, rfl, by simp [TextIter.nextLoop], h, Nat.le_refl _⟩
    | some s =>
      simp only [StateIter.nextLoop, TextIter.nextLoop]
      rcases e : O.next s with ⟨_ | _ | _ | _, s'⟩
      · next o => cases o with
        | none =>
          obtain ⟨st', h1, h2⟩ := advance_cons (O := O) h
          simp only [h1]
          obtain ⟨o, cur', st', cs', g1, g2, g3, g4⟩ := ih h2 (fuel := fuel) (by simp at hf; omega) (some (O.srcStrm c))
          exact ⟨o, cur', st', cs', g1, g2, g3, by simp; omega⟩
        | some x => exact ⟨_, _, _, _, rfl, rfl, h, Nat.le_refl _⟩
      · exact Empty.elim ‹_›
      all_goals exact ⟨_, _, _, _, rfl, rfl, h, Nat.le_refl _⟩

theorem peekAhead_sim {cs : List C} {st : Option S} (h : GivesChunks N st cs) {fuel : Nat} (hf : cs.length + 1 ≤ fuel) :
    ∃ cur st', StateIter.advance N O st = (.ok cur, st') ∧
      (StateIter.peekLoop N O fuel st' cur).1 = TextIter.peekAhead O cs := by
  induction cs generalizing st fuel with
  | nil =>
    obtain ⟨fuel, rfl⟩ : ∃ f, fuel = f + 1 := ⟨fuel - 1, by omega⟩
    exact ⟨_, _, advance_nil h, by simp [StateIter.peekLoop, TextIter.peekAhead]⟩
  | cons c cs ih =>
    obtain ⟨fuel, rfl⟩ : ∃ f, fuel = f + 1 := ⟨fuel - 1, by omega⟩
    obtain ⟨st', h1, h2⟩ := advance_cons (O := O) h
    refine ⟨_, _, h1, ?_⟩
    simp only [StateIter.peekLoop, TextIter.peekAhead]
    rcases e : O.peek (O.srcStrm c) with ⟨_ | _ | _ | _, s'⟩
    · next o => cases o with
      | none =>
        obtain ⟨cur, st'', g1, g2⟩ := ih h2 (fuel := fuel) (by simp at hf; omega)
        simp only [g1, g2]
      | some x => rfl
    · exact Empty.elim ‹_›
    all_goals rfl

theorem peek_sim {fuel : Nat} {s : StateIter S CS P τ} {it : TextIter C CS P τ} (h : StateIter.Sim N fuel s it) :
    ∃ o s' it', StateIter.peek N O fuel s = (o, s') ∧ TextIter.peek O it = (o, it') ∧ StateIter.Sim N fuel s' it' := by
  obtain ⟨cur, st, acc, pk⟩ := s
  obtain ⟨cur', cs, acc', pk'⟩ := it
  obtain ⟨h1, h2, h3, h4, h5⟩ := h
  simp only at h1 h2 h3 h4 h5
  subst h1 h2 h3
  cases pk with
  | some x => exact ⟨_, _, _, rfl, rfl, rfl, rfl, rfl, h4, h5⟩
  | none =>
    obtain ⟨fuel, rfl⟩ : ∃ f, fuel = f + 1 := ⟨fuel - 1, by omega⟩
    cases cur with
    | none => exact ⟨_, _, _, rfl, rfl, rfl, rfl, rfl, h4, h5⟩
    | some s =>
      obtain ⟨cur, st', g1, g2⟩ := peekAhead_sim (O := O) h4 (fuel := fuel) (by omega)
      simp only [StateIter.peek, TextIter.peek, StateIter.peekLoop]
      rcases e : O.peek s with ⟨_ | _ | _ | _, s'⟩
      · next o => cases o with
        | none =>
          simp only [g1, g2]
          rcases TextIter.peekAhead O cs with ((_ | _) | _ | _ | _)
          · exact ⟨_, _, _, rfl, rfl, rfl, rfl, rfl, h4, h5⟩
          · exact ⟨_, _, _, rfl, rfl, rfl, rfl, rfl, h4, h5⟩
          · exact Empty.elim ‹_›
          · exact ⟨_, _, _, rfl, rfl, rfl, rfl, rfl, h4, h5⟩
          · exact ⟨_, _, _, rfl, rfl, rfl, rfl, rfl, h4, h5⟩
        | some x => exact ⟨_, _, _, rfl, rfl, rfl, rfl, rfl, h4, h5⟩
      · exact Empty.elim ‹_›
      all_goals exact ⟨_, _, _, rfl, rfl, rfl, rfl, rfl, h4, h5⟩

theorem next_sim {fuel : Nat} {s : StateIter S CS P τ} {it : TextIter C CS P τ} (h : StateIter.Sim N fuel s it) :
    ∃ o s' it', StateIter.nextItem N O fuel s = (o, s') ∧ TextIter.next O it = (o, it') ∧ StateIter.Sim N fuel s' it' := by
  obtain ⟨o, cur', st', cs', g1, g2, g3, g4⟩ := nextLoop_sim (O := O) h.gives h.fuel s.cur
  have hf := h.fuel
  refine ⟨o, ⟨cur', st', none, none⟩, ⟨cur', cs', none, none⟩, by simp only [StateIter.nextItem, g1], by rw [h.cur] at g2; simp only [TextIter.next, g2], rfl, rfl, rfl, g3, ?_⟩
  simp only
  omega

theorem nextAccumLoop_sim {T : TextType C τ α} {cs : List C} {st : Option S} (h : GivesChunks N st cs) {fuel : Nat}
    (hf : cs.length + 2 ≤ fuel) (cur : Option CS) (acc : Option τ) (a : α) :
    ∃ o cur' st' cs' acc' a', StateIter.nextAccumLoop N O T fuel st cur acc a = (o, (cur', st', acc'), a') ∧
      TextIter.nextAccumLoop O T cs cur acc a = (o, (cur', cs', acc'), a') ∧ GivesChunks N st' cs' ∧
      cs'.length ≤ cs.length := by
  induction cs generalizing st fuel cur acc a with
  | nil =>
    obtain ⟨fuel, rfl⟩ : ∃ f, fuel = f + 2 := ⟨fuel - 2, by simp at hf; omega⟩
    cases cur with
    | none => exact ⟨_, _, _, _, _, _, rfl, by simp [TextIter.nextAccumLoop], h, Nat.le_refl _⟩
    | some s =>
      simp only [StateIter.nextAccumLoop, TextIter.nextAccumLoop]
      rcases e : O.nextAccum s with ⟨_ | _ | _ | _, s'⟩
      · next o => cases o with
        | none =>
          simp only
          rcases e : O.accumDone s' with ⟨_ | _ | _ | _, s''⟩
          · simp only
            rcases e : T.concat (acc.getD T.empty) (T.ofChunk _) a with ⟨_ | _ | _ | _, a'⟩
            · simp only [advance_nil h, StateIter.nextAccumLoop]
              exact ⟨_, _, _, _, _, _, rfl, rfl, .done _, Nat.le_refl _⟩
            all_goals exact ⟨_, _, _, _, _, _, rfl, rfl, h, Nat.le_refl _⟩
          all_goals exact ⟨_, _, _, _, _, _, rfl, rfl, h, Nat.le_refl _⟩
        | some x => exact ⟨_, _, _, _, _, _, rfl, rfl, h, Nat.le_refl _⟩
      · exact Empty.elim ‹_›
      all_goals exact ⟨_, _, _, _, _, _, rfl, rfl, h, Nat.le_refl _⟩
  | cons c cs ih =>
    obtain ⟨fuel, rfl⟩ : ∃ f, fuel = f + 1 := ⟨fuel - 1, by omega⟩
    cases cur with
    | none => exact ⟨_, _, _, _, _, _, rfl, by simp [TextIter.nextAccumLoop], h, Nat.le_refl _⟩
    | some s =>
      rw [StateIter.nextAccumLoop, TextIter.nextAccumLoop]
      rcases e : O.nextAccum s with ⟨_ | _ | _ | _, s'⟩
      · next o => cases o with
        | none =>
          simp only
          rcases e : O.accumDone s' with ⟨_ | _ | _ | _, s''⟩
          · simp only
            rcases e : T.concat (acc.getD T.empty) (T.ofChunk _) a with ⟨_ | _ | _ | _, a'⟩
            · obtain ⟨st', h1, h2⟩ := advance_cons (O := O) h
              next acc' =>
              obtain ⟨o, cur', st', cs', acc', a', g1, g2, g3, g4⟩ := ih h2 (fuel := fuel) (by simp at hf; omega)
                (some (O.srcStrm c)) (some acc') a'
              simp only [h1]
              exact ⟨o, cur', st', cs', acc', a', g1, g2, g3, by simp; omega⟩
            all_goals exact ⟨_, _, _, _, _, _, rfl, rfl, h, Nat.le_refl _⟩
          all_goals exact ⟨_, _, _, _, _, _, rfl, rfl, h, Nat.le_refl _⟩
        | some x => exact ⟨_, _, _, _, _, _, rfl, rfl, h, Nat.le_refl _⟩
      · exact Empty.elim ‹_›
      all_goals exact ⟨_, _, _, _, _, _, rfl, rfl, h, Nat.le_refl _⟩

theorem nextAccum_sim {T : TextType C τ α} {fuel : Nat} {s : StateIter S CS P τ} {it : TextIter C CS P τ}
    (h : StateIter.Sim N fuel s it) (a : α) :
    ∃ o s' it' a', StateIter.nextAccum N O T fuel s a = (o, s', a') ∧ TextIter.nextAccum O T it a = (o, it', a') ∧
      StateIter.Sim N fuel s' it' := by
  obtain ⟨o, cur', st', cs', acc', a', g1, g2, g3, g4⟩ := nextAccumLoop_sim (O := O) (T := T) h.gives h.fuel s.cur s.accum a
  have hf := h.fuel
  refine ⟨o, ⟨cur', st', acc', none⟩, ⟨cur', cs', acc', none⟩, a', by simp only [StateIter.nextAccum, g1],
    by rw [h.cur, h.accum] at g2; simp only [TextIter.nextAccum, g2], rfl, rfl, rfl, g3, ?_⟩
  simp only
  omega

theorem accumDone_sim {T : TextType C τ α} {fuel : Nat} {s : StateIter S CS P τ} {it : TextIter C CS P τ}
    (h : StateIter.Sim N fuel s it) (a : α) :
    ∃ o s' it' a', StateIter.accumDone O T s a = (o, s', a') ∧ TextIter.accumDone O T it a = (o, it', a') ∧
      StateIter.Sim N fuel s' it' := by
  obtain ⟨cur, st, acc, pk⟩ := s
  obtain ⟨cur', cs, acc', pk'⟩ := it
  obtain ⟨h1, h2, h3, h4, h5⟩ := h
  simp only at h1 h2 h3 h4 h5
  subst h1 h2 h3
  simp only [StateIter.accumDone, TextIter.accumDone]
  cases cur with
  | none => exact ⟨_, _, _, _, rfl, rfl, rfl, rfl, rfl, h4, h5⟩
  | some s =>
    simp only
    rcases O.accumDone s with ⟨_ | _ | _ | _, s'⟩ <;> exact ⟨_, _, _, _, rfl, rfl, rfl, rfl, rfl, h4, h5⟩

theorem history_of_sim {T : TextType C τ α} {fuel : Nat} {es} {it : TextIter C CS P τ}
    (h : (textIterOps O T).History it es) : ∀ {s : StateIter S CS P τ}, StateIter.Sim N fuel s it →
    (stateIterOps N O T fuel).History s es := by
  induction h with
  | nil => intro s _; exact .nil
  | peek h1 _ ih =>
    intro s hs
    obtain ⟨o, s', it', g1, g2, g3⟩ := peek_sim (O := O) hs
    cases g2.symm.trans h1
    exact .peek g1 (ih g3)
  | next h1 _ ih =>
    intro s hs
    obtain ⟨o, s', it', g1, g2, g3⟩ := next_sim (O := O) hs
    cases g2.symm.trans h1
    exact .next g1 (ih g3)
  | @nextAccum _ a _ _ _ _ h1 _ ih =>
    intro s hs
    obtain ⟨o, s', it', a', g1, g2, g3⟩ := nextAccum_sim (O := O) (T := T) hs a
    cases g2.symm.trans h1
    exact .nextAccum g1 (ih g3)
  | @nextAccumFailed _ a _ _ _ _ h1 _ ih =>
    intro s hs
    obtain ⟨o, s', it', a', g1, g2, g3⟩ := nextAccum_sim (O := O) (T := T) hs a
    cases g2.symm.trans h1
    exact .nextAccumFailed g1 (ih g3)
  | @accumDone _ a _ _ _ _ h1 _ ih =>
    intro s hs
    obtain ⟨o, s', it', a', g1, g2, g3⟩ := accumDone_sim (O := O) (T := T) hs a
    cases g2.symm.trans h1
    exact .accumDone g1 (ih g3)
  | @accumDoneFailed _ a _ _ _ _ h1 _ ih =>
    intro s hs
    obtain ⟨o, s', it', a', g1, g2, g3⟩ := accumDone_sim (O := O) (T := T) hs a
    cases g2.symm.trans h1
    exact .accumDoneFailed g1 (ih g3)
  | peekPanics h1 h2 =>
    intro s hs
    obtain ⟨o, s', it', g1, g2, g3⟩ := peek_sim (O := O) hs
    cases g2.symm.trans h1
    exact .peekPanics g1 h2
  | nextPanics h1 h2 =>
    intro s hs
    obtain ⟨o, s', it', g1, g2, g3⟩ := next_sim (O := O) hs
    cases g2.symm.trans h1
    exact .nextPanics g1 h2
  | @nextAccumPanics _ a _ _ _ h1 h2 h3 =>
    intro s hs
    obtain ⟨o, s', it', a', g1, g2, g3⟩ := nextAccum_sim (O := O) (T := T) hs a
    cases g2.symm.trans h1
    exact .nextAccumPanics g1 h2 h3
  | @accumDonePanics _ a _ _ _ h1 h2 h3 =>
    intro s hs
    obtain ⟨o, s', it', a', g1, g2, g3⟩ := accumDone_sim (O := O) (T := T) hs a
    cases g2.symm.trans h1
    exact .accumDonePanics g1 h2 h3

theorem sim_history {T : TextType C τ α} {fuel : Nat} {es} {s : StateIter S CS P τ}
    (h : (stateIterOps N O T fuel).History s es) : ∀ {it : TextIter C CS P τ}, StateIter.Sim N fuel s it →
    (textIterOps O T).History it es := by
  induction h with
  | nil => intro s _; exact .nil
  | peek h1 _ ih =>
    intro it hs
    obtain ⟨o, s', it', g1, g2, g3⟩ := peek_sim (O := O) hs
    cases g1.symm.trans h1
    exact .peek g2 (ih g3)
  | next h1 _ ih =>
    intro it hs
    obtain ⟨o, s', it', g1, g2, g3⟩ := next_sim (O := O) hs
    cases g1.symm.trans h1
    exact .next g2 (ih g3)
  | @nextAccum _ a _ _ _ _ h1 _ ih =>
    intro it hs
    obtain ⟨o, s', it', a', g1, g2, g3⟩ := nextAccum_sim (O := O) (T := T) hs a
    cases g1.symm.trans h1
    exact .nextAccum g2 (ih g3)
  | @nextAccumFailed _ a _ _ _ _ h1 _ ih =>
    intro it hs
    obtain ⟨o, s', it', a', g1, g2, g3⟩ := nextAccum_sim (O := O) (T := T) hs a
    cases g1.symm.trans h1
    exact .nextAccumFailed g2 (ih g3)
  | @accumDone _ a _ _ _ _ h1 _ ih =>
    intro it hs
    obtain ⟨o, s', it', a', g1, g2, g3⟩ := accumDone_sim (O := O) (T := T) hs a
    cases g1.symm.trans h1
    exact .accumDone g2 (ih g3)
  | @accumDoneFailed _ a _ _ _ _ h1 _ ih =>
    intro it hs
    obtain ⟨o, s', it', a', g1, g2, g3⟩ := accumDone_sim (O := O) (T := T) hs a
    cases g1.symm.trans h1
    exact .accumDoneFailed g2 (ih g3)
  | peekPanics h1 h2 =>
    intro it hs
    obtain ⟨o, s', it', g1, g2, g3⟩ := peek_sim (O := O) hs
    cases g1.symm.trans h1
    exact .peekPanics g2 h2
  | nextPanics h1 h2 =>
    intro it hs
    obtain ⟨o, s', it', g1, g2, g3⟩ := next_sim (O := O) hs
    cases g1.symm.trans h1
    exact .nextPanics g2 h2
  | @nextAccumPanics _ a _ _ _ h1 h2 h3 =>
    intro it hs
    obtain ⟨o, s', it', a', g1, g2, g3⟩ := nextAccum_sim (O := O) (T := T) hs a
    cases g1.symm.trans h1
    exact .nextAccumPanics g2 h2 h3
  | @accumDonePanics _ a _ _ _ h1 h2 h3 =>
    intro it hs
    obtain ⟨o, s', it', a', g1, g2, g3⟩ := accumDone_sim (O := O) (T := T) hs a
    cases g1.symm.trans h1
    exact .accumDonePanics g2 h2 h3

/-- What fulfils the contract by lists does so by states. -/
theorem Conf.byStates {T : TextType C τ α} {cc : Classifier} {al : AllocOps τ ε α}
    {lookup : Datum τ ε → Option (Combiner τ ε α P CE)} {RS : TextIter C CS P τ → Seq P → Prop} {X : TextSem P τ α}
    (H : Conf (textEnv O T cc al lookup) RS X) (fuel : Nat) : Conf (stateEnv N O T fuel cc al lookup)
      (fun s q => ∃ it, StateIter.Sim N fuel s it ∧ RS it q) X where
  refl := H.refl
  trans := H.trans
  peek := by
    rintro s q ⟨it, h1, h2⟩
    obtain ⟨o, s', it', g1, g2, g3⟩ := peek_sim (O := O) h1
    obtain ⟨it'', h3, h4⟩ := H.peek it q h2
    cases g2.symm.trans h3
    exact ⟨s', g1, it', g3, h4⟩
  next := by
    rintro s q ⟨it, h1, h2⟩
    obtain ⟨o, s', it', g1, g2, g3⟩ := next_sim (O := O) h1
    obtain ⟨it'', h3, h4⟩ := H.next it q h2
    cases g2.symm.trans h3
    exact ⟨s', g1, it', g3, h4⟩
  nextAccum := by
    rintro s q a ⟨it, h1, h2⟩
    obtain ⟨o, s', it', a', g1, g2, g3⟩ := nextAccum_sim (O := O) (T := T) h1 a
    obtain ⟨o', it'', a'', h3, h4, h5⟩ := H.nextAccum it q a h2
    cases g2.symm.trans h3
    exact ⟨o, s', a', g1, h4, h5.imp (fun h => ⟨h.1, it', g3, h.2⟩) fun h => ⟨h.1, h.2.1, h.2.2.1, it', g3, h.2.2.2⟩⟩
  accumDone := by
    rintro s q a ⟨it, h1, h2⟩
    obtain ⟨o, s', it', a', g1, g2, g3⟩ := accumDone_sim (O := O) (T := T) h1 a
    obtain ⟨o', it'', a'', h3, h4, h5, h6⟩ := H.accumDone it q a h2
    cases g2.symm.trans h3
    exact ⟨o, s', a', g1, h4, ⟨it', g3, h5⟩, h6⟩
  empty := H.empty
  concat := H.concat

end

end Kul
