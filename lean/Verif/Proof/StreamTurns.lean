import Verif.Spec.StreamWork
import Verif.Spec.Work
import Verif.Proof.Streams
import Verif.Proof.Track

/-!
# The steps inside of the source streams
-/

namespace Kul

section

variable {σ P τ ε α CE : Type}

/-- What each method of a stream with counts keeps, holds during a parse. -/
theorem metered_tracks {S : StreamOps σ P τ α} {N : StreamSteps σ α} {I : Meter σ → Prop}
    (hp : ∀ m, I m → I ((S.metered N).peek m).2) (hn : ∀ m, I m → I ((S.metered N).next m).2)
    (ha : ∀ m a, I m → I ((S.metered N).nextAccum m a).2.1) (hd : ∀ m a, I m → I ((S.metered N).accumDone m a).2.1) :
    Tracks (fun s m => s = m.strm ∧ I m) (fun _ => True) S (S.metered N) where
  peek := ⟨fun _ _ => trivial, by rintro s t ⟨rfl, h⟩ _ _; exact ⟨rfl, rfl, hp _ h⟩⟩
  next := ⟨fun _ _ => trivial, by rintro s t ⟨rfl, h⟩ _ _; exact ⟨rfl, rfl, hn _ h⟩⟩
  nextAccum := ⟨fun _ _ _ => trivial, by rintro s t a ⟨rfl, h⟩ _ _; exact ⟨rfl, rfl, rfl, ha _ _ h⟩⟩
  accumDone := ⟨fun _ _ _ => trivial, by rintro s t a ⟨rfl, h⟩ _ _; exact ⟨rfl, rfl, rfl, hd _ _ h⟩⟩

theorem tracks_metered (S : StreamOps σ P τ α) (N : StreamSteps σ α) :
    Tracks (fun (m : Meter σ) s => m.strm = s) (fun _ => True) (S.metered N) S where
  peek := ⟨fun _ _ => trivial, by rintro s t rfl _ _; exact ⟨rfl, rfl⟩⟩
  next := ⟨fun _ _ => trivial, by rintro s t rfl _ _; exact ⟨rfl, rfl⟩⟩
  nextAccum := ⟨fun _ _ _ => trivial, by rintro s t a rfl _ _; exact ⟨rfl, rfl, rfl⟩⟩
  accumDone := ⟨fun _ _ _ => trivial, by rintro s t a rfl _ _; exact ⟨rfl, rfl, rfl⟩⟩

/-- The calls are those that the other counter counts. -/
theorem counted_metered (S : StreamOps σ P τ α) (N : StreamSteps σ α) :
    Tracks (fun (c : σ × Nat) m => c = (m.strm, m.calls)) (fun _ => True) S.counted (S.metered N) where
  peek := ⟨fun _ _ => trivial, by rintro s t rfl _ _; exact ⟨rfl, rfl⟩⟩
  next := ⟨fun _ _ => trivial, by rintro s t rfl _ _; exact ⟨rfl, rfl⟩⟩
  nextAccum := ⟨fun _ _ _ => trivial, by rintro s t a rfl _ _; exact ⟨rfl, rfl, rfl⟩⟩
  accumDone := ⟨fun _ _ _ => trivial, by rintro s t a rfl _ _; exact ⟨rfl, rfl, rfl⟩⟩

end

/-! ## `text::Iter` -/

section

variable {C CS P τ α : Type} {O : ChunkOps C CS P} {RC : C → List (Item P) → Prop}
  {RCS : CS → Seq P → Prop} {T : TextType C τ α} {RA : α → α → Prop} {F : Prop}

/-- The turns after an exhausted chunk. -/
def skipsOf {A : Type} : List (List A) → Nat
  | [] => 1
  | [] :: ls => skipsOf ls + 1
  | (_ :: _) :: _ => 1

/-- The turns after that at the current chunk. -/
def passOf {A : Type} : List A → List (List A) → Nat
  | [], ls => skipsOf ls
  | _ :: _, _ => 0

theorem skipsOf_le {A : Type} : ∀ ls : List (List A), skipsOf ls ≤ ls.length + 1
  | [] => Nat.le_refl _
  | [] :: ls => by have := skipsOf_le ls; simp only [skipsOf, List.length_cons]; omega
  | (_ :: _) :: _ => by simp [skipsOf]

/-- Where a loop that passes over exhausted chunks comes to. -/
def LoopEnd (RC : C → List (Item P) → Prop) (RCS : CS → Seq P → Prop) (ls : List (List (Item P))) (n : Nat)
    (cur : Option CS) (cs : List C) : Prop :=
  (cur = none ∧ cs = [] ∧ n ≤ ls.length + 1) ∨
  ∃ s p r ls', cur = some s ∧ RCS s ⟨p, r⟩ ∧ List.Forall₂ RC cs ls' ∧ ls' <:+ ls ∧ ls'.length + n ≤ ls.length

theorem LoopEnd.cons {ls : List (List (Item P))} {n : Nat} {cur : Option CS} {cs : List C} {l : List (Item P)}
    (h : LoopEnd RC RCS ls n cur cs) : LoopEnd RC RCS (l :: ls) (n + 1) cur cs := by
  rcases h with ⟨h1, h2, h3⟩ | ⟨s, p, r, ls', h1, h2, h3, h4, h5⟩
  · exact Or.inl ⟨h1, h2, by simp only [List.length_cons]; omega⟩
  · exact Or.inr ⟨s, p, r, ls', h1, h2, h3, h4.trans (List.suffix_cons _ _), by simp only [List.length_cons]; omega⟩

theorem passOf_cons {A : Type} (l : List A) (ls : List (List A)) : passOf [] (l :: ls) = passOf l ls + 1 := by
  cases l <;> rfl

theorem TextIter.nextTurns_spec (H : ChunkConf O RC RCS) : ∀ (cs : List C) (ls : List (List (Item P))),
    List.Forall₂ RC cs ls → ∀ (s : CS) (p r : List (Item P)), RCS s ⟨p, r⟩ →
    nextTurns O cs (some s) = 1 + passOf r ls ∧
      LoopEnd RC RCS ls (passOf r ls) (nextLoop O cs (some s)).2.1 (nextLoop O cs (some s)).2.2 := by
  intro cs ls hcs
  induction hcs with
  | nil =>
    intro s p r hs
    obtain ⟨s', g1, g2⟩ := H.next s _ hs
    cases r with
    | nil =>
      simp only [nextTurns, nextLoop, g1, List.head?_nil]
      exact ⟨rfl, Or.inl ⟨rfl, rfl, Nat.le_refl _⟩⟩
    | cons x r =>
      simp only [nextTurns, nextLoop, g1, List.head?_cons]
      exact ⟨rfl, Or.inr ⟨s', [], r, [], rfl, g2, .nil, List.suffix_refl _, Nat.le_refl _⟩⟩
  | @cons c l cs ls hc hcs ih =>
    intro s p r hs
    obtain ⟨s', g1, g2⟩ := H.next s _ hs
    cases r with
    | nil =>
      simp only [nextTurns, nextLoop, g1, List.head?_nil]
      obtain ⟨h1, h2⟩ := ih (O.srcStrm c) [] l (H.srcStrm c l hc)
      rw [passOf_cons]
      exact ⟨by omega, h2.cons⟩
    | cons x r =>
      simp only [nextTurns, nextLoop, g1, List.head?_cons]
      exact ⟨rfl, Or.inr ⟨s', [], r, l :: ls, rfl, g2, .cons hc hcs, List.suffix_refl _, Nat.le_refl _⟩⟩

theorem TextIter.aheadTurns_spec (H : ChunkConf O RC RCS) {cs : List C} {ls : List (List (Item P))}
    (h : List.Forall₂ RC cs ls) : aheadTurns O cs = skipsOf ls := by
  induction h with
  | nil => rfl
  | @cons c l cs ls h _ ih =>
    obtain ⟨s', g1, g2⟩ := H.peek _ _ (H.srcStrm c l h)
    cases l with
    | nil => simp only [aheadTurns, g1, List.head?_nil, ih, skipsOf]
    | cons x l => simp only [aheadTurns, g1, List.head?_cons, skipsOf]

theorem TextIter.nextAccumTurns_spec (H : ChunkConf O RC RCS) (K : TextConf T RC RA F) :
    ∀ (cs : List C) (ls : List (List (Item P))), List.Forall₂ RC cs ls →
    ∀ (s : CS) (p r p1 : List (Item P)) (acc : Option τ) (a : α), RCS s ⟨p, r⟩ → T.MeansOpt RC acc p1 →
    (nextAccumTurns O T cs (some s) acc a = 1 + passOf r ls ∧
      (∃ p1', T.MeansOpt RC (nextAccumLoop O T cs (some s) acc a).2.1.2.2 p1') ∧
      LoopEnd RC RCS ls (passOf r ls) (nextAccumLoop O T cs (some s) acc a).2.1.1
        (nextAccumLoop O T cs (some s) acc a).2.1.2.1) ∨
    (nextAccumTurns O T cs (some s) acc a = 1 ∧ p ≠ [] ∧ r = [] ∧ (nextAccumLoop O T cs (some s) acc a).2.1.2.2 = none ∧
      ∃ s', (nextAccumLoop O T cs (some s) acc a).2.1.1 = some s' ∧
        (nextAccumLoop O T cs (some s) acc a).2.1.2.1 = cs ∧ RCS s' ⟨[], []⟩) := by
  intro cs ls hcs
  induction hcs with
  | nil =>
    intro s p r p1 acc a hs hacc
    obtain ⟨s', g1, g2⟩ := H.nextAccum s _ hs
    cases r with
    | nil =>
      simp only [List.head?_nil, Option.toList_none, List.append_nil, List.tail_nil] at g1 g2
      obtain ⟨c, s'', g3, g4, g5⟩ := H.accumDone s' _ g2
      obtain ⟨o, a', g6, g7, g8⟩ := K.concat _ _ _ _ a (hacc.getD K) (K.ofChunk c _ g4)
      simp only [nextAccumTurns, nextAccumLoop, g1, g3, g6]
      rcases g8 with ⟨v, rfl, hv⟩ | ⟨hF, hne, hne', e, rfl⟩
      · exact Or.inl ⟨rfl, ⟨_, hv⟩, Or.inl ⟨rfl, rfl, Nat.le_refl _⟩⟩
      · exact Or.inr ⟨by trivial, hne', by trivial, by trivial, s'', rfl, rfl, g5⟩
    | cons x r =>
      simp only [nextAccumTurns, nextAccumLoop, g1, List.head?_cons]
      exact Or.inl ⟨rfl, ⟨_, hacc⟩, Or.inr ⟨s', _, r, [], rfl, g2, .nil, List.suffix_refl _, Nat.le_refl _⟩⟩
  | @cons c l cs ls hc hcs ih =>
    intro s p r p1 acc a hs hacc
    obtain ⟨s', g1, g2⟩ := H.nextAccum s _ hs
    cases r with
    | nil =>
      simp only [List.head?_nil, Option.toList_none, List.append_nil, List.tail_nil] at g1 g2
      obtain ⟨c', s'', g3, g4, g5⟩ := H.accumDone s' _ g2
      obtain ⟨o, a', g6, g7, g8⟩ := K.concat _ _ _ _ a (hacc.getD K) (K.ofChunk c' _ g4)
      rw [nextAccumTurns, nextAccumLoop]
      simp only [g1, g3, g6]
      rcases g8 with ⟨v, rfl, hv⟩ | ⟨hF, hne, hne', e, rfl⟩
      · rcases ih (O.srcStrm c) [] l (p1 ++ p) (some v) a' (H.srcStrm c l hc) hv with ⟨h1, h2, h3⟩ | ⟨_, h, _⟩
        · left
          rw [passOf_cons]
          exact ⟨by simp only; omega, h2, h3.cons⟩
        · exact absurd rfl h
      · exact Or.inr ⟨by trivial, hne', by trivial, by trivial, s'', rfl, rfl, g5⟩
    | cons x r =>
      simp only [nextAccumTurns, nextAccumLoop, g1, List.head?_cons]
      exact Or.inl ⟨rfl, ⟨_, hacc⟩, Or.inr ⟨s', _, r, l :: ls, rfl, g2, .cons hc hcs, List.suffix_refl _, Nat.le_refl _⟩⟩

theorem takeWhile_append_all {A : Type} (p : A → Bool) (l l' : List A) (h : ∀ x ∈ l, p x = true) :
    l.length ≤ ((l ++ l').takeWhile p).length := by
  induction l with
  | nil => simp
  | cons x l ih =>
    simp only [List.cons_append, List.takeWhile_cons, h x (by simp), if_true, List.length_cons]
    have := ih fun y hy => h y (by simp [hy])
    omega

theorem le_trailing {A : Type} {ls pieces : List (List A)} (h : ls <:+ pieces) (h' : ls.flatten = []) :
    ls.length ≤ trailing pieces := by
  obtain ⟨pre, rfl⟩ := h
  have := takeWhile_append_all (fun l : List A => l.isEmpty) ls.reverse pre.reverse (by
    intro x hx
    rw [List.flatten_eq_nil_iff] at h'
    simp [h' x (by simpa using hx)])
  simpa [trailing] using this

/-- What the steps are paid by: the calls, the peeks at the end, and three for each chunk. -/
def TextIter.budget (pieces : List (List (Item P))) (m : Meter (TextIter C CS P τ)) : Nat :=
  m.calls + (trailing pieces + 1) * m.atEnd + 3 * pieces.length

/-- The steps, and what has yet to be paid: three for each chunk to come, less what a peek has already passed, and less
what a failed accumulation has. -/
def TextIter.Metered (T : TextType C τ α) (RC : C → List (Item P) → Prop) (RCS : CS → Seq P → Prop)
    (pieces : List (List (Item P))) (m : Meter (TextIter C CS P τ)) : Prop :=
  (∃ p1, T.MeansOpt RC m.strm.accum p1) ∧
  ((m.strm.cur = none ∧ m.strm.nextChunks = [] ∧ m.strm.peeked = none ∧ m.steps ≤ budget pieces m) ∨
   ∃ s p r ls, m.strm.cur = some s ∧ RCS s ⟨p, r⟩ ∧ List.Forall₂ RC m.strm.nextChunks ls ∧ ls <:+ pieces ∧
    (m.strm.peeked = none ∨ m.strm.peeked = (r ++ ls.flatten).head?) ∧
    m.steps + 3 * (ls.length + 1) ≤ budget pieces m + (if m.strm.peeked.isSome then passOf r ls else 0) +
      (if p = [] then passOf r ls else 0))

theorem LoopEnd.metered {pieces ls : List (List (Item P))} {r p : List (Item P)} {cur : Option CS} {cs : List C}
    {acc : Option τ} {k e n k' e' n' : Nat} {b : Bool} (h : LoopEnd RC RCS ls (passOf r ls) cur cs)
    (hacc : ∃ p1, T.MeansOpt RC acc p1) (hsuf : ls <:+ pieces)
    (hn : n + 3 * (ls.length + 1) ≤ k + (trailing pieces + 1) * e + 3 * pieces.length +
      (if b then passOf r ls else 0) + (if p = [] then passOf r ls else 0))
    (hk : k' = k + 1) (he : e' = e) (hn' : n' = n + (1 + passOf r ls)) :
    TextIter.Metered T RC RCS pieces ⟨⟨cur, cs, acc, none⟩, k', e', n'⟩ := by
  subst hk he hn'
  refine ⟨hacc, ?_⟩
  have h1 : (if b then passOf r ls else 0) ≤ passOf r ls := by split <;> omega
  have h2 : (if p = [] then passOf r ls else 0) ≤ passOf r ls := by split <;> omega
  rcases h with ⟨rfl, rfl, h⟩ | ⟨s, p', r', ls', rfl, h3, h4, h5, h6⟩
  · refine Or.inl ⟨rfl, rfl, rfl, ?_⟩
    simp only [TextIter.budget]
    omega
  · refine Or.inr ⟨s, p', r', ls', rfl, h3, h4, h5.trans hsuf, Or.inl rfl, ?_⟩
    simp only [TextIter.budget]
    omega

/-- `text::Iter` keeps within its budget. -/
theorem textIter_metered (H : ChunkConf O RC RCS) (K : TextConf T RC RA F) (pieces : List (List (Item P))) :
    Tracks (fun s m => s = m.strm ∧ TextIter.Metered T RC RCS pieces m) (fun _ => True) (textIterOps O T)
      ((textIterOps O T).metered (textTurns O T)) := by
  apply metered_tracks
  · rintro ⟨⟨cur, cs, acc, pk⟩, k, e, n⟩ ⟨hacc, h⟩
    simp only [TextIter.budget] at h hacc
    simp only [StreamOps.metered, textIterOps, textTurns, TextIter.peek, TextIter.peekTurns]
    cases pk with
    | some x =>
      refine ⟨hacc, ?_⟩
      simp only [TextIter.budget]
      rcases h with ⟨_, _, h, _⟩ | ⟨s, p, r, ls, h1, h2, h3, h4, h5, h6⟩
      · cases h
      · refine Or.inr ⟨s, p, r, ls, h1, h2, h3, h4, h5, ?_⟩
        simp only [Option.isSome_some, if_true, Nat.add_zero] at h6 ⊢
        omega
    | none =>
      rcases h with ⟨rfl, rfl, _, h⟩ | ⟨s, p, r, ls, rfl, h2, h3, h4, _, h6⟩
      · refine ⟨hacc, Or.inl ⟨rfl, rfl, rfl, ?_⟩⟩
        simp only [TextIter.budget, Nat.mul_add]
        omega
      · obtain ⟨s', g3, g4⟩ := H.peek s _ h2
        simp only [g3]
        simp only [Option.isSome_none, Bool.false_eq_true, if_false] at h6
        cases r with
        | nil =>
          have g5 := TextIter.peekAhead_spec H h3
          have g6 := TextIter.aheadTurns_spec H h3
          simp only [List.head?_nil, g5, g6]
          cases hfl : ls.flatten with
          | nil =>
            refine ⟨hacc, Or.inr ⟨s', p, [], ls, rfl, g4, h3, h4, Or.inl rfl, ?_⟩⟩
            have g7 := le_trailing h4 hfl
            have g8 := skipsOf_le ls
            simp only [TextIter.budget, List.head?_nil, Option.isSome_none, Bool.false_eq_true, if_false, Nat.mul_add]
            omega
          | cons x r =>
            refine ⟨hacc, Or.inr ⟨s', p, [], ls, rfl, g4, h3, h4, Or.inr (by simp [hfl]), ?_⟩⟩
            simp only [TextIter.budget, List.head?_cons, Option.isSome_some, if_true, passOf, Nat.add_zero] at h6 ⊢
            omega
        | cons x r =>
          refine ⟨hacc, Or.inr ⟨s', p, x :: r, ls, rfl, g4, h3, h4, Or.inr rfl, ?_⟩⟩
          simp only [TextIter.budget, passOf, List.head?_cons, Option.isSome_some, if_true, Nat.add_zero] at h6 ⊢
          omega
  · rintro ⟨⟨cur, cs, acc, pk⟩, k, e, n⟩ ⟨hacc, h⟩
    simp only [TextIter.budget] at h hacc
    simp only [StreamOps.metered, textIterOps, textTurns, TextIter.next]
    rcases h with ⟨rfl, rfl, _, h⟩ | ⟨s, p, r, ls, rfl, h2, h3, h4, _, h6⟩
    · refine ⟨⟨[], rfl⟩, Or.inl ⟨rfl, rfl, rfl, ?_⟩⟩
      simp only [TextIter.budget, TextIter.nextTurns]
      omega
    · obtain ⟨g1, g2⟩ := TextIter.nextTurns_spec H cs ls h3 s p r h2
      exact g2.metered ⟨[], rfl⟩ h4 h6 rfl rfl (by rw [g1])
  · rintro ⟨⟨cur, cs, acc, pk⟩, k, e, n⟩ a ⟨⟨p1, hacc⟩, h⟩
    simp only [TextIter.budget] at h hacc
    simp only [StreamOps.metered, textIterOps, textTurns, TextIter.nextAccum]
    rcases h with ⟨rfl, rfl, _, h⟩ | ⟨s, p, r, ls, rfl, h2, h3, h4, _, h6⟩
    · refine ⟨⟨p1, hacc⟩, Or.inl ⟨rfl, rfl, rfl, ?_⟩⟩
      simp only [TextIter.budget, TextIter.nextAccumTurns]
      omega
    · rcases TextIter.nextAccumTurns_spec H K cs ls h3 s p r p1 acc a h2 hacc with ⟨g1, g2, g3⟩ | ⟨g1, g2, rfl, g3, s', g4, g5, g6⟩
      · exact g3.metered g2 h4 h6 rfl rfl (by rw [g1])
      · refine ⟨⟨[], ?_⟩, Or.inr ⟨s', [], [], ls, g4, g6, ?_, h4, Or.inl rfl, ?_⟩⟩
        · simp only [g3]; rfl
        · simp only [g5]; exact h3
        · simp only [TextIter.budget, g1]
          have : (if pk.isSome = true then passOf [] ls else 0) ≤ passOf [] ls := by split <;> omega
          rw [if_neg g2] at h6
          simp only [Option.isSome_none, Bool.false_eq_true, if_false, if_true]
          omega
  · rintro ⟨⟨cur, cs, acc, pk⟩, k, e, n⟩ a ⟨⟨p1, hacc⟩, h⟩
    simp only [TextIter.budget] at h hacc
    simp only [StreamOps.metered, textIterOps, textTurns, TextIter.accumDone]
    rcases h with ⟨rfl, rfl, hp, h⟩ | ⟨s, p, r, ls, rfl, h2, h3, h4, h5, h6⟩
    · refine ⟨⟨[], rfl⟩, Or.inl ⟨rfl, rfl, hp, ?_⟩⟩
      simp only [TextIter.budget]
      omega
    · obtain ⟨c, s', g3, g4, g5⟩ := H.accumDone s _ h2
      simp only [g3]
      refine ⟨⟨[], rfl⟩, Or.inr ⟨s', [], r, ls, rfl, g5, h3, h4, h5, ?_⟩⟩
      have : (if p = [] then passOf r ls else 0) ≤ passOf r ls := by split <;> omega
      simp only [TextIter.budget, if_true]
      omega

theorem TextIter.ofChunks_metered (H : ChunkConf O RC RCS) {cs : List C} {ls : List (List (Item P))}
    (h : List.Forall₂ RC cs ls) : TextIter.Metered T RC RCS ls (Meter.start (TextIter.ofChunks O cs)) := by
  cases h with
  | nil => exact ⟨⟨[], rfl⟩, Or.inl ⟨rfl, rfl, rfl, by simp [Meter.start]⟩⟩
  | @cons c l cs ls hc hcs =>
    refine ⟨⟨[], rfl⟩, Or.inr ⟨_, [], l, ls, rfl, H.srcStrm c l hc, hcs, List.suffix_cons _ _, Or.inl rfl, ?_⟩⟩
    simp [Meter.start, budget]
    omega

theorem TextIter.Metered.le {pieces : List (List (Item P))} {m : Meter (TextIter C CS P τ)}
    (h : Metered T RC RCS pieces m) : m.steps ≤ m.calls + (trailing pieces + 1) * m.atEnd + 3 * pieces.length := by
  obtain ⟨_, ⟨_, _, _, h⟩ | ⟨s, p, r, ls, _, _, _, _, _, h⟩⟩ := h
  · exact h
  · simp only [budget] at h
    have h1 : passOf r ls ≤ ls.length + 1 := by
      cases r with
      | nil => exact skipsOf_le ls
      | cons => simp [passOf]
    have h2 : (if m.strm.peeked.isSome = true then passOf r ls else 0) ≤ passOf r ls := by split <;> omega
    have h3 : (if p = [] then passOf r ls else 0) ≤ passOf r ls := by split <;> omega
    omega

end

/-! ## `StrishIterSourceStream` -/

section

variable {τ α : Type}

theorem StrishIter.asks_spec (k : Nat) (ss : List Str) :
    asks ss + (nextPosstrishOf k ss).2.length ≤ ss.length + 1 := by
  induction ss with
  | nil => exact Nat.le_refl _
  | cons s ss ih =>
    simp only [asks, nextPosstrishOf]
    split
    · simp; omega
    · simp only [List.length_cons]; omega

theorem StrishIter.nextAsks_spec {it it' : StrishIter τ} (h : it.nextPosstrish = some it') :
    it.nextAsks + it'.strishIter.length ≤ it.strishIter.length + 1 := by
  unfold nextPosstrish at h
  unfold nextAsks
  split at h
  · cases h
  · split at h
    · split at h
      · cases h
        next h1 _ _ h2 _ _ h3 => simp [h1, h2, h3]
      · cases h
        next h1 _ _ h2 _ h3 =>
        simp only [h1, h2, h3]
        exact asks_spec _ _
    · cases h

theorem StrishIter.nextAsks_none {it : StrishIter τ} (h : it.nextPosstrish = none) : it.nextAsks = 0 := by
  unfold nextPosstrish at h
  unfold nextAsks
  rcases hc : it.cur with _ | s
  · rfl
  · simp only [hc] at h ⊢
    rcases hp : s.peek with ⟨(_ | x) | e | _ | _, s'⟩
    · simp only [hp] at h
      split at h <;> cases h
    all_goals rfl

theorem StrishIter.nextSteps_spec : ∀ (n : Nat) (it : StrishIter τ),
    nextSteps n it + (nextLoop n it).2.strishIter.length ≤ it.strishIter.length + 2 * n := by
  intro n
  induction n with
  | zero => intro it; simp [nextSteps, nextLoop]
  | succ n ih =>
    intro it
    simp only [nextSteps, nextLoop]
    rcases hc : it.cur with _ | s
    · simp only; omega
    · simp only
      rcases hn : s.next with ⟨(_ | x) | e | _ | _, s'⟩
      · simp only
        rcases hp : nextPosstrish { it with cur := some s' } with _ | it'
        · have := nextAsks_none hp
          simp only
          omega
        · have h1 := nextAsks_spec hp
          have h2 := ih it'
          simp only at h1 ⊢
          omega
      all_goals simp only; omega

theorem StrishIter.nextAccumSteps_spec (T : TextType PosStrish τ α) : ∀ (n : Nat) (it : StrishIter τ) (a : α),
    nextAccumSteps T n it a + (nextAccumLoop T n it a).2.1.strishIter.length ≤ it.strishIter.length + 2 * n := by
  intro n
  induction n with
  | zero => intro it a; simp [nextAccumSteps, nextAccumLoop]
  | succ n ih =>
    intro it a
    simp only [nextAccumSteps, nextAccumLoop]
    rcases hc : it.cur with _ | s
    · simp only; omega
    · simp only
      rcases hn : s.nextAccum with ⟨(_ | x) | e | _ | _, s'⟩
      · simp only
        rcases hd : s'.accumDone with ⟨c | e | _ | _, s''⟩
        · simp only
          rcases hc : T.concat (it.accum.getD T.empty) (T.ofChunk c) a with ⟨acc | e | _ | _, a'⟩
          · simp only
            rcases hp : nextPosstrish { it with cur := some s'', accum := some acc } with _ | it'
            · have := nextAsks_none hp
              simp only
              omega
            · have h1 := nextAsks_spec hp
              have h2 := ih it' a'
              simp only at h1 ⊢
              omega
          all_goals simp only; omega
        all_goals simp only; omega
      all_goals simp only; omega

/-- What `StrishIterSourceStream` has done, and the strings to come. -/
def StrishIter.Metered (k : Nat) (m : Meter (StrishIter τ)) : Prop :=
  m.steps + m.strm.strishIter.length ≤ 4 * m.calls + k

theorem strishIter_metered (T : TextType PosStrish τ α) (k : Nat) :
    Tracks (fun s m => s = m.strm ∧ StrishIter.Metered k m) (fun _ => True) (strishIterOps T)
      ((strishIterOps T).metered (strishSteps T)) := by
  apply metered_tracks
  · rintro ⟨it, c, e, n⟩ h
    simp only [StrishIter.Metered, StreamOps.metered, strishIterOps, strishSteps] at h ⊢
    have : it.peekAsks + it.peek.2.strishIter.length ≤ it.strishIter.length + 4 := by
      unfold StrishIter.peekAsks StrishIter.peek
      rcases hc : it.cur with _ | s
      · simp
      · simp only
        rcases hp : s.peek with ⟨(_ | x) | e | _ | _, s'⟩
        · simp only
          rcases hk : it.peekedStrm with _ | p
          · have := StrishIter.asks_spec it.charIdx it.strishIter
            rcases hq : StrishIter.nextPosstrishOf it.charIdx it.strishIter with ⟨_ | p, ss⟩
            · simp only [hq] at this ⊢; omega
            · simp only [hq] at this ⊢; omega
          · simp
        all_goals simp
    omega
  · rintro ⟨it, c, e, n⟩ h
    simp only [StrishIter.Metered, StreamOps.metered, strishIterOps, strishSteps, StrishIter.next] at h ⊢
    have := StrishIter.nextSteps_spec StrishIter.turns { it with accum := (none : Option τ) }
    simp only [StrishIter.turns] at this ⊢
    omega
  · rintro ⟨it, c, e, n⟩ a h
    simp only [StrishIter.Metered, StreamOps.metered, strishIterOps, strishSteps, StrishIter.nextAccum] at h ⊢
    have := StrishIter.nextAccumSteps_spec T StrishIter.turns it a
    simp only [StrishIter.turns] at this ⊢
    omega
  · rintro ⟨it, c, e, n⟩ a h
    simp only [StrishIter.Metered, StreamOps.metered, strishIterOps, strishSteps] at h ⊢
    have : (StrishIter.accumDone T it a).2.1.strishIter = it.strishIter := by
      unfold StrishIter.accumDone
      rcases hc : it.cur with _ | s
      · rfl
      · simp only
        rcases hd : s.accumDone with ⟨c | e | _ | _, s'⟩ <;> rfl
    rw [this]
    omega

theorem StrishIter.new_metered (ss : List Str) :
    StrishIter.Metered ss.length (Meter.start (StrishIter.new ss : StrishIter τ)) := by
  have := asks_spec 0 ss
  have h1 : 1 ≤ asks ss := by
    cases ss with
    | nil => exact Nat.le_refl _
    | cons s ss => simp only [asks]; split <;> omega
  simp only [Metered, Meter.start, new]
  omega

end

/-! ## `CharIterSourceStream` -/

section

variable {τ α : Type}

/-- The length of what is accumulated. -/
def CharIter.held (it : CharIter) : Nat := match it.accum with | some (s, _) => s.length | none => 0

/-- What `CharIterSourceStream` has copied, and has yet to. -/
def CharIter.Metered (k : Nat) (m : Meter CharIter) : Prop :=
  m.steps + 2 * m.strm.peIter.length + m.strm.held ≤ 2 * k

theorem charIter_metered (T : TextType PosStrish τ α) (k : Nat) :
    Tracks (fun s m => s = m.strm ∧ CharIter.Metered k m) (fun _ => True) (charIterOps T)
      ((charIterOps T).metered charCopies) := by
  apply metered_tracks
  · rintro ⟨it, c, e, n⟩ h
    exact h
  · rintro ⟨⟨l, acc⟩, c, e, n⟩ h
    simp only [CharIter.Metered, StreamOps.metered, charIterOps, charCopies, CharIter.next, CharIter.held,
      List.length_tail] at h ⊢
    omega
  · rintro ⟨⟨l, acc⟩, c, e, n⟩ a h
    simp only [CharIter.Metered, StreamOps.metered, charIterOps, charCopies, CharIter.nextAccum, CharIter.held] at h ⊢
    cases l with
    | nil => simpa using h
    | cons x l =>
      rcases acc with _ | ⟨s, p⟩
      · simp at h ⊢; omega
      · simp at h ⊢; omega
  · rintro ⟨⟨l, acc⟩, c, e, n⟩ a h
    simp only [CharIter.Metered, StreamOps.metered, charIterOps, charCopies, CharIter.accumDone, CharIter.held] at h ⊢
    rcases acc with _ | ⟨s, p⟩
    · simpa using h
    · simp at h ⊢; omega

theorem CharIter.new_metered (s : Str) : CharIter.Metered s.length (Meter.start (CharIter.new s)) := by
  simp [Metered, Meter.start, new, held]

end

end Kul
