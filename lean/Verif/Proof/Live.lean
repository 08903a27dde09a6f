import Verif.Proof.Track
import Verif.Proof.SimParser
import Verif.Proof.Streams
import Verif.Spec.Live

/-!
# Streams over any iterator, and streams over lists

The stream `CharIterSourceStream` over an iterator, in step with the same stream over a list of
characters: for ever, if the iterator gives just those and then ends; as long as the list lasts,
if the iterator gives those first; and as long as the iterator has given no more than those.
-/

namespace Kul

/-! ## What iterators give -/

section

variable {I A : Type} {M : Machine I A}

theorem Ended.next {i} (h : Ended M i) : (M i).1 = none ∧ Ended M (M i).2 :=
  ⟨h 0, fun n => h (n + 1)⟩

theorem Endless.next {i} (h : Endless M i) : (M i).1 ≠ none ∧ Endless M (M i).2 :=
  ⟨h 0, fun n => h (n + 1)⟩

theorem Gives.after {i l j} (h : Gives M i l j) : j = after M l.length i := by
  induction h with
  | nil => rfl
  | @cons i c i' l j h _ ih => rw [ih]; simp [Kul.after, h]

theorem Gives.append {i l j} (h : Gives M i l j) {m k} (h' : Gives M j m k) : Gives M i (l ++ m) k := by
  induction h with
  | nil => exact h'
  | cons h _ ih => exact .cons h (ih h')

/-- An iterator that never ends gives any number of items. -/
theorem Endless.gives : ∀ {n i}, Endless M i → ∃ l j, Gives M i l j ∧ l.length = n ∧ Endless M j
  | 0, i, h => ⟨[], i, .nil, rfl, h⟩
  | n + 1, i, h => by
    rcases hm : M i with ⟨_ | c, i'⟩
    · exact absurd (by rw [hm]) h.next.1
    · obtain ⟨l, j, h1, h2, h3⟩ := Endless.gives (n := n) (i := i') (by have := h.next.2; rwa [hm] at this)
      exact ⟨c :: l, j, .cons hm h1, by simp [h2], h3⟩

end

/-! ## Peekable iterators against lists -/

section

variable {I : Type} {M : Machine I Char}

/-- `peek` of a list. -/
def listPeek {A : Type} (l : List A) : Option A × List A := (l.head?, l)

/-- `next` of a list. -/
def listNext {A : Type} (l : List A) : Option A × List A := (l.head?, l.tail)

/-- The numbered items of a list of characters. -/
abbrev numberedFrom (k : Nat) (l : List Char) : List (Item CharPos) := itemsFrom CharPos.adv ⟨k⟩ l

/-- What an iterator in state `i`, that has given `k` characters, has to do with a list: it
gives the characters at its front, and then `W` holds of it and of the rest of the list. -/
def Front (M : Machine I Char) (W : I → Nat → List (Item CharPos) → Prop) (i : I) (k : Nat)
    (r : List (Item CharPos)) : Prop :=
  ∃ l j w, Gives M i l j ∧ r = numberedFrom k l ++ w ∧ W j (k + l.length) w

theorem Front.step {W : I → Nat → List (Item CharPos) → Prop} {i k r} (h : Front M W i k r) :
    (∃ c i' r', M i = (some c, i') ∧ r = ⟨c, ⟨k⟩⟩ :: r' ∧ Front M W i' (k + 1) r') ∨ W i k r := by
  obtain ⟨l, j, w, h1, rfl, h2⟩ := h
  cases h1 with
  | nil => exact Or.inr (by simpa [itemsFrom] using h2)
  | @cons _ c i' l _ hc hl =>
    refine Or.inl ⟨c, i', numberedFrom (k + 1) l ++ w, hc, rfl, l, j, w, hl, rfl, ?_⟩
    rwa [List.length_cons, Nat.add_comm l.length, ← Nat.add_assoc] at h2

/-- The same for a peekable one. `Z` is what holds when it has peeked the end. -/
def Ahead (M : Machine I Char) (W : I → Nat → List (Item CharPos) → Prop) (Z : I → Prop)
    (p : Peekable (I × Nat) (Item CharPos)) (r : List (Item CharPos)) : Prop :=
  match p.peeked with
  | none => Front M W p.iter.1 p.iter.2 r
  | some (some x) => ∃ r', r = x :: r' ∧ Front M W p.iter.1 p.iter.2 r'
  | some none => r = [] ∧ Z p.iter.1

variable {W : I → Nat → List (Item CharPos) → Prop} {Z : I → Prop}

theorem Ahead.step {p r} (h : Ahead M W Z p r) :
    ((p.peek (enumerated M)).1 = r.head? ∧ Ahead M W Z (p.peek (enumerated M)).2 r ∧
      (p.next (enumerated M)).1 = r.head? ∧ ((p.peeked = some none → False) →
        Ahead M W Z (p.next (enumerated M)).2 r.tail)) ∨
    (p.peeked = none ∧ W p.iter.1 p.iter.2 r) := by
  obtain ⟨⟨i, k⟩, pk⟩ := p
  match pk with
  | none =>
    rcases Front.step (show Front M W i k r from h) with ⟨c, i', r', h1, rfl, h3⟩ | h1
    · refine Or.inl ?_
      simp only [Peekable.peek, Peekable.next, enumerated, h1]
      exact ⟨rfl, ⟨r', rfl, h3⟩, rfl, fun _ => h3⟩
    · exact Or.inr ⟨rfl, h1⟩
  | some (some x) =>
    obtain ⟨r', rfl, h3⟩ := h
    exact Or.inl ⟨rfl, ⟨r', rfl, h3⟩, rfl, fun _ => h3⟩
  | some none =>
    obtain ⟨h1, h2⟩ := h
    obtain rfl : r = [] := h1
    exact Or.inl ⟨rfl, ⟨rfl, h2⟩, rfl, fun h => (h rfl).elim⟩

/-! ### An iterator that ends -/

/-- The iterator ends with the list. -/
abbrev EndsWith (M : Machine I Char) : I → Nat → List (Item CharPos) → Prop :=
  fun j _ w => Ended M j ∧ w = []

theorem Ahead.ended {p r} (h : Ahead M (EndsWith M) (Ended M) p r) :
    (p.peek (enumerated M)).1 = r.head? ∧ Ahead M (EndsWith M) (Ended M) (p.peek (enumerated M)).2 r ∧
      (p.next (enumerated M)).1 = r.head? ∧
      Ahead M (EndsWith M) (Ended M) (p.next (enumerated M)).2 r.tail := by
  rcases h.step with ⟨h1, h2, h3, h4⟩ | ⟨h1, h2, rfl⟩
  · refine ⟨h1, h2, h3, ?_⟩
    by_cases hp : p.peeked = some none
    · obtain ⟨⟨i, k⟩, pk⟩ := p
      cases hp
      obtain ⟨h5, h6⟩ := h
      obtain rfl : r = [] := h5
      exact ⟨[], i, [], .nil, rfl, h6, rfl⟩
    · exact h4 hp
  · obtain ⟨⟨i, k⟩, pk⟩ := p
    cases h1
    rcases hm : M i with ⟨_ | c, i'⟩
    · have h5 : Ended M i' := by have := h2.next.2; rwa [hm] at this
      simp only [Peekable.peek, Peekable.next, enumerated, hm]
      exact ⟨rfl, ⟨rfl, h5⟩, rfl, [], i', [], .nil, rfl, h5, rfl⟩
    · exact absurd h2.next.1 (by dsimp only; rw [hm]; simp)

theorem Ended.track_peek : Track (Ahead M (EndsWith M) (Ended M)) (fun _ => True)
    (Peekable.peek (enumerated M)) listPeek :=
  ⟨fun _ _ => trivial, fun _ _ h _ => ⟨h.ended.1, h.ended.2.1⟩⟩

theorem Ended.track_next : Track (Ahead M (EndsWith M) (Ended M)) (fun _ => True)
    (Peekable.next (enumerated M)) listNext :=
  ⟨fun _ _ => trivial, fun _ _ h _ => ⟨h.ended.2.2.1, h.ended.2.2.2⟩⟩

theorem Ended.track_peek' : Track (fun r p => Ahead M (EndsWith M) (Ended M) p r) (fun _ => True)
    listPeek (Peekable.peek (enumerated M)) :=
  ⟨fun _ _ => trivial, fun _ _ h _ => ⟨h.ended.1.symm, h.ended.2.1⟩⟩

theorem Ended.track_next' : Track (fun r p => Ahead M (EndsWith M) (Ended M) p r) (fun _ => True)
    listNext (Peekable.next (enumerated M)) :=
  ⟨fun _ _ => trivial, fun _ _ h _ => ⟨h.ended.2.2.1.symm, h.ended.2.2.2⟩⟩

/-! ### A list that ends before the iterator -/

/-- The list is the first `N` characters that the iterator gives. -/
abbrev First (J : I) (N : Nat) : I → Nat → List (Item CharPos) → Prop :=
  fun j n w => j = J ∧ n = N ∧ w = []

theorem First.track_peek {J : I} {N} : Track (Ahead M (First J N) (fun _ => False)) (fun r => r ≠ [])
    (Peekable.peek (enumerated M)) listPeek := by
  refine ⟨fun _ h => h, fun p r h hg => ?_⟩
  rcases h.step with ⟨h1, h2, -⟩ | ⟨-, -, -, rfl⟩
  · exact ⟨h1, h2⟩
  · exact absurd rfl hg

theorem First.track_next {J : I} {N} : Track (Ahead M (First J N) (fun _ => False)) (fun r => r ≠ [])
    (Peekable.next (enumerated M)) listNext := by
  refine ⟨fun t h => ?_, fun p r h hg => ?_⟩
  · rintro rfl
    exact h rfl
  · rcases h.step with ⟨-, -, h3, h4⟩ | ⟨-, -, -, rfl⟩
    · refine ⟨h3, h4 fun hp => ?_⟩
      obtain ⟨⟨i, k⟩, pk⟩ := p
      cases hp
      exact h.2
    · exact absurd rfl hg

/-! ### An iterator that has not come to the end of the list -/

/-- The iterator gives more than the first `N` characters; the list goes on in any way. -/
abbrev Beyond (M : Machine I Char) (J : I) (N : Nat) (w : List (Item CharPos)) :
    I → Nat → List (Item CharPos) → Prop :=
  fun j n w' => j = J ∧ n = N ∧ w' = w ∧ (M j).1 ≠ none

theorem Peekable.peek_count (p : Peekable (I × Nat) (Item CharPos)) :
    p.iter.2 ≤ (p.peek (enumerated M)).2.iter.2 := by
  obtain ⟨⟨i, k⟩, _ | v⟩ := p
  · simp only [Peekable.peek, enumerated]
    rcases M i with ⟨_ | c, i'⟩ <;> simp
  · exact Nat.le_refl _

theorem Peekable.next_count (p : Peekable (I × Nat) (Item CharPos)) :
    p.iter.2 ≤ (p.next (enumerated M)).2.iter.2 := by
  obtain ⟨⟨i, k⟩, _ | v⟩ := p
  · simp only [Peekable.next, enumerated]
    rcases M i with ⟨_ | c, i'⟩ <;> simp
  · exact Nat.le_refl _

theorem Beyond.track_peek {J : I} {N w} :
    Track (fun r p => Ahead M (Beyond M J N w) (fun _ => False) p r) (fun p => p.iter.2 ≤ N)
    listPeek (Peekable.peek (enumerated M)) := by
  refine ⟨fun p h => Nat.le_trans p.peek_count h, fun r p h hg => ?_⟩
  rcases h.step with ⟨h1, h2, -⟩ | ⟨h1, -, h2, -, h3⟩
  · exact ⟨h1.symm, h2⟩
  · obtain ⟨⟨i, k⟩, pk⟩ := p
    cases h1
    cases h2
    simp only [Peekable.peek, enumerated] at hg
    rcases hm : M i with ⟨_ | c, i'⟩
    · exact absurd (by dsimp only; rw [hm]) h3
    · rw [hm] at hg
      dsimp only at hg
      omega

theorem Beyond.track_next {J : I} {N w} :
    Track (fun r p => Ahead M (Beyond M J N w) (fun _ => False) p r) (fun p => p.iter.2 ≤ N)
    listNext (Peekable.next (enumerated M)) := by
  refine ⟨fun p h => Nat.le_trans p.next_count h, fun r p h hg => ?_⟩
  rcases h.step with ⟨-, -, h3, h4⟩ | ⟨h1, -, h2, -, h3⟩
  · refine ⟨h3.symm, h4 fun hp => ?_⟩
    obtain ⟨⟨i, k⟩, pk⟩ := p
    cases hp
    exact h.2
  · obtain ⟨⟨i, k⟩, pk⟩ := p
    cases h1
    cases h2
    simp only [Peekable.next, enumerated] at hg
    rcases hm : M i with ⟨_ | c, i'⟩
    · exact absurd (by dsimp only; rw [hm]) h3
    · rw [hm] at hg
      dsimp only at hg
      omega

/-! ## The streams -/

variable {τ α : Type} {T : TextType PosStrish τ α}

/-- The accumulations of a list stream, by its `next`. -/
theorem CharIter.nextAccum_eq (it : CharIter) : it.nextAccum =
    match listNext it.peIter with
    | (none, p) => (none, { it with peIter := p })
    | (some x, p) =>
      match it.accum with
      | some (s, pos) => (some x, ⟨p, some (s ++ [x.ch], pos)⟩)
      | none => (some x, ⟨p, some ([x.ch], x.pos)⟩) := by
  obtain ⟨_ | ⟨x, l⟩, _ | ⟨s, pos⟩⟩ := it <;> rfl

/-- Related streams: the same accumulation, and related iterators. -/
def LiveRel (Q : Peekable (I × Nat) (Item CharPos) → List (Item CharPos) → Prop) (s : LiveChar I)
    (t : CharIter) : Prop := s.accum = t.accum ∧ Q s.peIter t.peIter

theorem live_tracks {Q : Peekable (I × Nat) (Item CharPos) → List (Item CharPos) → Prop}
    {G : List (Item CharPos) → Prop} (hp : Track Q G (Peekable.peek (enumerated M)) listPeek)
    (hn : Track Q G (Peekable.next (enumerated M)) listNext) :
    Tracks (LiveRel Q) (fun t => G t.peIter) (liveCharOps M T) (charIterOps T) where
  peek := by
    refine ⟨fun t => hp.1 t.peIter, ?_⟩
    rintro ⟨p, ac⟩ ⟨r, _⟩ ⟨rfl, hq⟩ hg _
    obtain ⟨h1, h2⟩ := hp.2 p r hq hg
    exact ⟨congrArg Outcome.ok h1, rfl, h2⟩
  next := by
    refine ⟨fun t => hn.1 t.peIter, ?_⟩
    rintro ⟨p, ac⟩ ⟨r, _⟩ ⟨rfl, hq⟩ hg _
    obtain ⟨h1, h2⟩ := hn.2 p r hq hg
    exact ⟨congrArg Outcome.ok h1, rfl, h2⟩
  nextAccum := by
    have e : ∀ t : CharIter, t.nextAccum.2.peIter = (listNext t.peIter).2 := by
      rintro ⟨_ | ⟨x, l⟩, _ | ⟨s, pos⟩⟩ <;> rfl
    refine ⟨fun t a h => hn.1 t.peIter (by rw [← e]; exact h), ?_⟩
    rintro ⟨p, ac⟩ ⟨r, _⟩ a ⟨rfl, hq⟩ hg _
    obtain ⟨h1, h2⟩ := hn.2 p r hq (by have := e ⟨r, ac⟩; rw [← this]; exact hg)
    simp only [liveCharOps, charIterOps, LiveChar.nextAccum, CharIter.nextAccum_eq]
    rcases hx : p.next (enumerated M) with ⟨x, p'⟩
    rcases hy : listNext r with ⟨y, r'⟩
    rw [hx, hy] at h1 h2
    cases h1
    cases x with
    | none => exact ⟨rfl, trivial, rfl, h2⟩
    | some x => rcases ac with _ | ⟨s, pos⟩ <;> exact ⟨rfl, trivial, rfl, h2⟩
  accumDone := by
    refine ⟨?_, ?_⟩
    · rintro ⟨r, _ | ⟨s, pos⟩⟩ a h <;> exact h
    · rintro ⟨p, ac⟩ ⟨r, _⟩ a ⟨rfl, hq⟩ hg _
      rcases ac with _ | ⟨s, pos⟩ <;> exact ⟨rfl, rfl, rfl, hq⟩

theorem live_tracks' {Q : List (Item CharPos) → Peekable (I × Nat) (Item CharPos) → Prop}
    {G : Peekable (I × Nat) (Item CharPos) → Prop} (hp : Track Q G listPeek (Peekable.peek (enumerated M)))
    (hn : Track Q G listNext (Peekable.next (enumerated M))) :
    Tracks (fun t s => LiveRel (fun p r => Q r p) s t) (fun s => G s.peIter) (charIterOps T)
      (liveCharOps M T) where
  peek := by
    refine ⟨fun t => hp.1 t.peIter, ?_⟩
    rintro ⟨r, _⟩ ⟨p, ac⟩ ⟨rfl, hq⟩ hg _
    obtain ⟨h1, h2⟩ := hp.2 r p hq hg
    exact ⟨congrArg Outcome.ok h1, rfl, h2⟩
  next := by
    refine ⟨fun t => hn.1 t.peIter, ?_⟩
    rintro ⟨r, _⟩ ⟨p, ac⟩ ⟨rfl, hq⟩ hg _
    obtain ⟨h1, h2⟩ := hn.2 r p hq hg
    exact ⟨congrArg Outcome.ok h1, rfl, h2⟩
  nextAccum := by
    have e : ∀ t : LiveChar I, (t.nextAccum M).2.peIter = (t.peIter.next (enumerated M)).2 := by
      rintro ⟨p, ac⟩
      simp only [LiveChar.nextAccum]
      rcases p.next (enumerated M) with ⟨_ | x, p'⟩
      · rfl
      · rcases ac with _ | ⟨s, pos⟩ <;> rfl
    refine ⟨fun t a h => hn.1 t.peIter (by rw [← e]; exact h), ?_⟩
    rintro ⟨r, _⟩ ⟨p, ac⟩ a ⟨rfl, hq⟩ hg _
    obtain ⟨h1, h2⟩ := hn.2 r p hq (by have := e ⟨p, ac⟩; rw [← this]; exact hg)
    simp only [liveCharOps, charIterOps, LiveChar.nextAccum, CharIter.nextAccum_eq]
    rcases hx : p.next (enumerated M) with ⟨x, p'⟩
    rcases hy : listNext r with ⟨y, r'⟩
    rw [hx, hy] at h1 h2
    cases h1
    cases x with
    | none => exact ⟨rfl, trivial, rfl, h2⟩
    | some x => rcases ac with _ | ⟨s, pos⟩ <;> exact ⟨rfl, trivial, rfl, h2⟩
  accumDone := by
    refine ⟨?_, ?_⟩
    · rintro ⟨r, _ | ⟨s, pos⟩⟩ a h <;> exact h
    · rintro ⟨r, _⟩ ⟨p, ac⟩ a ⟨rfl, hq⟩ hg _
      rcases ac with _ | ⟨s, pos⟩ <;> exact ⟨rfl, rfl, rfl, hq⟩

/-! ### Two iterators that give the same first -/

/-- Both iterators give the same until they have given `N` characters. -/
def Twins {I' : Type} (M : Machine I Char) (M' : Machine I' Char) (J : I) (J' : I') (N : Nat)
    (p : Peekable (I × Nat) (Item CharPos)) (p' : Peekable (I' × Nat) (Item CharPos)) : Prop :=
  p.peeked = p'.peeked ∧ p.peeked ≠ some none ∧ p.iter.2 = p'.iter.2 ∧
  ∃ l, Gives M p.iter.1 l J ∧ Gives M' p'.iter.1 l J' ∧ p.iter.2 + l.length = N

theorem Twins.step {I' : Type} {M' : Machine I' Char} {J : I} {J' : I'} (hJ : (M' J').1 ≠ none) {N p p'}
    (h : Twins M M' J J' N p p') :
    ((p'.peek (enumerated M')).2.iter.2 ≤ N →
      (p.peek (enumerated M)).1 = (p'.peek (enumerated M')).1 ∧
      Twins M M' J J' N (p.peek (enumerated M)).2 (p'.peek (enumerated M')).2) ∧
    ((p'.next (enumerated M')).2.iter.2 ≤ N →
      (p.next (enumerated M)).1 = (p'.next (enumerated M')).1 ∧
      Twins M M' J J' N (p.next (enumerated M)).2 (p'.next (enumerated M')).2) := by
  obtain ⟨⟨i, k⟩, pk⟩ := p
  obtain ⟨⟨i', k'⟩, pk'⟩ := p'
  obtain ⟨h1, h2, h3, l, h4, h5, h6⟩ := h
  dsimp only at h1 h2 h3 h4 h5 h6
  subst h1 h3
  cases pk with
  | some v =>
    exact ⟨fun _ => ⟨rfl, rfl, h2, rfl, l, h4, h5, h6⟩,
      fun _ => ⟨rfl, rfl, by simp [Peekable.next], rfl, l, h4, h5, h6⟩⟩
  | none =>
    cases h4 with
    | nil =>
      cases h5
      rcases hm : M' J' with ⟨_ | c, j⟩
      · exact absurd (by rw [hm]) hJ
      · simp only [Peekable.peek, Peekable.next, enumerated, hm]
        exact ⟨fun h => by simp at h6; omega, fun h => by simp at h6; omega⟩
    | @cons _ c j l _ hc hl =>
      cases h5 with
      | @cons _ _ j' _ _ hc' hl' =>
        rw [List.length_cons, Nat.add_comm l.length, ← Nat.add_assoc] at h6
        simp only [Peekable.peek, Peekable.next, enumerated, hc, hc']
        exact ⟨fun _ => ⟨trivial, rfl, by simp, rfl, l, hl, hl', h6⟩,
          fun _ => ⟨trivial, rfl, by simp, rfl, l, hl, hl', h6⟩⟩

theorem twin_tracks {I' : Type} {M' : Machine I' Char} {J : I} {J' : I'} (hJ : (M' J').1 ≠ none) {N : Nat} :
    Tracks (fun (s : LiveChar I) (t : LiveChar I') => s.accum = t.accum ∧ Twins M M' J J' N s.peIter t.peIter)
      (fun t => t.pulled ≤ N) (liveCharOps M T) (liveCharOps M' T) where
  peek := by
    refine ⟨fun t h => Nat.le_trans t.peIter.peek_count h, ?_⟩
    rintro ⟨p, ac⟩ ⟨p', _⟩ ⟨rfl, hq⟩ hg _
    obtain ⟨h1, h2⟩ := (hq.step hJ).1 hg
    exact ⟨congrArg Outcome.ok h1, rfl, h2⟩
  next := by
    refine ⟨fun t h => Nat.le_trans t.peIter.next_count h, ?_⟩
    rintro ⟨p, ac⟩ ⟨p', _⟩ ⟨rfl, hq⟩ hg _
    obtain ⟨h1, h2⟩ := (hq.step hJ).2 hg
    exact ⟨congrArg Outcome.ok h1, rfl, h2⟩
  nextAccum := by
    have e : ∀ t : LiveChar I', (t.nextAccum M').2.peIter = (t.peIter.next (enumerated M')).2 := by
      rintro ⟨p, ac⟩
      simp only [LiveChar.nextAccum]
      rcases p.next (enumerated M') with ⟨_ | x, p'⟩
      · rfl
      · rcases ac with _ | ⟨s, pos⟩ <;> rfl
    refine ⟨fun t a h => Nat.le_trans t.peIter.next_count (by rw [← e]; exact h), ?_⟩
    rintro ⟨p, ac⟩ ⟨q, _⟩ a ⟨rfl, hq⟩ hg _
    obtain ⟨h1, h2⟩ := (hq.step hJ).2 (by have := e ⟨q, ac⟩; rw [← this]; exact hg)
    simp only [liveCharOps, LiveChar.nextAccum]
    dsimp only at h1 h2
    rcases hx : p.next (enumerated M) with ⟨x, p'⟩
    rcases hy : q.next (enumerated M') with ⟨y, q'⟩
    rw [hx, hy] at h1 h2
    cases h1
    cases x with
    | none => exact ⟨rfl, trivial, rfl, h2⟩
    | some x => rcases ac with _ | ⟨s, pos⟩ <;> exact ⟨rfl, trivial, rfl, h2⟩
  accumDone := by
    refine ⟨?_, ?_⟩
    · rintro ⟨r, _ | ⟨s, pos⟩⟩ a h <;> exact h
    · rintro ⟨p, ac⟩ ⟨p', _⟩ a ⟨rfl, hq⟩ hg _
      rcases ac with _ | ⟨s, pos⟩ <;> exact ⟨rfl, rfl, rfl, hq⟩

theorem LiveRel.new {W : I → Nat → List (Item CharPos) → Prop} {Z : I → Prop} {i l j w}
    (h : Gives M i l j) (hw : W j l.length (numberedFrom l.length w)) :
    LiveRel (Ahead M W Z) (.new i) (.new (l ++ w)) := by
  refine ⟨rfl, l, j, numberedFrom l.length w, h, ?_, ?_⟩
  rotate_left
  · change W j (0 + l.length) _
    rwa [Nat.zero_add]
  change (List.zipIdx (l ++ w)).map _ = _
  rw [CharIter.new_peIter, itemsFrom_append, advs_charPos, Nat.zero_add]
  rfl

end

/-! ## After a nest, nothing has been peeked -/

section

variable {σ P τ ε α CE : Type} {E : Env σ P τ ε α CE}

/-- Whenever the action succeeds with a `Q` value, the last operation on the stream was a `next`
that gave a character. -/
def EndsNext {A : Type} (E : Env σ P τ ε α CE) (Q : A → Prop) (x : Act (St σ α) (Err P CE) A) : Prop :=
  ∀ s a s', x s = (.ok a, s') → Q a → ∃ q c, E.strm.next q = (.ok (some c), s'.strm)

variable {A B : Type} {Q : A → Prop} {x : Act (St σ α) (Err P CE) A}

theorem EndsNext.of_bind {f : B → Act (St σ α) (Err P CE) A} {x : Act (St σ α) (Err P CE) B}
    (h : ∀ b, EndsNext E Q (f b)) : EndsNext E Q (x >>= f) := by
  intro s a s' hx hq
  change Act.bind x f s = _ at hx
  unfold Act.bind at hx
  rcases hb : x s with ⟨o, s₁⟩
  rw [hb] at hx
  cases o with
  | ok b => exact h b s₁ a s' hx hq
  | _ => cases hx

/-- An action that leaves the stream alone. -/
def KeepsStrm {A : Type} (x : Act (St σ α) (Err P CE) A) : Prop := ∀ s, (x s).2.strm = s.strm

theorem KeepsStrm.bind {f : B → Act (St σ α) (Err P CE) A} {x : Act (St σ α) (Err P CE) B}
    (hx : KeepsStrm x) (hf : ∀ b, KeepsStrm (f b)) : KeepsStrm (x >>= f) := by
  intro s
  change (Act.bind x f s).2.strm = _
  have h := hx s
  unfold Act.bind
  rcases hb : x s with ⟨o, s₁⟩
  rw [hb] at h
  cases o with
  | ok b => exact (hf b s₁).trans h
  | _ => exact h

theorem KeepsStrm.pure (a : A) : KeepsStrm (Pure.pure a : Act (St σ α) (Err P CE) A) := fun _ => rfl

theorem EndsNext.then {f : B → Act (St σ α) (Err P CE) A} {x : Act (St σ α) (Err P CE) B}
    (hx : EndsNext E (fun _ => True) x) (hf : ∀ b, KeepsStrm (f b)) : EndsNext E Q (x >>= f) := by
  intro s a s' hxf _
  change Act.bind x f s = _ at hxf
  unfold Act.bind at hxf
  rcases hb : x s with ⟨o, s₁⟩
  rw [hb] at hxf
  cases o with
  | ok b =>
    obtain ⟨q, c, hq⟩ := hx s b s₁ hb trivial
    have := hf b s₁
    dsimp only at hxf
    rw [hxf] at this
    exact ⟨q, c, hq.trans (by rw [← this])⟩
  | _ => cases hxf

theorem EndsNext.absurd {x : Act (St σ α) (Err P CE) A} (h : ∀ s a s', x s = (.ok a, s') → ¬ Q a) :
    EndsNext E Q x := fun s a s' hx hq => (h s a s' hx hq).elim

theorem Env.ends_nestEnd : EndsNext E (fun _ => True) E.nestEnd := by
  intro s a s' h _
  change Act.bind _ _ s = _ at h
  unfold Act.bind at h
  have hnx : E.next (P := P) (CE := CE) s = ((E.strm.next s.strm).1.mapErr (fun e => nomatch e),
    { s with strm := (E.strm.next s.strm).2 }) := rfl
  rw [hnx] at h
  rcases hn : E.strm.next s.strm with ⟨o, q⟩
  rw [hn] at h
  rcases o with (_ | c) | e | _ | _
  · cases h
  · simp only [Outcome.mapErr, Act.debugAssert] at h
    split at h
    · cases h
      exact ⟨s.strm, c, hn⟩
    · cases h
  · cases e
  · cases h
  · cases h

theorem Env.ends_parseNested (n : Nat) : EndsNext E (fun _ => True) (E.parseNested n) := by
  cases n with
  | zero =>
    unfold Env.parseNested
    intro s a s' h
    cases h
  | succ n =>
    unfold Env.parseNested
    refine .of_bind fun _ => .of_bind fun _ => .of_bind fun o => .of_bind fun _ => ?_
    cases o with
    | none => exact EndsNext.then E.ends_nestEnd fun _ => KeepsStrm.pure _
    | some d =>
      dsimp only
      rcases E.lookup d with _ | (f | f)
      · exact .of_bind fun _ => EndsNext.then E.ends_nestEnd fun _ =>
          KeepsStrm.bind (fun _ => rfl) fun _ => KeepsStrm.bind (fun _ => rfl) fun _ => KeepsStrm.pure _
      · exact .of_bind fun _ => EndsNext.then E.ends_nestEnd fun _ _ => rfl
      · exact .of_bind fun _ => EndsNext.then E.ends_nestEnd fun _ _ => rfl

/-- The result is a datum other than a text. -/
def IsNest : Option (Datum τ ε) → Prop
  | none => False
  | some (.text _) => False
  | some _ => True

theorem Env.ends_parseNext (mode : Mode) (n : Nat) : EndsNext E IsNest (E.parseNext n mode) := by
  induction n with
  | zero =>
    unfold Env.parseNext
    intro s a s' h
    cases h
  | succ n ih =>
    unfold Env.parseNext
    refine .of_bind fun _ => .of_bind fun o => ?_
    cases o with
    | none =>
      refine .of_bind fun d => EndsNext.absurd fun s a s' h => ?_
      split at h
      · cases h; exact id
      · cases h
    | some it =>
      dsimp only
      split
      · have h0 : EndsNext E (fun _ => True) (nestedInDepth (E.parseNested n)) := by
          intro s a s' h _
          unfold nestedInDepth at h
          rcases hn : E.parseNested n { s with ndepth := s.ndepth + 1 } with ⟨o, s₁⟩
          rw [hn] at h
          dsimp only at h
          split at h
          · cases h
          · cases h
            exact E.ends_parseNested n _ _ s₁ hn trivial
        intro s a s' h hq
        change Act.bind _ _ s = _ at h
        unfold Act.bind at h
        rcases hb : nestedInDepth (E.parseNested n) s with ⟨o, s₁⟩
        rw [hb] at h
        cases o with
        | ok b =>
          cases b with
          | none => exact ih s₁ a s' h hq
          | some d =>
            cases h
            exact h0 s _ _ hb trivial
        | _ => cases h
      · split
        · refine .of_bind fun _ => EndsNext.absurd fun s a s' h => ?_
          cases h
          exact id
        · refine .of_bind fun _ => EndsNext.absurd fun s a s' h => ?_
          cases h
          exact id

/-- A call that returns a datum other than a text ends with a `next` on the stream that gives a
character. -/
theorem Env.Call.ends {t d t'} (h : E.Call t (.ok (some d)) t') (hd : ∀ x, d ≠ .text x) :
    ∃ q c, E.strm.next q = (.ok (some c), t'.strm) := by
  obtain ⟨n, h, -⟩ := h
  refine E.ends_parseNext .base n _ _ _ h ?_
  cases d with
  | text x => exact (hd x rfl).elim
  | _ => trivial

/-- Outside of all nests, `None` is returned only when `peek` on the stream has just given
nothing. -/
theorem Env.none_peeked (n : Nat) : ∀ {s s'}, E.parseNext n .base s = (.ok none, s') → s.ndepth = 0 →
    ∃ q, E.strm.peek q = (.ok none, s'.strm) ∧ s'.ndepth = 0 := by
  induction n with
  | zero => intro s s' h; unfold Env.parseNext at h; cases h
  | succ n ih =>
    intro s s' h hd
    unfold Env.parseNext at h
    change Act.bind E.peek _ s = _ at h
    unfold Act.bind at h
    have hpk : E.peek (P := P) (CE := CE) s = ((E.strm.peek s.strm).1.mapErr (fun e => nomatch e),
      { s with strm := (E.strm.peek s.strm).2 }) := rfl
    rw [hpk] at h
    rcases hp : E.strm.peek s.strm with ⟨o, q⟩
    rw [hp] at h
    cases o with
    | ok o =>
      cases o with
      | none =>
        change Act.bind _ _ _ = _ at h
        simp only [Act.bind, Env.getDepth, hd, if_pos] at h
        cases h
        exact ⟨_, hp, rfl⟩
      | some it =>
        simp only [Outcome.mapErr] at h
        split at h
        · change Act.bind _ _ _ = _ at h
          unfold Act.bind at h
          have hk := Env.keeps_nestedInDepth (E.keeps_parse n).2.1 { s with strm := q }
          rcases hn : Env.nestedInDepth (E.parseNested n) { s with strm := q } with ⟨o, s₁⟩
          rw [hn] at h hk
          cases o with
          | ok o =>
            cases o with
            | none => exact ih h (hk.trans hd)
            | some d => cases h
          | _ => cases h
        · split at h
          · change Act.bind _ _ _ = _ at h
            unfold Act.bind at h
            rcases hc : E.checkEndChar { s with strm := q } with ⟨o, s₁⟩
            rw [hc] at h
            cases o with
            | ok o =>
              exfalso
              unfold Env.checkEndChar at hc
              change Act.bind _ _ _ = _ at hc
              unfold Act.bind at hc
              rcases h2 : E.peek (P := P) (CE := CE) { s with strm := q } with ⟨o₂, s₂⟩
              have hd2 : s₂.ndepth = 0 := by
                have := E.keeps_peek { s with strm := q }
                rw [h2] at this
                exact this.trans hd
              rw [h2] at hc
              cases o₂ with
              | ok o₂ =>
                change Act.bind _ _ _ = _ at hc
                unfold Act.bind at hc
                simp only [Act.debugAssert] at hc
                split at hc
                · rename_i hc'
                  split at hc'
                  · cases hc'
                    change Act.bind _ _ _ = _ at hc
                    simp only [Act.bind, Env.getDepth, hd2] at hc
                    change Act.bind _ _ _ = _ at hc
                    unfold Act.bind at hc
                    rcases h3 : E.next (P := P) (CE := CE) s₂ with ⟨o₃, s₃⟩
                    rw [h3] at hc
                    cases o₃ with
                    | ok o₃ => cases o₃ <;> cases hc
                    | _ => cases hc
                  · cases hc'
                all_goals cases hc
              | _ => cases hc
            | _ => cases h
          · change Act.bind _ _ _ = _ at h
            unfold Act.bind at h
            rcases hc : E.parseText n .base { s with strm := q } with ⟨o, s₁⟩
            rw [hc] at h
            cases o <;> cases h
    | err e => cases e
    | panic => cases h
    | fuel => cases h

end

end Kul
