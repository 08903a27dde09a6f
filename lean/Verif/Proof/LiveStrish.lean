import Verif.Proof.Live
import Verif.Model.LiveStrish

/-!
# Streams of strings over any iterator
-/

namespace Kul

section

variable {I J τ α : Type} {Q : I → J → Prop} {G : J → Prop}
  {pull₁ : Nat → I → Outcome Empty (Option PosStrishIter) × I}
  {pull₂ : Nat → J → Outcome Empty (Option PosStrishIter) × J}

/-- Streams that differ in their iterators only. -/
def LiveStrish.Rel (Q : I → J → Prop) (s : LiveStrish I τ) (t : LiveStrish J τ) : Prop :=
  s.cur = t.cur ∧ s.charIdx = t.charIdx ∧ s.peekedStrm = t.peekedStrm ∧ s.accum = t.accum ∧
    Q s.strishIter t.strishIter

theorem LiveStrish.track_nextPosstrish (h : ∀ c, TrackOut Q G (pull₁ c) (pull₂ c)) :
    TrackOut (LiveStrish.Rel (τ := τ) Q) (fun t => G t.strishIter) (nextPosstrish pull₁) (nextPosstrish pull₂) := by
  refine ⟨fun t => ?_, ?_⟩
  · unfold nextPosstrish
    split
    · exact id
    · split
      · split
        · exact id
        · intro hg
          refine (h t.charIdx).1 t.strishIter ?_
          rcases hp : pull₂ t.charIdx t.strishIter with ⟨_ | _ | _ | _, j⟩ <;> rw [hp] at hg <;> exact hg
      · exact id
  · rintro ⟨cur, ci, i, pk, ac⟩ ⟨_, _, j, _, _⟩ ⟨rfl, rfl, rfl, rfl, hq⟩ hg hf
    dsimp only at hq
    unfold nextPosstrish at hg hf ⊢
    cases cur with
    | none => exact ⟨rfl, rfl, rfl, rfl, rfl, hq⟩
    | some s =>
      dsimp only at hg hf ⊢
      generalize s.peek = r at hg hf ⊢
      obtain ⟨_ | _ | _ | _, s'⟩ := r
      · rename_i x
        cases x with
        | none =>
          cases pk with
          | some p => exact ⟨rfl, rfl, rfl, rfl, rfl, hq⟩
          | none =>
            dsimp only at hg hf ⊢
            have h2 := (h ci).2 i j hq
            rcases hp : pull₂ ci j with ⟨o, j'⟩
            rcases hp' : pull₁ ci i with ⟨o', i'⟩
            rw [hp] at hg hf h2
            rw [hp'] at h2
            cases o with
            | fuel => exact absurd rfl hf
            | _ =>
              obtain ⟨h3, h4⟩ := h2 hg (by simp)
              cases h3
              exact ⟨rfl, rfl, rfl, rfl, rfl, h4⟩
        | some x => exact ⟨rfl, rfl, rfl, rfl, rfl, hq⟩
      all_goals exact ⟨rfl, rfl, rfl, rfl, rfl, hq⟩

theorem LiveStrish.track_peekStrm (h : ∀ c, TrackOut Q G (pull₁ c) (pull₂ c)) :
    TrackOut (LiveStrish.Rel (τ := τ) Q) (fun t => G t.strishIter) (peekStrm pull₁) (peekStrm pull₂) := by
  refine ⟨fun t => ?_, ?_⟩
  · unfold peekStrm
    split
    · exact id
    · intro hg
      refine (h t.charIdx).1 t.strishIter ?_
      rcases hp : pull₂ t.charIdx t.strishIter with ⟨_ | _ | _ | _, j⟩ <;> rw [hp] at hg <;> exact hg
  · rintro ⟨cur, ci, i, pk, ac⟩ ⟨_, _, j, _, _⟩ ⟨rfl, rfl, rfl, rfl, hq⟩ hg hf
    dsimp only at hq
    unfold peekStrm at hg hf ⊢
    cases pk with
    | some p => exact ⟨rfl, rfl, rfl, rfl, rfl, hq⟩
    | none =>
      dsimp only at hg hf ⊢
      have h2 := (h ci).2 i j hq
      rcases hp : pull₂ ci j with ⟨o, j'⟩
      rcases hp' : pull₁ ci i with ⟨o', i'⟩
      rw [hp] at hg hf h2
      rw [hp'] at h2
      cases o with
      | fuel => exact absurd rfl hf
      | _ =>
        obtain ⟨h3, h4⟩ := h2 hg (by simp)
        cases h3
        exact ⟨rfl, rfl, rfl, rfl, rfl, h4⟩

theorem LiveStrish.track_peek (h : ∀ c, TrackOut Q G (pull₁ c) (pull₂ c)) :
    TrackOut (LiveStrish.Rel (τ := τ) Q) (fun t => G t.strishIter) (peek pull₁) (peek pull₂) := by
  obtain ⟨k1, k2⟩ := track_peekStrm (τ := τ) h
  refine ⟨?_, ?_⟩
  · rintro ⟨cur, ci, j, pk, ac⟩
    unfold peek
    cases cur with
    | none => exact id
    | some s =>
      dsimp only
      rcases s.peek with ⟨(_ | x) | _ | _ | _, s'⟩
      · intro hg
        refine k1 ⟨some s', ci, j, pk, ac⟩ ?_
        dsimp only at hg
        generalize peekStrm pull₂ ⟨some s', ci, j, pk, ac⟩ = r at hg ⊢
        obtain ⟨_ | _ | _ | _, t⟩ := r
        · dsimp only at hg ⊢
          rcases t with ⟨_, _, _, _ | p, _⟩ <;> exact hg
        all_goals exact hg
      all_goals exact id
  · rintro ⟨cur, ci, i, pk, ac⟩ ⟨_, _, j, _, _⟩ ⟨rfl, rfl, rfl, rfl, hq⟩ hg hf
    dsimp only at hq
    unfold peek at hg hf ⊢
    cases cur with
    | none => exact ⟨rfl, rfl, rfl, rfl, rfl, hq⟩
    | some s =>
      dsimp only at hg hf ⊢
      generalize s.peek = r at hg hf ⊢
      obtain ⟨(_ | x) | _ | _ | _, s'⟩ := r
      · dsimp only at hg hf ⊢
        have h2 := k2 ⟨some s', ci, i, pk, ac⟩ ⟨some s', ci, j, pk, ac⟩ ⟨rfl, rfl, rfl, rfl, hq⟩
        rcases hp : peekStrm pull₂ ⟨some s', ci, j, pk, ac⟩ with ⟨o, t⟩
        rcases hp' : peekStrm pull₁ ⟨some s', ci, i, pk, ac⟩ with ⟨o', s₁⟩
        rw [hp] at hg hf h2
        rw [hp'] at h2
        cases o with
        | fuel => exact absurd rfl hf
        | ok _ =>
          have hg' : G t.strishIter := by
            dsimp only at hg
            rcases t with ⟨_, _, _, _ | p, _⟩ <;> exact hg
          obtain ⟨h3, h4⟩ := h2 hg' (by simp)
          cases h3
          obtain ⟨c₁, n₁, i₁, p₁, a₁⟩ := s₁
          obtain ⟨c₂, n₂, i₂, p₂, a₂⟩ := t
          obtain ⟨rfl, rfl, rfl, rfl, hq'⟩ := h4
          cases p₁ <;> exact ⟨rfl, rfl, rfl, rfl, rfl, hq'⟩
        | _ =>
          obtain ⟨h3, h4⟩ := h2 hg (by simp)
          cases h3
          exact ⟨rfl, h4⟩
      all_goals exact ⟨rfl, rfl, rfl, rfl, rfl, hq⟩

theorem LiveStrish.track_nextLoop (h : ∀ c, TrackOut Q G (pull₁ c) (pull₂ c)) (n : Nat) :
    TrackOut (LiveStrish.Rel (τ := τ) Q) (fun t => G t.strishIter) (nextLoop pull₁ n) (nextLoop pull₂ n) := by
  obtain ⟨k1, k2⟩ := track_nextPosstrish (τ := τ) h
  induction n with
  | zero => exact ⟨fun _ => id, fun _ _ hr _ _ => ⟨rfl, hr⟩⟩
  | succ n ih =>
  refine ⟨?_, ?_⟩
  · rintro ⟨cur, ci, j, pk, ac⟩
    unfold nextLoop
    cases cur with
    | none => exact id
    | some s =>
      dsimp only
      rcases s.next with ⟨(_ | x) | _ | _ | _, s'⟩
      · intro hg
        refine k1 ⟨some s', ci, j, pk, ac⟩ ?_
        dsimp only at hg
        generalize nextPosstrish pull₂ ⟨some s', ci, j, pk, ac⟩ = r at hg ⊢
        obtain ⟨_ | _ | _ | _, t⟩ := r
        · exact ih.1 t hg
        all_goals exact hg
      all_goals exact id
  · rintro ⟨cur, ci, i, pk, ac⟩ ⟨_, _, j, _, _⟩ ⟨rfl, rfl, rfl, rfl, hq⟩ hg hf
    dsimp only at hq
    unfold nextLoop at hg hf ⊢
    cases cur with
    | none => exact ⟨rfl, rfl, rfl, rfl, rfl, hq⟩
    | some s =>
      dsimp only at hg hf ⊢
      generalize s.next = r at hg hf ⊢
      obtain ⟨(_ | x) | _ | _ | _, s'⟩ := r
      · dsimp only at hg hf ⊢
        have h2 := k2 ⟨some s', ci, i, pk, ac⟩ ⟨some s', ci, j, pk, ac⟩ ⟨rfl, rfl, rfl, rfl, hq⟩
        rcases hp : nextPosstrish pull₂ ⟨some s', ci, j, pk, ac⟩ with ⟨o, t⟩
        rcases hp' : nextPosstrish pull₁ ⟨some s', ci, i, pk, ac⟩ with ⟨o', s₁⟩
        rw [hp] at hg hf h2
        rw [hp'] at h2
        cases o with
        | fuel => exact absurd rfl hf
        | ok _ =>
          obtain ⟨h3, h4⟩ := h2 (ih.1 t hg) (by simp)
          cases h3
          exact ih.2 s₁ t h4 hg hf
        | _ =>
          obtain ⟨h3, h4⟩ := h2 hg (by simp)
          cases h3
          exact ⟨rfl, h4⟩
      all_goals exact ⟨rfl, rfl, rfl, rfl, rfl, hq⟩

theorem LiveStrish.track_nextAccumLoop (T : TextType PosStrish τ α) (h : ∀ c, TrackOut Q G (pull₁ c) (pull₂ c))
    (n : Nat) : TrackAcc (LiveStrish.Rel (τ := τ) Q) (fun t => G t.strishIter) (nextAccumLoop pull₁ T n)
      (nextAccumLoop pull₂ T n) := by
  obtain ⟨k1, k2⟩ := track_nextPosstrish (τ := τ) h
  induction n with
  | zero => exact ⟨fun _ _ => id, fun _ _ _ hr _ _ => ⟨rfl, rfl, hr⟩⟩
  | succ n ih =>
  refine ⟨?_, ?_⟩
  · rintro ⟨cur, ci, j, pk, ac⟩ a
    unfold nextAccumLoop
    cases cur with
    | none => exact id
    | some s =>
      dsimp only
      rcases s.nextAccum with ⟨(_ | x) | _ | _ | _, s'⟩
      · dsimp only
        rcases s'.accumDone with ⟨c | _ | _ | _, s'⟩
        · dsimp only
          rcases T.concat (ac.getD T.empty) (T.ofChunk c) a with ⟨acc | _ | _ | _, a'⟩
          · intro hg
            refine k1 ⟨some s', ci, j, pk, some acc⟩ ?_
            dsimp only at hg
            generalize nextPosstrish pull₂ ⟨some s', ci, j, pk, some acc⟩ = r at hg ⊢
            obtain ⟨_ | _ | _ | _, t⟩ := r
            · exact ih.1 t a' hg
            all_goals exact hg
          all_goals exact id
        all_goals exact id
      all_goals exact id
  · rintro ⟨cur, ci, i, pk, ac⟩ ⟨_, _, j, _, _⟩ a ⟨rfl, rfl, rfl, rfl, hq⟩ hg hf
    dsimp only at hq
    unfold nextAccumLoop at hg hf ⊢
    cases cur with
    | none => exact ⟨rfl, rfl, rfl, rfl, rfl, rfl, hq⟩
    | some s =>
      dsimp only at hg hf ⊢
      generalize s.nextAccum = r at hg hf ⊢
      obtain ⟨(_ | x) | _ | _ | _, s'⟩ := r
      · dsimp only at hg hf ⊢
        generalize s'.accumDone = r at hg hf ⊢
        obtain ⟨c | _ | _ | _, s'⟩ := r
        · dsimp only at hg hf ⊢
          generalize T.concat (ac.getD T.empty) (T.ofChunk c) a = r at hg hf ⊢
          obtain ⟨acc | _ | _ | _, a'⟩ := r
          · dsimp only at hg hf ⊢
            have h2 := k2 ⟨some s', ci, i, pk, some acc⟩ ⟨some s', ci, j, pk, some acc⟩
              ⟨rfl, rfl, rfl, rfl, hq⟩
            rcases hp : nextPosstrish pull₂ ⟨some s', ci, j, pk, some acc⟩ with ⟨o, t⟩
            rcases hp' : nextPosstrish pull₁ ⟨some s', ci, i, pk, some acc⟩ with ⟨o', s₁⟩
            rw [hp] at hg hf h2
            rw [hp'] at h2
            cases o with
            | fuel => exact absurd rfl hf
            | ok _ =>
              obtain ⟨h3, h4⟩ := h2 (ih.1 t a' hg) (by simp)
              cases h3
              exact ih.2 s₁ t a' h4 hg hf
            | err e => cases e
            | panic =>
              obtain ⟨h3, h4⟩ := h2 hg (by simp)
              cases h3
              exact ⟨rfl, rfl, h4⟩
          all_goals exact ⟨rfl, rfl, rfl, rfl, rfl, rfl, hq⟩
        all_goals exact ⟨rfl, rfl, rfl, rfl, rfl, rfl, hq⟩
      all_goals exact ⟨rfl, rfl, rfl, rfl, rfl, rfl, hq⟩

/-- Streams over two iterators are in step as long as these are. -/
theorem liveStrish_tracks {T : TextType PosStrish τ α} (h : ∀ c, TrackOut Q G (pull₁ c) (pull₂ c)) :
    Tracks (LiveStrish.Rel Q) (fun t => G t.strishIter) (liveStrishOps pull₁ T) (liveStrishOps pull₂ T) where
  peek := LiveStrish.track_peek h
  next := by
    obtain ⟨h1, h2⟩ := LiveStrish.track_nextLoop (τ := τ) h StrishIter.turns
    refine ⟨fun t hg => h1 { t with accum := none } hg, ?_⟩
    rintro ⟨cur, ci, i, pk, ac⟩ ⟨_, _, j, _, _⟩ ⟨rfl, rfl, rfl, rfl, hq⟩ hg hf
    exact h2 ⟨cur, ci, i, pk, none⟩ ⟨cur, ci, j, pk, none⟩ ⟨rfl, rfl, rfl, rfl, hq⟩ hg hf
  nextAccum := LiveStrish.track_nextAccumLoop T h StrishIter.turns
  accumDone := by
    refine ⟨?_, ?_⟩
    · rintro ⟨cur, ci, j, pk, ac⟩ a
      simp only [liveStrishOps, LiveStrish.accumDone]
      cases cur with
      | none => exact id
      | some s =>
        dsimp only
        rcases s.accumDone with ⟨_ | _ | _ | _, s'⟩ <;> exact id
    · rintro ⟨cur, ci, i, pk, ac⟩ ⟨_, _, j, _, _⟩ a ⟨rfl, rfl, rfl, rfl, hq⟩ hg hf
      simp only [liveStrishOps, LiveStrish.accumDone]
      cases cur with
      | none => exact ⟨rfl, rfl, rfl, rfl, rfl, rfl, hq⟩
      | some s =>
        dsimp only
        rcases s.accumDone with ⟨_ | _ | _ | _, s'⟩ <;> exact ⟨rfl, rfl, rfl, rfl, rfl, rfl, hq⟩

end

/-! ## Iterators that give the same -/

section

variable {I I' A τ α : Type}

theorem pull_count {M : Machine I Str} (k c : Nat) (i : I) (g : List (Option Str)) :
    g.length ≤ (LiveStrish.nextPosstrishOf (recorded M) k c (i, g)).2.2.length := by
  induction k generalizing i g with
  | zero => exact Nat.le_refl _
  | succ k ih =>
    simp only [LiveStrish.nextPosstrishOf, recorded]
    rcases M i with ⟨_ | s, i'⟩
    · simp
    · dsimp only
      split
      · simp
      · refine Nat.le_trans ?_ (ih i' (g ++ [some s]))
        simp

/-- Two iterators that give the same until asked more than `N` times. -/
def Same (M : Machine I A) (M' : Machine I' A) (j : I) (j' : I') (N : Nat) (p : I × List (Option A))
    (p' : I' × List (Option A)) : Prop :=
  p.2 = p'.2 ∧ ∃ l, Gives M p.1 l j ∧ Gives M' p'.1 l j' ∧ p.2.length + l.length = N

theorem Same.track {M : Machine I Str} {M' : Machine I' Str} {j : I} {j' : I'} {N k k' : Nat} (hk : k' ≤ k) (c : Nat) :
    TrackOut (Same M M' j j' N) (fun p => p.2.length ≤ N) (LiveStrish.nextPosstrishOf (recorded M) k c)
      (LiveStrish.nextPosstrishOf (recorded M') k' c) := by
  refine ⟨fun t h => Nat.le_trans (pull_count k' c t.1 t.2) h, ?_⟩
  induction k' generalizing k with
  | zero => exact fun _ _ _ _ h => absurd rfl h
  | succ k' ih =>
    obtain ⟨k, rfl⟩ : ∃ m, k = m + 1 := ⟨k - 1, by omega⟩
    rintro ⟨i, g⟩ ⟨i', _⟩ ⟨h1, l, h2, h3, h4⟩ hg hf
    cases h1
    dsimp only at h2 h3 h4
    cases h2 with
    | nil =>
      cases h3
      simp only [List.length_nil, Nat.add_zero] at h4
      subst h4
      exfalso
      simp only [LiveStrish.nextPosstrishOf, recorded] at hg
      rcases hm : M' j' with ⟨_ | s, i₂⟩ <;> rw [hm] at hg <;> dsimp only at hg
      · simp only [List.length_append, List.length_cons, List.length_nil] at hg
        omega
      · split at hg
        · simp only [List.length_append, List.length_cons, List.length_nil] at hg
          omega
        · have := pull_count (M := M') k' c i₂ (g ++ [some s])
          simp only [List.length_append, List.length_cons, List.length_nil] at this
          omega
    | @cons _ s i₁ l _ hc hl =>
      cases h3 with
      | @cons _ _ i₂ _ _ hc' hl' =>
        simp only [LiveStrish.nextPosstrishOf, recorded, hc, hc'] at hg hf ⊢
        have h5 : (g ++ [some s]).length + l.length = N := by
          simp only [List.length_append, List.length_cons, List.length_nil] at h4 ⊢
          omega
        split
        · exact ⟨rfl, rfl, l, hl, hl', h5⟩
        · rename_i he
          rw [if_neg he] at hg hf
          exact ih (Nat.le_of_succ_le_succ hk) (i₁, g ++ [some s]) (i₂, g ++ [some s])
            ⟨rfl, l, hl, hl', h5⟩ hg hf

/-- A record is no burden: the iterator does the same with it. -/
theorem recorded_track {M : Machine I Str} {k : Nat} (c : Nat) :
    TrackOut (fun (p : I × List (Option Str)) i => p.1 = i) (fun _ => True)
      (LiveStrish.nextPosstrishOf (recorded M) k c) (LiveStrish.nextPosstrishOf M k c) := by
  refine ⟨fun _ _ => trivial, ?_⟩
  induction k with
  | zero => exact fun _ _ _ _ h => absurd rfl h
  | succ k ih =>
    rintro ⟨i, g⟩ _ rfl _ hf
    simp only [LiveStrish.nextPosstrishOf, recorded] at hf ⊢
    rcases hm : M i with ⟨_ | s, i'⟩ <;> rw [hm] at hf <;> dsimp only at hf ⊢
    · exact ⟨rfl, rfl⟩
    · split
      · exact ⟨rfl, rfl⟩
      · rename_i he
        rw [if_neg he] at hf
        exact ih (i', g ++ [some s]) i' rfl trivial hf

/-- `next_posstrish_of` on the list of the strings to come. -/
def listPull (c : Nat) (l : List Str) : Outcome Empty (Option PosStrishIter) × List Str :=
  (.ok (StrishIter.nextPosstrishOf c l).1, (StrishIter.nextPosstrishOf c l).2)

/-- A list as an iterator. -/
def ofList {A : Type} : Machine (List A) A := fun l => (l.head?, l.tail)

theorem ofList_gives (l w : List A) : Gives ofList (l ++ w) l w := by
  induction l with
  | nil => exact .nil
  | cons c l ih => exact .cons rfl ih

/-- The record of an iterator over the list `L`, of which `l` is yet to come. -/
def Recorded (L : List A) (l : List A) (g : List (Option A)) : Prop :=
  ∃ n, g ++ l.map some = L.map some ++ List.replicate n none ∧ (n ≠ 0 → l = [])

theorem Recorded.track {L : List Str} {k : Nat} (c : Nat) :
    TrackOut (fun (p : List Str × List (Option Str)) l => p.1 = l ∧ Recorded L l p.2 ∧ l.length < k) (fun _ => True)
      (LiveStrish.nextPosstrishOf (recorded ofList) k c) (listPull c) := by
  refine ⟨fun _ _ => trivial, ?_⟩
  have H : ∀ (l : List Str) (g : List (Option Str)) (m : Nat), Recorded L l g → l.length < m →
      (LiveStrish.nextPosstrishOf (recorded ofList) m c (l, g)).1 = (listPull c l).1 ∧
      (LiveStrish.nextPosstrishOf (recorded ofList) m c (l, g)).2.1 = (listPull c l).2 ∧
      Recorded L (listPull c l).2 (LiveStrish.nextPosstrishOf (recorded ofList) m c (l, g)).2.2 ∧
      (listPull c l).2.length ≤ l.length := by
    intro l
    induction l with
    | nil =>
      rintro g m ⟨n, h1, h2⟩ hm
      obtain ⟨m, rfl⟩ : ∃ x, m = x + 1 := ⟨m - 1, by omega⟩
      simp only [LiveStrish.nextPosstrishOf, recorded, ofList, listPull, StrishIter.nextPosstrishOf]
      refine ⟨rfl, rfl, ⟨n + 1, ?_, fun _ => rfl⟩, Nat.le_refl _⟩
      simp only [List.map_nil, List.append_nil] at h1
      simp [h1, List.replicate_succ']
    | cons s l ih =>
      rintro g m ⟨n, h1, h2⟩ hm
      obtain ⟨m, rfl⟩ : ∃ x, m = x + 1 := ⟨m - 1, by omega⟩
      have hn : n = 0 := by
        rcases Nat.eq_zero_or_pos n with h | h
        · exact h
        · cases h2 (by omega)
      subst hn
      have hr : Recorded L l (g ++ [some s]) := ⟨0, by simpa using h1, by simp⟩
      simp only [LiveStrish.nextPosstrishOf, recorded, ofList, listPull, StrishIter.nextPosstrishOf, List.head?_cons,
        List.tail_cons]
      simp only [List.length_cons] at hm ⊢
      split
      · exact ⟨rfl, rfl, hr, Nat.le_succ _⟩
      · obtain ⟨h3, h4, h5, h6⟩ := ih (g ++ [some s]) m hr (by omega)
        exact ⟨h3, h4, h5, Nat.le_succ_of_le h6⟩
  rintro ⟨_, g⟩ l ⟨rfl, h, hl⟩ _ _
  obtain ⟨h1, h2, h3, h4⟩ := H _ g k h hl
  exact ⟨h1, h2, h3, Nat.lt_of_le_of_lt h4 hl⟩

/-- The iterator gives just the strings of the list, and then ends. -/
def GivesJust (M : Machine I A) (i : I) (l : List A) : Prop := ∃ j, Gives M i l j ∧ Ended M j

theorem GivesJust.pull {M : Machine I Str} (c : Nat) {k : Nat} {i : I} {l : List Str} (h : GivesJust M i l) (hk : l.length < k) :
    (LiveStrish.nextPosstrishOf M k c i).1 = (listPull c l).1 ∧
      GivesJust M (LiveStrish.nextPosstrishOf M k c i).2 (listPull c l).2 ∧ (listPull c l).2.length < k := by
  induction l generalizing i k with
  | nil =>
    obtain ⟨j, h1, h2⟩ := h
    cases h1
    obtain ⟨k, rfl⟩ : ∃ m, k = m + 1 := ⟨k - 1, by omega⟩
    have h3 := h2.next
    rcases hm : M i with ⟨_ | s, i'⟩
    · rw [hm] at h3
      simp only [LiveStrish.nextPosstrishOf, hm]
      exact ⟨rfl, ⟨i', .nil, h3.2⟩, hk⟩
    · rw [hm] at h3
      cases h3.1
  | cons s l ih =>
    obtain ⟨j, h1, h2⟩ := h
    cases h1 with
    | @cons _ _ i' _ _ hc hl =>
      obtain ⟨k, rfl⟩ : ∃ m, k = m + 1 := ⟨k - 1, by omega⟩
      simp only [List.length_cons] at hk
      simp only [LiveStrish.nextPosstrishOf, hc, listPull, StrishIter.nextPosstrishOf]
      split
      · exact ⟨rfl, ⟨j, hl, h2⟩, by dsimp only; omega⟩
      · obtain ⟨h3, h4, h5⟩ := ih (k := k) ⟨j, hl, h2⟩ (by omega)
        exact ⟨h3, h4, Nat.lt_succ_of_lt h5⟩

theorem GivesJust.track {M : Machine I Str} {k : Nat} (c : Nat) :
    TrackOut (fun i l => GivesJust M i l ∧ l.length < k) (fun _ => True) (LiveStrish.nextPosstrishOf M k c)
      (listPull c) :=
  ⟨fun _ _ => trivial, fun _ _ h _ _ => GivesJust.pull c h.1 h.2⟩

theorem GivesJust.track' {M : Machine I Str} {k : Nat} (c : Nat) :
    TrackOut (fun l i => GivesJust M i l ∧ l.length < k) (fun _ => True) (listPull c)
      (LiveStrish.nextPosstrishOf M k c) :=
  ⟨fun _ _ => trivial, fun _ _ h _ _ => ⟨(GivesJust.pull c h.1 h.2).1.symm, (GivesJust.pull c h.1 h.2).2⟩⟩

/-! ## The stream over a list -/

/-- The stream over a list as one of those over iterators. -/
def StrishIter.live (it : StrishIter τ) : LiveStrish (List Str) τ :=
  ⟨it.cur, it.charIdx, it.strishIter, it.peekedStrm, it.accum⟩

theorem StrishIter.live_nextPosstrish (it : StrishIter τ) :
    LiveStrish.nextPosstrish listPull it.live =
      match StrishIter.nextPosstrish it with
      | some it => (.ok (), it.live)
      | none => (.panic, it.live) := by
  obtain ⟨cur, ci, l, pk, ac⟩ := it
  simp only [LiveStrish.nextPosstrish, StrishIter.nextPosstrish, StrishIter.live]
  cases cur with
  | none => rfl
  | some s =>
    dsimp only
    rcases s.peek with ⟨(_ | _) | _ | _ | _, s'⟩
    · cases pk with
      | none => rfl
      | some p => rfl
    all_goals rfl

theorem StrishIter.live_nextLoop (n : Nat) (it : StrishIter τ) :
    LiveStrish.nextLoop listPull n it.live = ((it.nextLoop n).1, (it.nextLoop n).2.live) := by
  induction n generalizing it with
  | zero => rfl
  | succ n ih =>
    obtain ⟨cur, ci, l, pk, ac⟩ := it
    simp only [LiveStrish.nextLoop, StrishIter.nextLoop, StrishIter.live]
    cases cur with
    | none => rfl
    | some s =>
      dsimp only
      rcases s.next with ⟨(_ | _) | _ | _ | _, s'⟩
      · dsimp only
        have := StrishIter.live_nextPosstrish (⟨some s', ci, l, pk, ac⟩ : StrishIter τ)
        simp only [StrishIter.live] at this
        rw [this]
        rcases StrishIter.nextPosstrish (⟨some s', ci, l, pk, ac⟩ : StrishIter τ) with _ | it
        · rfl
        · exact ih it
      all_goals rfl

theorem StrishIter.live_nextAccumLoop (T : TextType PosStrish τ α) (n : Nat) (it : StrishIter τ) (a : α) :
    LiveStrish.nextAccumLoop listPull T n it.live a =
      ((it.nextAccumLoop T n a).1, (it.nextAccumLoop T n a).2.1.live, (it.nextAccumLoop T n a).2.2) := by
  induction n generalizing it a with
  | zero => rfl
  | succ n ih =>
    obtain ⟨cur, ci, l, pk, ac⟩ := it
    simp only [LiveStrish.nextAccumLoop, StrishIter.nextAccumLoop, StrishIter.live]
    cases cur with
    | none => rfl
    | some s =>
      dsimp only
      rcases s.nextAccum with ⟨(_ | _) | _ | _ | _, s'⟩
      · dsimp only
        rcases s'.accumDone with ⟨c | _ | _ | _, s'⟩
        · dsimp only
          rcases T.concat (ac.getD T.empty) (T.ofChunk c) a with ⟨acc | _ | _ | _, a'⟩
          · dsimp only
            have := StrishIter.live_nextPosstrish (⟨some s', ci, l, pk, some acc⟩ : StrishIter τ)
            simp only [StrishIter.live] at this
            rw [this]
            rcases StrishIter.nextPosstrish (⟨some s', ci, l, pk, some acc⟩ : StrishIter τ) with _ | it
            · rfl
            · exact ih it a'
          all_goals rfl
        all_goals rfl
      all_goals rfl

theorem StrishIter.live_peek (it : StrishIter τ) :
    LiveStrish.peek listPull it.live = (it.peek.1, it.peek.2.live) := by
  obtain ⟨cur, ci, l, pk, ac⟩ := it
  simp only [LiveStrish.peek, StrishIter.peek, StrishIter.live]
  cases cur with
  | none => rfl
  | some s =>
    dsimp only
    rcases s.peek with ⟨(_ | _) | _ | _ | _, s'⟩
    · cases pk with
      | some p => rfl
      | none =>
        simp only [LiveStrish.peekStrm, listPull]
        rcases StrishIter.nextPosstrishOf ci l with ⟨_ | p, l'⟩ <;> rfl
    all_goals rfl

theorem StrishIter.live_accumDone (T : TextType PosStrish τ α) (it : StrishIter τ) (a : α) :
    LiveStrish.accumDone T it.live a =
      ((it.accumDone T a).1, (it.accumDone T a).2.1.live, (it.accumDone T a).2.2) := by
  obtain ⟨cur, ci, l, pk, ac⟩ := it
  simp only [LiveStrish.accumDone, StrishIter.accumDone, StrishIter.live]
  cases cur with
  | none => rfl
  | some s =>
    dsimp only
    rcases s.accumDone with ⟨c | _ | _ | _, s'⟩ <;> rfl

/-- The stream over a list is the same as the stream over an iterator that gives it. -/
theorem StrishIter.tracks (T : TextType PosStrish τ α) :
    Tracks (fun (s : LiveStrish (List Str) τ) (t : StrishIter τ) => s = t.live) (fun _ => True)
      (liveStrishOps listPull T) (strishIterOps T) where
  peek := ⟨fun _ _ => trivial, fun _ t h _ _ => by
    subst h
    simp only [liveStrishOps, strishIterOps, StrishIter.live_peek]
    exact ⟨trivial, trivial⟩⟩
  next := ⟨fun _ _ => trivial, fun _ t h _ _ => by
    subst h
    have := StrishIter.live_nextLoop StrishIter.turns ({ t with accum := none } : StrishIter τ)
    exact ⟨congrArg Prod.fst this, congrArg Prod.snd this⟩⟩
  nextAccum := ⟨fun _ _ _ => trivial, fun _ t a h _ _ => by
    subst h
    have := StrishIter.live_nextAccumLoop T StrishIter.turns t a
    exact ⟨congrArg Prod.fst this, congrArg (·.2.2) this, congrArg (·.2.1) this⟩⟩
  accumDone := ⟨fun _ _ _ => trivial, fun _ t a h _ _ => by
    subst h
    have := StrishIter.live_accumDone T t a
    exact ⟨congrArg Prod.fst this, congrArg (·.2.2) this, congrArg (·.2.1) this⟩⟩

theorem StrishIter.tracks' (T : TextType PosStrish τ α) :
    Tracks (fun (t : StrishIter τ) (s : LiveStrish (List Str) τ) => s = t.live) (fun _ => True)
      (strishIterOps T) (liveStrishOps listPull T) := by
  obtain ⟨h1, h2, h3, h4⟩ := StrishIter.tracks T
  refine ⟨⟨fun _ _ => trivial, fun t s h _ _ => ?_⟩, ⟨fun _ _ => trivial, fun t s h _ _ => ?_⟩,
    ⟨fun _ _ _ => trivial, fun t s a h _ _ => ?_⟩, ⟨fun _ _ _ => trivial, fun t s a h _ _ => ?_⟩⟩
  · subst h
    simp only [liveStrishOps, strishIterOps, StrishIter.live_peek]
    exact ⟨trivial, trivial⟩
  · subst h
    have := StrishIter.live_nextLoop StrishIter.turns ({ t with accum := none } : StrishIter τ)
    exact ⟨(congrArg Prod.fst this).symm, congrArg Prod.snd this⟩
  · subst h
    have := StrishIter.live_nextAccumLoop T StrishIter.turns t a
    exact ⟨(congrArg Prod.fst this).symm, (congrArg (·.2.2) this).symm, congrArg (·.2.1) this⟩
  · subst h
    have := StrishIter.live_accumDone T t a
    exact ⟨(congrArg Prod.fst this).symm, (congrArg (·.2.2) this).symm, congrArg (·.2.1) this⟩

end

/-! ## Strings are asked for on demand -/

section

variable {I τ α : Type} {M : Machine I Str}

theorem charsIn_append (g h : List (Option Str)) : charsIn (g ++ h) = charsIn g + charsIn h := by
  simp [charsIn]

theorem charsIn_dropLast (g : List (Option Str)) : charsIn g.dropLast ≤ charsIn g := by
  rcases List.eq_nil_or_concat g with rfl | ⟨g, x, rfl⟩
  · exact Nat.le_refl _
  · simp [charsIn]

/-- The stream of a string has `n` characters to come. -/
def Unread (s : PosStrishIter) (n : Nat) : Prop := ∃ p r, s.Means ⟨p, r⟩ ∧ r.length = n

theorem pull_record (k c : Nat) (i : I) (g : List (Option Str)) :
    ∀ o i' g', LiveStrish.nextPosstrishOf (recorded M) k c (i, g) = (o, (i', g')) → o ≠ .fuel →
      charsIn g'.dropLast ≤ charsIn g ∧
      ((o = .ok none ∧ charsIn g' = charsIn g) ∨
       ∃ p m, o = .ok (some p) ∧ Unread p m ∧ charsIn g' = charsIn g + m) := by
  induction k generalizing i g with
  | zero =>
    rintro o i' g' h hf
    cases h
    exact absurd rfl hf
  | succ k ih =>
    intro o i' g' h hf
    simp only [LiveStrish.nextPosstrishOf, recorded] at h
    rcases hm : M i with ⟨_ | s, i₁⟩ <;> rw [hm] at h <;> dsimp only at h
    · cases h
      refine ⟨by simp, Or.inl ⟨rfl, by simp [charsIn]⟩⟩
    · split at h
      · cases h
        refine ⟨by simp, Or.inr ⟨_, s.length, rfl, ⟨[], _, posStrish_conf.srcStrm _ _ (PosStrish.new_means s ⟨c⟩), ?_⟩, ?_⟩⟩
        · rw [itemsFrom_length]
        · simp [charsIn]
      · rename_i he
        have hs : s = [] := (Str.len_eq_zero s).1 (by omega)
        subst hs
        have h0 : charsIn (g ++ [some []]) = charsIn g := by simp [charsIn]
        have := ih i₁ (g ++ [some []]) o i' g' h hf
        rwa [h0] at this

/-- All but the last of the strings have been read, and the numbers add up. -/
def OnDemand (it : LiveStrish (I × List (Option Str)) τ) : Prop :=
  charsIn it.strishIter.2.dropLast ≤ it.charIdx ∧
  ((it.cur = none ∧ charsIn it.strishIter.2 = it.charIdx) ∨
   ∃ s n, it.cur = some s ∧ Unread s n ∧
    ((it.peekedStrm = none ∧ charsIn it.strishIter.2 = it.charIdx + n) ∨
     (n = 0 ∧ ∃ p m, it.peekedStrm = some p ∧ Unread p m ∧ charsIn it.strishIter.2 = it.charIdx + m)))

theorem Unread.peek {s n} (h : Unread s n) : ∃ o s', s.peek = (.ok o, s') ∧ Unread s' n ∧ (o = none ↔ n = 0) := by
  obtain ⟨p, r, h1, h2⟩ := h
  obtain ⟨s', g1, g2⟩ := posStrish_conf.peek s _ h1
  refine ⟨_, s', g1, ⟨p, r, g2, h2⟩, ?_⟩
  cases r <;> simp_all
  omega

theorem Unread.next {s n} (h : Unread s n) : (∃ s', s.next = (.ok none, s') ∧ n = 0 ∧ Unread s' 0) ∨
    ∃ x s' m, s.next = (.ok (some x), s') ∧ n = m + 1 ∧ Unread s' m := by
  obtain ⟨p, r, h1, h2⟩ := h
  obtain ⟨s', g1, g2⟩ := posStrish_conf.next s _ h1
  cases r with
  | nil => exact Or.inl ⟨s', g1, h2.symm, _, _, g2, rfl⟩
  | cons x r => exact Or.inr ⟨x, s', r.length, g1, h2.symm, _, _, g2, rfl⟩

theorem Unread.nextAccum {s n} (h : Unread s n) : (∃ s', s.nextAccum = (.ok none, s') ∧ n = 0 ∧ Unread s' 0) ∨
    ∃ x s' m, s.nextAccum = (.ok (some x), s') ∧ n = m + 1 ∧ Unread s' m := by
  obtain ⟨p, r, h1, h2⟩ := h
  obtain ⟨s', g1, g2⟩ := posStrish_conf.nextAccum s _ h1
  cases r with
  | nil => exact Or.inl ⟨s', g1, h2.symm, _, _, g2, rfl⟩
  | cons x r => exact Or.inr ⟨x, s', r.length, g1, h2.symm, _, _, g2, rfl⟩

theorem Unread.accumDone {s n} (h : Unread s n) : ∃ c s', s.accumDone = (.ok c, s') ∧ Unread s' n := by
  obtain ⟨p, r, h1, h2⟩ := h
  obtain ⟨c, s', g1, g2, g3⟩ := posStrish_conf.accumDone s _ h1
  exact ⟨c, s', g1, _, _, g3, h2⟩

theorem OnDemand.nextPosstrish {k : Nat} {it : LiveStrish (I × List (Option Str)) τ} {s} (h : OnDemand it)
    (hc : it.cur = some s) (hs : Unread s 0) :
    ∀ o it', it.nextPosstrish (LiveStrish.nextPosstrishOf (recorded M) k) = (o, it') → o ≠ .fuel →
      o = .ok () ∧ OnDemand it' ∧ it'.charIdx = it.charIdx := by
  intro o it' he hf
  obtain ⟨cur, ci, ⟨i, g⟩, pk, ac⟩ := it
  cases hc
  obtain ⟨x, s', h1, -, h3⟩ := hs.peek
  obtain rfl := h3.mpr rfl
  simp only [LiveStrish.nextPosstrish, h1] at he
  obtain ⟨hd, ⟨h4, -⟩ | ⟨_, n, h4, h5, h6⟩⟩ := h
  · cases h4
  cases h4
  have hn : n = 0 := by
    obtain ⟨p, r, m1, m2⟩ := hs
    obtain ⟨p', r', m1', m2'⟩ := h5
    obtain ⟨y, e1, e2⟩ := posStrish_conf.peek _ _ m1
    obtain ⟨y', e1', e2'⟩ := posStrish_conf.peek _ _ m1'
    rw [e1] at e1'
    cases r <;> cases r' <;> simp_all
  subst hn
  cases pk with
  | some p =>
    cases he
    rcases h6 with ⟨h6, -⟩ | ⟨-, p', m, h6, h7, h8⟩
    · cases h6
    cases h6
    exact ⟨rfl, ⟨hd, Or.inr ⟨p, m, rfl, h7, Or.inl ⟨rfl, h8⟩⟩⟩, rfl⟩
  | none =>
    rcases h6 with ⟨-, h6⟩ | ⟨-, p', m, h6, -⟩
    rotate_left
    · cases h6
    dsimp only at he h6
    rcases hp : LiveStrish.nextPosstrishOf (recorded M) k ci (i, g) with ⟨o₁, i₁, g₁⟩
    rw [hp] at he
    have hr := pull_record k ci i g o₁ i₁ g₁ hp
    rcases o₁ with x | e | _ | _
    · cases he
      obtain ⟨r1, ⟨r2, r3⟩ | ⟨p, m, r2, r3, r4⟩⟩ := hr (by simp)
      · cases r2
        exact ⟨rfl, ⟨by dsimp only; omega, Or.inl ⟨rfl, by dsimp only; omega⟩⟩, rfl⟩
      · cases r2
        exact ⟨rfl, ⟨by dsimp only; omega, Or.inr ⟨p, m, rfl, r3, Or.inl ⟨rfl, by dsimp only; omega⟩⟩⟩, rfl⟩
    · cases e
    · obtain ⟨r1, ⟨r2, r3⟩ | ⟨p, m, r2, r3, r4⟩⟩ := hr (by simp) <;> cases r2
    · cases he
      exact absurd rfl hf

theorem OnDemand.nextLoop {k : Nat} (n : Nat) {it : LiveStrish (I × List (Option Str)) τ} (h : OnDemand it) :
    ∀ o it', it.nextLoop (LiveStrish.nextPosstrishOf (recorded M) k) n = (o, it') → o ≠ .fuel →
      OnDemand it' ∧ (∀ x, o = .ok (some x) → charsIn it'.strishIter.2.dropLast < it'.charIdx) := by
  induction n generalizing it with
  | zero =>
    intro o it' he hf
    cases he
    exact absurd rfl hf
  | succ n ih =>
    intro o it' he hf
    obtain ⟨cur, ci, ⟨i, g⟩, pk, ac⟩ := it
    have h0 := h
    obtain ⟨hd, ⟨h4, h5⟩ | ⟨s, u, h4, h5, h6⟩⟩ := h
    · cases h4
      cases he
      exact ⟨h0, fun x hx => by cases hx⟩
    · cases h4
      simp only [LiveStrish.nextLoop] at he
      rcases h5.next with ⟨s', h7, rfl, h8⟩ | ⟨x, s', m, h7, rfl, h8⟩
      · rw [h7] at he
        dsimp only at he
        have hq := OnDemand.nextPosstrish (M := M) (k := k) (it := ⟨some s', ci, (i, g), pk, ac⟩)
          (s := s') ⟨hd, Or.inr ⟨s', 0, rfl, h8, h6⟩⟩ rfl h8
        rcases hp : LiveStrish.nextPosstrish (LiveStrish.nextPosstrishOf (recorded M) k)
          ⟨some s', ci, (i, g), pk, ac⟩ with ⟨o₁, it₁⟩
        rw [hp] at he
        have hr := hq o₁ it₁ hp
        rcases o₁ with x | e | _ | _
        · exact ih (hr (by simp)).2.1 o it' he hf
        · cases e
        · cases (hr (by simp)).1
        · cases he
          exact absurd rfl hf
      · rw [h7] at he
        cases he
        rcases h6 with ⟨h6, h9⟩ | ⟨h6, -⟩
        · refine ⟨⟨Nat.le_succ_of_le hd, Or.inr ⟨s', m, rfl, h8, Or.inl ⟨h6, ?_⟩⟩⟩, fun _ _ => Nat.lt_succ_of_le hd⟩
          dsimp only at h9 ⊢
          omega
        · cases h6

theorem OnDemand.nextAccumLoop {T : TextType PosStrish τ α} {k : Nat} (n : Nat)
    {it : LiveStrish (I × List (Option Str)) τ} {a : α} (h : OnDemand it) :
    ∀ o it' a', it.nextAccumLoop (LiveStrish.nextPosstrishOf (recorded M) k) T n a = (o, it', a') → o ≠ .fuel →
      OnDemand it' := by
  induction n generalizing it a with
  | zero =>
    intro o it' a' he hf
    cases he
    exact absurd rfl hf
  | succ n ih =>
    intro o it' a' he hf
    obtain ⟨cur, ci, ⟨i, g⟩, pk, ac⟩ := it
    have h0 := h
    obtain ⟨hd, ⟨h4, h5⟩ | ⟨s, u, h4, h5, h6⟩⟩ := h
    · cases h4
      cases he
      exact h0
    · cases h4
      simp only [LiveStrish.nextAccumLoop] at he
      rcases h5.nextAccum with ⟨s', h7, rfl, h8⟩ | ⟨x, s', m, h7, rfl, h8⟩
      · rw [h7] at he
        dsimp only at he
        obtain ⟨c, s₂, h9, h10⟩ := h8.accumDone
        rw [h9] at he
        dsimp only at he
        rcases hc : T.concat (ac.getD T.empty) (T.ofChunk c) a with ⟨acc | e | _ | _, a₁⟩ <;> rw [hc] at he <;>
          dsimp only at he
        · have hq := OnDemand.nextPosstrish (M := M) (k := k) (it := ⟨some s₂, ci, (i, g), pk, some acc⟩)
            (s := s₂) ⟨hd, Or.inr ⟨s₂, 0, rfl, h10, h6⟩⟩ rfl h10
          rcases hp : LiveStrish.nextPosstrish (LiveStrish.nextPosstrishOf (recorded M) k)
            ⟨some s₂, ci, (i, g), pk, some acc⟩ with ⟨o₁, it₁⟩
          rw [hp] at he
          have hr := hq o₁ it₁ hp
          rcases o₁ with x | e | _ | _
          · exact ih (hr (by simp)).2.1 o it' a' he hf
          · cases e
          · cases (hr (by simp)).1
          · cases he
            exact absurd rfl hf
        all_goals
          cases he
          exact ⟨hd, Or.inr ⟨s₂, 0, rfl, h10, h6⟩⟩
      · rw [h7] at he
        cases he
        rcases h6 with ⟨h6, h9⟩ | ⟨h6, -⟩
        · refine ⟨Nat.le_succ_of_le hd, Or.inr ⟨s', m, rfl, h8, Or.inl ⟨h6, ?_⟩⟩⟩
          dsimp only at h9 ⊢
          omega
        · cases h6

theorem OnDemand.peek {k : Nat} {it : LiveStrish (I × List (Option Str)) τ} (h : OnDemand it) :
    ∀ o it', it.peek (LiveStrish.nextPosstrishOf (recorded M) k) = (o, it') → o ≠ .fuel → OnDemand it' := by
  intro o it' he hf
  obtain ⟨cur, ci, ⟨i, g⟩, pk, ac⟩ := it
  have h0 := h
  obtain ⟨hd, ⟨h4, h5⟩ | ⟨s, u, h4, h5, h6⟩⟩ := h
  · cases h4
    cases he
    exact h0
  · cases h4
    simp only [LiveStrish.peek] at he
    obtain ⟨x, s', h7, h8, h9⟩ := h5.peek
    rw [h7] at he
    cases x with
    | some x =>
      cases he
      exact ⟨hd, Or.inr ⟨s', u, rfl, h8, h6⟩⟩
    | none =>
      obtain rfl := h9.mp rfl
      dsimp only at he
      cases pk with
      | some p =>
        rcases h6 with ⟨h6, -⟩ | ⟨-, p', m, h6, h10, h11⟩
        · cases h6
        cases h6
        obtain ⟨y, p₁, h12, h13, -⟩ := h10.peek
        simp only [LiveStrish.peekStrm, h12] at he
        cases he
        exact ⟨hd, Or.inr ⟨s', 0, rfl, h8, Or.inr ⟨rfl, p₁, m, rfl, h13, h11⟩⟩⟩
      | none =>
        rcases h6 with ⟨-, h6⟩ | ⟨-, p', m, h6, -⟩
        rotate_left
        · cases h6
        simp only [LiveStrish.peekStrm] at he
        dsimp only at h6
        rcases hp : LiveStrish.nextPosstrishOf (recorded M) k ci (i, g) with ⟨o₁, i₁, g₁⟩
        rw [hp] at he
        have hr := pull_record k ci i g o₁ i₁ g₁ hp
        rcases o₁ with x | e | _ | _
        · obtain ⟨r1, ⟨r2, r3⟩ | ⟨p, m, r2, r3, r4⟩⟩ := hr (by simp)
          · cases r2
            cases he
            exact ⟨by dsimp only; omega, Or.inr ⟨s', 0, rfl, h8, Or.inl ⟨rfl, by dsimp only; omega⟩⟩⟩
          · cases r2
            obtain ⟨y, p₁, h12, h13, -⟩ := r3.peek
            simp only [h12] at he
            cases he
            exact ⟨by dsimp only; omega, Or.inr ⟨s', 0, rfl, h8, Or.inr ⟨rfl, p₁, m, rfl, h13, by dsimp only; omega⟩⟩⟩
        · cases e
        · obtain ⟨r1, ⟨r2, r3⟩ | ⟨p, m, r2, r3, r4⟩⟩ := hr (by simp) <;> cases r2
        · cases he
          exact absurd rfl hf

theorem OnDemand.accumDone {T : TextType PosStrish τ α} {it : LiveStrish (I × List (Option Str)) τ} {a : α}
    (h : OnDemand it) : OnDemand (it.accumDone T a).2.1 := by
  obtain ⟨cur, ci, ⟨i, g⟩, pk, ac⟩ := it
  obtain ⟨hd, ⟨h4, h5⟩ | ⟨s, u, h4, h5, h6⟩⟩ := h
  · cases h4
    exact ⟨hd, Or.inl ⟨rfl, h5⟩⟩
  · cases h4
    obtain ⟨c, s₂, h9, h10⟩ := h5.accumDone
    simp only [LiveStrish.accumDone, h9]
    exact ⟨hd, Or.inr ⟨s₂, u, rfl, h10, h6⟩⟩

theorem OnDemand.new {k : Nat} {i : I} {it : LiveStrish (I × List (Option Str)) τ}
    (h : LiveStrish.new (LiveStrish.nextPosstrishOf (recorded M) k) (i, []) = .ok it) : OnDemand it := by
  unfold LiveStrish.new at h
  rcases hp : LiveStrish.nextPosstrishOf (recorded M) k 0 (i, []) with ⟨o₁, i₁, g₁⟩
  rw [hp] at h
  have hr := pull_record k 0 i [] o₁ i₁ g₁ hp
  rcases o₁ with x | e | _ | _
  · cases h
    obtain ⟨r1, ⟨r2, r3⟩ | ⟨p, m, r2, r3, r4⟩⟩ := hr (by simp)
    · cases r2
      exact ⟨r1, Or.inl ⟨rfl, r3⟩⟩
    · cases r2
      exact ⟨r1, Or.inr ⟨p, m, rfl, r3, Or.inl ⟨rfl, r4⟩⟩⟩
  · cases e
  · cases h
  · cases h

/-- A stream together with a flag that says whether the last operation was a `next` that gave a
character. -/
def flagged {σ P τ α : Type} (S : StreamOps σ P τ α) : StreamOps (σ × Bool) P τ α where
  peek s := ((S.peek s.1).1, ((S.peek s.1).2, false))
  next s := ((S.next s.1).1, ((S.next s.1).2, match (S.next s.1).1 with | .ok (some _) => true | _ => false))
  nextAccum s a := ((S.nextAccum s.1 a).1, ((S.nextAccum s.1 a).2.1, false), (S.nextAccum s.1 a).2.2)
  accumDone s a := ((S.accumDone s.1 a).1, ((S.accumDone s.1 a).2.1, false), (S.accumDone s.1 a).2.2)

theorem onDemand_tracks {T : TextType PosStrish τ α} {k : Nat} :
    Tracks (fun (s : LiveStrish (I × List (Option Str)) τ × Bool) t => s.1 = t ∧ OnDemand t ∧
        (s.2 = true → charsIn t.strishIter.2.dropLast < t.charIdx)) (fun _ => True)
      (flagged (liveStrishOps (LiveStrish.nextPosstrishOf (recorded M) k) T))
      (liveStrishOps (LiveStrish.nextPosstrishOf (recorded M) k) T) where
  peek := by
    refine ⟨fun _ _ => trivial, ?_⟩
    rintro ⟨s, f⟩ _ ⟨rfl, h, -⟩ _ hf
    exact ⟨rfl, rfl, h.peek _ _ rfl hf, by simp [flagged]⟩
  next := by
    refine ⟨fun _ _ => trivial, ?_⟩
    rintro ⟨s, f⟩ _ ⟨rfl, h, -⟩ _ hf
    have h' : OnDemand ({ s with accum := none } : LiveStrish (I × List (Option Str)) τ) := h
    obtain ⟨h1, h2⟩ := h'.nextLoop (M := M) (k := k) StrishIter.turns _ _ rfl hf
    refine ⟨rfl, rfl, h1, fun hx => ?_⟩
    rcases hn : (LiveStrish.next (LiveStrish.nextPosstrishOf (recorded M) k) s).1 with (_ | x) | _ | _ | _
    rotate_left
    · exact h2 x hn
    all_goals
      simp only [flagged, liveStrishOps, hn] at hx
      cases hx
  nextAccum := by
    refine ⟨fun _ _ _ => trivial, ?_⟩
    rintro ⟨s, f⟩ _ a ⟨rfl, h, -⟩ _ hf
    exact ⟨rfl, rfl, rfl, h.nextAccumLoop _ _ _ _ rfl hf, by simp [flagged]⟩
  accumDone := by
    refine ⟨fun _ _ _ => trivial, ?_⟩
    rintro ⟨s, f⟩ _ a ⟨rfl, h, -⟩ _ hf
    exact ⟨rfl, rfl, rfl, h.accumDone, by simp [flagged]⟩

end

end Kul
