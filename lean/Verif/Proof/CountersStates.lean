import Verif.Proof.Counters
import Verif.Proof.ChunkIter

/-! # The counters of texts that are iterated by states of their own do not overflow -/

namespace Kul

variable {S C CS P τ ε α CE : Type} {N : ChunksState C S} {O O' : ChunkOps C CS P} {RC : C → List (Item P) → Prop}
  {RCS : CS → Seq P → Prop} {T : TextType C τ α} {Fit : Item P → Prop} (H : ChunkConf O RC RCS) (Q : ChunkSame O O' RCS Fit)

theorem advance_same (e : O'.srcStrm = O.srcStrm) (st : Option S) : StateIter.advance N O' st = StateIter.advance N O st := by
  simp only [StateIter.advance, e]

include H Q

theorem StateIter.nextLoop_same : ∀ (cs : List C) (st : Option S) (cur : Option CS) (p r : List (Item P)) (fuel : Nat),
    GivesChunks N st cs → CurMeans RC RCS cur cs p r → Seq.Fits Fit ⟨p, r⟩ →
    nextLoop N O' fuel st cur = nextLoop N O fuel st cur := by
  intro cs
  induction cs with
  | nil =>
    rintro st cur p r fuel hg (⟨rfl, _, rfl, rfl⟩ | ⟨s, r1, ls, rfl, h1, h2, rfl⟩) hf
    · cases fuel <;> rfl
    · cases fuel with
      | zero => rfl
      | succ fuel =>
        simp only [nextLoop, Q.next s _ h1 hf.left, advance_nil hg]
        cases fuel <;> rfl
  | cons c cs ih =>
    rintro st cur p r fuel hg (⟨rfl, hcs, _⟩ | ⟨s, r1, ls, rfl, h1, h2, rfl⟩) hf
    · cases hcs
    · cases fuel with
      | zero => rfl
      | succ fuel =>
        obtain ⟨st', g1, g2⟩ := advance_cons (O := O) hg
        simp only [nextLoop, Q.next s _ h1 hf.left, advance_same Q.srcStrm, g1]
        cases h2 with
        | @cons _ l _ ls hc hcs =>
          rw [List.flatten_cons] at hf
          rw [ih st' _ [] _ fuel g2 (Or.inr ⟨_, l, ls, rfl, H.srcStrm c l hc, hcs, rfl⟩) hf.right]

theorem StateIter.peekLoop_same : ∀ (cs : List C) (st : Option S) (cur : Option CS) (p r : List (Item P)) (fuel : Nat),
    GivesChunks N st cs → CurMeans RC RCS cur cs p r → Seq.Fits Fit ⟨p, r⟩ →
    peekLoop N O' fuel st cur = peekLoop N O fuel st cur := by
  intro cs
  induction cs with
  | nil =>
    rintro st cur p r fuel hg (⟨rfl, _, rfl, rfl⟩ | ⟨s, r1, ls, rfl, h1, h2, rfl⟩) hf
    · cases fuel <;> rfl
    · cases fuel with
      | zero => rfl
      | succ fuel =>
        simp only [peekLoop, Q.peek s _ h1 hf.left, advance_nil hg]
        cases fuel <;> rfl
  | cons c cs ih =>
    rintro st cur p r fuel hg (⟨rfl, hcs, _⟩ | ⟨s, r1, ls, rfl, h1, h2, rfl⟩) hf
    · cases hcs
    · cases fuel with
      | zero => rfl
      | succ fuel =>
        obtain ⟨st', g1, g2⟩ := advance_cons (O := O) hg
        simp only [peekLoop, Q.peek s _ h1 hf.left, advance_same Q.srcStrm, g1]
        cases h2 with
        | @cons _ l _ ls hc hcs =>
          rw [List.flatten_cons] at hf
          rw [ih st' _ [] _ fuel g2 (Or.inr ⟨_, l, ls, rfl, H.srcStrm c l hc, hcs, rfl⟩) hf.right]

theorem StateIter.nextAccumLoop_same : ∀ (cs : List C) (st : Option S) (cur : Option CS) (acc : Option τ)
    (p r : List (Item P)) (fuel : Nat) (a : α), GivesChunks N st cs → CurMeans RC RCS cur cs p r → Seq.Fits Fit ⟨p, r⟩ →
    nextAccumLoop N O' T fuel st cur acc a = nextAccumLoop N O T fuel st cur acc a := by
  intro cs
  induction cs with
  | nil =>
    rintro st cur acc p r fuel a hg (⟨rfl, _, rfl, rfl⟩ | ⟨s, r1, ls, rfl, h1, h2, rfl⟩) hf
    · cases fuel <;> rfl
    · cases fuel with
      | zero => rfl
      | succ fuel =>
        obtain ⟨s', g1, g2⟩ := H.nextAccum s _ h1
        cases r1 with
        | cons x r1 => simp only [nextAccumLoop, Q.nextAccum s _ h1 hf.left, g1, List.head?_cons]
        | nil =>
          simp only [nextAccumLoop, Q.nextAccum s _ h1 hf.left, g1, List.head?_nil, Q.accumDone s' _ g2 hf.left, advance_nil hg]
          have e : ∀ acc a, nextAccumLoop N O' T fuel none none acc a = nextAccumLoop N O T fuel none none acc a :=
            fun acc a => by cases fuel <;> rfl
          simp only [e]
  | cons c cs ih =>
    rintro st cur acc p r fuel a hg (⟨rfl, hcs, _⟩ | ⟨s, r1, ls, rfl, h1, h2, rfl⟩) hf
    · cases hcs
    · cases fuel with
      | zero => rfl
      | succ fuel =>
        obtain ⟨s', g1, g2⟩ := H.nextAccum s _ h1
        cases r1 with
        | cons x r1 => simp only [nextAccumLoop, Q.nextAccum s _ h1 hf.left, g1, List.head?_cons]
        | nil =>
          obtain ⟨st', k1, k2⟩ := advance_cons (O := O) hg
          rw [nextAccumLoop, nextAccumLoop]
          simp only [Q.nextAccum s _ h1 hf.left, g1, List.head?_nil, Q.accumDone s' _ g2 hf.left, advance_same Q.srcStrm, k1]
          cases h2 with
          | @cons _ l _ ls hc hcs =>
            rw [List.flatten_cons] at hf
            have e : ∀ acc a, nextAccumLoop N O' T fuel st' (some (O.srcStrm c)) acc a =
                nextAccumLoop N O T fuel st' (some (O.srcStrm c)) acc a := fun acc a =>
              ih st' _ acc [] _ fuel a k2 (Or.inr ⟨_, l, ls, rfl, H.srcStrm c l hc, hcs, rfl⟩) hf.right
            simp only [e]

variable {fuel : Nat}

theorem stateIter_samePeek (s : StateIter S CS P τ) (q : Seq P)
    (h : ∃ it, StateIter.Sim N fuel s it ∧ TextIter.Means T RC RCS it q) (hf : q.Fits Fit) :
    (stateIterOps N O' T fuel).peek s = (stateIterOps N O T fuel).peek s := by
  obtain ⟨it, hs, p1, p2, h1, h2, h3, h4⟩ := h
  rw [← hs.cur] at h2
  simp only [stateIterOps, StateIter.peek, StateIter.peekLoop_same H Q _ _ _ p2 _ fuel hs.gives h2 hf]

theorem stateIter_sameNext (s : StateIter S CS P τ) (q : Seq P)
    (h : ∃ it, StateIter.Sim N fuel s it ∧ TextIter.Means T RC RCS it q) (hf : q.Fits Fit) :
    (stateIterOps N O' T fuel).next s = (stateIterOps N O T fuel).next s := by
  obtain ⟨it, hs, p1, p2, h1, h2, h3, h4⟩ := h
  rw [← hs.cur] at h2
  simp only [stateIterOps, StateIter.nextItem, StateIter.nextLoop_same H Q _ _ _ p2 _ fuel hs.gives h2 hf]

theorem stateIter_sameNextAccum (s : StateIter S CS P τ) (q : Seq P) (a : α)
    (h : ∃ it, StateIter.Sim N fuel s it ∧ TextIter.Means T RC RCS it q) (hf : q.Fits Fit) :
    (stateIterOps N O' T fuel).nextAccum s a = (stateIterOps N O T fuel).nextAccum s a := by
  obtain ⟨it, hs, p1, p2, h1, h2, h3, h4⟩ := h
  rw [← hs.cur] at h2
  simp only [stateIterOps, StateIter.nextAccum, StateIter.nextAccumLoop_same H Q _ _ _ _ p2 _ fuel _ hs.gives h2 hf]

omit H in
theorem stateIter_sameAccumDone (s : StateIter S CS P τ) (q : Seq P) (a : α)
    (h : ∃ it, StateIter.Sim N fuel s it ∧ TextIter.Means T RC RCS it q) (hf : q.Fits Fit) :
    (stateIterOps N O' T fuel).accumDone s a = (stateIterOps N O T fuel).accumDone s a := by
  obtain ⟨it, hs, p1, p2, h1, h2, h3, h4⟩ := h
  rw [← hs.cur] at h2
  obtain ⟨cur, st, acc, pk⟩ := s
  obtain ⟨p, r⟩ := q
  simp only [stateIterOps, StateIter.accumDone]
  rcases h2 with ⟨h2, _⟩ | ⟨s, r1, ls, h2, g1, g2, g3⟩
  · simp only at h2; subst h2; rfl
  · simp only at h2 g3
    subst h2 g3
    simp only [Q.accumDone s _ g1 hf.left]

end Kul
