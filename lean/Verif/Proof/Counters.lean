import Verif.Model.Counters
import Verif.Proof.CountersParser
import Verif.Proof.Streams

/-! # The counters of the source streams do not overflow -/

namespace Kul

variable {σ C CS P τ ε α CE : Type}

/-- Everything still to come is as `Fit` says. -/
def Seq.Fits (Fit : Item P → Prop) (q : Seq P) : Prop := ∀ x ∈ q.rest, Fit x

theorem Seq.Fits.tail {Fit : Item P → Prop} {p p' r : List (Item P)} (h : Seq.Fits Fit ⟨p, r⟩) : Seq.Fits Fit ⟨p', r.tail⟩ :=
  fun x hx => h x (List.mem_of_mem_tail hx)

/-- A stream with states of `Conf`, and another that does the same as long as what is to come fits. -/
theorem Conf.sameOn {E : Env σ P τ ε α CE} {RS : σ → Seq P → Prop} {X : TextSem P τ α} (C : Conf E RS X)
    {Fit : Item P → Prop} {R : StreamOps σ P τ α}
    (hp : ∀ s q, RS s q → q.Fits Fit → R.peek s = E.strm.peek s)
    (hn : ∀ s q, RS s q → q.Fits Fit → R.next s = E.strm.next s)
    (ha : ∀ s q a, RS s q → q.Fits Fit → R.nextAccum s a = E.strm.nextAccum s a)
    (hd : ∀ s q a, RS s q → q.Fits Fit → R.accumDone s a = E.strm.accumDone s a) :
    E.strm.SameOn R (fun s => ∃ q, RS s q ∧ q.Fits Fit) where
  peek := by
    rintro s ⟨q, h, hf⟩
    obtain ⟨s', g1, g2⟩ := C.peek s q h
    exact ⟨hp s q h hf, q, by rw [g1]; exact g2, hf⟩
  next := by
    rintro s ⟨q, h, hf⟩
    obtain ⟨s', g1, g2⟩ := C.next s q h
    exact ⟨hn s q h hf, _, by rw [g1]; exact g2, hf.tail⟩
  nextAccum := by
    rintro s a ⟨q, h, hf⟩
    obtain ⟨o, s', a', g1, _, g2⟩ := C.nextAccum s q a h
    refine ⟨ha s q a h hf, ?_⟩
    rw [g1]
    rcases g2 with ⟨_, g2⟩ | ⟨_, _, _, g2⟩
    · exact ⟨_, g2, hf.tail⟩
    · exact ⟨_, g2, hf⟩
  accumDone := by
    rintro s a ⟨q, h, hf⟩
    obtain ⟨o, s', a', g1, _, g2, _⟩ := C.accumDone s q a h
    exact ⟨hd s q a h hf, ⟨[], q.rest⟩, by rw [g1]; exact g2, hf⟩

/-- The other stream fulfils the contract, too. -/
theorem Conf.withStream {E : Env σ P τ ε α CE} {RS : σ → Seq P → Prop} {X : TextSem P τ α} (C : Conf E RS X)
    {Fit : Item P → Prop} {R : StreamOps σ P τ α}
    (hp : ∀ s q, RS s q → q.Fits Fit → R.peek s = E.strm.peek s)
    (hn : ∀ s q, RS s q → q.Fits Fit → R.next s = E.strm.next s)
    (ha : ∀ s q a, RS s q → q.Fits Fit → R.nextAccum s a = E.strm.nextAccum s a)
    (hd : ∀ s q a, RS s q → q.Fits Fit → R.accumDone s a = E.strm.accumDone s a) :
    Conf (E.withStream R) (fun s q => RS s q ∧ q.Fits Fit) X where
  refl := C.refl
  trans := C.trans
  peek := by
    rintro s q ⟨h, hf⟩
    obtain ⟨s', g1, g2⟩ := C.peek s q h
    exact ⟨s', (hp s q h hf).trans g1, g2, hf⟩
  next := by
    rintro s q ⟨h, hf⟩
    obtain ⟨s', g1, g2⟩ := C.next s q h
    exact ⟨s', (hn s q h hf).trans g1, g2, hf.tail⟩
  nextAccum := by
    rintro s q a ⟨h, hf⟩
    obtain ⟨o, s', a', g1, g3, g2⟩ := C.nextAccum s q a h
    refine ⟨o, s', a', (ha s q a h hf).trans g1, g3, ?_⟩
    rcases g2 with ⟨h1, g2⟩ | ⟨h1, h2, h3, g2⟩
    · exact Or.inl ⟨h1, g2, hf.tail⟩
    · exact Or.inr ⟨h1, h2, h3, g2, hf⟩
  accumDone := by
    rintro s q a ⟨h, hf⟩
    obtain ⟨o, s', a', g1, g3, g2, g4⟩ := C.accumDone s q a h
    exact ⟨o, s', a', (hd s q a h hf).trans g1, g3, ⟨g2, hf⟩, g4⟩
  empty := C.empty
  concat := C.concat

/-! ## Texts -/

/-- The same for the streams of chunks. -/
structure ChunkSame (O O' : ChunkOps C CS P) (RCS : CS → Seq P → Prop) (Fit : Item P → Prop) : Prop where
  srcStrm : O'.srcStrm = O.srcStrm
  peek : ∀ s q, RCS s q → q.Fits Fit → O'.peek s = O.peek s
  next : ∀ s q, RCS s q → q.Fits Fit → O'.next s = O.next s
  nextAccum : ∀ s q, RCS s q → q.Fits Fit → O'.nextAccum s = O.nextAccum s
  accumDone : ∀ s q, RCS s q → q.Fits Fit → O'.accumDone s = O.accumDone s

section

variable {O O' : ChunkOps C CS P} {RC : C → List (Item P) → Prop} {RCS : CS → Seq P → Prop} {T : TextType C τ α}
  {Fit : Item P → Prop} (H : ChunkConf O RC RCS) (Q : ChunkSame O O' RCS Fit)

theorem Seq.Fits.left {p p' a b : List (Item P)} (h : Seq.Fits Fit ⟨p, a ++ b⟩) : Seq.Fits Fit ⟨p', a⟩ :=
  fun x hx => h x (List.mem_append_left _ hx)

theorem Seq.Fits.right {p p' a b : List (Item P)} (h : Seq.Fits Fit ⟨p, a ++ b⟩) : Seq.Fits Fit ⟨p', b⟩ :=
  fun x hx => h x (List.mem_append_right _ hx)

include H Q

theorem TextIter.nextLoop_same : ∀ (cs : List C) (cur : Option CS) (p r : List (Item P)), CurMeans RC RCS cur cs p r →
    Seq.Fits Fit ⟨p, r⟩ → nextLoop O' cs cur = nextLoop O cs cur := by
  intro cs
  induction cs with
  | nil =>
    rintro cur p r (⟨rfl, _, rfl, rfl⟩ | ⟨s, r1, ls, rfl, h1, h2, rfl⟩) hf
    · rfl
    · simp only [nextLoop, Q.next s _ h1 hf.left]
  | cons c cs ih =>
    rintro cur p r (⟨rfl, hcs, _⟩ | ⟨s, r1, ls, rfl, h1, h2, rfl⟩) hf
    · cases hcs
    · simp only [nextLoop, Q.next s _ h1 hf.left]
      cases h2 with
      | @cons _ l _ ls hc hcs =>
        rw [List.flatten_cons] at hf
        rw [Q.srcStrm, ih _ [] _ (Or.inr ⟨_, l, ls, rfl, H.srcStrm c l hc, hcs, rfl⟩) hf.right]

theorem TextIter.peekAhead_same {cs : List C} {ls : List (List (Item P))} (h : List.Forall₂ RC cs ls)
    (hf : ∀ x ∈ ls.flatten, Fit x) : peekAhead O' cs = peekAhead O cs := by
  induction h with
  | nil => rfl
  | @cons c l cs ls h _ ih =>
    rw [List.flatten_cons] at hf
    simp only [peekAhead, Q.srcStrm]
    rw [Q.peek _ _ (H.srcStrm c l h) fun x hx => hf x (List.mem_append_left _ hx),
      ih fun x hx => hf x (List.mem_append_right _ hx)]

theorem TextIter.nextAccumLoop_same : ∀ (cs : List C) (cur : Option CS) (acc : Option τ)
    (p r : List (Item P)) (a : α), CurMeans RC RCS cur cs p r → Seq.Fits Fit ⟨p, r⟩ →
    nextAccumLoop O' T cs cur acc a = nextAccumLoop O T cs cur acc a := by
  intro cs
  induction cs with
  | nil =>
    rintro cur acc p r a (⟨rfl, _, rfl, rfl⟩ | ⟨s, r1, ls, rfl, h1, h2, rfl⟩) hf
    · rfl
    · obtain ⟨s', g1, g2⟩ := H.nextAccum s _ h1
      cases r1 with
      | cons x r1 => simp only [nextAccumLoop, Q.nextAccum s _ h1 hf.left, g1, List.head?_cons]
      | nil =>
        simp only [nextAccumLoop, Q.nextAccum s _ h1 hf.left, g1, List.head?_nil, Q.accumDone s' _ g2 hf.left]
  | cons c cs ih =>
    rintro cur acc p r a (⟨rfl, hcs, _⟩ | ⟨s, r1, ls, rfl, h1, h2, rfl⟩) hf
    · cases hcs
    · obtain ⟨s', g1, g2⟩ := H.nextAccum s _ h1
      cases r1 with
      | cons x r1 => simp only [nextAccumLoop, Q.nextAccum s _ h1 hf.left, g1, List.head?_cons]
      | nil =>
        rw [nextAccumLoop, nextAccumLoop]
        simp only [Q.nextAccum s _ h1 hf.left, g1, List.head?_nil, Q.accumDone s' _ g2 hf.left]
        cases h2 with
        | @cons _ l _ ls hc hcs =>
          rw [List.flatten_cons] at hf
          have e : ∀ acc a, nextAccumLoop O' T cs (some (O'.srcStrm c)) acc a =
              nextAccumLoop O T cs (some (O.srcStrm c)) acc a := fun acc a => by
            rw [Q.srcStrm]
            exact ih _ acc [] _ a (Or.inr ⟨_, l, ls, rfl, H.srcStrm c l hc, hcs, rfl⟩) hf.right
          simp only [e]

theorem textIter_samePeek (it : TextIter C CS P τ) (q : Seq P) (h : TextIter.Means T RC RCS it q) (hf : q.Fits Fit) :
    (textIterOps O' T).peek it = (textIterOps O T).peek it := by
  obtain ⟨cur, cs, acc, pk⟩ := it
  obtain ⟨p, r⟩ := q
  obtain ⟨p1, p2, h1, h2, h3, h4⟩ := h
  simp only [textIterOps, TextIter.peek]
  cases pk with
  | some x => rfl
  | none =>
    rcases h2 with ⟨rfl, rfl, rfl, rfl⟩ | ⟨s, r1, ls, rfl, g1, g2, g3⟩
    · rfl
    · simp only at g3
      subst g3
      simp only [Q.peek s _ g1 hf.left, TextIter.peekAhead_same H Q g2 fun x hx => hf x (List.mem_append_right _ hx)]

theorem textIter_sameNext (it : TextIter C CS P τ) (q : Seq P) (h : TextIter.Means T RC RCS it q) (hf : q.Fits Fit) :
    (textIterOps O' T).next it = (textIterOps O T).next it := by
  obtain ⟨p1, p2, h1, h2, h3, h4⟩ := h
  simp only [textIterOps, TextIter.next, TextIter.nextLoop_same H Q _ _ p2 _ h2 hf]

theorem textIter_sameNextAccum (it : TextIter C CS P τ) (q : Seq P) (a : α)
    (h : TextIter.Means T RC RCS it q) (hf : q.Fits Fit) :
    (textIterOps O' T).nextAccum it a = (textIterOps O T).nextAccum it a := by
  obtain ⟨p1, p2, h1, h2, h3, h4⟩ := h
  simp only [textIterOps, TextIter.nextAccum, TextIter.nextAccumLoop_same H Q _ _ _ p2 _ _ h2 hf]

omit H in
theorem textIter_sameAccumDone (it : TextIter C CS P τ) (q : Seq P) (a : α)
    (h : TextIter.Means T RC RCS it q) (hf : q.Fits Fit) :
    (textIterOps O' T).accumDone it a = (textIterOps O T).accumDone it a := by
  obtain ⟨cur, cs, acc, pk⟩ := it
  obtain ⟨p, r⟩ := q
  obtain ⟨p1, p2, h1, h2, h3, h4⟩ := h
  simp only [textIterOps, TextIter.accumDone]
  rcases h2 with ⟨rfl, rfl, rfl, rfl⟩ | ⟨s, r1, ls, rfl, g1, g2, g3⟩
  · rfl
  · simp only at g3
    subst g3
    simp only [Q.accumDone s _ g1 hf.left]

end

/-! ## `PosStr` -/

section

variable (M : Nat)

/-- The end of the item is in range. -/
def StrPos.Fit (x : Item StrPos) : Prop := x.pos.bytePos + Str.lenUtf8 x.ch ≤ M ∧ x.pos.charPos + 1 ≤ M

theorem posStr_same : ChunkSame posStrOps (posStrM M) PosStrIter.Means (StrPos.Fit M) where
  srcStrm := rfl
  peek := by
    rintro s q ⟨pre, acc, w, post, pos, h1, h2, h3, h4, h5, h6⟩ hf
    simp only [posStrM, posStrOps, PosStrIter.peekM, PosStrIter.peek]
    rcases hp : s.pei with _ | ⟨x, r⟩
    · rfl
    · have hx := hf x (by rw [h4, hp]; exact List.mem_cons_self)
      simp only [List.head?_cons]
      rw [if_pos ⟨Nat.le_trans (Nat.le_add_right _ _) hx.1, hx.2⟩]
  next := by
    rintro s q ⟨pre, acc, w, post, pos, h1, h2, h3, h4, h5, h6⟩ hf
    simp only [posStrM, posStrOps, PosStrIter.nextM, PosStrIter.next]
    rcases hp : s.pei with _ | ⟨x, r⟩
    · rfl
    · have hx := hf x (by rw [h4, hp]; exact List.mem_cons_self)
      simp only [List.head?_cons, List.tail_cons]
      rw [if_pos ⟨Nat.le_trans (Nat.le_add_right _ _) hx.1, hx.2⟩]
  nextAccum := by
    rintro s q ⟨pre, acc, w, post, pos, h1, h2, h3, h4, h5, h6⟩ hf
    simp only [posStrM, posStrOps, PosStrIter.nextAccumM]
    rcases hp : s.pei with _ | ⟨x, r⟩
    · simp only [PosStrIter.nextAccum, hp]
    · have hx := hf x (by rw [h4, hp]; exact List.mem_cons_self)
      simp only
      rw [if_pos ⟨⟨Nat.le_trans (Nat.le_add_right _ _) hx.1, hx.2⟩, hx.1⟩]
  accumDone := fun _ _ _ _ => rfl

/-! ## `PosStrish` -/

/-- The number of the item and the one after it are in range. -/
def CharPos.Fit (x : Item CharPos) : Prop := x.pos.n + 1 ≤ M

/-- What a chunk stands for, and that its string has at most `M` bytes. -/
def PosStrish.MeansM (c : PosStrish) (l : List (Item CharPos)) : Prop := PosStrish.Means c l ∧ Str.len c.val.strish ≤ M

/-- The same for its stream. -/
def PosStrishIter.MeansM (it : PosStrishIter) (q : Seq CharPos) : Prop :=
  PosStrishIter.Means it q ∧ Str.len it.chunk.val.strish ≤ M

namespace PosStrishIter

theorem doNextNoPeeked_chunk (it : PosStrishIter) : it.doNextNoPeeked.2.chunk = it.chunk := by
  unfold doNextNoPeeked; split <;> rfl

theorem doNext_chunk (it : PosStrishIter) : it.doNext.2.chunk = it.chunk := by
  unfold doNext
  split
  · rfl
  · exact it.doNextNoPeeked_chunk

theorem next_chunk (it : PosStrishIter) : it.next.2.chunk = it.chunk := doNext_chunk _

theorem peek_chunk (it : PosStrishIter) : it.peek.2.chunk = it.chunk := by
  unfold peek
  have h := it.doNextNoPeeked_chunk
  split
  · rfl
  · rcases hd : it.doNextNoPeeked with ⟨o, it'⟩
    rw [hd] at h
    cases o <;> exact h

theorem nextAccum_chunk (it : PosStrishIter) : it.nextAccum.2.chunk = it.chunk := by
  unfold nextAccum
  have h := it.doNext_chunk
  rcases hd : it.doNext with ⟨o, it'⟩
  rw [hd] at h
  rcases o with (_ | x) | e | _ | _
  · exact h
  · simp only
    split
    · exact h
    · split <;> exact h
  all_goals exact h

theorem accumDone_chunk (it : PosStrishIter) : it.accumDone.2.chunk = it.chunk := by
  unfold accumDone
  split
  · rfl
  · split <;> rfl

theorem accumDone_strish (it : PosStrishIter) {c} (h : it.accumDone.1 = .ok c) :
    c.val.strish = it.chunk.val.strish ∨ c.val.strish = [] := by
  unfold accumDone at h
  split at h
  · cases h; exact Or.inr rfl
  · split at h
    · next v hv =>
      cases h
      left
      unfold RefCntSlice.slice at hv
      split at hv <;> cases hv
      rfl
    · cases h

end PosStrishIter

theorem posStrish_confM : ChunkConf posStrishOps (PosStrish.MeansM M) (PosStrishIter.MeansM M) where
  empty := ⟨posStrish_conf.empty, Nat.zero_le _⟩
  isEmpty := fun c l h => posStrish_conf.isEmpty c l h.1
  srcStrm := fun c l h => ⟨posStrish_conf.srcStrm c l h.1, h.2⟩
  peek := fun s q h => by
    obtain ⟨s', g1, g2⟩ := posStrish_conf.peek s q h.1
    have e : s'.chunk = s.chunk := by have := s.peek_chunk; rw [show s.peek = _ from g1] at this; exact this
    exact ⟨s', g1, g2, by rw [e]; exact h.2⟩
  next := fun s q h => by
    obtain ⟨s', g1, g2⟩ := posStrish_conf.next s q h.1
    have e : s'.chunk = s.chunk := by have := s.next_chunk; rw [show s.next = _ from g1] at this; exact this
    exact ⟨s', g1, g2, by rw [e]; exact h.2⟩
  nextAccum := fun s q h => by
    obtain ⟨s', g1, g2⟩ := posStrish_conf.nextAccum s q h.1
    have e : s'.chunk = s.chunk := by have := s.nextAccum_chunk; rw [show s.nextAccum = _ from g1] at this; exact this
    exact ⟨s', g1, g2, by rw [e]; exact h.2⟩
  accumDone := fun s q h => by
    obtain ⟨c, s', g1, g2, g3⟩ := posStrish_conf.accumDone s q h.1
    have e : s'.chunk = s.chunk := by have := s.accumDone_chunk; rw [show s.accumDone = _ from g1] at this; exact this
    refine ⟨c, s', g1, ⟨g2, ?_⟩, g3, by rw [e]; exact h.2⟩
    rcases s.accumDone_strish (by rw [show s.accumDone = _ from g1]) with k | k
    · rw [k]; exact h.2
    · rw [k]; exact Nat.zero_le _

theorem PosStrishIter.doNextNoPeeked_sameM {s : PosStrishIter} {q : Seq CharPos} (h : PosStrishIter.MeansM M s q)
    (hf : q.Fits (CharPos.Fit M)) (hn : s.peeked = none) : s.doNextNoPeekedM M = s.doNextNoPeeked := by
  obtain ⟨⟨pre, u, acc, w, post, h1, h2, h3, h4, h5, h6, h7⟩, hl⟩ := h
  rcases h7 with ⟨_, hb, hc⟩ | ⟨c, w', rfl, hp, hb, hc⟩
  · unfold doNextNoPeekedM doNextNoPeeked RefCntSlice.asStr
    rw [h1, Str.slice_mid pre _ post h2 h3, Option.bind_some, Str.sliceFrom_mid (u ++ acc) w hb]
    cases w with
    | nil => rfl
    | cons ch w =>
      have hx := hf ⟨ch, ⟨s.chunk.pos.n + (u ++ acc).length⟩⟩ (by rw [h4]; exact List.mem_cons_self)
      simp only [CharPos.Fit] at hx
      rw [h1] at hl
      simp only [Str.len_append, Str.len] at hl
      simp only
      rw [if_pos]
      rw [hb, hc]
      refine ⟨by omega, by omega, ?_⟩
      simp only [Str.len_append]
      omega
  · rw [hn] at hp; cases hp

theorem PosStrishIter.doNext_sameM {s : PosStrishIter} {q : Seq CharPos} (h : PosStrishIter.MeansM M s q)
    (hf : q.Fits (CharPos.Fit M)) : s.doNextM M = s.doNext := by
  unfold doNextM doNext
  rcases hn : s.peeked with _ | x
  · exact doNextNoPeeked_sameM M h hf hn
  · rfl

theorem posStrish_same : ChunkSame posStrishOps (posStrishM M) (PosStrishIter.MeansM M) (CharPos.Fit M) where
  srcStrm := rfl
  peek := by
    intro s q h hf
    simp only [posStrishM, posStrishOps]
    unfold PosStrishIter.peekM PosStrishIter.peek
    rcases hn : s.peeked with _ | x
    · simp only [PosStrishIter.doNextNoPeeked_sameM M h hf hn]
      rfl
    · rfl
  next := by
    intro s q h hf
    simp only [posStrishM, posStrishOps]
    unfold PosStrishIter.nextM PosStrishIter.next
    unfold PosStrishIter.doNextM PosStrishIter.doNext
    rcases hn : s.peeked with _ | x
    · obtain ⟨⟨pre, u, acc, w, post, h1, h2, h3, h4, h5, h6, h7⟩, hl⟩ := h
      refine PosStrishIter.doNextNoPeeked_sameM M (q := ⟨[], q.rest⟩) ⟨⟨pre, u ++ acc, [], w, post, ?_, h2, ?_, ?_, rfl, rfl, ?_⟩, hl⟩ hf rfl
      · simpa using h1
      · simpa using h3
      · simpa using h4
      · left
        rcases h7 with h7 | ⟨c, w', _, hp, _⟩
        · simpa using h7.2
        · rw [hn] at hp; cases hp
    · rfl
  nextAccum := by
    intro s q h hf
    simp only [posStrishM, posStrishOps]
    unfold PosStrishIter.nextAccumM PosStrishIter.nextAccum
    rw [PosStrishIter.doNext_sameM M h hf]
    obtain ⟨⟨pre, u, acc, w, post, h1, h2, h3, h4, h5, h6, h7⟩, hl⟩ := h
    rw [PosStrishIter.doNext_eq (u := u ++ acc) h1 h2 h3 rfl h7]
    cases w with
    | nil => rfl
    | cons ch w =>
      have hx := hf ⟨ch, ⟨s.chunk.pos.n + (u ++ acc).length⟩⟩ (by rw [h4]; exact List.mem_cons_self)
      simp only [CharPos.Fit] at hx
      simp only
      rcases s.accum with _ | ⟨b, e, p⟩
      · simp only
        rw [if_pos ⟨by omega, by omega, by omega⟩, if_pos ⟨by omega, by omega⟩]
      · rfl
  accumDone := by
    intro s q h hf
    simp only [posStrishM, posStrishOps]
    unfold PosStrishIter.accumDoneM PosStrishIter.accumDone
    obtain ⟨⟨pre, u, acc, w, post, h1, h2, h3, h4, h5, h6, h7⟩, hl⟩ := h
    rw [h6]
    by_cases ha : acc = []
    · rw [if_pos ha]
    · rw [if_neg ha]
      simp only [RefCntSlice.sliceM]
      rw [h1] at hl
      simp only [Str.len_append] at hl ⊢
      rw [if_pos ⟨by omega, by omega⟩]
      rfl

/-! ## `CharIterSourceStream` -/

section

variable {T : TextType PosStrish τ α}

theorem charIter_samePeek (it : CharIter) (q : Seq CharPos) (h : CharIter.Means it q) (hf : q.Fits (CharPos.Fit M)) :
    (charIterM M T).peek it = (charIterOps T).peek it := by
  obtain ⟨k, acc, w, h1, h2, h3, h4⟩ := h
  simp only [charIterM, charIterOps, CharIter.peekM, CharIter.peek]
  rcases hp : it.peIter with _ | ⟨x, r⟩
  · rfl
  · have hx := hf x (by rw [h2, hp]; exact List.mem_cons_self)
    simp only [List.head?_cons]
    rw [if_pos (show x.pos.n + 1 ≤ M from hx)]

theorem charIter_sameNext (it : CharIter) (q : Seq CharPos) (h : CharIter.Means it q) (hf : q.Fits (CharPos.Fit M)) :
    (charIterM M T).next it = (charIterOps T).next it := by
  obtain ⟨k, acc, w, h1, h2, h3, h4⟩ := h
  simp only [charIterM, charIterOps, CharIter.nextM, CharIter.next]
  rcases hp : it.peIter with _ | ⟨x, r⟩
  · rfl
  · have hx := hf x (by rw [h2, hp]; exact List.mem_cons_self)
    simp only [List.head?_cons, List.tail_cons]
    rw [if_pos (show x.pos.n + 1 ≤ M from hx)]

theorem charIter_sameNextAccum (it : CharIter) (q : Seq CharPos) (a : α) (h : CharIter.Means it q)
    (hf : q.Fits (CharPos.Fit M)) : (charIterM M T).nextAccum it a = (charIterOps T).nextAccum it a := by
  obtain ⟨k, acc, w, h1, h2, h3, h4⟩ := h
  simp only [charIterM, charIterOps, CharIter.nextAccumM]
  rcases hp : it.peIter with _ | ⟨x, r⟩
  · simp only [CharIter.nextAccum, hp]
  · have hx := hf x (by rw [h2, hp]; exact List.mem_cons_self)
    simp only
    rw [if_pos (show x.pos.n + 1 ≤ M from hx)]

end

end

end Kul
