import Verif.Model.CountersShared
import Verif.Proof.CountersStrs
import Verif.Proof.Shared

/-! # The counters of streams of reference-counted strings do not overflow -/

namespace Kul

variable {R τ ε α CE : Type} {A : StrishOps R} {O : List (SharedChunk R)} (M : Nat)

/-! ## `PosStrish` -/

/-- What a chunk stands for, and that its string has at most `M` bytes. -/
def SharedChunk.MeansM (A : StrishOps R) (O : List (SharedChunk R)) (c : SharedChunk R) (l : List (Item CharPos)) : Prop :=
  c.Means A O l ∧ Str.len (A.asStr c.val.strish) ≤ M

/-- The same for its stream. -/
def SharedChunkIter.MeansM (A : StrishOps R) (O : List (SharedChunk R)) (it : SharedChunkIter R) (q : Seq CharPos) : Prop :=
  SharedChunkIter.Means A O it q ∧ Str.len (A.asStr it.chunk.val.strish) ≤ M

theorem SharedChunkIter.accumDone_strish (it : SharedChunkIter R) {c} (h : (it.accumDone A).1 = .ok c) :
    c.val.strish = it.chunk.val.strish ∨ c.val.strish = A.empty := by
  unfold accumDone at h
  split at h
  · cases h; exact Or.inr rfl
  · split at h
    · next v hv =>
      cases h
      left
      unfold SharedSlice.slice at hv
      split at hv <;> cases hv
      rfl
    · cases h

theorem sharedChunk_confM (hA : A.Lawful) :
    ChunkConf (sharedChunkOps A) (SharedChunk.MeansM M A O) (SharedChunkIter.MeansM M A O) where
  empty := ⟨(sharedChunk_conf hA).empty, by
    show Str.len (A.asStr (A.fromStr [])) ≤ M
    rw [hA []]; exact Nat.zero_le _⟩
  isEmpty := fun c l h => (sharedChunk_conf hA).isEmpty c l h.1
  srcStrm := fun c l h => ⟨(sharedChunk_conf hA).srcStrm c l h.1, h.2⟩
  peek := fun s q h => by
    obtain ⟨s', g1, g2⟩ := (sharedChunk_conf hA).peek s q h.1
    have e : s'.chunk = s.chunk := by have := s.peek_chunk (A := A); rw [show s.peek A = _ from g1] at this; exact this
    exact ⟨s', g1, g2, by rw [e]; exact h.2⟩
  next := fun s q h => by
    obtain ⟨s', g1, g2⟩ := (sharedChunk_conf hA).next s q h.1
    have e : s'.chunk = s.chunk := by have := s.next_chunk (A := A); rw [show s.next A = _ from g1] at this; exact this
    exact ⟨s', g1, g2, by rw [e]; exact h.2⟩
  nextAccum := fun s q h => by
    obtain ⟨s', g1, g2⟩ := (sharedChunk_conf hA).nextAccum s q h.1
    have e : s'.chunk = s.chunk := by
      have := s.nextAccum_chunk (A := A); rw [show s.nextAccum A = _ from g1] at this; exact this
    exact ⟨s', g1, g2, by rw [e]; exact h.2⟩
  accumDone := fun s q h => by
    obtain ⟨c, s', g1, g2, g3⟩ := (sharedChunk_conf hA).accumDone s q h.1
    have e : s'.chunk = s.chunk := by
      have := s.accumDone_chunk (A := A); rw [show s.accumDone A = _ from g1] at this; exact this
    refine ⟨c, s', g1, ⟨g2, ?_⟩, g3, by rw [e]; exact h.2⟩
    rcases s.accumDone_strish (A := A) (by rw [show s.accumDone A = _ from g1]) with k | k
    · rw [k]; exact h.2
    · rw [k, show A.asStr A.empty = [] from hA []]; exact Nat.zero_le _

theorem SharedChunkIter.doNextNoPeeked_sameM {s : SharedChunkIter R} {q : Seq CharPos} (h : SharedChunkIter.MeansM M A O s q)
    (hf : q.Fits (CharPos.Fit M)) (hn : s.peeked = none) : s.doNextNoPeekedM M A = s.doNextNoPeeked A := by
  obtain ⟨⟨pre, u, acc, w, post, ⟨h1, h2, h3⟩, h0, h4, h5, h6, h7⟩, hl⟩ := h
  rcases h7 with ⟨_, hb, hc⟩ | ⟨c, w', rfl, hp, hb, hc⟩
  · unfold doNextNoPeekedM doNextNoPeeked SharedSlice.asStr
    rw [h1, Str.slice_mid pre _ post h2 h3, Option.bind_some, Str.sliceFrom_mid (u ++ acc) w hb]
    cases w with
    | nil => rfl
    | cons ch w =>
      have hx := hf ⟨ch, ⟨s.chunk.pos.n + (u ++ acc).length⟩⟩ (by rw [h4]; exact List.mem_cons_self)
      simp only [CharPos.Fit] at hx
      rw [h1] at hl
      simp only [Str.len_append, Str.len] at hl
      simp only
      rw [if_pos]
      rw [hb, hc]
      refine ⟨by omega, by omega, ?_⟩
      simp only [Str.len_append]
      omega
  · rw [hn] at hp; cases hp

theorem SharedChunkIter.doNext_sameM {s : SharedChunkIter R} {q : Seq CharPos} (h : SharedChunkIter.MeansM M A O s q)
    (hf : q.Fits (CharPos.Fit M)) : s.doNextM M A = s.doNext A := by
  unfold doNextM doNext
  rcases hn : s.peeked with _ | x
  · exact doNextNoPeeked_sameM M h hf hn
  · rfl

theorem sharedChunk_same : ChunkSame (sharedChunkOps A) (sharedChunkM M A) (SharedChunkIter.MeansM M A O) (CharPos.Fit M) where
  srcStrm := rfl
  peek := by
    intro s q h hf
    simp only [sharedChunkM, sharedChunkOps]
    unfold SharedChunkIter.peekM SharedChunkIter.peek
    rcases hn : s.peeked with _ | x
    · simp only [SharedChunkIter.doNextNoPeeked_sameM M h hf hn]
      rfl
    · rfl
  next := by
    intro s q h hf
    simp only [sharedChunkM, sharedChunkOps]
    unfold SharedChunkIter.nextM SharedChunkIter.next
    unfold SharedChunkIter.doNextM SharedChunkIter.doNext
    rcases hn : s.peeked with _ | x
    · obtain ⟨⟨pre, u, acc, w, post, h1, h0, h4, h5, h6, h7⟩, hl⟩ := h
      refine SharedChunkIter.doNextNoPeeked_sameM M (O := O) (q := ⟨[], q.rest⟩)
        ⟨⟨pre, u ++ acc, [], w, post, ?_, ?_, ?_, rfl, rfl, ?_⟩, hl⟩ hf rfl
      · simpa using h1
      · simpa using h0
      · simpa using h4
      · left
        rcases h7 with h7 | ⟨c, w', _, hp, _⟩
        · simpa using h7.2
        · rw [hn] at hp; cases hp
    · rfl
  nextAccum := by
    intro s q h hf
    simp only [sharedChunkM, sharedChunkOps]
    unfold SharedChunkIter.nextAccumM SharedChunkIter.nextAccum
    rw [SharedChunkIter.doNext_sameM M h hf]
    obtain ⟨⟨pre, u, acc, w, post, h1, h0, h4, h5, h6, h7⟩, hl⟩ := h
    rw [SharedChunkIter.doNext_eq (u := u ++ acc) h1 rfl h7]
    cases w with
    | nil => rfl
    | cons ch w =>
      have hx := hf ⟨ch, ⟨s.chunk.pos.n + (u ++ acc).length⟩⟩ (by rw [h4]; exact List.mem_cons_self)
      simp only [CharPos.Fit] at hx
      simp only
      rcases s.accum with _ | ⟨b, e, p⟩
      · simp only
        rw [if_pos ⟨by omega, by omega, by omega⟩, if_pos ⟨by omega, by omega⟩]
      · rfl
  accumDone := by
    intro s q h hf
    simp only [sharedChunkM, sharedChunkOps]
    unfold SharedChunkIter.accumDoneM SharedChunkIter.accumDone
    obtain ⟨⟨pre, u, acc, w, post, ⟨h1, h2, h3⟩, h0, h4, h5, h6, h7⟩, hl⟩ := h
    rw [h6]
    by_cases ha : acc = []
    · rw [if_pos ha]
    · rw [if_neg ha]
      simp only [SharedSlice.sliceM]
      rw [h1] at hl
      simp only [Str.len_append] at hl ⊢
      rw [if_pos ⟨by omega, by omega⟩]
      rfl

/-! ## `StrishIterSourceStream` -/

namespace SharedStream

variable {M} {T : TextType (SharedChunk R) τ α} {rs : List R}

open StrishIter (fits_left fits_nil)

theorem nextPosstrish_sameM {it : SharedStream R τ} {s : SharedChunkIter R} {q : Seq CharPos} (hc : it.cur = some s)
    (h : SharedChunkIter.MeansM M A O s q) (hf : q.Fits (CharPos.Fit M)) : it.nextPosstrishM M A = it.nextPosstrish A := by
  unfold nextPosstrishM nextPosstrish
  have e : s.peekM M A = s.peek A := (sharedChunk_same M).peek s q h hf
  rw [hc]
  simp only [e]
  rfl

theorem nextLoop_sameM (hA : A.Lawful) {it : SharedStream R τ} {s : SharedChunkIter R} {p : List (Item CharPos)} {c : Char}
    {w : Str} (n : Nat) (hc : it.cur = some s)
    (h : SharedChunkIter.MeansM M A O s ⟨p, itemsFrom CharPos.adv ⟨it.charIdx⟩ (c :: w)⟩)
    (hf : Seq.Fits (CharPos.Fit M) ⟨p, itemsFrom CharPos.adv ⟨it.charIdx⟩ (c :: w)⟩) :
    nextLoopM M A (n + 1) it = nextLoop A (n + 1) it := by
  obtain ⟨s', g1, g2⟩ := (sharedChunk_conf hA).next s _ h.1
  have g1' : s.next A = (.ok (some ⟨c, ⟨it.charIdx⟩⟩), s') := g1
  have e : s.nextM M A = s.next A := (sharedChunk_same M).next s _ h hf
  have hx : it.charIdx + 1 ≤ M := hf ⟨c, ⟨it.charIdx⟩⟩ List.mem_cons_self
  simp only [nextLoopM, nextLoop, hc, e, g1', if_pos hx]

theorem nextAccumLoop_sameM (hA : A.Lawful) {it : SharedStream R τ} {s : SharedChunkIter R} {p : List (Item CharPos)} {c : Char}
    {w : Str} (n : Nat) (a : α) (hc : it.cur = some s)
    (h : SharedChunkIter.MeansM M A O s ⟨p, itemsFrom CharPos.adv ⟨it.charIdx⟩ (c :: w)⟩)
    (hf : Seq.Fits (CharPos.Fit M) ⟨p, itemsFrom CharPos.adv ⟨it.charIdx⟩ (c :: w)⟩) :
    nextAccumLoopM M A T (n + 1) it a = nextAccumLoop A T (n + 1) it a := by
  obtain ⟨s', g1, g2⟩ := (sharedChunk_conf hA).nextAccum s _ h.1
  have g1' : s.nextAccum A = (.ok (some ⟨c, ⟨it.charIdx⟩⟩), s') := g1
  have e : s.nextAccumM M A = s.nextAccum A := (sharedChunk_same M).nextAccum s _ h hf
  have hx : it.charIdx + 1 ≤ M := hf ⟨c, ⟨it.charIdx⟩⟩ List.mem_cons_self
  simp only [nextAccumLoopM, nextAccumLoop, hc, e, g1', if_pos hx]

/-- A chunk that is one of the strings as a whole is short. -/
theorem short_of {c : SharedChunk R} {r : R} {k : CharPos} {before after : List R} (hM : ∀ r ∈ rs, Str.len (A.asStr r) ≤ M)
    (h : c = .new A r k) (hr : rs = before ++ r :: after) : Str.len (A.asStr c.val.strish) ≤ M := by
  subst h
  exact hM r (by simp [hr])

theorem samePeek (hA : A.Lawful) (hM : ∀ r ∈ rs, Str.len (A.asStr r) ≤ M) (it : SharedStream R τ) (q : Seq CharPos)
    (h : SharedStream.Means A T rs it q) (hf : q.Fits (CharPos.Fit M)) : it.peekM M A = it.peek A := by
  obtain ⟨p1, p2, h1, h2, _, h3⟩ := h
  obtain ⟨p, q⟩ := q
  simp only at h2 h3
  unfold peekM peek
  rcases h3 with ⟨⟨h3, _⟩, rfl, rfl⟩ | ⟨s, w, before, r, mid, h3, h4, hc, hb, hi, hm, h5⟩
  · rw [h3]
  · rw [h3]
    have hl : Str.len (A.asStr s.chunk.val.strish) ≤ M := by
      rcases h5 with ⟨_, hr, _⟩ | ⟨_, _, _, _, _, _, _, hr, _⟩ <;> exact short_of hM hc hr
    have hfs : Seq.Fits (CharPos.Fit M) ⟨p2, itemsFrom CharPos.adv ⟨it.charIdx⟩ w⟩ := by
      rcases h5 with ⟨_, _, _, rfl⟩ | ⟨rfl, _⟩
      · exact fits_left hf
      · exact fits_nil
    have e : s.peekM M A = s.peek A := (sharedChunk_same M).peek s _ ⟨h4, hl⟩ hfs
    simp only [e]
    cases w with
    | cons c w =>
      obtain ⟨s', g1, g2⟩ := (sharedChunk_conf hA).peek s _ h4
      have g1' : s.peek A = (.ok (some ⟨c, ⟨it.charIdx⟩⟩), s') := g1
      simp only [g1']
    | nil =>
      obtain ⟨s', g1, g2⟩ := (sharedChunk_conf hA).peek s _ h4
      have g1' : s.peek A = (.ok none, s') := g1
      simp only [g1']
      rcases h5 with ⟨k1, k2, _, rfl⟩ | ⟨_, ps, r', k1, k2, k3, k4, k5, rfl⟩
      · rw [k1]
        simp only
        have hz : A.size (before ++ r :: mid) = it.charIdx := by
          have : A.size mid = 0 := by simp [StrishOps.size, hm]
          have h0 : A.size [] = 0 := rfl
          simp only [StrishOps.size_append, StrishOps.size_cons, this, h0, List.length_nil] at hi ⊢
          omega
        have k := nextPosstrishOf_spec (A := A) rs it.strishIter (before ++ r :: mid) (by simp [k2])
        rw [hz] at k
        rcases k with ⟨m1, m2⟩ | ⟨ps, mid', r', ss', m1, m2, m3, m4, m5, m6⟩
        · simp only [m1]
        · have e3 : A.contents it.strishIter = A.asStr r' ++ A.contents ss' := by
            simp [m3, StrishOps.contents_append, StrishOps.contents_cons, m2]
          rw [List.nil_append, e3] at hf
          have e2 : ps.peekM M A = ps.peek A := (sharedChunk_same M).peek ps _
            ⟨m6, short_of (before := before ++ r :: (mid ++ mid')) (after := ss') hM m5 (by rw [k2, m3]; simp)⟩ (fits_left hf)
          simp only [m1, e2]
      · rw [k1]
        have e2 : ps.peekM M A = ps.peek A := (sharedChunk_same M).peek ps _
          ⟨k4, short_of (before := before ++ r :: mid) (after := it.strishIter) hM k3 (by rw [k5]; simp)⟩ (fits_left hf)
        simp only [e2]

theorem sameNext (hA : A.Lawful) (hM : ∀ r ∈ rs, Str.len (A.asStr r) ≤ M) (it : SharedStream R τ) (q : Seq CharPos)
    (h : SharedStream.Means A T rs it q) (hf : q.Fits (CharPos.Fit M)) : it.nextM M A = it.next A := by
  obtain ⟨p1, p2, h1, h2, _, h3⟩ := h
  obtain ⟨p, q⟩ := q
  simp only at h2 h3
  unfold nextM next
  rcases h3 with ⟨⟨h3, _⟩, rfl, rfl⟩ | ⟨s, w, before, r, mid, h3, h4, hc, hb, hi, hm, h5⟩
  · simp only [turns, nextLoopM, nextLoop, h3]
  · have hl : Str.len (A.asStr s.chunk.val.strish) ≤ M := by
      rcases h5 with ⟨_, hr, _⟩ | ⟨_, _, _, _, _, _, _, hr, _⟩ <;> exact short_of hM hc hr
    have hfs : Seq.Fits (CharPos.Fit M) ⟨p2, itemsFrom CharPos.adv ⟨it.charIdx⟩ w⟩ := by
      rcases h5 with ⟨_, _, _, rfl⟩ | ⟨rfl, _⟩
      · exact fits_left hf
      · exact fits_nil
    cases w with
    | cons c w => exact nextLoop_sameM hA (it := { it with accum := none }) 1 h3 ⟨h4, hl⟩ hfs
    | nil =>
      obtain ⟨s', g1, g2⟩ := (sharedChunk_conf hA).next s _ h4
      have g1' : s.next A = (.ok none, s') := g1
      have hch := s.next_chunk (A := A)
      rw [g1'] at hch
      have e : s.nextM M A = s.next A := (sharedChunk_same M).next s _ ⟨h4, hl⟩ hfs
      have e2 : nextPosstrishM (τ := τ) M A { it with cur := some s', accum := none } =
          nextPosstrish (τ := τ) A { it with cur := some s', accum := none } :=
        nextPosstrish_sameM rfl ⟨g2, by rw [hch]; exact hl⟩ fits_nil
      have h5' : (it.peekedStrm = none ∧ rs = before ++ r :: (mid ++ it.strishIter) ∧ (mid = [] ∨ q = []) ∧
          q = itemsFrom CharPos.adv ⟨it.charIdx⟩ (A.contents it.strishIter)) ∨ _ := h5.imp id And.right
      rw [turns, nextLoopM, nextLoop]
      simp only [h3, e, g1', e2]
      rcases nextPosstrish_spec (τ := τ) hA (it := { it with cur := some s', accum := none }) rfl g2
          (by simpa using hi) hm h5' with
        ⟨it', k1, k2, k3, rfl⟩ | ⟨it', s'', before', r', k1, k2, k3, k4, k5, k6, k7, k8, k9, k10, rfl⟩
      · simp only [k1, nextLoopM, nextLoop, k2.1]
      · simp only [k1]
        rw [← k5] at k7
        simp only at k5
        have hf' : Seq.Fits (CharPos.Fit M) ⟨[], itemsFrom CharPos.adv ⟨it'.charIdx⟩ (A.asStr r')⟩ := by
          rw [k5]; exact fits_left hf
        rcases hv : A.asStr r' with _ | ⟨c, v⟩
        · exact absurd hv k6
        · rw [hv] at k7 hf'
          exact nextLoop_sameM hA 0 k2 ⟨k7, short_of hM k8 k10⟩ hf'

theorem sameNextAccum (hA : A.Lawful) (hM : ∀ r ∈ rs, Str.len (A.asStr r) ≤ M) (it : SharedStream R τ) (q : Seq CharPos) (a : α)
    (h : SharedStream.Means A T rs it q) (hf : q.Fits (CharPos.Fit M)) :
    nextAccumLoopM M A T turns it a = nextAccumLoop A T turns it a := by
  obtain ⟨p1, p2, h1, h2, _, h3⟩ := h
  obtain ⟨p, q⟩ := q
  simp only at h2 h3
  rcases h3 with ⟨⟨h3, _⟩, rfl, rfl⟩ | ⟨s, w, before, r, mid, h3, h4, hc, hb, hi, hm, h5⟩
  · simp only [turns, nextAccumLoopM, nextAccumLoop, h3]
  · have hl : Str.len (A.asStr s.chunk.val.strish) ≤ M := by
      rcases h5 with ⟨_, hr, _⟩ | ⟨_, _, _, _, _, _, _, hr, _⟩ <;> exact short_of hM hc hr
    have hfs : Seq.Fits (CharPos.Fit M) ⟨p2, itemsFrom CharPos.adv ⟨it.charIdx⟩ w⟩ := by
      rcases h5 with ⟨_, _, _, rfl⟩ | ⟨rfl, _⟩
      · exact fits_left hf
      · exact fits_nil
    cases w with
    | cons c w => exact nextAccumLoop_sameM hA 1 a h3 ⟨h4, hl⟩ hfs
    | nil =>
      obtain ⟨s', g1, g2⟩ := (sharedChunk_conf hA).nextAccum s _ h4
      have g1' : s.nextAccum A = (.ok none, s') := g1
      have hch := s.nextAccum_chunk (A := A)
      rw [g1'] at hch
      have e : s.nextAccumM M A = s.nextAccum A := (sharedChunk_same M).nextAccum s _ ⟨h4, hl⟩ hfs
      obtain ⟨c, s'', g3, g4, g5⟩ := (sharedChunk_conf hA).accumDone s' _ g2
      have g3' : s'.accumDone A = (.ok c, s'') := g3
      have hch2 := s'.accumDone_chunk (A := A)
      rw [g3'] at hch2
      have hl' : Str.len (A.asStr s'.chunk.val.strish) ≤ M := by rw [hch]; exact hl
      have e1 : s'.accumDoneM M A = s'.accumDone A := (sharedChunk_same M).accumDone s' _ ⟨g2, hl'⟩ fits_nil
      rw [turns, nextAccumLoopM, nextAccumLoop]
      simp only [h3, e, g1', e1, g3']
      rcases hk : T.concat (it.accum.getD T.empty) (T.ofChunk c) a with ⟨acc | _ | _ | _, a'⟩
      · simp only
        have e2 : nextPosstrishM M A { it with cur := some s'', accum := some acc } =
            nextPosstrish A { it with cur := some s'', accum := some acc } :=
          nextPosstrish_sameM rfl ⟨g5, by rw [hch2.trans hch]; exact hl⟩ fits_nil
        have h5' : (it.peekedStrm = none ∧ rs = before ++ r :: (mid ++ it.strishIter) ∧ (mid = [] ∨ q = []) ∧
            q = itemsFrom CharPos.adv ⟨it.charIdx⟩ (A.contents it.strishIter)) ∨ _ := h5.imp id And.right
        rw [e2]
        rcases nextPosstrish_spec (τ := τ) hA (it := { it with cur := some s'', accum := some acc }) rfl g5
            (by simpa using hi) hm h5' with
          ⟨it', k1, k2, k3, rfl⟩ | ⟨it', s3, before', r', k1, k2, k3, k4, k5, k6, k7, k8, k9, k10, rfl⟩
        · simp only [k1, nextAccumLoopM, nextAccumLoop, k2.1]
        · simp only [k1]
          rw [← k5] at k7
          simp only at k5
          have hf' : Seq.Fits (CharPos.Fit M) ⟨[], itemsFrom CharPos.adv ⟨it'.charIdx⟩ (A.asStr r')⟩ := by
            rw [k5]; exact fits_left hf
          rcases hv : A.asStr r' with _ | ⟨c, v⟩
          · exact absurd hv k6
          · rw [hv] at k7 hf'
            exact nextAccumLoop_sameM hA 0 a' k2 ⟨k7, short_of hM k8 k10⟩ hf'
      all_goals rfl

theorem sameAccumDone (hM : ∀ r ∈ rs, Str.len (A.asStr r) ≤ M) (it : SharedStream R τ) (q : Seq CharPos) (a : α)
    (h : SharedStream.Means A T rs it q) (hf : q.Fits (CharPos.Fit M)) : accumDoneM M A T it a = accumDone A T it a := by
  obtain ⟨p1, p2, h1, h2, _, h3⟩ := h
  obtain ⟨p, q⟩ := q
  simp only at h2 h3
  unfold accumDoneM accumDone
  rcases h3 with ⟨⟨h3, _⟩, rfl, rfl⟩ | ⟨s, w, before, r, mid, h3, h4, hc, hb, hi, hm, h5⟩
  · rw [h3]
  · have hl : Str.len (A.asStr s.chunk.val.strish) ≤ M := by
      rcases h5 with ⟨_, hr, _⟩ | ⟨_, _, _, _, _, _, _, hr, _⟩ <;> exact short_of hM hc hr
    have hfs : Seq.Fits (CharPos.Fit M) ⟨p2, itemsFrom CharPos.adv ⟨it.charIdx⟩ w⟩ := by
      rcases h5 with ⟨_, _, _, rfl⟩ | ⟨rfl, _⟩
      · exact fits_left hf
      · exact fits_nil
    have e : s.accumDoneM M A = s.accumDone A := (sharedChunk_same M).accumDone s _ ⟨h4, hl⟩ hfs
    simp only [h3, e]
    rfl

end SharedStream

end Kul
