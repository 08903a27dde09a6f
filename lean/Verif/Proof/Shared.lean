import Verif.Spec.Shared
import Verif.Proof.Streams

/-!
# Streams of reference-counted strings fulfil the contract, and share the strings
-/

namespace Kul

variable {R τ ε α CE : Type} {A : StrishOps R} {O : List (SharedChunk R)}

/-- What a stream of a chunk stands for, as for `PosStrishIter`; its chunk comes from the chunks `O`. -/
def SharedChunkIter.Means (A : StrishOps R) (O : List (SharedChunk R)) (it : SharedChunkIter R)
    (q : Seq CharPos) : Prop :=
  ∃ pre u acc w post, it.chunk.val.Is A pre (u ++ acc ++ w) post ∧
    it.chunk.Origin A O pre (u ++ acc ++ w) post ∧
    q.rest = itemsFrom CharPos.adv ⟨it.chunk.pos.n + (u ++ acc).length⟩ w ∧
    q.pending = itemsFrom CharPos.adv ⟨it.chunk.pos.n + u.length⟩ acc ∧
    (it.accum = if acc = [] then none else
      some (Str.len u, Str.len (u ++ acc), ⟨it.chunk.pos.n + u.length⟩)) ∧
    ((it.peeked = none ∧ it.byteIdx = Str.len (u ++ acc) ∧ it.charIdx = (u ++ acc).length) ∨
     (∃ c w', w = c :: w' ∧ it.peeked = some ⟨c, ⟨it.chunk.pos.n + (u ++ acc).length⟩⟩ ∧
      it.byteIdx = Str.len (u ++ acc ++ [c]) ∧ it.charIdx = (u ++ acc ++ [c]).length))

theorem SharedChunkIter.doNextNoPeeked_eq {it : SharedChunkIter R} {pre v post u w : Str}
    (h1 : it.chunk.val.Is A pre v post) (hv : v = u ++ w) (hb : it.byteIdx = Str.len u) :
    it.doNextNoPeeked A = match (generalizing := false) w with
      | [] => (.ok none, it)
      | ch :: _ => (.ok (some ⟨ch, ⟨it.chunk.pos.n + it.charIdx⟩⟩),
        { it with charIdx := it.charIdx + 1, byteIdx := it.byteIdx + Str.lenUtf8 ch }) := by
  unfold doNextNoPeeked SharedSlice.asStr
  rw [h1.1, Str.slice_mid pre v post h1.2.1 h1.2.2, Option.bind_some, hv, Str.sliceFrom_mid u w hb]
  cases w <;> rfl

theorem SharedChunkIter.doNext_eq {it : SharedChunkIter R} {pre v post u w : Str}
    (h1 : it.chunk.val.Is A pre v post) (hv : v = u ++ w)
    (hp : (it.peeked = none ∧ it.byteIdx = Str.len u ∧ it.charIdx = u.length) ∨
     (∃ c w', w = c :: w' ∧ it.peeked = some ⟨c, ⟨it.chunk.pos.n + u.length⟩⟩ ∧
      it.byteIdx = Str.len (u ++ [c]) ∧ it.charIdx = (u ++ [c]).length)) :
    it.doNext A = match (generalizing := false) w with
      | [] => (.ok none, it)
      | ch :: _ => (.ok (some ⟨ch, ⟨it.chunk.pos.n + u.length⟩⟩),
        { it with peeked := none, charIdx := u.length + 1, byteIdx := Str.len u + Str.lenUtf8 ch }) := by
  unfold doNext
  rcases hp with ⟨hp, hb, hc⟩ | ⟨c, w', rfl, hp, hb, hc⟩
  · rw [hp]
    simp only
    rw [doNextNoPeeked_eq h1 hv hb]
    cases w with
    | nil => rfl
    | cons c w => simp only [hc, hb, hp]
  · rw [hp]
    simp [hb, hc, Str.len_append, Str.len]

theorem SharedChunk.new_is (A : StrishOps R) (r : R) (p : CharPos) :
    (SharedChunk.new A r p).val.Is A [] (A.asStr r) [] := by
  simp [SharedChunk.new, SharedSlice.Is, Str.len]

theorem SharedChunk.empty_means (hA : A.Lawful) : (SharedChunk.empty A).Means A O [] := by
  have h : A.asStr A.empty = [] := hA []
  have := SharedChunk.new_is A A.empty ⟨0⟩
  rw [h] at this
  exact ⟨[], [], [], this, rfl, Or.inl rfl⟩

theorem sharedChunk_conf (hA : A.Lawful) :
    ChunkConf (sharedChunkOps A) (SharedChunk.Means A O) (SharedChunkIter.Means A O) where
  empty := SharedChunk.empty_means hA
  isEmpty := by
    rintro c l ⟨pre, v, post, h1, rfl, h0⟩
    simp only [sharedChunkOps, SharedSlice.asStr]
    rw [h1.1, Str.slice_mid pre v post h1.2.1 h1.2.2]
    simp only [itemsFrom_isEmpty]
    rcases v with _ | ⟨x, s⟩
    · rfl
    · have := Str.lenUtf8_pos x
      simp [Str.len]; omega
  srcStrm := by
    rintro c l ⟨pre, v, post, h1, rfl, h0⟩
    exact ⟨pre, [], [], v, post, h1, h0, rfl, rfl, rfl, Or.inl ⟨rfl, rfl, rfl⟩⟩
  peek := by
    rintro s ⟨p, r⟩ ⟨pre, u, acc, w, post, h1, h0, h4, h5, h6, h7⟩
    simp only at h4 h5
    subst h4 h5
    rcases h7 with ⟨hp, hb, hc⟩ | ⟨c, w', rfl, hp, hb, hc⟩
    · have hn := SharedChunkIter.doNextNoPeeked_eq (u := u ++ acc) h1 rfl hb
      simp only [sharedChunkOps, SharedChunkIter.peek, hp, hn]
      rcases w with _ | ⟨c, w⟩
      · refine ⟨_, rfl, pre, u, acc, [], post, h1, h0, rfl, rfl, h6, Or.inl ⟨rfl, hb, hc⟩⟩
      · refine ⟨⟨s.chunk, s.byteIdx + Str.lenUtf8 c, s.charIdx + 1,
          some ⟨c, ⟨s.chunk.pos.n + s.charIdx⟩⟩, s.accum⟩, by simp [itemsFrom, hc], pre, u, acc, c :: w, post, h1, h0, rfl, rfl, h6,
          Or.inr ⟨c, w, rfl, ?_, ?_, ?_⟩⟩
        · simp [hc]
        · simp [hb, Str.len_append, Str.len, Nat.add_assoc]
        · simp [hc, Nat.add_assoc]
    · refine ⟨s, by simp [sharedChunkOps, SharedChunkIter.peek, hp, itemsFrom], pre, u, acc, c :: w', post,
        h1, h0, rfl, rfl, h6, Or.inr ⟨c, w', rfl, hp, hb, hc⟩⟩
  next := by
    rintro s ⟨p, r⟩ ⟨pre, u, acc, w, post, h1, h0, h4, h5, h6, h7⟩
    simp only at h4 h5
    subst h4 h5
    have hn := SharedChunkIter.doNext_eq (it := { s with accum := none }) (u := u ++ acc) h1 rfl h7
    simp only [sharedChunkOps, SharedChunkIter.next, hn]
    rcases w with _ | ⟨c, w⟩
    · refine ⟨_, rfl, pre, u ++ acc, [], [], post, by simpa using h1, by simpa using h0,
        rfl, rfl, rfl, ?_⟩
      simpa using h7
    · refine ⟨⟨s.chunk, Str.len (u ++ acc) + Str.lenUtf8 c, (u ++ acc).length + 1, none, none⟩, by simp [itemsFrom], pre, u ++ acc ++ [c], [], w, post, by simpa using h1,
        by simpa using h0, ?_, rfl, rfl, Or.inl ⟨rfl, ?_, ?_⟩⟩
      · simp [itemsFrom, CharPos.adv, Nat.add_assoc]
      · simp [Str.len_append, Str.len, Nat.add_assoc]
      · simp [Nat.add_assoc]
  nextAccum := by
    rintro s ⟨p, r⟩ ⟨pre, u, acc, w, post, h1, h0, h4, h5, h6, h7⟩
    simp only at h4 h5
    subst h4 h5
    have hn := SharedChunkIter.doNext_eq (u := u ++ acc) h1 rfl h7
    simp only [sharedChunkOps, SharedChunkIter.nextAccum, hn]
    rcases w with _ | ⟨c, w⟩
    · refine ⟨_, rfl, pre, u, acc, [], post, h1, h0, rfl, by simp [itemsFrom], h6, h7⟩
    · have hl := Str.lenUtf8_pos c
      have hmeans : ∀ s' : SharedChunkIter R, s'.chunk = s.chunk → s'.peeked = none →
          s'.charIdx = (u ++ acc).length + 1 → s'.byteIdx = Str.len (u ++ acc) + Str.lenUtf8 c →
          s'.accum = some (Str.len u, Str.len (u ++ acc) + Str.lenUtf8 c, ⟨s.chunk.pos.n + u.length⟩) →
          SharedChunkIter.Means A O s' ⟨itemsFrom CharPos.adv ⟨s.chunk.pos.n + u.length⟩ acc ++
            (itemsFrom CharPos.adv ⟨s.chunk.pos.n + (u ++ acc).length⟩ (c :: w)).head?.toList,
            (itemsFrom CharPos.adv ⟨s.chunk.pos.n + (u ++ acc).length⟩ (c :: w)).tail⟩ := by
        intro s' e1 e2 e3 e4 e5
        refine ⟨pre, u, acc ++ [c], w, post, by simpa [e1] using h1, by simpa [e1] using h0,
          ?_, ?_, ?_, Or.inl ⟨e2, ?_, ?_⟩⟩
        · simp [itemsFrom, CharPos.adv, e1, Nat.add_assoc]
        · simp [itemsFrom_append, itemsFrom, e1, advs_charPos, Nat.add_assoc]
        · simp [e5, e1, Str.len_append, Str.len, Nat.add_assoc]
        · simp [e4, Str.len_append, Str.len, Nat.add_assoc]
        · simp [e3, Nat.add_assoc]
      simp only [h6]
      by_cases ha : acc = []
      · subst ha
        simp only [if_true]
        rw [if_pos ⟨by omega, by omega⟩]
        refine ⟨_, rfl, hmeans _ rfl rfl rfl rfl ?_⟩
        simp
      · simp only [if_neg ha]
        refine ⟨_, rfl, hmeans _ rfl rfl rfl rfl ?_⟩
        simp
  accumDone := by
    rintro s ⟨p, r⟩ ⟨pre, u, acc, w, post, h1, h0, h4, h5, h6, h7⟩
    simp only at h4 h5
    subst h4 h5
    simp only [sharedChunkOps, SharedChunkIter.accumDone, h6]
    by_cases ha : acc = []
    · subst ha
      refine ⟨.empty A, s, by simp, SharedChunk.empty_means hA, pre, u, [], w, post, h1, h0, rfl,
        rfl, h6, h7⟩
    · simp only [if_neg ha]
      obtain ⟨h1, h2, h3⟩ := h1
      have hs : SharedSlice.slice s.chunk.val (Str.len u) (Str.len (u ++ acc)) =
          some ⟨s.chunk.val.strish, s.chunk.val.start + Str.len u, s.chunk.val.start + Str.len (u ++ acc)⟩ := by
        unfold SharedSlice.slice
        rw [if_pos]
        simp only [h2, h3, Str.len_append]
        omega
      rw [hs]
      refine ⟨_, _, rfl, ⟨pre ++ u, acc, w ++ post, ⟨by simp [h1], ?_, ?_⟩, rfl, ?_⟩,
        pre, u ++ acc, [], w, post, ⟨by simpa using h1, h2, by simpa using h3⟩, by simpa using h0, by simp, rfl, rfl, ?_⟩
      · simp [h2, Str.len_append]
      · simp [h2, Str.len_append, Nat.add_assoc]
      · rcases h0 with h0 | ⟨o, ho, pre', u', w', post', rfl, rfl, k1, k2, k3⟩
        · exact Or.inl h0
        · refine Or.inr ⟨o, ho, pre', u' ++ u, w ++ w', post', by simp, by simp, by simpa using k1, k2, ?_⟩
          simp [k3, Nat.add_assoc]
      · simpa using h7

/-! ## The stream of strings -/

theorem SharedChunkIter.doNextNoPeeked_chunk (s : SharedChunkIter R) : (s.doNextNoPeeked A).2.chunk = s.chunk := by
  unfold doNextNoPeeked; split <;> rfl

theorem SharedChunkIter.doNext_chunk (s : SharedChunkIter R) : (s.doNext A).2.chunk = s.chunk := by
  unfold doNext; split
  · rfl
  · exact doNextNoPeeked_chunk s

theorem SharedChunkIter.next_chunk (s : SharedChunkIter R) : (s.next A).2.chunk = s.chunk :=
  doNext_chunk { s with accum := none }

theorem SharedChunkIter.peek_chunk (s : SharedChunkIter R) : (s.peek A).2.chunk = s.chunk := by
  have h := doNextNoPeeked_chunk (A := A) s
  unfold peek; split
  · rfl
  · split <;> simp_all

theorem SharedChunkIter.nextAccum_chunk (s : SharedChunkIter R) : (s.nextAccum A).2.chunk = s.chunk := by
  have h := doNext_chunk (A := A) s
  unfold nextAccum; split
  · split
    · simp_all
    · split <;> simp_all
  · simp_all

theorem SharedChunkIter.accumDone_chunk (s : SharedChunkIter R) : (s.accumDone A).2.chunk = s.chunk := by
  unfold accumDone; split
  · rfl
  · split <;> rfl

theorem StrishOps.contents_append (A : StrishOps R) (l l' : List R) :
    A.contents (l ++ l') = A.contents l ++ A.contents l' := by simp [contents]

theorem StrishOps.contents_cons (A : StrishOps R) (r : R) (l : List R) :
    A.contents (r :: l) = A.asStr r ++ A.contents l := by simp [contents]

theorem StrishOps.size_append (A : StrishOps R) (l l' : List R) : A.size (l ++ l') = A.size l + A.size l' := by
  simp [size, contents]

theorem StrishOps.size_cons (A : StrishOps R) (r : R) (l : List R) :
    A.size (r :: l) = (A.asStr r).length + A.size l := by simp [size, contents]

theorem wholes_append (A : StrishOps R) : ∀ (l l' : List R) (k : Nat),
    wholes A k (l ++ l') = wholes A k l ++ wholes A (k + A.size l) l'
  | [], _, _ => rfl
  | r :: l, l', k => by
    simp [wholes, wholes_append A l l', StrishOps.size_cons, Nat.add_assoc]

theorem mem_wholes {c : SharedChunk R} : ∀ {rs : List R} {k : Nat}, c ∈ wholes A k rs ↔
    ∃ before r after, rs = before ++ r :: after ∧ c = .new A r ⟨k + A.size before⟩
  | [], k => by simp [wholes]
  | r :: rs, k => by
    simp only [wholes, List.mem_cons, mem_wholes]
    constructor
    · rintro (rfl | ⟨b, r', a, rfl, rfl⟩)
      · exact ⟨[], r, rs, rfl, rfl⟩
      · exact ⟨r :: b, r', a, rfl, by simp [StrishOps.size_cons, Nat.add_assoc]⟩
    · rintro ⟨b, r', a, h, rfl⟩
      cases b with
      | nil => cases h; exact Or.inl rfl
      | cons x b =>
        cases h
        exact Or.inr ⟨b, r', a, rfl, by simp [StrishOps.size_cons, Nat.add_assoc]⟩

theorem SharedChunk.whole_means {c : SharedChunk R} {r : R} {k : CharPos} (h : c = .new A r k) (hO : c ∈ O) :
    c.Means A O (itemsFrom CharPos.adv k (A.asStr r)) := by
  subst h
  refine ⟨[], A.asStr r, [], new_is A r k, rfl, Or.inr ⟨_, hO, [], [], [], [], rfl, rfl, ?_, rfl, rfl⟩⟩
  simpa using new_is A r k

/-- What a stream of the strings `rs` stands for, and which of them it refers to. -/
def SharedStream.Means (A : StrishOps R) (T : TextType (SharedChunk R) τ α) (rs : List R) (it : SharedStream R τ)
    (q : Seq CharPos) : Prop :=
  ∃ p1 p2, T.MeansOpt (SharedChunk.Means A (wholes A 0 rs)) it.accum p1 ∧ q.pending = p1 ++ p2 ∧
    (it.accum = none ∨ p1 ++ p2 ≠ [] ∨ q.rest = []) ∧
    (((it.cur = none ∧ it.peekedStrm = none) ∧ p2 = [] ∧ q.rest = []) ∨
     (∃ s w before r mid, it.cur = some s ∧
      SharedChunkIter.Means A (wholes A 0 rs) s ⟨p2, itemsFrom CharPos.adv ⟨it.charIdx⟩ w⟩ ∧
      s.chunk = .new A r ⟨A.size before⟩ ∧ A.size before ≤ it.charIdx ∧
      it.charIdx + w.length = A.size (before ++ [r]) ∧ A.contents mid = [] ∧
      ((it.peekedStrm = none ∧ rs = before ++ r :: (mid ++ it.strishIter) ∧ (mid = [] ∨ q.rest = []) ∧
        q.rest = itemsFrom CharPos.adv ⟨it.charIdx⟩ (w ++ A.contents it.strishIter)) ∨
       (w = [] ∧ ∃ ps r', it.peekedStrm = some ps ∧ A.asStr r' ≠ [] ∧ ps.chunk = .new A r' ⟨it.charIdx⟩ ∧
        SharedChunkIter.Means A (wholes A 0 rs) ps ⟨[], itemsFrom CharPos.adv ⟨it.charIdx⟩ (A.asStr r')⟩ ∧
        rs = before ++ r :: (mid ++ r' :: it.strishIter) ∧
        q.rest = itemsFrom CharPos.adv ⟨it.charIdx⟩ (A.asStr r' ++ A.contents it.strishIter)))))

theorem SharedStream.nextPosstrishOf_spec (rs : List R) : ∀ (ss before : List R) (_ : rs = before ++ ss),
    (nextPosstrishOf A (A.size before) ss = (none, []) ∧ A.contents ss = []) ∨
    (∃ ps mid r ss', nextPosstrishOf A (A.size before) ss = (some ps, ss') ∧ A.contents mid = [] ∧
      ss = mid ++ r :: ss' ∧ A.asStr r ≠ [] ∧ ps.chunk = .new A r ⟨A.size before⟩ ∧
      SharedChunkIter.Means A (wholes A 0 rs) ps ⟨[], itemsFrom CharPos.adv ⟨A.size before⟩ (A.asStr r)⟩)
  | [], _, _ => Or.inl ⟨rfl, rfl⟩
  | r :: ss, before, h => by
    simp only [nextPosstrishOf]
    by_cases hr : Str.len (A.asStr r) > 0
    · rw [if_pos hr]
      refine Or.inr ⟨_, [], r, ss, rfl, rfl, rfl, ?_, rfl, ?_⟩
      · intro e; simp [e, Str.len] at hr
      · have hm : SharedChunk.new A r ⟨A.size before⟩ ∈ wholes A 0 rs :=
          mem_wholes.2 ⟨before, r, ss, h, by simp⟩
        obtain ⟨pre, v, post, k1, k2, k3⟩ := SharedChunk.whole_means (A := A) rfl hm
        refine ⟨pre, [], [], v, post, k1, k3, ?_, rfl, rfl, Or.inl ⟨rfl, rfl, rfl⟩⟩
        simpa [SharedChunkIter.new, SharedChunk.new] using k2
    · rw [if_neg hr]
      have hs : A.asStr r = [] := (Str.len_eq_zero _).1 (by omega)
      have hz : A.size (before ++ [r]) = A.size before := by
        simp [StrishOps.size_append, StrishOps.size_cons, hs]; rfl
      have ih := nextPosstrishOf_spec rs ss (before ++ [r]) (by simp [h])
      rw [hz] at ih
      rcases ih with ⟨k1, k2⟩ | ⟨ps, mid, r', ss', k1, k2, k3, k4⟩
      · exact Or.inl ⟨k1, by simp [StrishOps.contents_cons, hs, k2]⟩
      · exact Or.inr ⟨ps, r :: mid, r', ss', k1, by simp [StrishOps.contents_cons, hs, k2], by simp [k3], k4⟩

/-- At the end of the current string: `next_posstrish` succeeds, and leads to the end
of the source or to a next, nonempty string. -/
theorem SharedStream.nextPosstrish_spec (hA : A.Lawful) {rs : List R} {it : SharedStream R τ} {s : SharedChunkIter R}
    {r : R} {before mid : List R} {q : List (Item CharPos)}
    (hcur : it.cur = some s) (hs : SharedChunkIter.Means A (wholes A 0 rs) s ⟨[], []⟩)
    (hi : it.charIdx = A.size (before ++ [r])) (hm : A.contents mid = [])
    (h : (it.peekedStrm = none ∧ rs = before ++ r :: (mid ++ it.strishIter) ∧ (mid = [] ∨ q = []) ∧
        q = itemsFrom CharPos.adv ⟨it.charIdx⟩ (A.contents it.strishIter)) ∨
       (∃ ps r', it.peekedStrm = some ps ∧ A.asStr r' ≠ [] ∧ ps.chunk = .new A r' ⟨it.charIdx⟩ ∧
        SharedChunkIter.Means A (wholes A 0 rs) ps ⟨[], itemsFrom CharPos.adv ⟨it.charIdx⟩ (A.asStr r')⟩ ∧
        rs = before ++ r :: (mid ++ r' :: it.strishIter) ∧
        q = itemsFrom CharPos.adv ⟨it.charIdx⟩ (A.asStr r' ++ A.contents it.strishIter))) :
    (∃ it', it.nextPosstrish A = some it' ∧ (it'.cur = none ∧ it'.peekedStrm = none) ∧ it'.accum = it.accum ∧ q = []) ∨
    (∃ it' s' before' r', it.nextPosstrish A = some it' ∧ it'.cur = some s' ∧ it'.accum = it.accum ∧
      it'.peekedStrm = none ∧ it'.charIdx = it.charIdx ∧ A.asStr r' ≠ [] ∧
      SharedChunkIter.Means A (wholes A 0 rs) s' ⟨[], itemsFrom CharPos.adv ⟨it.charIdx⟩ (A.asStr r')⟩ ∧
      s'.chunk = .new A r' ⟨A.size before'⟩ ∧ it.charIdx = A.size before' ∧
      rs = before' ++ r' :: it'.strishIter ∧
      q = itemsFrom CharPos.adv ⟨it.charIdx⟩ (A.asStr r' ++ A.contents it'.strishIter)) := by
  obtain ⟨s', g1, g2⟩ := (sharedChunk_conf hA).peek s _ hs
  have g1' : s.peek A = (.ok none, s') := g1
  have hz : A.size (before ++ r :: mid) = A.size (before ++ [r]) := by
    have : A.size mid = 0 := by simp [StrishOps.size, hm]
    have h0 : A.size [] = 0 := rfl
    simp [StrishOps.size_append, StrishOps.size_cons, this, h0]
  simp only [nextPosstrish, hcur, g1']
  rcases h with ⟨h1, h2, h3, h4⟩ | ⟨ps, r', h1, h2, h3, h4, h5, h6⟩
  · rw [h1]
    simp only
    rcases nextPosstrishOf_spec (A := A) rs it.strishIter (before ++ r :: mid) (by simp [h2]) with
      ⟨k1, k2⟩ | ⟨ps, mid', r', ss', k1, k2, k3, k4, k5, k6⟩
    · rw [hz, ← hi] at k1
      rw [k1]
      exact Or.inl ⟨_, rfl, ⟨rfl, rfl⟩, rfl, by simp [h4, k2, itemsFrom]⟩
    · rw [hz, ← hi] at k1 k5 k6
      rw [k1]
      have hz' : A.size (before ++ r :: mid ++ mid') = it.charIdx := by
        rw [StrishOps.size_append, hz, hi]; simp [StrishOps.size, k2]
      refine Or.inr ⟨_, ps, before ++ r :: mid ++ mid', r', rfl, rfl, rfl, rfl, rfl, k4, k6, ?_, hz'.symm, ?_, ?_⟩
      · rw [hz']; exact k5
      · simp [h2, k3]
      · simp [h4, k3, StrishOps.contents_append, StrishOps.contents_cons, k2]
  · rw [h1]
    refine Or.inr ⟨_, ps, before ++ r :: mid, r', rfl, rfl, rfl, rfl, rfl, h2, h4, ?_, ?_, ?_, h6⟩
    · rw [hz, ← hi]; exact h3
    · rw [hz, hi]
    · simp [h5]

theorem SharedStream.nextLoop_nonempty (hA : A.Lawful) {it : SharedStream R τ} {s : SharedChunkIter R}
    {p w : List (Item CharPos)} {c : Item CharPos} (n : Nat) (hcur : it.cur = some s)
    (hs : SharedChunkIter.Means A O s ⟨p, c :: w⟩) :
    ∃ s', nextLoop A (n + 1) it = (.ok (some c), { it with cur := some s', charIdx := it.charIdx + 1 }) ∧
      SharedChunkIter.Means A O s' ⟨[], w⟩ ∧ s'.chunk = s.chunk := by
  obtain ⟨s', g1, g2⟩ := (sharedChunk_conf hA).next s _ hs
  have g1' : s.next A = (.ok (some c), s') := g1
  exact ⟨s', by simp only [nextLoop, hcur, g1'], g2, by have := s.next_chunk (A := A); rwa [g1'] at this⟩

theorem SharedStream.nextAccumLoop_nonempty (hA : A.Lawful) {T : TextType (SharedChunk R) τ α} {it : SharedStream R τ}
    {s : SharedChunkIter R} {p w : List (Item CharPos)}
    {c : Item CharPos} (n : Nat) (a : α) (hcur : it.cur = some s)
    (hs : SharedChunkIter.Means A O s ⟨p, c :: w⟩) :
    ∃ s', nextAccumLoop A T (n + 1) it a =
        (.ok (some c), { it with cur := some s', charIdx := it.charIdx + 1 }, a) ∧
      SharedChunkIter.Means A O s' ⟨p ++ [c], w⟩ ∧ s'.chunk = s.chunk := by
  obtain ⟨s', g1, g2⟩ := (sharedChunk_conf hA).nextAccum s _ hs
  have g1' : s.nextAccum A = (.ok (some c), s') := g1
  exact ⟨s', by simp only [nextAccumLoop, hcur, g1'], g2, by have := s.nextAccum_chunk (A := A); rwa [g1'] at this⟩

theorem sharedStream_conf {RA : α → α → Prop} {F : Prop} (hA : A.Lawful) (rs : List R)
    {T : TextType (SharedChunk R) τ α} (K : TextConf T (SharedChunk.Means A (wholes A 0 rs)) RA F)
    {E : Env (SharedStream R τ) CharPos τ ε α CE} (hs : E.strm = sharedStreamOps A T) (ht : E.text = T.ops) :
    Conf E (SharedStream.Means A T rs) (T.sem (SharedChunk.Means A (wholes A 0 rs)) RA F) where
  refl := K.refl
  trans := K.trans
  peek := by
    rintro it ⟨p, q⟩ ⟨p1, p2, h1, h2, h0, h3⟩
    simp only [hs, sharedStreamOps, SharedStream.peek] at *
    rcases h3 with ⟨⟨h3, hpk⟩, rfl, rfl⟩ | ⟨s, w, before, r, mid, h3, h4, hc, hb, hi, hm, h5⟩
    · rw [h3]
      exact ⟨_, rfl, p1, [], h1, h2, h0, Or.inl ⟨⟨h3, hpk⟩, rfl, rfl⟩⟩
    · rw [h3]
      obtain ⟨s', g1, g2⟩ := (sharedChunk_conf hA).peek s _ h4
      have hc' : s'.chunk = s.chunk := by have := s.peek_chunk (A := A); rwa [show s.peek A = (_, s') from g1] at this
      cases w with
      | cons c w =>
        have g1' : s.peek A = (.ok (some ⟨c, ⟨it.charIdx⟩⟩), s') := g1
        simp only [g1']
        rcases h5 with ⟨k1, k2, k3, rfl⟩ | ⟨k, _⟩
        · exact ⟨_, rfl, p1, p2, h1, h2, h0, Or.inr ⟨s', c :: w, before, r, mid, rfl, g2, hc'.trans hc, hb, hi, hm,
            Or.inl ⟨k1, k2, k3, rfl⟩⟩⟩
        · cases k
      | nil =>
        have g1' : s.peek A = (.ok none, s') := g1
        simp only [g1']
        rcases h5 with ⟨k1, k2, k3, rfl⟩ | ⟨_, ps, r', k1, k2, k3, k4, k5, rfl⟩
        · rw [k1]
          simp only
          have hz : A.size (before ++ r :: mid) = it.charIdx := by
            have : A.size mid = 0 := by simp [StrishOps.size, hm]
            have h0 : A.size [] = 0 := rfl
            simp only [StrishOps.size_append, StrishOps.size_cons, this, h0, List.length_nil] at hi ⊢
            omega
          have := SharedStream.nextPosstrishOf_spec (A := A) rs it.strishIter (before ++ r :: mid) (by simp [k2])
          rw [hz] at this
          rcases this with ⟨m1, m2⟩ | ⟨ps, mid', r', ss', m1, m2, m3, m4, m5, m6⟩
          · simp only [m1, m2]
            refine ⟨_, rfl, p1, p2, h1, h2, Or.inr (Or.inr rfl), Or.inr ⟨s', [], before, r, mid ++ it.strishIter, rfl, g2,
              hc'.trans hc, hb, hi, by simp [StrishOps.contents_append, hm, m2], Or.inl ⟨rfl, by simpa using k2, Or.inr rfl, rfl⟩⟩⟩
          · obtain ⟨ps', l1, l2⟩ := (sharedChunk_conf hA).peek ps _ m6
            have hc2 : ps'.chunk = ps.chunk := by
              have := ps.peek_chunk (A := A); rwa [show ps.peek A = (_, ps') from l1] at this
            have e : A.contents it.strishIter = A.asStr r' ++ A.contents ss' := by
              simp [m3, StrishOps.contents_append, StrishOps.contents_cons, m2]
            rcases hv : A.asStr r' with _ | ⟨c, v⟩
            · exact absurd hv m4
            · rw [hv] at l1
              have l1' : ps.peek A = (.ok (some ⟨c, ⟨it.charIdx⟩⟩), ps') := l1
              simp only [m1, l1']
              refine ⟨⟨some s', it.charIdx, ss', some ps', it.accum⟩, by simp [e, hv, itemsFrom], p1, p2, h1, h2, h0, Or.inr ⟨s', [], before, r, mid ++ mid', rfl, g2,
                hc'.trans hc, hb, hi, by simp [StrishOps.contents_append, hm, m2], Or.inr ⟨rfl, ps', r', rfl, m4, hc2.trans m5, l2, ?_, ?_⟩⟩⟩
              · rw [k2, m3]; simp
              · simp [e]
        · rw [k1]
          obtain ⟨ps', l1, l2⟩ := (sharedChunk_conf hA).peek ps _ k4
          have hc2 : ps'.chunk = ps.chunk := by
            have := ps.peek_chunk (A := A); rwa [show ps.peek A = (_, ps') from l1] at this
          rcases hv : A.asStr r' with _ | ⟨c, v⟩
          · exact absurd hv k2
          · rw [hv] at l1
            have l1' : ps.peek A = (.ok (some ⟨c, ⟨it.charIdx⟩⟩), ps') := l1
            simp only [l1']
            rw [hv] at h0
            exact ⟨_, rfl, p1, p2, h1, h2, h0, Or.inr ⟨s', [], before, r, mid, rfl, g2, hc'.trans hc, hb, hi, hm,
              Or.inr ⟨rfl, ps', r', rfl, k2, hc2.trans k3, l2, k5, by simp [hv]⟩⟩⟩
  next := by
    rintro it ⟨p, q⟩ ⟨p1, p2, h1, h2, h0, h3⟩
    simp only [hs, sharedStreamOps, SharedStream.next] at *
    rcases h3 with ⟨⟨h3, hpk⟩, rfl, rfl⟩ | ⟨s, w, before, r, mid, h3, h4, hc, hb, hi, hm, h5⟩
    · refine ⟨{ it with accum := none }, by simp only [SharedStream.nextLoop, SharedStream.turns, h3]; rfl, ?_⟩
      exact ⟨[], [], rfl, rfl, Or.inl rfl, Or.inl ⟨⟨h3, hpk⟩, rfl, rfl⟩⟩
    · cases w with
      | cons c w =>
        obtain ⟨s', g1, g2, g3⟩ := SharedStream.nextLoop_nonempty hA (it := { it with accum := none }) 1 h3 h4
        rcases h5 with ⟨k1, k2, k3, rfl⟩ | ⟨k, _⟩
        · refine ⟨_, g1, [], [], rfl, rfl, Or.inl rfl, Or.inr ⟨s', w, before, r, mid, rfl, g2, g3.trans hc, ?_, ?_, hm,
            Or.inl ⟨k1, k2, ?_, rfl⟩⟩⟩
          · exact Nat.le_succ_of_le hb
          · simp only [List.length_cons] at hi ⊢; omega
          · rcases k3 with k3 | k3
            · exact Or.inl k3
            · cases k3
        · cases k
      | nil =>
        obtain ⟨s', g1, g2⟩ := (sharedChunk_conf hA).next s _ h4
        have g1' : s.next A = (.ok none, s') := g1
        rcases SharedStream.nextPosstrish_spec (τ := τ) hA (it := { it with cur := some s', accum := none }) (q := q) rfl g2
            hi hm (h5.imp id And.right) with
          ⟨it', k1, k2, k3, rfl⟩ | ⟨it', s'', before', r', k1, k2, k3, k4, k5, k6, k7, k8, k9, k10, hr⟩
        · refine ⟨it', ?_, [], [], by rw [k3]; rfl, rfl, Or.inr (Or.inr rfl), Or.inl ⟨k2, rfl, rfl⟩⟩
          simp only [SharedStream.nextLoop, SharedStream.turns, h3, g1', k1, k2.1]; rfl
        · rcases hv : A.asStr r' with _ | ⟨c, v⟩
          · exact absurd hv k6
          · rw [hv] at k7 hr
            obtain ⟨s3, m1, m2, m3⟩ := SharedStream.nextLoop_nonempty hA 0 k2 k7
            subst hr
            simp only at k5 k9
            refine ⟨{ it' with cur := some s3, charIdx := it'.charIdx + 1 }, ?_, [], [], ?_, rfl, Or.inl k3,
              Or.inr ⟨s3, v, before', r', [], rfl, ?_, m3.trans k8, ?_, ?_, rfl, Or.inl ⟨k4, by simpa using k10, Or.inl rfl, ?_⟩⟩⟩
            · rw [SharedStream.turns, SharedStream.nextLoop]
              simp only [h3, g1', k1, m1]
              rfl
            · rw [k3]; rfl
            · rw [k5]; exact m2
            · show A.size before' ≤ it'.charIdx + 1
              omega
            · have h0 : A.size [] = 0 := rfl
              simp only [StrishOps.size_append, StrishOps.size_cons, hv, h0, List.length_cons]; omega
            · rw [k5]; rfl
  nextAccum := by
    rintro it ⟨p, q⟩ a ⟨p1, p2, h1, h2, h0, h3⟩
    simp only [hs, sharedStreamOps, SharedStream.nextAccum] at *
    rcases h3 with ⟨⟨h3, hpk⟩, rfl, rfl⟩ | ⟨s, w, before, r, mid, h3, h4, hc, hb, hi, hm, h5⟩
    · refine ⟨_, _, _, by simp only [SharedStream.nextAccumLoop, SharedStream.turns, h3]; rfl, K.refl a,
        Or.inl ⟨rfl, ?_⟩⟩
      exact ⟨p1, [], h1, by simp [h2], Or.inr (Or.inr rfl), Or.inl ⟨⟨h3, hpk⟩, rfl, rfl⟩⟩
    · cases w with
      | cons c w =>
        obtain ⟨s', g1, g2, g3⟩ := SharedStream.nextAccumLoop_nonempty hA (T := T) 1 a h3 h4
        rcases h5 with ⟨k1, k2, k3, rfl⟩ | ⟨k, _⟩
        · refine ⟨_, _, _, g1, K.refl a, Or.inl ⟨rfl, p1, p2 ++ [⟨c, ⟨it.charIdx⟩⟩], h1, ?_, Or.inr (Or.inl (by simp)),
            Or.inr ⟨s', w, before, r, mid, rfl, g2, g3.trans hc, Nat.le_succ_of_le hb, ?_, hm, Or.inl ⟨k1, k2, ?_, rfl⟩⟩⟩⟩
          · simp [h2, itemsFrom]
          · simp only [List.length_cons] at hi ⊢; omega
          · rcases k3 with k3 | k3
            · exact Or.inl k3
            · cases k3
        · cases k
      | nil =>
        obtain ⟨s', g1, g2⟩ := (sharedChunk_conf hA).nextAccum s _ h4
        have g1' : s.nextAccum A = (.ok none, s') := g1
        have hc1 : s'.chunk = s.chunk := by have := s.nextAccum_chunk (A := A); rwa [g1'] at this
        obtain ⟨c, s'', g3, g4, g5⟩ := (sharedChunk_conf hA).accumDone s' _ g2
        have g3' : s'.accumDone A = (.ok c, s'') := g3
        have hc2 : s''.chunk = s'.chunk := by have := s'.accumDone_chunk (A := A); rwa [g3'] at this
        have g4' : SharedChunk.Means A (wholes A 0 rs) c p2 := by simpa [itemsFrom] using g4
        obtain ⟨o, a', g6, g7, g8⟩ := K.concat _ _ _ _ a (h1.getD K) (K.ofChunk c _ g4')
        rcases g8 with ⟨acc, rfl, hv⟩ | ⟨hF, hne, hne', e, rfl⟩
        · rcases SharedStream.nextPosstrish_spec (τ := τ) hA (it := { it with cur := some s'', accum := some acc }) (q := q) rfl g5
              hi hm (h5.imp id And.right)
            with ⟨it', k1, k2, k3, rfl⟩ | ⟨it', s3, before', r', k1, k2, k3, k4, k5, k6, k7, k8, k9, k10, hr⟩
          · refine ⟨.ok none, it', a', ?_, g7, Or.inl ⟨rfl, p1 ++ p2, [], by rw [k3]; exact hv, ?_, Or.inr (Or.inr rfl),
              Or.inl ⟨k2, rfl, rfl⟩⟩⟩
            · simp only [SharedStream.nextAccumLoop, SharedStream.turns, h3, g1', g3', g6, k1, k2.1]
            · simp [h2]
          · rcases hv' : A.asStr r' with _ | ⟨c, v⟩
            · exact absurd hv' k6
            · rw [hv'] at k7 hr
              obtain ⟨s4, m1, m2, m3⟩ := SharedStream.nextAccumLoop_nonempty hA (T := T) 0 a' k2 k7
              subst hr
              simp only at k5 k9
              refine ⟨_, { it' with cur := some s4, charIdx := it'.charIdx + 1 }, _, ?_, g7, Or.inl ⟨rfl, p1 ++ p2, [⟨c, ⟨it.charIdx⟩⟩], ?_, ?_,
                Or.inr (Or.inl (by simp)),
                Or.inr ⟨s4, v, before', r', [], rfl, ?_, m3.trans k8, ?_, ?_, rfl, Or.inl ⟨k4, by simpa using k10, Or.inl rfl, ?_⟩⟩⟩⟩
              · rw [SharedStream.turns, SharedStream.nextAccumLoop]
                simp only [h3, g1', g3', g6, k1, m1]
                rfl
              · rw [k3]; exact hv
              · simp [h2, itemsFrom]
              · rw [k5]; exact m2
              · show A.size before' ≤ it'.charIdx + 1
                omega
              · have h0 : A.size [] = 0 := rfl
                simp only [StrishOps.size_append, StrishOps.size_cons, hv', h0, List.length_cons]; omega
              · rw [k5]; rfl
        · refine ⟨.err e, { it with cur := some s'', accum := none }, a',
            by simp only [SharedStream.nextAccumLoop, SharedStream.turns, h3, g1', g3', g6], g7,
            Or.inr ⟨hF, by simp [h2, hne], ⟨e, rfl⟩, [], [], rfl, rfl, Or.inl rfl, Or.inr ⟨s'', [], before, r, mid, rfl, g5,
              (hc2.trans hc1).trans hc, hb, hi, hm, h5⟩⟩⟩
  accumDone := by
    rintro it ⟨p, q⟩ a ⟨p1, p2, h1, h2, h0, h3⟩
    simp only [hs, sharedStreamOps, SharedStream.accumDone] at *
    rcases h3 with ⟨⟨h3, hpk⟩, rfl, rfl⟩ | ⟨s, w, before, r, mid, h3, h4, hc, hb, hi, hm, h5⟩
    · rw [h3]
      refine ⟨_, _, _, rfl, K.refl a, ⟨[], [], rfl, rfl, Or.inl rfl, Or.inl ⟨⟨rfl, hpk⟩, rfl, rfl⟩⟩, Or.inl ⟨_, rfl, ?_⟩⟩
      simp only [h2, List.append_nil]
      exact h1.getD K
    · rw [h3]
      obtain ⟨c, s', g3, g4, g5⟩ := (sharedChunk_conf hA).accumDone s _ h4
      have g3' : s.accumDone A = (.ok c, s') := g3
      have hc2 : s'.chunk = s.chunk := by have := s.accumDone_chunk (A := A); rwa [g3'] at this
      obtain ⟨o, a', g6, g7, g8⟩ := K.concat _ _ _ _ a (h1.getD K) (K.ofChunk c _ g4)
      simp only [g3', g6]
      refine ⟨_, _, _, rfl, g7, ⟨[], [], rfl, rfl, Or.inl rfl, Or.inr ⟨s', w, before, r, mid, rfl, g5, hc2.trans hc, hb, hi, hm, h5⟩⟩, ?_⟩
      rw [h2]
      rcases g8 with ⟨v, rfl, hv⟩ | ⟨hF, hne, hne', e, rfl⟩
      · exact Or.inl ⟨v, rfl, hv⟩
      · exact Or.inr ⟨hF, by simp [hne], e, rfl⟩
  empty := by rw [ht]; exact K.empty
  concat := by rw [ht]; exact K.concat

/-- A fresh stream of strings stands for the characters of all its strings, numbered from 0. -/
theorem SharedStream.new_means (A : StrishOps R) (T : TextType (SharedChunk R) τ α) (rs : List R) :
    SharedStream.Means A T rs (.new A rs) ⟨[], itemsFrom CharPos.adv ⟨0⟩ (A.contents rs)⟩ := by
  unfold SharedStream.new
  have := nextPosstrishOf_spec (A := A) rs rs [] rfl
  rw [show A.size [] = 0 from rfl] at this
  rcases this with ⟨k1, k2⟩ | ⟨ps, mid, r, ss', k1, k2, k3, k4, k5, k6⟩
  · rw [k1, k2]
    exact ⟨[], [], rfl, rfl, Or.inl rfl, Or.inl ⟨⟨rfl, rfl⟩, rfl, rfl⟩⟩
  · rw [k1]
    have hz : A.size mid = 0 := by simp [StrishOps.size, k2]
    have h0 : A.size [] = 0 := rfl
    refine ⟨[], [], rfl, rfl, Or.inl rfl, Or.inr ⟨ps, A.asStr r, mid, r, [], rfl, k6, by rw [hz]; exact k5, by rw [hz]; exact Nat.le_refl 0,
      ?_, rfl, Or.inl ⟨rfl, k3, Or.inl rfl, ?_⟩⟩⟩
    · simp [StrishOps.size_append, StrishOps.size_cons, hz, h0]
    · rw [k3]
      simp [StrishOps.contents_append, StrishOps.contents_cons, k2]

end Kul
