import Verif.Spec.Chunk

/-!
# The chunk types fulfil their contract
-/

namespace Kul

namespace Str

theorem lenUtf8_pos (c : Char) : 0 < lenUtf8 c := by
  unfold lenUtf8; split <;> try split <;> try split
  all_goals omega

theorem len_append (a b : Str) : len (a ++ b) = len a + len b := by
  induction a with
  | nil => simp [len]
  | cons c a ih => simp [len, ih]; omega

theorem len_eq_zero (a : Str) : len a = 0 ↔ a = [] := by
  cases a with
  | nil => simp [len]
  | cons c a => have := lenUtf8_pos c; simp [len]; omega

theorem splitAt_append (a b : Str) : splitAt (a ++ b) (len a) = some (a, b) := by
  induction a with
  | nil => cases b <;> simp [len, splitAt]
  | cons c a ih =>
    have := lenUtf8_pos c
    obtain ⟨k, hk⟩ : ∃ k, len (c :: a) = k + 1 := ⟨len (c :: a) - 1, by simp [len]; omega⟩
    rw [hk, List.cons_append, splitAt]
    have h1 : lenUtf8 c ≤ k + 1 := by rw [← hk]; simp [len]
    have h2 : k + 1 - lenUtf8 c = len a := by rw [← hk]; simp [len]
    rw [if_pos h1, h2, ih]; rfl

/-- Slicing at the byte lengths of a prefix and of a prefix of the rest. -/
theorem slice_mid (a b c : Str) {i j : Nat} (hi : i = len a) (hj : j = len a + len b) :
    slice (a ++ b ++ c) i j = some b := by
  subst hi hj
  unfold slice
  rw [if_pos (by omega), ← len_append, splitAt_append]
  simp only
  rw [splitAt_append]; rfl

theorem sliceFrom_mid (a b : Str) {i : Nat} (hi : i = len a) : sliceFrom (a ++ b) i = some b := by
  subst hi
  simp [sliceFrom, splitAt_append]

end Str

section
variable {P : Type} (adv : P → Char → P)

theorem itemsFrom_append (p : P) (a b : Str) :
    itemsFrom adv p (a ++ b) = itemsFrom adv p a ++ itemsFrom adv (advs adv p a) b := by
  induction a generalizing p with
  | nil => rfl
  | cons c a ih => simp [itemsFrom, advs, ih]

theorem advs_append (p : P) (a b : Str) : advs adv p (a ++ b) = advs adv (advs adv p a) b := by
  induction a generalizing p with
  | nil => rfl
  | cons c a ih => simp [advs, ih]

theorem itemsFrom_length (p : P) (a : Str) : (itemsFrom adv p a).length = a.length := by
  induction a generalizing p with
  | nil => rfl
  | cons c a ih => simp [itemsFrom, ih]

theorem itemsFrom_isEmpty (p : P) (a : Str) : (itemsFrom adv p a).isEmpty = a.isEmpty := by
  cases a <;> rfl

theorem itemsFrom_ch (p : P) (a : Str) : (itemsFrom adv p a).map (·.ch) = a := by
  induction a generalizing p with
  | nil => rfl
  | cons c a ih => simp [itemsFrom, ih]

end

theorem advs_strPos (p : StrPos) (a : Str) :
    advs StrPos.adv p a = ⟨p.src, p.bytePos + Str.len a, p.charPos + a.length⟩ := by
  induction a generalizing p with
  | nil => rfl
  | cons c a ih =>
    simp only [advs, ih, StrPos.adv, Str.len, List.length_cons]
    congr 1 <;> omega

theorem advs_charPos (p : CharPos) (a : Str) :
    advs CharPos.adv p a = ⟨p.n + a.length⟩ := by
  induction a generalizing p with
  | nil => rfl
  | cons c a ih => simp only [advs, ih, CharPos.adv, List.length_cons]; congr 1; omega

theorem itemsFrom_strPos (p : StrPos) (s : Str) (b k : Nat) :
    ((Str.charIndicesFrom b s).zipIdx k).map (fun (x : (Nat × Char) × Nat) =>
      (⟨x.1.2, { p with bytePos := p.bytePos + x.1.1, charPos := p.charPos + x.2 }⟩ : Item StrPos)) =
    itemsFrom StrPos.adv { p with bytePos := p.bytePos + b, charPos := p.charPos + k } s := by
  induction s generalizing b k with
  | nil => rfl
  | cons c s ih =>
    simp only [Str.charIndicesFrom, List.zipIdx_cons, List.map_cons, itemsFrom, ih, StrPos.adv,
      Nat.add_assoc]

theorem PosStrIter.new_pei (c : PosStr) : (PosStrIter.new c).pei = itemsFrom StrPos.adv c.pos c.val := by
  have := itemsFrom_strPos c.pos c.val 0 0
  simp only [Nat.add_zero] at this
  exact this

/-! ## `PosStr` -/

/-- A `PosStrIter` stands for a sequence state: what it will yield is a piece of the
source, and what it has accumulated is the piece just before. -/
def PosStrIter.Means (it : PosStrIter) (q : Seq StrPos) : Prop :=
  ∃ pre acc w post pos, pos.src = pre ++ acc ++ w ++ post ∧ pos.bytePos = Str.len pre ∧
    it.pei = itemsFrom StrPos.adv (advs StrPos.adv pos acc) w ∧ q.rest = it.pei ∧
    q.pending = itemsFrom StrPos.adv pos acc ∧
    it.accum = if acc = [] then none else some ⟨acc, pos⟩

theorem posStr_conf : ChunkConf posStrOps PosStr.Means PosStrIter.Means where
  empty := ⟨rfl, [], [], rfl, rfl⟩
  isEmpty := by
    rintro c l ⟨rfl, _⟩
    simp only [posStrOps, itemsFrom_isEmpty]
    rcases hc : c.val with _ | ⟨x, s⟩
    · rfl
    · have := Str.lenUtf8_pos x
      simp [Str.len]; omega
  srcStrm := by
    rintro c l ⟨rfl, pre, post, h1, h2⟩
    refine ⟨pre, [], c.val, post, c.pos, by simpa using h1, h2, PosStrIter.new_pei c,
      (PosStrIter.new_pei c).symm, rfl, rfl⟩
  peek := by
    rintro s ⟨p, r⟩ ⟨pre, acc, w, post, pos, h1, h2, h3, h4, h5, h6⟩
    simp only at h4 h5
    refine ⟨s, ?_, pre, acc, w, post, pos, h1, h2, h3, h4, h5, h6⟩
    simp [posStrOps, PosStrIter.peek, h4]
  next := by
    rintro s ⟨p, r⟩ ⟨pre, acc, w, post, pos, h1, h2, h3, h4, h5, h6⟩
    simp only at h4 h5
    subst h4
    refine ⟨⟨s.pei.tail, none⟩, rfl, ?_⟩
    rcases w with _ | ⟨c, w⟩
    · refine ⟨pre ++ acc, [], [], post, advs StrPos.adv pos acc, ?_, ?_, ?_, rfl, rfl, rfl⟩
      · simp [advs_strPos, h1]
      · simp [advs_strPos, h2, Str.len_append]
      · simp [h3, itemsFrom]
    · refine ⟨pre ++ acc ++ [c], [], w, post, advs StrPos.adv pos (acc ++ [c]), ?_, ?_, ?_, rfl, rfl, rfl⟩
      · simp [advs_strPos, h1]
      · simp [advs_strPos, h2, Str.len_append]
      · simp [h3, itemsFrom, advs_append, advs]
  nextAccum := by
    rintro s ⟨p, r⟩ ⟨pre, acc, w, post, pos, h1, h2, h3, h4, h5, h6⟩
    simp only at h4 h5
    subst h4
    rcases w with _ | ⟨c, w⟩
    · have h3' : s.pei = [] := h3
      refine ⟨s, by simp [posStrOps, PosStrIter.nextAccum, h3'], ?_⟩
      exact ⟨pre, acc, [], post, pos, h1, h2, h3, by simp [h3'], by simp [h3', h5], h6⟩
    · simp only [itemsFrom] at h3
      have hb : (advs StrPos.adv pos acc).bytePos = Str.len pre + Str.len acc := by
        simp [advs_strPos, h2]
      refine ⟨⟨itemsFrom StrPos.adv (advs StrPos.adv pos (acc ++ [c])) w, some ⟨acc ++ [c], pos⟩⟩, ?_, ?_⟩
      · simp only [posStrOps, PosStrIter.nextAccum, h3, h6]
        by_cases ha : acc = []
        · subst ha
          simp only [if_true, advs, List.nil_append, List.head?_cons]
          rw [show pos.src = pre ++ [c] ++ (w ++ post) by simp [h1],
            Str.slice_mid pre [c] (w ++ post) h2 (by simp [h2, Str.len])]
        · simp only [if_neg ha, List.head?_cons, hb]
          rw [show pos.src = pre ++ (acc ++ [c]) ++ (w ++ post) by simp [h1],
            Str.slice_mid pre (acc ++ [c]) (w ++ post) h2 (by simp [Str.len_append, Str.len, Nat.add_assoc])]
          simp [advs_append, advs]
      · refine ⟨pre, acc ++ [c], w, post, pos, by simp [h1], h2, rfl, ?_, ?_, by simp⟩
        · simp [h3, advs_append, advs]
        · simp [h3, h5, itemsFrom_append, itemsFrom]
  accumDone := by
    rintro s ⟨p, r⟩ ⟨pre, acc, w, post, pos, h1, h2, h3, h4, h5, h6⟩
    simp only at h4 h5
    subst h4 h5
    refine ⟨s.accum.getD .empty, ⟨s.pei, none⟩, rfl, ?_, ?_⟩
    · rw [h6]
      by_cases ha : acc = []
      · subst ha; exact ⟨rfl, [], [], rfl, rfl⟩
      · simp only [if_neg ha, Option.getD_some]
        exact ⟨rfl, pre, w ++ post, by simp [h1], h2⟩
    · refine ⟨pre ++ acc, [], w, post, advs StrPos.adv pos acc, ?_, ?_, h3, rfl, rfl, rfl⟩
      · simp [advs_strPos, h1]
      · simp [advs_strPos, h2, Str.len_append]

/-! ## `PosStrish` -/

/-- A `PosStrishIter` stands for a sequence state: `u`, `acc` and `w` are the parts
of its chunk that are done with, accumulated, and still to come; if it has peeked,
then its indexes are already past the first character still to come. -/
def PosStrishIter.Means (it : PosStrishIter) (q : Seq CharPos) : Prop :=
  ∃ pre u acc w post, it.chunk.val.strish = pre ++ (u ++ acc ++ w) ++ post ∧
    it.chunk.val.start = Str.len pre ∧
    it.chunk.val.end = Str.len pre + Str.len (u ++ acc ++ w) ∧
    q.rest = itemsFrom CharPos.adv ⟨it.chunk.pos.n + (u ++ acc).length⟩ w ∧
    q.pending = itemsFrom CharPos.adv ⟨it.chunk.pos.n + u.length⟩ acc ∧
    (it.accum = if acc = [] then none else
      some (Str.len u, Str.len (u ++ acc), ⟨it.chunk.pos.n + u.length⟩)) ∧
    ((it.peeked = none ∧ it.byteIdx = Str.len (u ++ acc) ∧ it.charIdx = (u ++ acc).length) ∨
     (∃ c w', w = c :: w' ∧ it.peeked = some ⟨c, ⟨it.chunk.pos.n + (u ++ acc).length⟩⟩ ∧
      it.byteIdx = Str.len (u ++ acc ++ [c]) ∧ it.charIdx = (u ++ acc ++ [c]).length))

theorem PosStrishIter.doNextNoPeeked_eq {it : PosStrishIter} {pre v post u w : Str}
    (h1 : it.chunk.val.strish = pre ++ v ++ post) (h2 : it.chunk.val.start = Str.len pre)
    (h3 : it.chunk.val.end = Str.len pre + Str.len v) (hv : v = u ++ w)
    (hb : it.byteIdx = Str.len u) :
    it.doNextNoPeeked = match (generalizing := false) w with
      | [] => (.ok none, it)
      | ch :: _ => (.ok (some ⟨ch, ⟨it.chunk.pos.n + it.charIdx⟩⟩),
        { it with charIdx := it.charIdx + 1, byteIdx := it.byteIdx + Str.lenUtf8 ch }) := by
  unfold doNextNoPeeked RefCntSlice.asStr
  rw [h1, Str.slice_mid pre v post h2 h3, Option.bind_some, hv, Str.sliceFrom_mid u w hb]
  cases w <;> rfl

/-- `do_next` yields the next item, and leaves the indexes just after it. -/
theorem PosStrishIter.doNext_eq {it : PosStrishIter} {pre v post u w : Str}
    (h1 : it.chunk.val.strish = pre ++ v ++ post) (h2 : it.chunk.val.start = Str.len pre)
    (h3 : it.chunk.val.end = Str.len pre + Str.len v) (hv : v = u ++ w)
    (hp : (it.peeked = none ∧ it.byteIdx = Str.len u ∧ it.charIdx = u.length) ∨
     (∃ c w', w = c :: w' ∧ it.peeked = some ⟨c, ⟨it.chunk.pos.n + u.length⟩⟩ ∧
      it.byteIdx = Str.len (u ++ [c]) ∧ it.charIdx = (u ++ [c]).length)) :
    it.doNext = match (generalizing := false) w with
      | [] => (.ok none, it)
      | ch :: _ => (.ok (some ⟨ch, ⟨it.chunk.pos.n + u.length⟩⟩),
        { it with peeked := none, charIdx := u.length + 1, byteIdx := Str.len u + Str.lenUtf8 ch }) := by
  unfold doNext
  rcases hp with ⟨hp, hb, hc⟩ | ⟨c, w', rfl, hp, hb, hc⟩
  · rw [hp]
    simp only
    rw [doNextNoPeeked_eq h1 h2 h3 hv hb]
    cases w with
    | nil => rfl
    | cons c w => simp only [hc, hb, hp]
  · rw [hp]
    simp [hb, hc, Str.len_append, Str.len]

theorem posStrish_conf : ChunkConf posStrishOps PosStrish.Means PosStrishIter.Means where
  empty := ⟨[], [], [], rfl, rfl, rfl, rfl⟩
  isEmpty := by
    rintro c l ⟨pre, v, post, h1, h2, h3, rfl⟩
    simp only [posStrishOps, RefCntSlice.asStr]
    rw [h1, Str.slice_mid pre v post h2 h3]
    simp only [itemsFrom_isEmpty]
    rcases v with _ | ⟨x, s⟩
    · rfl
    · have := Str.lenUtf8_pos x
      simp [Str.len]; omega
  srcStrm := by
    rintro c l ⟨pre, v, post, h1, h2, h3, rfl⟩
    exact ⟨pre, [], [], v, post, h1, h2, h3, rfl, rfl, rfl, Or.inl ⟨rfl, rfl, rfl⟩⟩
  peek := by
    rintro s ⟨p, r⟩ ⟨pre, u, acc, w, post, h1, h2, h3, h4, h5, h6, h7⟩
    simp only at h4 h5
    subst h4 h5
    rcases h7 with ⟨hp, hb, hc⟩ | ⟨c, w', rfl, hp, hb, hc⟩
    · have hn := PosStrishIter.doNextNoPeeked_eq (u := u ++ acc) h1 h2 h3 rfl hb
      simp only [posStrishOps, PosStrishIter.peek, hp, hn]
      rcases w with _ | ⟨c, w⟩
      · refine ⟨_, rfl, pre, u, acc, [], post, h1, h2, h3, rfl, rfl, h6, Or.inl ⟨rfl, hb, hc⟩⟩
      · refine ⟨⟨s.chunk, s.byteIdx + Str.lenUtf8 c, s.charIdx + 1,
          some ⟨c, ⟨s.chunk.pos.n + s.charIdx⟩⟩, s.accum⟩, by simp [itemsFrom, hc], pre, u, acc, c :: w, post, h1, h2, h3, rfl, rfl, h6,
          Or.inr ⟨c, w, rfl, ?_, ?_, ?_⟩⟩
        · simp [hc]
        · simp [hb, Str.len_append, Str.len, Nat.add_assoc]
        · simp [hc, Nat.add_assoc]
    · refine ⟨s, by simp [posStrishOps, PosStrishIter.peek, hp, itemsFrom], pre, u, acc, c :: w', post,
        h1, h2, h3, rfl, rfl, h6, Or.inr ⟨c, w', rfl, hp, hb, hc⟩⟩
  next := by
    rintro s ⟨p, r⟩ ⟨pre, u, acc, w, post, h1, h2, h3, h4, h5, h6, h7⟩
    simp only at h4 h5
    subst h4 h5
    have hn := PosStrishIter.doNext_eq (it := { s with accum := none }) (u := u ++ acc) h1 h2 h3 rfl h7
    simp only [posStrishOps, PosStrishIter.next, hn]
    rcases w with _ | ⟨c, w⟩
    · refine ⟨_, rfl, pre, u ++ acc, [], [], post, by simpa using h1, h2, by simpa using h3,
        rfl, rfl, rfl, ?_⟩
      simpa using h7
    · refine ⟨⟨s.chunk, Str.len (u ++ acc) + Str.lenUtf8 c, (u ++ acc).length + 1, none, none⟩, by simp [itemsFrom], pre, u ++ acc ++ [c], [], w, post, by simpa using h1, h2,
        by simpa using h3, ?_, rfl, rfl, Or.inl ⟨rfl, ?_, ?_⟩⟩
      · simp [itemsFrom, CharPos.adv, Nat.add_assoc]
      · simp [Str.len_append, Str.len, Nat.add_assoc]
      · simp [Nat.add_assoc]
  nextAccum := by
    rintro s ⟨p, r⟩ ⟨pre, u, acc, w, post, h1, h2, h3, h4, h5, h6, h7⟩
    simp only at h4 h5
    subst h4 h5
    have hn := PosStrishIter.doNext_eq (u := u ++ acc) h1 h2 h3 rfl h7
    simp only [posStrishOps, PosStrishIter.nextAccum, hn]
    rcases w with _ | ⟨c, w⟩
    · refine ⟨_, rfl, pre, u, acc, [], post, h1, h2, h3, rfl, by simp [itemsFrom], h6, h7⟩
    · have hl := Str.lenUtf8_pos c
      have hmeans : ∀ s' : PosStrishIter, s'.chunk = s.chunk → s'.peeked = none →
          s'.charIdx = (u ++ acc).length + 1 → s'.byteIdx = Str.len (u ++ acc) + Str.lenUtf8 c →
          s'.accum = some (Str.len u, Str.len (u ++ acc) + Str.lenUtf8 c, ⟨s.chunk.pos.n + u.length⟩) →
          PosStrishIter.Means s' ⟨itemsFrom CharPos.adv ⟨s.chunk.pos.n + u.length⟩ acc ++
            (itemsFrom CharPos.adv ⟨s.chunk.pos.n + (u ++ acc).length⟩ (c :: w)).head?.toList,
            (itemsFrom CharPos.adv ⟨s.chunk.pos.n + (u ++ acc).length⟩ (c :: w)).tail⟩ := by
        intro s' e1 e2 e3 e4 e5
        refine ⟨pre, u, acc ++ [c], w, post, by simpa [e1] using h1, by simpa [e1] using h2,
          by simpa [e1] using h3, ?_, ?_, ?_, Or.inl ⟨e2, ?_, ?_⟩⟩
        · simp [itemsFrom, CharPos.adv, e1, Nat.add_assoc]
        · simp [itemsFrom_append, itemsFrom, e1, advs_charPos, Nat.add_assoc]
        · simp [e5, e1, Str.len_append, Str.len, Nat.add_assoc]
        · simp [e4, Str.len_append, Str.len, Nat.add_assoc]
        · simp [e3, Nat.add_assoc]
      simp only [h6]
      by_cases ha : acc = []
      · subst ha
        simp only [if_true]
        rw [if_pos ⟨by omega, by omega⟩]
        refine ⟨_, rfl, hmeans _ rfl rfl rfl rfl ?_⟩
        simp
      · simp only [if_neg ha]
        refine ⟨_, rfl, hmeans _ rfl rfl rfl rfl ?_⟩
        simp
  accumDone := by
    rintro s ⟨p, r⟩ ⟨pre, u, acc, w, post, h1, h2, h3, h4, h5, h6, h7⟩
    simp only at h4 h5
    subst h4 h5
    simp only [posStrishOps, PosStrishIter.accumDone, h6]
    by_cases ha : acc = []
    · subst ha
      refine ⟨.empty, s, by simp, ⟨[], [], [], rfl, rfl, rfl, rfl⟩, pre, u, [], w, post, h1, h2, h3, rfl,
        rfl, h6, h7⟩
    · simp only [if_neg ha]
      have hs : RefCntSlice.slice s.chunk.val (Str.len u) (Str.len (u ++ acc)) =
          some ⟨s.chunk.val.strish, s.chunk.val.start + Str.len u, s.chunk.val.start + Str.len (u ++ acc)⟩ := by
        unfold RefCntSlice.slice
        rw [if_pos]
        simp only [h2, h3, Str.len_append]
        omega
      rw [hs]
      refine ⟨_, _, rfl, ⟨pre ++ u, acc, w ++ post, by simp [h1], ?_, ?_, rfl⟩,
        pre, u ++ acc, [], w, post, by simpa using h1, h2, by simpa using h3, by simp, rfl, rfl, ?_⟩
      · simp [h2, Str.len_append]
      · simp [h2, Str.len_append, Nat.add_assoc]
      · simpa using h7

end Kul
