import Verif.Proof.Counters

/-! # The counters of `StrishIterSourceStream` do not overflow -/

namespace Kul

variable {σ P τ ε α CE : Type}

/-- Adds an invariant of the stream to what its states stand for. -/
theorem Conf.and {E : Env σ P τ ε α CE} {RS : σ → Seq P → Prop} {X : TextSem P τ α} (C : Conf E RS X) {I : σ → Prop}
    (hp : ∀ s, I s → I (E.strm.peek s).2) (hn : ∀ s, I s → I (E.strm.next s).2)
    (ha : ∀ s a, I s → I (E.strm.nextAccum s a).2.1) (hd : ∀ s a, I s → I (E.strm.accumDone s a).2.1) :
    Conf E (fun s q => RS s q ∧ I s) X where
  refl := C.refl
  trans := C.trans
  peek := by
    rintro s q ⟨h, hi⟩
    obtain ⟨s', g1, g2⟩ := C.peek s q h
    have := hp s hi
    rw [g1] at this
    exact ⟨s', g1, g2, this⟩
  next := by
    rintro s q ⟨h, hi⟩
    obtain ⟨s', g1, g2⟩ := C.next s q h
    have := hn s hi
    rw [g1] at this
    exact ⟨s', g1, g2, this⟩
  nextAccum := by
    rintro s q a ⟨h, hi⟩
    obtain ⟨o, s', a', g1, g3, g2⟩ := C.nextAccum s q a h
    have := ha s a hi
    rw [g1] at this
    refine ⟨o, s', a', g1, g3, ?_⟩
    rcases g2 with ⟨h1, g2⟩ | ⟨h1, h2, h3, g2⟩
    · exact Or.inl ⟨h1, g2, this⟩
    · exact Or.inr ⟨h1, h2, h3, g2, this⟩
  accumDone := by
    rintro s q a ⟨h, hi⟩
    obtain ⟨o, s', a', g1, g3, g2, g4⟩ := C.accumDone s q a h
    have := hd s a hi
    rw [g1] at this
    exact ⟨o, s', a', g1, g3, ⟨g2, this⟩, g4⟩
  empty := C.empty
  concat := C.concat

namespace StrishIter

variable (M : Nat)

/-- The string of the stream is not too long. -/
def ShortOpt (o : Option PosStrishIter) : Prop := ∀ s, o = some s → Str.len s.chunk.val.strish ≤ M

/-- No string of the source is too long. -/
structure Short (it : StrishIter τ) : Prop where
  cur : ShortOpt M it.cur
  peeked : ShortOpt M it.peekedStrm
  strs : ∀ s ∈ it.strishIter, Str.len s ≤ M

variable {M}

theorem ShortOpt.none : ShortOpt M none := fun _ h => by cases h

theorem ShortOpt.of {s s' : PosStrishIter} (h : ShortOpt M (some s)) (e : s'.chunk = s.chunk) : ShortOpt M (some s') := by
  rintro _ ⟨⟩
  rw [e]
  exact h s rfl

theorem nextPosstrishOf_short (k : Nat) : ∀ ss : List Str, (∀ s ∈ ss, Str.len s ≤ M) →
    ShortOpt M (nextPosstrishOf k ss).1 ∧ ∀ s ∈ (nextPosstrishOf k ss).2, Str.len s ≤ M
  | [], _ => ⟨.none, fun _ h => by cases h⟩
  | s :: ss, h => by
    unfold nextPosstrishOf
    split
    · refine ⟨?_, fun x hx => h x (List.mem_cons_of_mem _ hx)⟩
      rintro _ ⟨⟩
      exact h s List.mem_cons_self
    · exact nextPosstrishOf_short k ss fun x hx => h x (List.mem_cons_of_mem _ hx)

theorem nextPosstrish_short {it it' : StrishIter τ} (h : it.Short M) (e : it.nextPosstrish = some it') : it'.Short M := by
  unfold nextPosstrish at e
  split at e
  · cases e
  · split at e
    · split at e
      · next p hp => cases e; exact ⟨hp ▸ h.peeked, .none, h.strs⟩
      · have := nextPosstrishOf_short it.charIdx it.strishIter h.strs
        cases e
        exact ⟨this.1, h.peeked, this.2⟩
    · cases e

theorem Short.setCur {it : StrishIter τ} (h : it.Short M) {s s' : PosStrishIter} (hc : it.cur = some s) (e : s'.chunk = s.chunk)
    {acc : Option τ} {k : Nat} : Short M { it with cur := some s', accum := acc, charIdx := k } :=
  ⟨(hc ▸ h.cur : ShortOpt M (some s)).of e, h.peeked, h.strs⟩

theorem nextLoop_short : ∀ (n : Nat) {it : StrishIter τ}, it.Short M → (nextLoop n it).2.Short M
  | 0, _, h => h
  | n + 1, it, h => by
    unfold nextLoop
    rcases hc : it.cur with _ | s
    · exact h
    · simp only
      have e := s.next_chunk
      rcases hn : s.next with ⟨(_ | x) | _ | _ | _, s'⟩
      · rw [hn] at e
        simp only
        rcases hp : nextPosstrish { it with cur := some s' } with _ | it'
        · exact h.setCur hc e
        · exact nextLoop_short n (nextPosstrish_short (h.setCur hc e) hp)
      all_goals rw [hn] at e; exact h.setCur hc e

theorem peek_short {it : StrishIter τ} (h : it.Short M) : it.peek.2.Short M := by
  unfold peek
  rcases hc : it.cur with _ | s
  · exact h
  · simp only
    have e := s.peek_chunk
    rcases hn : s.peek with ⟨(_ | x) | _ | _ | _, s'⟩
    · rw [hn] at e
      simp only
      rcases hp : it.peekedStrm with _ | p
      · have k := nextPosstrishOf_short it.charIdx it.strishIter h.strs
        rcases ho : nextPosstrishOf it.charIdx it.strishIter with ⟨_ | p, ss⟩
        · rw [ho] at k
          exact ⟨(hc ▸ h.cur : ShortOpt M (some s)).of e, .none, k.2⟩
        · rw [ho] at k
          have e2 := p.peek_chunk
          rcases hpp : p.peek with ⟨o, p'⟩
          rw [hpp] at e2
          simp only [hpp]
          exact ⟨(hc ▸ h.cur : ShortOpt M (some s)).of e, k.1.of e2, k.2⟩
      · have e2 := p.peek_chunk
        rcases hpp : p.peek with ⟨o, p'⟩
        rw [hpp] at e2
        simp only [hpp]
        exact ⟨(hc ▸ h.cur : ShortOpt M (some s)).of e, (hp ▸ h.peeked : ShortOpt M (some p)).of e2, h.strs⟩
    all_goals rw [hn] at e; exact h.setCur hc e

theorem nextAccumLoop_short (T : TextType PosStrish τ α) : ∀ (n : Nat) {it : StrishIter τ} (a : α), it.Short M →
    (nextAccumLoop T n it a).2.1.Short M
  | 0, _, _, h => h
  | n + 1, it, a, h => by
    unfold nextAccumLoop
    rcases hc : it.cur with _ | s
    · exact h
    · simp only
      have e := s.nextAccum_chunk
      rcases hn : s.nextAccum with ⟨(_ | x) | _ | _ | _, s'⟩
      · rw [hn] at e
        simp only
        have e2 := s'.accumDone_chunk
        rcases hd : s'.accumDone with ⟨c | _ | _ | _, s2⟩
        · rw [hd] at e2
          simp only
          rcases hk : T.concat (it.accum.getD T.empty) (T.ofChunk c) a with ⟨acc | _ | _ | _, a'⟩
          · simp only
            rcases hp : nextPosstrish { it with cur := some s2, accum := some acc } with _ | it'
            · exact h.setCur hc (e2.trans e)
            · exact nextAccumLoop_short T n a' (nextPosstrish_short (h.setCur hc (e2.trans e)) hp)
          all_goals exact h.setCur hc (e2.trans e)
        all_goals rw [hd] at e2; exact h.setCur hc (e2.trans e)
      all_goals rw [hn] at e; exact h.setCur hc e

theorem accumDone_short (T : TextType PosStrish τ α) {it : StrishIter τ} (a : α) (h : it.Short M) :
    (accumDone T it a).2.1.Short M := by
  unfold accumDone
  rcases hc : it.cur with _ | s
  · exact ⟨.none, h.peeked, h.strs⟩
  · simp only
    have e := s.accumDone_chunk
    rcases hd : s.accumDone with ⟨c | _ | _ | _, s2⟩
    all_goals rw [hd] at e; exact h.setCur hc e

theorem new_short {ss : List Str} (h : ∀ s ∈ ss, Str.len s ≤ M) : (StrishIter.new ss : StrishIter τ).Short M := by
  have k := nextPosstrishOf_short 0 ss h
  unfold StrishIter.new
  exact ⟨k.1, .none, k.2⟩

end StrishIter

theorem strishIter_confM (M : Nat) {T : TextType PosStrish τ α} {RA : α → α → Prop} {F : Prop}
    (K : TextConf T PosStrish.Means RA F) {E : Env (StrishIter τ) CharPos τ ε α CE} (hs : E.strm = strishIterOps T)
    (ht : E.text = T.ops) :
    Conf E (fun it q => StrishIter.Means T it q ∧ it.Short M) (T.sem PosStrish.Means RA F) := by
  refine (strishIter_conf K hs ht).and ?_ ?_ ?_ ?_
  · intro s h; rw [hs]; exact StrishIter.peek_short h
  · intro s h; rw [hs]; exact StrishIter.nextLoop_short _ ⟨h.cur, h.peeked, h.strs⟩
  · intro s a h; rw [hs]; exact StrishIter.nextAccumLoop_short T _ a h
  · intro s a h; rw [hs]; exact StrishIter.accumDone_short T a h

namespace StrishIter

variable {M : Nat} {T : TextType PosStrish τ α}

/-- What is to come in the current string fits. -/
theorem fits_left {k : Nat} {p p' : List (Item CharPos)} {v v' : Str} (hf : Seq.Fits (CharPos.Fit M) ⟨p, itemsFrom CharPos.adv ⟨k⟩ (v ++ v')⟩) :
    Seq.Fits (CharPos.Fit M) ⟨p', itemsFrom CharPos.adv ⟨k⟩ v⟩ := by
  rw [itemsFrom_append] at hf
  exact hf.left

theorem fits_nil {p : List (Item CharPos)} : Seq.Fits (CharPos.Fit M) ⟨p, []⟩ := fun _ h => by cases h

theorem nextPosstrish_sameM {it : StrishIter τ} {s : PosStrishIter} {q : Seq CharPos} (hc : it.cur = some s)
    (h : PosStrishIter.MeansM M s q) (hf : q.Fits (CharPos.Fit M)) : it.nextPosstrishM M = it.nextPosstrish := by
  unfold nextPosstrishM nextPosstrish
  have e : s.peekM M = s.peek := (posStrish_same M).peek s q h hf
  rw [hc]
  simp only [e]
  rfl

theorem nextLoop_sameM {it : StrishIter τ} {s : PosStrishIter} {p : List (Item CharPos)} {c : Char} {w : Str} (n : Nat)
    (hc : it.cur = some s) (h : PosStrishIter.MeansM M s ⟨p, itemsFrom CharPos.adv ⟨it.charIdx⟩ (c :: w)⟩)
    (hf : Seq.Fits (CharPos.Fit M) ⟨p, itemsFrom CharPos.adv ⟨it.charIdx⟩ (c :: w)⟩) :
    nextLoopM M (n + 1) it = nextLoop (n + 1) it := by
  obtain ⟨s', g1, g2⟩ := posStrish_conf.next s _ h.1
  have g1' : s.next = (.ok (some ⟨c, ⟨it.charIdx⟩⟩), s') := g1
  have e : s.nextM M = s.next := (posStrish_same M).next s _ h hf
  have hx : it.charIdx + 1 ≤ M := hf ⟨c, ⟨it.charIdx⟩⟩ List.mem_cons_self
  simp only [nextLoopM, nextLoop, hc, e, g1', if_pos hx]

theorem nextAccumLoop_sameM {it : StrishIter τ} {s : PosStrishIter} {p : List (Item CharPos)} {c : Char} {w : Str} (n : Nat)
    (a : α) (hc : it.cur = some s) (h : PosStrishIter.MeansM M s ⟨p, itemsFrom CharPos.adv ⟨it.charIdx⟩ (c :: w)⟩)
    (hf : Seq.Fits (CharPos.Fit M) ⟨p, itemsFrom CharPos.adv ⟨it.charIdx⟩ (c :: w)⟩) :
    nextAccumLoopM M T (n + 1) it a = nextAccumLoop T (n + 1) it a := by
  obtain ⟨s', g1, g2⟩ := posStrish_conf.nextAccum s _ h.1
  have g1' : s.nextAccum = (.ok (some ⟨c, ⟨it.charIdx⟩⟩), s') := g1
  have e : s.nextAccumM M = s.nextAccum := (posStrish_same M).nextAccum s _ h hf
  have hx : it.charIdx + 1 ≤ M := hf ⟨c, ⟨it.charIdx⟩⟩ List.mem_cons_self
  simp only [nextAccumLoopM, nextAccumLoop, hc, e, g1', if_pos hx]

theorem samePeek (it : StrishIter τ) (q : Seq CharPos) (h : StrishIter.Means T it q ∧ it.Short M)
    (hf : q.Fits (CharPos.Fit M)) : it.peekM M = it.peek := by
  obtain ⟨⟨p1, p2, h1, h2, h3⟩, hsh⟩ := h
  obtain ⟨p, r⟩ := q
  simp only at h2 h3
  unfold peekM peek
  rcases h3 with ⟨h3, rfl, rfl⟩ | ⟨s, w, h3, h4, h5⟩
  · rw [h3]
  · rw [h3]
    have hM : PosStrishIter.MeansM M s ⟨p2, itemsFrom CharPos.adv ⟨it.charIdx⟩ w⟩ := ⟨h4, hsh.cur s h3⟩
    have hfs : Seq.Fits (CharPos.Fit M) ⟨p2, itemsFrom CharPos.adv ⟨it.charIdx⟩ w⟩ := by
      rcases h5 with ⟨_, rfl⟩ | ⟨rfl, _⟩
      · exact fits_left hf
      · exact fits_nil
    have e : s.peekM M = s.peek := (posStrish_same M).peek s _ hM hfs
    simp only [e]
    cases w with
    | cons c w =>
      obtain ⟨s', g1, g2⟩ := posStrish_conf.peek s _ h4
      have g1' : s.peek = (.ok (some ⟨c, ⟨it.charIdx⟩⟩), s') := g1
      simp only [g1']
    | nil =>
      obtain ⟨s', g1, g2⟩ := posStrish_conf.peek s _ h4
      have g1' : s.peek = (.ok none, s') := g1
      simp only [g1']
      rcases h5 with ⟨k1, rfl⟩ | ⟨_, ps, v, k1, k2, k3, rfl⟩
      · rw [k1]
        simp only
        have k := nextPosstrishOf_short it.charIdx it.strishIter hsh.strs
        rcases nextPosstrishOf_spec it.charIdx it.strishIter with ⟨m1, m2⟩ | ⟨ps, v, ss', m1, m2, m3, m4⟩
        · simp only [m1]
        · rw [m1] at k
          rw [List.nil_append, m3] at hf
          have e2 : ps.peekM M = ps.peek := (posStrish_same M).peek ps _ ⟨m4, k.1 ps rfl⟩ (fits_left hf)
          simp only [m1, e2]
      · rw [k1]
        have e2 : ps.peekM M = ps.peek := (posStrish_same M).peek ps _ ⟨k3, hsh.peeked ps k1⟩ (fits_left hf)
        simp only [e2]

theorem sameNext (it : StrishIter τ) (q : Seq CharPos) (h : StrishIter.Means T it q ∧ it.Short M)
    (hf : q.Fits (CharPos.Fit M)) : it.nextM M = it.next := by
  obtain ⟨⟨p1, p2, h1, h2, h3⟩, hsh⟩ := h
  obtain ⟨p, r⟩ := q
  simp only at h2 h3
  unfold nextM next
  rcases h3 with ⟨h3, rfl, rfl⟩ | ⟨s, w, h3, h4, h5⟩
  · simp only [turns, nextLoopM, nextLoop, h3]
  · have hM : PosStrishIter.MeansM M s ⟨p2, itemsFrom CharPos.adv ⟨it.charIdx⟩ w⟩ := ⟨h4, hsh.cur s h3⟩
    have hfs : Seq.Fits (CharPos.Fit M) ⟨p2, itemsFrom CharPos.adv ⟨it.charIdx⟩ w⟩ := by
      rcases h5 with ⟨_, rfl⟩ | ⟨rfl, _⟩
      · exact fits_left hf
      · exact fits_nil
    cases w with
    | cons c w => exact nextLoop_sameM (it := { it with accum := none }) 1 h3 hM hfs
    | nil =>
      obtain ⟨s', g1, g2⟩ := posStrish_conf.next s _ h4
      have g1' : s.next = (.ok none, s') := g1
      have hch := s.next_chunk
      rw [g1'] at hch
      have e : s.nextM M = s.next := (posStrish_same M).next s _ hM hfs
      have hsh' : Short (τ := τ) M { it with cur := some s', accum := none } :=
        Short.setCur (it := it) hsh h3 hch
      have e2 : nextPosstrishM (τ := τ) M { it with cur := some s', accum := none } =
          nextPosstrish (τ := τ) { it with cur := some s', accum := none } :=
        nextPosstrish_sameM rfl ⟨g2, hsh'.cur s' rfl⟩ fits_nil
      have h5' : (it.peekedStrm = none ∧ r = itemsFrom CharPos.adv ⟨it.charIdx⟩ it.strishIter.flatten) ∨ _ :=
        h5.imp id And.right
      rw [turns, nextLoopM, nextLoop]
      simp only [h3, e, g1', e2]
      rcases nextPosstrish_spec (τ := τ) (it := { it with cur := some s', accum := none }) rfl g2 h5' with
        ⟨it', k1, k2, k3, rfl⟩ | ⟨it', s'', v, k1, k2, k3, k4, k5, k6, k7, rfl⟩
      · simp only [k1, nextLoopM, nextLoop, k2]
      · cases v with
        | nil => exact absurd rfl k6
        | cons c v =>
          simp only [k1]
          have k := nextPosstrish_short hsh' k1
          rw [← k5] at k7
          have hf' : Seq.Fits (CharPos.Fit M) ⟨[], itemsFrom CharPos.adv ⟨it'.charIdx⟩ (c :: v)⟩ := by
            rw [k5]; exact fits_left hf
          exact nextLoop_sameM 0 k2 ⟨k7, k.cur s'' k2⟩ hf'

theorem sameNextAccum (it : StrishIter τ) (q : Seq CharPos) (a : α) (h : StrishIter.Means T it q ∧ it.Short M)
    (hf : q.Fits (CharPos.Fit M)) : nextAccumLoopM M T turns it a = nextAccumLoop T turns it a := by
  obtain ⟨⟨p1, p2, h1, h2, h3⟩, hsh⟩ := h
  obtain ⟨p, r⟩ := q
  simp only at h2 h3
  rcases h3 with ⟨h3, rfl, rfl⟩ | ⟨s, w, h3, h4, h5⟩
  · simp only [turns, nextAccumLoopM, nextAccumLoop, h3]
  · have hM : PosStrishIter.MeansM M s ⟨p2, itemsFrom CharPos.adv ⟨it.charIdx⟩ w⟩ := ⟨h4, hsh.cur s h3⟩
    have hfs : Seq.Fits (CharPos.Fit M) ⟨p2, itemsFrom CharPos.adv ⟨it.charIdx⟩ w⟩ := by
      rcases h5 with ⟨_, rfl⟩ | ⟨rfl, _⟩
      · exact fits_left hf
      · exact fits_nil
    cases w with
    | cons c w => exact nextAccumLoop_sameM 1 a h3 hM hfs
    | nil =>
      obtain ⟨s', g1, g2⟩ := posStrish_conf.nextAccum s _ h4
      have g1' : s.nextAccum = (.ok none, s') := g1
      have hch := s.nextAccum_chunk
      rw [g1'] at hch
      have e : s.nextAccumM M = s.nextAccum := (posStrish_same M).nextAccum s _ hM hfs
      obtain ⟨c, s'', g3, g4, g5⟩ := posStrish_conf.accumDone s' _ g2
      have g3' : s'.accumDone = (.ok c, s'') := g3
      have hch2 := s'.accumDone_chunk
      rw [g3'] at hch2
      have hl' : Str.len s'.chunk.val.strish ≤ M := by rw [hch]; exact hM.2
      have e1 : s'.accumDoneM M = s'.accumDone := (posStrish_same M).accumDone s' _ ⟨g2, hl'⟩ fits_nil
      rw [turns, nextAccumLoopM, nextAccumLoop]
      simp only [h3, e, g1', e1, g3']
      rcases hk : T.concat (it.accum.getD T.empty) (T.ofChunk c) a with ⟨acc | _ | _ | _, a'⟩
      · simp only
        have hsh' : Short M { it with cur := some s'', accum := some acc } := Short.setCur (it := it) hsh h3 (hch2.trans hch)
        have e2 : nextPosstrishM M { it with cur := some s'', accum := some acc } =
            nextPosstrish { it with cur := some s'', accum := some acc } :=
          nextPosstrish_sameM rfl ⟨g5, hsh'.cur s'' rfl⟩ fits_nil
        have h5' : (it.peekedStrm = none ∧ r = itemsFrom CharPos.adv ⟨it.charIdx⟩ it.strishIter.flatten) ∨ _ :=
          h5.imp id And.right
        rw [e2]
        rcases nextPosstrish_spec (τ := τ) (it := { it with cur := some s'', accum := some acc }) rfl g5 h5' with
          ⟨it', k1, k2, k3, rfl⟩ | ⟨it', s3, v, k1, k2, k3, k4, k5, k6, k7, rfl⟩
        · simp only [k1, nextAccumLoopM, nextAccumLoop, k2]
        · cases v with
          | nil => exact absurd rfl k6
          | cons c v =>
            simp only [k1]
            have k := nextPosstrish_short hsh' k1
            rw [← k5] at k7
            have hf' : Seq.Fits (CharPos.Fit M) ⟨[], itemsFrom CharPos.adv ⟨it'.charIdx⟩ (c :: v)⟩ := by
              rw [k5]; exact fits_left hf
            exact nextAccumLoop_sameM 0 a' k2 ⟨k7, k.cur s3 k2⟩ hf'
      all_goals rfl

theorem sameAccumDone (it : StrishIter τ) (q : Seq CharPos) (a : α) (h : StrishIter.Means T it q ∧ it.Short M)
    (hf : q.Fits (CharPos.Fit M)) : accumDoneM M T it a = accumDone T it a := by
  obtain ⟨⟨p1, p2, h1, h2, h3⟩, hsh⟩ := h
  obtain ⟨p, r⟩ := q
  simp only at h2 h3
  unfold accumDoneM accumDone
  rcases h3 with ⟨h3, rfl, rfl⟩ | ⟨s, w, h3, h4, h5⟩
  · rw [h3]
  · have hfs : Seq.Fits (CharPos.Fit M) ⟨p2, itemsFrom CharPos.adv ⟨it.charIdx⟩ w⟩ := by
      rcases h5 with ⟨_, rfl⟩ | ⟨rfl, _⟩
      · exact fits_left hf
      · exact fits_nil
    have e : s.accumDoneM M = s.accumDone := (posStrish_same M).accumDone s _ ⟨h4, hsh.cur s h3⟩ hfs
    simp only [h3, e]
    rfl

end StrishIter

end Kul
