import Verif.Proof.Chunks
import Verif.Proof.Texts

/-!
# The source streams fulfil their contract
-/

namespace Kul

variable {σ C CS P τ ε α CE : Type} {O : ChunkOps C CS P} {RC : C → List (Item P) → Prop}
  {RCS : CS → Seq P → Prop} {T : TextType C τ α} {RA : α → α → Prop} {F : Prop}

/-- What an optional accumulated text stands for. -/
def TextType.MeansOpt (T : TextType C τ α) (RC : C → List (Item P) → Prop) :
    Option τ → List (Item P) → Prop
  | none, l => l = []
  | some t, l => T.Means RC t l

theorem TextType.MeansOpt.getD (K : TextConf T RC RA F) {o : Option τ} {l : List (Item P)}
    (h : T.MeansOpt RC o l) : T.Means RC (o.getD T.empty) l := by
  cases o with
  | none => simp only [MeansOpt] at h; subst h; exact K.empty
  | some t => exact h

/-! ## `text::Iter` -/

/-- What the current chunk's stream and the chunks after it stand for. -/
def CurMeans (RC : C → List (Item P) → Prop) (RCS : CS → Seq P → Prop) (cur : Option CS) (cs : List C)
    (p r : List (Item P)) : Prop :=
  (cur = none ∧ cs = [] ∧ p = [] ∧ r = []) ∨
  (∃ s r1 ls, cur = some s ∧ RCS s ⟨p, r1⟩ ∧ List.Forall₂ RC cs ls ∧ r = r1 ++ ls.flatten)

/-- What a `text::Iter` stands for. -/
def TextIter.Means (T : TextType C τ α) (RC : C → List (Item P) → Prop) (RCS : CS → Seq P → Prop)
    (it : TextIter C CS P τ) (q : Seq P) : Prop :=
  ∃ p1 p2, T.MeansOpt RC it.accum p1 ∧ CurMeans RC RCS it.cur it.nextChunks p2 q.rest ∧
    q.pending = p1 ++ p2 ∧ (it.peeked = none ∨ it.peeked = q.rest.head?)

theorem head?_append_nil {A : Type} (l : List A) : ([] ++ l).head? = l.head? := rfl

theorem TextIter.nextLoop_spec (H : ChunkConf O RC RCS) : ∀ (cs : List C) (cur : Option CS)
    (p r : List (Item P)), CurMeans RC RCS cur cs p r →
    ∃ cur' cs', nextLoop O cs cur = (.ok r.head?, cur', cs') ∧ CurMeans RC RCS cur' cs' [] r.tail := by
  intro cs
  induction cs with
  | nil =>
    rintro cur p r (⟨rfl, _, rfl, rfl⟩ | ⟨s, r1, ls, rfl, h1, h2, rfl⟩)
    · exact ⟨_, _, rfl, Or.inl ⟨rfl, rfl, rfl, rfl⟩⟩
    · cases h2
      obtain ⟨s', g1, g2⟩ := H.next s _ h1
      cases r1 with
      | nil =>
        simp only [nextLoop, g1, List.head?_nil]
        exact ⟨_, _, rfl, Or.inl ⟨rfl, rfl, rfl, rfl⟩⟩
      | cons x r1 =>
        simp only [nextLoop, g1, List.head?_cons]
        exact ⟨_, _, rfl, Or.inr ⟨s', r1, [], rfl, g2, .nil, rfl⟩⟩
  | cons c cs ih =>
    rintro cur p r (⟨rfl, hcs, _⟩ | ⟨s, r1, ls, rfl, h1, h2, rfl⟩)
    · cases hcs
    · obtain ⟨s', g1, g2⟩ := H.next s _ h1
      cases r1 with
      | nil =>
        simp only [nextLoop, g1, List.head?_nil]
        cases h2 with
        | @cons _ l _ ls hc hcs =>
          exact ih _ [] _ (Or.inr ⟨_, l, ls, rfl, H.srcStrm c l hc, hcs, by simp⟩)
      | cons x r1 =>
        simp only [nextLoop, g1, List.head?_cons]
        exact ⟨_, _, rfl, Or.inr ⟨s', r1, ls, rfl, g2, h2, rfl⟩⟩

theorem TextIter.peekAhead_spec (H : ChunkConf O RC RCS) {cs : List C} {ls : List (List (Item P))}
    (h : List.Forall₂ RC cs ls) : peekAhead O cs = .ok ls.flatten.head? := by
  induction h with
  | nil => rfl
  | @cons c l cs ls h _ ih =>
    obtain ⟨s', g1, g2⟩ := H.peek _ _ (H.srcStrm c l h)
    cases l with
    | nil => simpa [peekAhead, g1] using ih
    | cons x l => simp [peekAhead, g1]

theorem TextIter.nextAccumLoop_spec (H : ChunkConf O RC RCS) (K : TextConf T RC RA F) :
    ∀ (cs : List C) (cur : Option CS) (acc : Option τ) (p1 p r : List (Item P)) (a : α),
    CurMeans RC RCS cur cs p r → T.MeansOpt RC acc p1 →
    ∃ o cur' cs' acc' a', nextAccumLoop O T cs cur acc a = (o, (cur', cs', acc'), a') ∧ RA a a' ∧
      ((o = .ok r.head? ∧ ∃ p1' p', T.MeansOpt RC acc' p1' ∧ CurMeans RC RCS cur' cs' p' r.tail ∧
        p1 ++ p ++ r.head?.toList = p1' ++ p') ∨
       (F ∧ p1 ++ p ≠ [] ∧ (∃ e, o = .err e) ∧ acc' = none ∧ CurMeans RC RCS cur' cs' [] r)) := by
  intro cs
  induction cs with
  | nil =>
    rintro cur acc p1 p r a (⟨rfl, _, rfl, rfl⟩ | ⟨s, r1, ls, rfl, h1, h2, rfl⟩) hacc
    · exact ⟨_, _, _, _, _, rfl, K.refl a, Or.inl ⟨rfl, p1, [], hacc, Or.inl ⟨rfl, rfl, rfl, rfl⟩,
        by simp⟩⟩
    · cases h2
      obtain ⟨s', g1, g2⟩ := H.nextAccum s _ h1
      cases r1 with
      | nil =>
        simp only [List.head?_nil, Option.toList_none, List.append_nil, List.tail_nil] at g1 g2
        obtain ⟨c, s'', g3, g4, g5⟩ := H.accumDone s' _ g2
        obtain ⟨o, a', g6, g7, g8⟩ := K.concat _ _ _ _ a (hacc.getD K) (K.ofChunk c _ g4)
        simp only [nextAccumLoop, g1, g3, g6]
        rcases g8 with ⟨v, rfl, hv⟩ | ⟨hF, hne, hne', e, rfl⟩
        · exact ⟨_, _, _, _, _, rfl, g7, Or.inl ⟨rfl, p1 ++ p, [], hv, Or.inl ⟨rfl, rfl, rfl, rfl⟩,
            by simp⟩⟩
        · refine ⟨_, _, _, _, _, rfl, g7, Or.inr ⟨hF, by simp [hne], ⟨e, rfl⟩, rfl, Or.inr ?_⟩⟩
          exact ⟨s'', [], [], rfl, g5, .nil, rfl⟩
      | cons x r1 =>
        simp only [nextAccumLoop, g1, List.head?_cons, Outcome.mapErr]
        exact ⟨_, _, _, _, _, rfl, K.refl a, Or.inl ⟨rfl, p1, p ++ [x], hacc, Or.inr ⟨s', r1, [], rfl,
          g2, .nil, rfl⟩, by simp⟩⟩
  | cons c cs ih =>
    rintro cur acc p1 p r a (⟨rfl, hcs, _⟩ | ⟨s, r1, ls, rfl, h1, h2, rfl⟩) hacc
    · cases hcs
    · obtain ⟨s', g1, g2⟩ := H.nextAccum s _ h1
      cases r1 with
      | nil =>
        simp only [List.head?_nil, Option.toList_none, List.append_nil, List.tail_nil] at g1 g2
        obtain ⟨c', s'', g3, g4, g5⟩ := H.accumDone s' _ g2
        obtain ⟨o, a', g6, g7, g8⟩ := K.concat _ _ _ _ a (hacc.getD K) (K.ofChunk c' _ g4)
        rw [nextAccumLoop]
        simp only [g1, g3, g6]
        rcases g8 with ⟨v, rfl, hv⟩ | ⟨hF, hne, hne', e, rfl⟩
        · cases h2 with
          | @cons _ l _ ls hc hcs =>
            obtain ⟨o, cur', cs', acc', a'', k1, k2, k3⟩ := ih (some (O.srcStrm c)) (some v) (p1 ++ p) []
              (l ++ ls.flatten) a' (Or.inr ⟨_, l, ls, rfl, H.srcStrm c l hc, hcs, rfl⟩) hv
            refine ⟨o, cur', cs', acc', a'', k1, K.trans _ _ _ g7 k2, ?_⟩
            simpa using k3
        · refine ⟨_, _, _, _, _, rfl, g7, Or.inr ⟨hF, by simp [hne], ⟨e, rfl⟩, rfl, Or.inr ?_⟩⟩
          exact ⟨s'', [], ls, rfl, g5, h2, rfl⟩
      | cons x r1 =>
        simp only [nextAccumLoop, g1, List.head?_cons, Outcome.mapErr]
        exact ⟨_, _, _, _, _, rfl, K.refl a, Or.inl ⟨rfl, p1, p ++ [x], hacc, Or.inr ⟨s', r1, ls, rfl,
          g2, h2, rfl⟩, by simp⟩⟩

/-- `text::Iter` over any text type that fulfils its contract is a conforming source
stream. -/
theorem textIter_conf (H : ChunkConf O RC RCS) (K : TextConf T RC RA F)
    {E : Env (TextIter C CS P τ) P τ ε α CE} (hs : E.strm = textIterOps O T) (ht : E.text = T.ops) :
    Conf E (TextIter.Means T RC RCS) (T.sem RC RA F) where
  refl := K.refl
  trans := K.trans
  peek := by
    rintro ⟨cur, cs, acc, pk⟩ ⟨p, r⟩ ⟨p1, p2, h1, h2, h3, h4⟩
    simp only [hs, textIterOps, TextIter.peek] at *
    rcases h4 with rfl | rfl
    · rcases h2 with ⟨rfl, rfl, rfl, rfl⟩ | ⟨s, r1, ls, rfl, g1, g2, rfl⟩
      · exact ⟨_, rfl, p1, [], h1, Or.inl ⟨rfl, rfl, rfl, rfl⟩, h3, Or.inl rfl⟩
      · obtain ⟨s', g3, g4⟩ := H.peek s _ g1
        simp only [g3]
        cases r1 with
        | nil =>
          simp only [List.head?_nil, TextIter.peekAhead_spec H g2]
          exact ⟨_, rfl, p1, p2, h1, Or.inr ⟨s', [], ls, rfl, g4, g2, rfl⟩, h3, Or.inr rfl⟩
        | cons x r1 =>
          exact ⟨_, rfl, p1, p2, h1, Or.inr ⟨s', x :: r1, ls, rfl, g4, g2, rfl⟩, h3, Or.inr rfl⟩
    · cases r with
      | cons x r => exact ⟨_, rfl, p1, p2, h1, h2, h3, Or.inr rfl⟩
      | nil =>
        rcases h2 with ⟨rfl, rfl, rfl, _⟩ | ⟨s, r1, ls, rfl, g1, g2, g3⟩
        · exact ⟨_, rfl, p1, [], h1, Or.inl ⟨rfl, rfl, rfl, rfl⟩, h3, Or.inl rfl⟩
        · have g4 := List.append_eq_nil_iff.1 g3.symm
          have hr1 := g4.1
          subst hr1
          obtain ⟨s', g5, g6⟩ := H.peek s _ g1
          have g7 := TextIter.peekAhead_spec H g2
          rw [g4.2] at g7
          simp only [List.head?_nil] at g5 g7 ⊢
          simp only [g5, g7]
          exact ⟨_, rfl, p1, p2, h1, Or.inr ⟨s', [], ls, rfl, g6, g2, g3⟩, h3, Or.inr rfl⟩
  next := by
    rintro ⟨cur, cs, acc, pk⟩ ⟨p, r⟩ ⟨p1, p2, h1, h2, h3, h4⟩
    obtain ⟨cur', cs', g1, g2⟩ := TextIter.nextLoop_spec H cs cur p2 r h2
    simp only [hs, textIterOps, TextIter.next, g1]
    exact ⟨_, rfl, [], [], rfl, g2, rfl, Or.inl rfl⟩
  nextAccum := by
    rintro ⟨cur, cs, acc, pk⟩ ⟨p, r⟩ a ⟨p1, p2, h1, h2, h3, h4⟩
    obtain ⟨o, cur', cs', acc', a', g1, g2, g3⟩ := TextIter.nextAccumLoop_spec H K cs cur acc p1 p2 r a h2 h1
    simp only at h3
    subst h3
    simp only [hs, textIterOps, TextIter.nextAccum, g1]
    refine ⟨_, _, _, rfl, g2, ?_⟩
    rcases g3 with ⟨rfl, p1', p', k1, k2, k3⟩ | ⟨hF, hne, ⟨e, rfl⟩, rfl, k⟩
    · exact Or.inl ⟨rfl, p1', p', k1, k2, k3, Or.inl rfl⟩
    · exact Or.inr ⟨hF, hne, ⟨e, rfl⟩, [], [], rfl, k, rfl, Or.inl rfl⟩
  accumDone := by
    rintro ⟨cur, cs, acc, pk⟩ ⟨p, r⟩ a ⟨p1, p2, h1, h2, h3, h4⟩
    simp only [hs, textIterOps, TextIter.accumDone] at *
    rcases h2 with ⟨rfl, rfl, rfl, rfl⟩ | ⟨s, r1, ls, rfl, g1, g2, rfl⟩
    · refine ⟨_, _, _, rfl, K.refl a, ⟨[], [], rfl, Or.inl ⟨rfl, rfl, rfl, rfl⟩, rfl, h4⟩,
        Or.inl ⟨_, rfl, ?_⟩⟩
      simp only [h3, List.append_nil]
      exact h1.getD K
    · obtain ⟨c, s', g3, g4, g5⟩ := H.accumDone s _ g1
      obtain ⟨o, a', g6, g7, g8⟩ := K.concat _ _ _ _ a (h1.getD K) (K.ofChunk c _ g4)
      simp only [g3, g6]
      refine ⟨_, _, _, rfl, g7, ⟨[], [], rfl, Or.inr ⟨s', r1, ls, rfl, g5, g2, rfl⟩, rfl, h4⟩, ?_⟩
      rw [h3]
      rcases g8 with ⟨v, rfl, hv⟩ | ⟨hF, hne, hne', e, rfl⟩
      · exact Or.inl ⟨v, rfl, hv⟩
      · exact Or.inr ⟨hF, by simp [hne], e, rfl⟩
  empty := by rw [ht]; exact K.empty
  concat := by rw [ht]; exact K.concat

/-- A fresh `text::Iter` stands for the items of its text. -/
theorem TextIter.ofChunks_means (H : ChunkConf O RC RCS) {cs : List C} {ls : List (List (Item P))}
    (h : List.Forall₂ RC cs ls) :
    TextIter.Means T RC RCS (TextIter.ofChunks O cs) ⟨[], ls.flatten⟩ := by
  cases h with
  | nil => exact ⟨[], [], rfl, Or.inl ⟨rfl, rfl, rfl, rfl⟩, rfl, Or.inl rfl⟩
  | @cons c l cs ls hc hcs =>
    exact ⟨[], [], rfl, Or.inr ⟨_, l, ls, rfl, H.srcStrm c l hc, hcs, by simp⟩, rfl, Or.inl rfl⟩

/-! ## `CharIterSourceStream` -/

/-- What a `CharIterSourceStream` stands for: what it will yield is numbered
consecutively, and what it has accumulated are the characters just before. -/
def CharIter.Means (it : CharIter) (q : Seq CharPos) : Prop :=
  ∃ k acc w, it.peIter = itemsFrom CharPos.adv ⟨k + acc.length⟩ w ∧ q.rest = it.peIter ∧
    q.pending = itemsFrom CharPos.adv ⟨k⟩ acc ∧
    it.accum = if acc = [] then none else some (acc, ⟨k⟩)

theorem PosStrish.new_means (s : Str) (p : CharPos) :
    PosStrish.Means (.new s p) (itemsFrom CharPos.adv p s) :=
  ⟨[], s, [], by simp [PosStrish.new], rfl, by simp [PosStrish.new, Str.len], rfl⟩

theorem charIter_conf {T : TextType PosStrish τ α} (K : TextConf T PosStrish.Means RA F)
    {E : Env CharIter CharPos τ ε α CE} (hs : E.strm = charIterOps T) (ht : E.text = T.ops) :
    Conf E CharIter.Means (T.sem PosStrish.Means RA F) where
  refl := K.refl
  trans := K.trans
  peek := by
    rintro s ⟨p, r⟩ ⟨k, acc, w, h1, h2, h3, h4⟩
    simp only at h2 h3
    subst h2 h3
    exact ⟨s, by rw [hs]; rfl, k, acc, w, h1, rfl, rfl, h4⟩
  next := by
    rintro s ⟨p, r⟩ ⟨k, acc, w, h1, h2, h3, h4⟩
    simp only at h2 h3
    subst h2 h3
    refine ⟨_, by rw [hs]; rfl, ?_⟩
    cases w with
    | nil => exact ⟨k + acc.length, [], [], by simp [h1, itemsFrom], rfl, rfl, rfl⟩
    | cons c w =>
      exact ⟨k + acc.length + 1, [], w, by simp [h1, itemsFrom, CharPos.adv], rfl, rfl, rfl⟩
  nextAccum := by
    rintro s ⟨p, r⟩ a ⟨k, acc, w, h1, h2, h3, h4⟩
    simp only at h2 h3
    subst h2 h3
    simp only [hs, charIterOps, CharIter.nextAccum, h1, h4]
    cases w with
    | nil =>
      refine ⟨_, _, _, rfl, K.refl a, Or.inl ⟨rfl, k, acc, [], h1, ?_, ?_, h4⟩⟩
      · simp [h1, itemsFrom]
      · simp [itemsFrom]
    | cons c w =>
      by_cases ha : acc = []
      · subst ha
        simp only [if_true, itemsFrom]
        refine ⟨_, _, _, rfl, K.refl a, Or.inl ⟨rfl, k, [c], w, ?_, rfl, ?_, ?_⟩⟩
        · simp [CharPos.adv]
        · simp [itemsFrom]
        · simp
      · simp only [if_neg ha, itemsFrom]
        refine ⟨_, _, _, rfl, K.refl a, Or.inl ⟨rfl, k, acc ++ [c], w, ?_, rfl, ?_, ?_⟩⟩
        · simp [CharPos.adv, Nat.add_assoc]
        · simp [itemsFrom_append, itemsFrom, advs_charPos]
        · simp
  accumDone := by
    rintro s ⟨p, r⟩ a ⟨k, acc, w, h1, h2, h3, h4⟩
    simp only at h2 h3
    subst h2 h3
    simp only [hs, charIterOps, CharIter.accumDone, h4]
    by_cases ha : acc = []
    · subst ha
      refine ⟨_, _, _, rfl, K.refl a, ⟨k, [], w, h1, rfl, rfl, h4⟩, Or.inl ⟨_, rfl, ?_⟩⟩
      exact K.ofChunk _ _ posStrish_conf.empty
    · simp only [if_neg ha]
      refine ⟨_, _, _, rfl, K.refl a, ⟨k + acc.length, [], w, by simpa using h1, rfl, rfl, rfl⟩,
        Or.inl ⟨_, rfl, ?_⟩⟩
      exact K.ofChunk _ _ (PosStrish.new_means acc ⟨k⟩)
  empty := by rw [ht]; exact K.empty
  concat := by rw [ht]; exact K.concat

theorem CharIter.new_peIter (s : Str) (k : Nat) :
    (s.zipIdx k).map (fun (x : Char × Nat) => (⟨x.1, ⟨x.2⟩⟩ : Item CharPos)) =
      itemsFrom CharPos.adv ⟨k⟩ s := by
  induction s generalizing k with
  | nil => rfl
  | cons c s ih => simp [itemsFrom, CharPos.adv, ih]

/-- A fresh `CharIterSourceStream` stands for its characters, numbered from 0. -/
theorem CharIter.new_means (s : Str) : CharIter.Means (.new s) ⟨[], itemsFrom CharPos.adv ⟨0⟩ s⟩ :=
  ⟨0, [], s, CharIter.new_peIter s 0, (CharIter.new_peIter s 0).symm, rfl, rfl⟩

/-! ## `StrishIterSourceStream` -/

/-- What a `StrishIterSourceStream` stands for: the items of all its strings to come,
consecutively numbered; it may have looked ahead at the next string, when at the end
of the current one. -/
def StrishIter.Means (T : TextType PosStrish τ α) (it : StrishIter τ) (q : Seq CharPos) : Prop :=
  ∃ p1 p2, T.MeansOpt PosStrish.Means it.accum p1 ∧ q.pending = p1 ++ p2 ∧
    ((it.cur = none ∧ p2 = [] ∧ q.rest = []) ∨
     (∃ s w, it.cur = some s ∧ PosStrishIter.Means s ⟨p2, itemsFrom CharPos.adv ⟨it.charIdx⟩ w⟩ ∧
      ((it.peekedStrm = none ∧ q.rest = itemsFrom CharPos.adv ⟨it.charIdx⟩ (w ++ it.strishIter.flatten)) ∨
       (w = [] ∧ ∃ ps v, it.peekedStrm = some ps ∧ v ≠ [] ∧
        PosStrishIter.Means ps ⟨[], itemsFrom CharPos.adv ⟨it.charIdx⟩ v⟩ ∧
        q.rest = itemsFrom CharPos.adv ⟨it.charIdx⟩ (v ++ it.strishIter.flatten)))))

theorem StrishIter.nextPosstrishOf_spec (k : Nat) (ss : List Str) :
    (nextPosstrishOf k ss = (none, []) ∧ ss.flatten = []) ∨
    (∃ ps v ss', nextPosstrishOf k ss = (some ps, ss') ∧ v ≠ [] ∧ ss.flatten = v ++ ss'.flatten ∧
      PosStrishIter.Means ps ⟨[], itemsFrom CharPos.adv ⟨k⟩ v⟩) := by
  induction ss with
  | nil => exact Or.inl ⟨rfl, rfl⟩
  | cons s ss ih =>
    simp only [nextPosstrishOf]
    by_cases h : Str.len s > 0
    · rw [if_pos h]
      refine Or.inr ⟨_, s, ss, rfl, ?_, rfl, posStrish_conf.srcStrm _ _ (PosStrish.new_means s ⟨k⟩)⟩
      rintro rfl
      simp [Str.len] at h
    · rw [if_neg h]
      have hs : s = [] := (Str.len_eq_zero s).1 (by omega)
      subst hs
      simpa using ih

/-- At the end of the current string: `next_posstrish` succeeds, and leads to the end
of the source or to a next, nonempty string. -/
theorem StrishIter.nextPosstrish_spec {it : StrishIter τ} {s : PosStrishIter} {r : List (Item CharPos)}
    (hcur : it.cur = some s) (hs : PosStrishIter.Means s ⟨[], []⟩)
    (h : (it.peekedStrm = none ∧ r = itemsFrom CharPos.adv ⟨it.charIdx⟩ it.strishIter.flatten) ∨
       (∃ ps v, it.peekedStrm = some ps ∧ v ≠ [] ∧
        PosStrishIter.Means ps ⟨[], itemsFrom CharPos.adv ⟨it.charIdx⟩ v⟩ ∧
        r = itemsFrom CharPos.adv ⟨it.charIdx⟩ (v ++ it.strishIter.flatten))) :
    (∃ it', it.nextPosstrish = some it' ∧ it'.cur = none ∧ it'.accum = it.accum ∧ r = []) ∨
    (∃ it' s' v, it.nextPosstrish = some it' ∧ it'.cur = some s' ∧ it'.accum = it.accum ∧
      it'.peekedStrm = none ∧ it'.charIdx = it.charIdx ∧
      v ≠ [] ∧ PosStrishIter.Means s' ⟨[], itemsFrom CharPos.adv ⟨it.charIdx⟩ v⟩ ∧
      r = itemsFrom CharPos.adv ⟨it.charIdx⟩ (v ++ it'.strishIter.flatten)) := by
  obtain ⟨s', g1, g2⟩ := posStrish_conf.peek s _ hs
  have g1' : s.peek = (.ok none, s') := g1
  simp only [nextPosstrish, hcur, g1']
  rcases h with ⟨h1, h2⟩ | ⟨ps, v, h1, h2, h3, h4⟩
  · rw [h1]
    simp only
    rcases nextPosstrishOf_spec it.charIdx it.strishIter with ⟨k1, k2⟩ | ⟨ps, v, ss', k1, k2, k3, k4⟩
    · rw [k1]
      exact Or.inl ⟨_, rfl, rfl, rfl, by simp [h2, k2, itemsFrom]⟩
    · rw [k1]
      exact Or.inr ⟨_, ps, v, rfl, rfl, rfl, rfl, rfl, k2, k4, by simp only [h2, k3]⟩
  · rw [h1]
    exact Or.inr ⟨_, ps, v, rfl, rfl, rfl, rfl, rfl, h2, h3, h4⟩

theorem StrishIter.nextLoop_nonempty {it : StrishIter τ} {s : PosStrishIter} {p w : List (Item CharPos)}
    {c : Item CharPos} (n : Nat) (hcur : it.cur = some s) (hs : PosStrishIter.Means s ⟨p, c :: w⟩) :
    ∃ s', nextLoop (n + 1) it = (.ok (some c), { it with cur := some s', charIdx := it.charIdx + 1 }) ∧
      PosStrishIter.Means s' ⟨[], w⟩ := by
  obtain ⟨s', g1, g2⟩ := posStrish_conf.next s _ hs
  have g1' : s.next = (.ok (some c), s') := g1
  exact ⟨s', by simp only [nextLoop, hcur, g1'], g2⟩

theorem StrishIter.nextAccumLoop_nonempty {T : TextType PosStrish τ α} {it : StrishIter τ}
    {s : PosStrishIter} {p w : List (Item CharPos)}
    {c : Item CharPos} (n : Nat) (a : α) (hcur : it.cur = some s)
    (hs : PosStrishIter.Means s ⟨p, c :: w⟩) :
    ∃ s', nextAccumLoop T (n + 1) it a =
        (.ok (some c), { it with cur := some s', charIdx := it.charIdx + 1 }, a) ∧
      PosStrishIter.Means s' ⟨p ++ [c], w⟩ := by
  obtain ⟨s', g1, g2⟩ := posStrish_conf.nextAccum s _ hs
  have g1' : s.nextAccum = (.ok (some c), s') := g1
  exact ⟨s', by simp only [nextAccumLoop, hcur, g1'], g2⟩

theorem strishIter_conf {T : TextType PosStrish τ α} (K : TextConf T PosStrish.Means RA F)
    {E : Env (StrishIter τ) CharPos τ ε α CE} (hs : E.strm = strishIterOps T) (ht : E.text = T.ops) :
    Conf E (StrishIter.Means T) (T.sem PosStrish.Means RA F) where
  refl := K.refl
  trans := K.trans
  peek := by
    rintro it ⟨p, r⟩ ⟨p1, p2, h1, h2, h3⟩
    simp only [hs, strishIterOps, StrishIter.peek] at *
    rcases h3 with ⟨h3, rfl, rfl⟩ | ⟨s, w, h3, h4, h5⟩
    · rw [h3]
      exact ⟨_, rfl, p1, [], h1, h2, Or.inl ⟨h3, rfl, rfl⟩⟩
    · rw [h3]
      obtain ⟨s', g1, g2⟩ := posStrish_conf.peek s _ h4
      cases w with
      | cons c w =>
        have g1' : s.peek = (.ok (some ⟨c, ⟨it.charIdx⟩⟩), s') := g1
        simp only [g1']
        rcases h5 with ⟨k1, rfl⟩ | ⟨k, _⟩
        · exact ⟨_, rfl, p1, p2, h1, h2, Or.inr ⟨s', c :: w, rfl, g2, Or.inl ⟨k1, rfl⟩⟩⟩
        · cases k
      | nil =>
        have g1' : s.peek = (.ok none, s') := g1
        simp only [g1']
        rcases h5 with ⟨k1, rfl⟩ | ⟨_, ps, v, k1, k2, k3, rfl⟩
        · rw [k1]
          simp only
          rcases StrishIter.nextPosstrishOf_spec it.charIdx it.strishIter with
            ⟨m1, m2⟩ | ⟨ps, v, ss', m1, m2, m3, m4⟩
          · simp only [m1, m2]
            exact ⟨_, rfl, p1, p2, h1, h2, Or.inr ⟨s', [], rfl, g2, Or.inl ⟨rfl, rfl⟩⟩⟩
          · obtain ⟨ps', l1, l2⟩ := posStrish_conf.peek ps _ m4
            cases v with
            | nil => exact absurd rfl m2
            | cons c v =>
              have l1' : ps.peek = (.ok (some ⟨c, ⟨it.charIdx⟩⟩), ps') := l1
              simp only [m1, m3, l1']
              exact ⟨_, rfl, p1, p2, h1, h2, Or.inr ⟨s', [], rfl, g2, Or.inr ⟨rfl, ps', c :: v, rfl, by simp,
                l2, rfl⟩⟩⟩
        · rw [k1]
          obtain ⟨ps', l1, l2⟩ := posStrish_conf.peek ps _ k3
          cases v with
          | nil => exact absurd rfl k2
          | cons c v =>
            have l1' : ps.peek = (.ok (some ⟨c, ⟨it.charIdx⟩⟩), ps') := l1
            simp only [l1']
            exact ⟨_, rfl, p1, p2, h1, h2, Or.inr ⟨s', [], rfl, g2, Or.inr ⟨rfl, ps', c :: v, rfl, by simp,
              l2, rfl⟩⟩⟩
  next := by
    rintro it ⟨p, r⟩ ⟨p1, p2, h1, h2, h3⟩
    simp only [hs, strishIterOps, StrishIter.next] at *
    rcases h3 with ⟨h3, rfl, rfl⟩ | ⟨s, w, h3, h4, h5⟩
    · refine ⟨{ it with accum := none }, by simp only [StrishIter.nextLoop, StrishIter.turns, h3]; rfl, ?_⟩
      exact ⟨[], [], rfl, rfl, Or.inl ⟨h3, rfl, rfl⟩⟩
    · cases w with
      | cons c w =>
        obtain ⟨s', g1, g2⟩ := StrishIter.nextLoop_nonempty (it := { it with accum := none }) 1 h3 h4
        rcases h5 with ⟨k1, rfl⟩ | ⟨k, _⟩
        · exact ⟨_, g1, [], [], rfl, rfl, Or.inr ⟨s', w, rfl, g2, Or.inl ⟨k1, rfl⟩⟩⟩
        · cases k
      | nil =>
        obtain ⟨s', g1, g2⟩ := posStrish_conf.next s _ h4
        have g1' : s.next = (.ok none, s') := g1
        have h5' : (it.peekedStrm = none ∧ r = itemsFrom CharPos.adv ⟨it.charIdx⟩ it.strishIter.flatten) ∨ _ :=
          h5.imp id And.right
        rcases StrishIter.nextPosstrish_spec (τ := τ) (it := { it with cur := some s', accum := none }) rfl g2 h5' with
          ⟨it', k1, k2, k3, rfl⟩ | ⟨it', s'', v, k1, k2, k3, k4, k5, k6, k7, hr⟩
        · refine ⟨it', ?_, [], [], by rw [k3]; rfl, rfl, Or.inl ⟨k2, rfl, rfl⟩⟩
          simp only [StrishIter.nextLoop, StrishIter.turns, h3, g1', k1, k2]; rfl
        · cases v with
          | nil => exact absurd rfl k6
          | cons c v =>
            obtain ⟨s3, m1, m2⟩ := StrishIter.nextLoop_nonempty 0 k2 k7
            subst hr
            refine ⟨{ it' with cur := some s3, charIdx := it'.charIdx + 1 }, ?_, [], [], ?_, rfl,
              Or.inr ⟨s3, v, rfl, ?_, Or.inl ⟨k4, ?_⟩⟩⟩
            · rw [StrishIter.turns, StrishIter.nextLoop]
              simp only [h3, g1', k1, m1]
              rfl
            · rw [k3]; rfl
            · rw [k5]; exact m2
            · rw [k5]; rfl
  nextAccum := by
    rintro it ⟨p, r⟩ a ⟨p1, p2, h1, h2, h3⟩
    simp only [hs, strishIterOps, StrishIter.nextAccum] at *
    rcases h3 with ⟨h3, rfl, rfl⟩ | ⟨s, w, h3, h4, h5⟩
    · refine ⟨_, _, _, by simp only [StrishIter.nextAccumLoop, StrishIter.turns, h3]; rfl, K.refl a,
        Or.inl ⟨rfl, ?_⟩⟩
      exact ⟨p1, [], h1, by simp [h2], Or.inl ⟨h3, rfl, rfl⟩⟩
    · cases w with
      | cons c w =>
        obtain ⟨s', g1, g2⟩ := StrishIter.nextAccumLoop_nonempty (T := T) 1 a h3 h4
        rcases h5 with ⟨k1, rfl⟩ | ⟨k, _⟩
        · refine ⟨_, _, _, g1, K.refl a, Or.inl ⟨rfl, p1, p2 ++ [⟨c, ⟨it.charIdx⟩⟩], h1, ?_,
            Or.inr ⟨s', w, rfl, g2, Or.inl ⟨k1, rfl⟩⟩⟩⟩
          simp [h2, itemsFrom]
        · cases k
      | nil =>
        obtain ⟨s', g1, g2⟩ := posStrish_conf.nextAccum s _ h4
        have g1' : s.nextAccum = (.ok none, s') := g1
        obtain ⟨c, s'', g3, g4, g5⟩ := posStrish_conf.accumDone s' _ g2
        have g3' : s'.accumDone = (.ok c, s'') := g3
        have g4' : PosStrish.Means c p2 := by simpa [itemsFrom] using g4
        obtain ⟨o, a', g6, g7, g8⟩ := K.concat _ _ _ _ a (h1.getD K) (K.ofChunk c _ g4')
        rcases g8 with ⟨acc, rfl, hv⟩ | ⟨hF, hne, hne', e, rfl⟩
        · have h5' : (it.peekedStrm = none ∧ r = itemsFrom CharPos.adv ⟨it.charIdx⟩ it.strishIter.flatten) ∨ _ :=
            h5.imp id And.right
          rcases StrishIter.nextPosstrish_spec (τ := τ) (it := { it with cur := some s'', accum := some acc }) rfl g5 h5'
            with ⟨it', k1, k2, k3, rfl⟩ | ⟨it', s3, v, k1, k2, k3, k4, k5, k6, k7, hr⟩
          · refine ⟨.ok none, it', a', ?_, g7, Or.inl ⟨rfl, p1 ++ p2, [], by rw [k3]; exact hv, ?_,
              Or.inl ⟨k2, rfl, rfl⟩⟩⟩
            · simp only [StrishIter.nextAccumLoop, StrishIter.turns, h3, g1', g3', g6, k1, k2]
            · simp [h2]
          · cases v with
            | nil => exact absurd rfl k6
            | cons c v =>
              obtain ⟨s4, m1, m2⟩ := StrishIter.nextAccumLoop_nonempty (T := T) 0 a' k2 k7
              subst hr
              refine ⟨_, { it' with cur := some s4, charIdx := it'.charIdx + 1 }, _, ?_, g7, Or.inl ⟨rfl, p1 ++ p2, [⟨c, ⟨it.charIdx⟩⟩], ?_, ?_,
                Or.inr ⟨s4, v, rfl, ?_, Or.inl ⟨k4, ?_⟩⟩⟩⟩
              · rw [StrishIter.turns, StrishIter.nextAccumLoop]
                simp only [h3, g1', g3', g6, k1, m1]
                rfl
              · rw [k3]; exact hv
              · simp [h2, itemsFrom]
              · rw [k5]; exact m2
              · rw [k5]; rfl
        · refine ⟨.err e, { it with cur := some s'', accum := none }, a',
            by simp only [StrishIter.nextAccumLoop, StrishIter.turns, h3, g1', g3', g6], g7,
            Or.inr ⟨hF, by simp [h2, hne], ⟨e, rfl⟩, [], [], rfl, rfl, Or.inr ⟨s'', [], rfl, g5, h5⟩⟩⟩
  accumDone := by
    rintro it ⟨p, r⟩ a ⟨p1, p2, h1, h2, h3⟩
    simp only [hs, strishIterOps, StrishIter.accumDone] at *
    rcases h3 with ⟨h3, rfl, rfl⟩ | ⟨s, w, h3, h4, h5⟩
    · rw [h3]
      refine ⟨_, _, _, rfl, K.refl a, ⟨[], [], rfl, rfl, Or.inl ⟨rfl, rfl, rfl⟩⟩, Or.inl ⟨_, rfl, ?_⟩⟩
      simp only [h2, List.append_nil]
      exact h1.getD K
    · rw [h3]
      obtain ⟨c, s', g3, g4, g5⟩ := posStrish_conf.accumDone s _ h4
      have g3' : s.accumDone = (.ok c, s') := g3
      obtain ⟨o, a', g6, g7, g8⟩ := K.concat _ _ _ _ a (h1.getD K) (K.ofChunk c _ g4)
      simp only [g3', g6]
      refine ⟨_, _, _, rfl, g7, ⟨[], [], rfl, rfl, Or.inr ⟨s', w, rfl, g5, h5⟩⟩, ?_⟩
      rw [h2]
      rcases g8 with ⟨v, rfl, hv⟩ | ⟨hF, hne, hne', e, rfl⟩
      · exact Or.inl ⟨v, rfl, hv⟩
      · exact Or.inr ⟨hF, by simp [hne], e, rfl⟩
  empty := by rw [ht]; exact K.empty
  concat := by rw [ht]; exact K.concat

/-- A fresh `StrishIterSourceStream` stands for the characters of all its strings,
numbered from 0. -/
theorem StrishIter.new_means (T : TextType PosStrish τ α) (ss : List Str) :
    StrishIter.Means T (.new ss) ⟨[], itemsFrom CharPos.adv ⟨0⟩ ss.flatten⟩ := by
  unfold StrishIter.new
  rcases nextPosstrishOf_spec 0 ss with ⟨k1, k2⟩ | ⟨ps, v, ss', k1, k2, k3, k4⟩
  · rw [k1, k2]
    exact ⟨[], [], rfl, rfl, Or.inl ⟨rfl, rfl, rfl⟩⟩
  · rw [k1, k3]
    exact ⟨[], [], rfl, rfl, Or.inr ⟨ps, v, rfl, k4, Or.inl ⟨rfl, rfl⟩⟩⟩

end Kul
