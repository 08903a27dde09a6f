import Verif.Spec.Slices
import Verif.Proof.Streams
import Verif.Proof.Provided
import Verif.Proof.Mono
import Verif.Proof.Invariant
import Mathlib.Data.List.Chain

/-!
# The texts that the parser makes are in slices
-/

namespace Kul

variable {σ C CS P τ ε α CE : Type} {O : ChunkOps C CS P} {RC : C → List (Item P) → Prop}
  {RCS : CS → Seq P → Prop} {T : TextType C τ α} {RA : α → α → Prop} {F : Prop} {cc : Classifier}
  {pieces : List (List (Item P))}

/-! ## Slices -/

theorem Slices.ne {ls : List (List (Item P))} (h : Slices cc pieces ls) : ∀ l ∈ ls, l ≠ [] :=
  fun l hl => (h.slice l hl).1

theorem getLast?_flatten {A : Type} : ∀ {ls : List (List A)}, (∀ l ∈ ls, l ≠ []) →
    ls.flatten.getLast? = ls.getLast?.bind List.getLast?
  | [], _ => rfl
  | [l], _ => by simp
  | l :: l' :: ls, h => by
    have ih := getLast?_flatten (ls := l' :: ls) fun x hx => h x (.tail _ hx)
    have h1 : (l' :: ls).flatten ≠ [] := by
      have := h l' (by simp)
      simp [this]
    rw [List.flatten_cons, List.getLast?_append_of_ne_nil _ h1, ih]
    simp

theorem head?_flatten {A : Type} {ls : List (List A)} (h : ∀ l ∈ ls, l ≠ []) :
    ls.flatten.head? = ls.head?.bind List.head? := by
  cases ls with
  | nil => rfl
  | cons l ls =>
    have := h l (by simp)
    cases l with
    | nil => exact absurd rfl this
    | cons x l => rfl

theorem Slices.append {ls ls' : List (List (Item P))} (h : Slices cc pieces ls) (h' : Slices cc pieces ls')
    (ha : CutBetween cc pieces ls.flatten ls'.flatten) : Slices cc pieces (ls ++ ls') := by
  refine ⟨fun l hl => (List.mem_append.1 hl).elim (h.slice l) (h'.slice l), List.isChain_append.2
    ⟨h.apart, h'.apart, ?_⟩⟩
  intro l hl l' hl' x hx y hy
  refine ha x ?_ y ?_
  · rw [getLast?_flatten h.ne, Option.mem_def.1 hl]; exact hx
  · rw [head?_flatten h'.ne, Option.mem_def.1 hl']; exact hy

theorem Slices.one {l p : List (Item P)} (h : l ≠ []) (hp : p ∈ pieces) (hl : l <:+: p) : Slices cc pieces [l] :=
  ⟨by simpa using ⟨h, p, hp, hl⟩, List.isChain_singleton _⟩

/-- The text stands for the items `l`, and is in slices. -/
def TextType.SlicesOf (cc : Classifier) (T : TextType C τ α) (RC : C → List (Item P) → Prop)
    (pieces : List (List (Item P))) (t : τ) (l : List (Item P)) : Prop :=
  ∃ cs ls, T.chunks t = .ok cs ∧ List.Forall₂ RC cs ls ∧ l = ls.flatten ∧ (l = [] ∧ cs.length ≤ 1 ∨ Slices cc pieces ls)

/-- The laws of texts that the parser needs, for texts in slices. -/
structure SliceConf (cc : Classifier) (T : TextType C τ α) (RC : C → List (Item P) → Prop) (RA : α → α → Prop)
    (F : Prop) (pieces : List (List (Item P))) : Prop where
  refl : ∀ a, RA a a
  trans : ∀ a b c, RA a b → RA b c → RA a c
  ofChunk : ∀ c l p, RC c l → p ∈ pieces → l <:+: p → T.SlicesOf cc RC pieces (T.ofChunk c) l
  empty : T.SlicesOf cc RC pieces T.empty []
  concat : ∀ t u c e a, T.SlicesOf cc RC pieces t c → T.SlicesOf cc RC pieces u e → CutBetween cc pieces c e →
    ∃ o a', T.concat t u a = (o, a') ∧ RA a a' ∧
    ((∃ v, o = .ok v ∧ T.SlicesOf cc RC pieces v (c ++ e)) ∨ (F ∧ c ≠ [] ∧ e ≠ [] ∧ ∃ x, o = .err x))

theorem SlicesOf.join {cs cs' : List C} {ls ls' : List (List (Item P))} {x y l l'} (h1 : T.chunks t = .ok (cs ++ cs'))
    (h2 : List.Forall₂ RC cs ls) (h3 : List.Forall₂ RC cs' ls') (hc : ls.flatten = x :: l) (he : ls'.flatten = y :: l')
    (h4 : ls.flatten = [] ∧ cs.length ≤ 1 ∨ Slices cc pieces ls) (h5 : ls'.flatten = [] ∧ cs'.length ≤ 1 ∨ Slices cc pieces ls')
    (ha : CutBetween cc pieces ls.flatten ls'.flatten) : T.SlicesOf cc RC pieces t (ls.flatten ++ ls'.flatten) := by
  refine ⟨_, _, h1, List.rel_append h2 h3, by simp, .inr ?_⟩
  exact (h4.resolve_left (by simp [hc])).append (h5.resolve_left (by simp [he])) ha

theorem textVec_slices (H : ChunkConf O RC RCS) : SliceConf cc (textVec α O) RC Eq False pieces where
  refl _ := rfl
  trans _ _ _ := Eq.trans
  ofChunk c l p h hp hl := ⟨[c], [l], rfl, .cons h .nil, by simp, by
    by_cases hn : l = []
    · exact .inl ⟨hn, by simp⟩
    · exact .inr (.one hn hp hl)⟩
  empty := ⟨[], [], rfl, .nil, rfl, .inl ⟨rfl, by simp⟩⟩
  concat := by
    rintro t u c e a ⟨cs, ls, h1, h2, rfl, h5⟩ ⟨cs', ls', h3, h4, rfl, h6⟩ ha
    have h1' : t.chunks = cs := by simpa [textVec] using h1
    have h3' : u.chunks = cs' := by simpa [textVec] using h3
    simp only [textVec, TextVec.concat, TextVec.isEmpty, h1', h3', allChunks_isEmpty H h2,
      allChunks_isEmpty H h4]
    rcases hc : ls.flatten with _ | ⟨x, l⟩
    · exact ⟨_, _, rfl, rfl, Or.inl ⟨u, rfl, cs', ls', h3, h4, rfl, h6⟩⟩
    · rcases he : ls'.flatten with _ | ⟨y, l'⟩
      · refine ⟨_, _, rfl, rfl, Or.inl ⟨t, rfl, cs, ls, h1, h2, by simp [hc], ?_⟩⟩
        rw [← hc, List.append_nil]; exact h5
      · refine ⟨_, _, rfl, rfl, Or.inl ⟨_, rfl, ?_⟩⟩
        rw [← hc, ← he]
        exact SlicesOf.join (by simp [TextVec.link_chunks, h1', h3']) h2 h4 hc he h5 h6 ha

theorem textDatumList_slices (H : ChunkConf O RC RCS) (al : AllocOps (TextDatumList C ε) ε α) :
    SliceConf cc (textDatumList O al) RC al.Steps al.CanFail pieces where
  refl _ := .refl
  trans _ _ _ h h' := h.trans h'
  ofChunk c l p h hp hl := ⟨[c], [l], rfl, .cons h .nil, by simp, by
    by_cases hn : l = []
    · exact .inl ⟨hn, by simp⟩
    · exact .inr (.one hn hp hl)⟩
  empty := ⟨[O.empty], [[]], rfl, .cons H.empty .nil, rfl, .inl ⟨rfl, by simp⟩⟩
  concat := by
    rintro t u c e a ⟨cs, ls, h1, h2, rfl, h5⟩ ⟨cs', ls', h3, h4, rfl, h6⟩ ha
    simp only [textDatumList] at h1 h3
    simp only [textDatumList, TextDatumList.concat, TextDatumList.isEmpty, h1, h3,
      allChunks_isEmpty H h2, allChunks_isEmpty H h4]
    rcases hc : ls.flatten with _ | ⟨x, l⟩
    · exact ⟨_, _, rfl, .refl, Or.inl ⟨u, rfl, cs', ls', h3, h4, rfl, h6⟩⟩
    · rcases he : ls'.flatten with _ | ⟨y, l'⟩
      · refine ⟨_, _, rfl, .refl, Or.inl ⟨t, rfl, cs, ls, h1, h2, by simp [hc], ?_⟩⟩
        rw [← hc, List.append_nil]; exact h5
      · obtain ⟨o, a', g1, g2, g3⟩ := TextDatumList.link_spec al t u cs cs' a h1 h3
        refine ⟨o, a', by simpa using g1, g2, ?_⟩
        rcases g3 with ⟨v, rfl, hv⟩ | ⟨hf, e, rfl⟩
        · refine Or.inl ⟨v, rfl, ?_⟩
          rw [← hc, ← he]
          exact SlicesOf.join (T := textDatumList O al) hv h2 h4 hc he h5 h6 ha
        · exact Or.inr ⟨hf, by simp, by simp, e, rfl⟩

/-- What texts in slices mean. -/
def SliceConf.sem (_ : SliceConf cc T RC RA F pieces) : TextSem P τ α := ⟨T.SlicesOf cc RC pieces, RA, F⟩

/-! ## Streams that give texts in slices -/

/-- A stream whose accumulated texts are in slices of the pieces. -/
structure SliceStream (E : Env σ P τ ε α CE) (RS : σ → Seq P → Prop) (X : TextSem P τ α)
    (pieces : List (List (Item P))) : Prop where
  peek : ∀ s q, RS s q → ∃ s', E.strm.peek s = (.ok q.rest.head?, s') ∧ RS s' q
  next : ∀ s q, RS s q → ∃ s', E.strm.next s = (.ok q.rest.head?, s') ∧ RS s' ⟨[], q.rest.tail⟩
  nextAccum : ∀ s q a, RS s q → ∃ o s' a', E.strm.nextAccum s a = (o, s', a') ∧ X.RA a a' ∧
    ((o = .ok q.rest.head? ∧ RS s' ⟨q.pending ++ q.rest.head?.toList, q.rest.tail⟩) ∨
     (X.F ∧ q.pending ≠ [] ∧ (∃ e, o = .err e) ∧ RS s' ⟨[], q.rest⟩))
  accumDone : ∀ s q a, RS s q → ∃ o s' a', E.strm.accumDone s a = (o, s', a') ∧ X.RA a a' ∧
    RS s' ⟨[], q.rest⟩ ∧
    ((∃ t, o = .ok t ∧ X.RT t q.pending) ∨ (X.F ∧ q.pending ≠ [] ∧ ∃ e, o = .err e))
  within : ∀ s q, RS s q → q.pending ++ q.rest <:+ pieces.flatten

theorem SliceStream.conf {E : Env σ P τ ε α CE} {RS : σ → Seq P → Prop} (K : SliceConf E.cc T RC RA F pieces)
    (ht : E.text = T.ops) (S : SliceStream E RS K.sem pieces) : ConfJ E RS K.sem (CutBetween E.cc pieces) where
  refl := K.refl
  trans := K.trans
  peek := S.peek
  next := S.next
  nextAccum := S.nextAccum
  accumDone := S.accumDone
  empty := by rw [ht]; exact K.empty
  concat := by rw [ht]; exact K.concat
  join_nil_left := fun e x hx => by simp at hx
  join_nil_right := fun e x _ y hy => by simp at hy
  join := by
    intro s p it r c e hs hp hi he x hx y hy
    obtain ⟨before, hb⟩ := S.within s _ hs
    obtain ⟨after, rfl⟩ := he
    rw [List.getLast?_append_of_ne_nil _ hp] at hx
    obtain ⟨p', rfl⟩ := List.getLast?_eq_some_iff.1 hx
    obtain ⟨e', rfl⟩ := List.head?_eq_some_iff.1 hy
    refine .escape it hi ⟨before ++ p', e' ++ after, ?_⟩
    simpa using hb

/-! ## `text::Iter` -/

/-- What an optional accumulated text stands for. -/
def TextType.SlicesOpt (cc : Classifier) (T : TextType C τ α) (RC : C → List (Item P) → Prop)
    (pieces : List (List (Item P))) : Option τ → List (Item P) → Prop
  | none, l => l = []
  | some t, l => T.SlicesOf cc RC pieces t l

theorem TextType.SlicesOpt.getD (K : SliceConf cc T RC RA F pieces) {o : Option τ} {l : List (Item P)}
    (h : T.SlicesOpt cc RC pieces o l) : T.SlicesOf cc RC pieces (o.getD T.empty) l := by
  cases o with
  | none => simp only [SlicesOpt] at h; subst h; exact K.empty
  | some t => exact h

/-- What was passed ends, but for empty pieces, with what is pending. -/
def EndsIn (done : List (List (Item P))) (p : List (Item P)) : Prop :=
  p <:+ done.flatten ∧ ∃ before l x k, done = before ++ (l ++ [x]) :: List.replicate k [] ∧ p.getLast? = some x

/-- Where the stream stands in the pieces: `done` were passed, `b` was passed of the current one, `p1` is pending of the
former, `p2` of the current one, `r1` is to come of it, then `rs`, and perhaps empty ones. -/
def PieceAt (pieces done : List (List (Item P))) (b p1 p2 r1 : List (Item P)) (rs : List (List (Item P))) : Prop :=
  (∃ n, pieces = done ++ (b ++ p2 ++ r1) :: (rs ++ List.replicate n [])) ∧ (p1 = [] ∨ b = [] ∧ EndsIn done p1)

theorem PieceAt.apart {done b p1 p2 r1 rs} (h : PieceAt pieces done b p1 p2 r1 rs) : CutBetween cc pieces p1 p2 := by
  intro x hx y hy
  obtain ⟨⟨n, rfl⟩, rfl | ⟨rfl, _, before, l, x', k, rfl, h2⟩⟩ := h
  · simp at hx
  · rw [h2] at hx
    cases hx
    obtain ⟨p2, rfl⟩ := List.head?_eq_some_iff.1 hy
    exact .pieces before (rs ++ List.replicate n []) l (p2 ++ r1) k (by simp only [List.append_assoc, List.cons_append, List.nil_append])

theorem PieceAt.mem {done b p1 p2 r1 rs} (h : PieceAt pieces done b p1 p2 r1 rs) :
    ∃ p ∈ pieces, p2 <:+: p :=
  have ⟨⟨_, hn⟩, _⟩ := h
  ⟨_, by rw [hn]; simp, ⟨b, r1, rfl⟩⟩

theorem PieceAt.within {done b p1 p2 r1 rs} (h : PieceAt pieces done b p1 p2 r1 rs) :
    p1 ++ p2 ++ (r1 ++ rs.flatten) <:+ pieces.flatten := by
  obtain ⟨⟨n, rfl⟩, rfl | ⟨rfl, ⟨u, h1⟩, _⟩⟩ := h
  · exact ⟨done.flatten ++ b, by simp⟩
  · exact ⟨u, by simp [← h1]⟩

/-- The next item of the current piece is accumulated. -/
theorem PieceAt.accum {done b p1 p2 x r1 rs} (h : PieceAt pieces done b p1 p2 (x :: r1) rs) :
    PieceAt pieces done b p1 (p2 ++ [x]) r1 rs :=
  have ⟨⟨n, hn⟩, _⟩ := h
  ⟨⟨n, by simpa using hn⟩, h.2⟩

/-- What is pending is forgotten. -/
theorem PieceAt.drop {done b p1 p2 r1 rs} (h : PieceAt pieces done b p1 p2 r1 rs) :
    PieceAt pieces done (b ++ p2) [] [] r1 rs :=
  have ⟨⟨n, hn⟩, _⟩ := h
  ⟨⟨n, by simpa using hn⟩, .inl rfl⟩

/-- The next item of the current piece is passed. -/
theorem PieceAt.next {done b p1 p2 x r1 rs} (h : PieceAt pieces done b p1 p2 (x :: r1) rs) :
    PieceAt pieces done (b ++ p2 ++ [x]) [] [] r1 rs :=
  have ⟨⟨n, hn⟩, _⟩ := h
  ⟨⟨n, by simpa using hn⟩, .inl rfl⟩

/-- Empty pieces to come do not matter. -/
theorem PieceAt.cut {done b p1 p2 r1 rs} {k : Nat} (h : PieceAt pieces done b p1 p2 r1 (rs ++ List.replicate k [])) :
    PieceAt pieces done b p1 p2 r1 rs :=
  have ⟨⟨n, hn⟩, _⟩ := h
  ⟨⟨k + n, by simpa [← List.replicate_append_replicate] using hn⟩, h.2⟩

/-- The current piece is at its end. -/
theorem PieceAt.done {done b p1 p2} {rs : List (List (Item P))} (h : PieceAt pieces done b p1 p2 [] rs) :
    p1 ++ p2 = [] ∨ EndsIn (done ++ [b ++ p2]) (p1 ++ p2) := by
  by_cases hp2 : p2 = []
  · subst hp2
    rcases h.2 with rfl | ⟨rfl, ⟨u, h1⟩, before, l, x, k, h2, h3⟩
    · exact .inl rfl
    · refine .inr ⟨⟨u, by simpa using h1⟩, before, l, x, k + 1, ?_, by simpa using h3⟩
      rw [h2, List.replicate_succ']
      simp
  · obtain ⟨p2, x, rfl⟩ : ∃ p x, p2 = p ++ [x] := ⟨_, _, (List.dropLast_append_getLast hp2).symm⟩
    refine .inr ⟨?_, done, b ++ p2, x, 0, by simp, by simp⟩
    rcases h.2 with rfl | ⟨rfl, ⟨u, h1⟩, _⟩
    · exact ⟨done.flatten ++ b, by simp⟩
    · exact ⟨u, by simp [← h1]⟩

/-- The stream goes on to the next piece. -/
theorem PieceAt.step {done b p1 p2 l rs} (h : PieceAt pieces done b p1 p2 [] (l :: rs)) :
    PieceAt pieces (done ++ [b ++ p2]) [] (p1 ++ p2) [] l rs :=
  have ⟨⟨n, hn⟩, _⟩ := h
  ⟨⟨n, by simpa using hn⟩, h.done.imp_right fun h => ⟨rfl, h⟩⟩

/-- What a `text::Iter` stands for, with its place in the pieces. -/
def CurSlices (cc : Classifier) (T : TextType C τ α) (RC : C → List (Item P) → Prop) (RCS : CS → Seq P → Prop)
    (pieces : List (List (Item P))) (cur : Option CS) (cs : List C) (acc : Option τ) (p r : List (Item P)) : Prop :=
  (cur = none ∧ cs = [] ∧ r = [] ∧ T.SlicesOpt cc RC pieces acc p ∧ p <:+ pieces.flatten) ∨
  (∃ s done b p1 p2 r1 rs, cur = some s ∧ RCS s ⟨p2, r1⟩ ∧ List.Forall₂ RC cs rs ∧ r = r1 ++ rs.flatten ∧ p = p1 ++ p2 ∧
    T.SlicesOpt cc RC pieces acc p1 ∧ PieceAt pieces done b p1 p2 r1 rs)

theorem CurSlices.nextLoop (H : ChunkConf O RC RCS) : ∀ (cs : List C) (cur : Option CS) (acc : Option τ)
    (p r : List (Item P)), CurSlices cc T RC RCS pieces cur cs acc p r →
    ∃ cur' cs', TextIter.nextLoop O cs cur = (.ok r.head?, cur', cs') ∧
      CurSlices cc T RC RCS pieces cur' cs' none [] r.tail := by
  intro cs
  induction cs with
  | nil =>
    rintro cur acc p r (⟨rfl, _, rfl, _, _⟩ | ⟨s, done, b, p1, p2, r1, rs, rfl, h1, h2, rfl, rfl, h3, h4⟩)
    · exact ⟨_, _, rfl, Or.inl ⟨rfl, rfl, rfl, rfl, List.nil_suffix⟩⟩
    · cases h2
      obtain ⟨s', g1, g2⟩ := H.next s _ h1
      cases r1 with
      | nil =>
        simp only [TextIter.nextLoop, g1, List.head?_nil]
        exact ⟨_, _, rfl, Or.inl ⟨rfl, rfl, rfl, rfl, List.nil_suffix⟩⟩
      | cons x r1 =>
        simp only [TextIter.nextLoop, g1, List.head?_cons]
        exact ⟨_, _, rfl, Or.inr ⟨s', _, _, [], [], r1, [], rfl, g2, .nil, rfl, rfl, rfl, h4.next⟩⟩
  | cons c cs ih =>
    rintro cur acc p r (⟨rfl, hcs, _⟩ | ⟨s, done, b, p1, p2, r1, rs, rfl, h1, h2, rfl, rfl, h3, h4⟩)
    · cases hcs
    · obtain ⟨s', g1, g2⟩ := H.next s _ h1
      cases r1 with
      | nil =>
        simp only [TextIter.nextLoop, g1, List.head?_nil]
        cases h2 with
        | @cons _ l _ ls hc hcs =>
          exact ih _ none [] _ (Or.inr ⟨_, _, _, [], [], l, ls, rfl, H.srcStrm c l hc, hcs, by simp, rfl, rfl,
            h4.drop.step⟩)
      | cons x r1 =>
        simp only [TextIter.nextLoop, g1, List.head?_cons]
        exact ⟨_, _, rfl, Or.inr ⟨s', _, _, [], [], r1, rs, rfl, g2, h2, rfl, rfl, rfl, h4.next⟩⟩

theorem CurSlices.nextAccumLoop (H : ChunkConf O RC RCS) (K : SliceConf cc T RC RA F pieces) :
    ∀ (cs : List C) (cur : Option CS) (acc : Option τ) (p r : List (Item P)) (a : α),
    CurSlices cc T RC RCS pieces cur cs acc p r →
    ∃ o cur' cs' acc' a', TextIter.nextAccumLoop O T cs cur acc a = (o, (cur', cs', acc'), a') ∧ RA a a' ∧
      ((o = .ok r.head? ∧ CurSlices cc T RC RCS pieces cur' cs' acc' (p ++ r.head?.toList) r.tail) ∨
       (F ∧ p ≠ [] ∧ (∃ e, o = .err e) ∧ CurSlices cc T RC RCS pieces cur' cs' acc' [] r)) := by
  intro cs
  induction cs with
  | nil =>
    rintro cur acc p r a (⟨rfl, _, rfl, h1, h2⟩ | ⟨s, done, b, p1, p2, r1, rs, rfl, h1, h2, rfl, rfl, hacc, h4⟩)
    · exact ⟨_, _, _, _, _, rfl, K.refl a, Or.inl ⟨rfl, Or.inl ⟨rfl, rfl, rfl, by simpa using h1, by simpa using h2⟩⟩⟩
    · cases h2
      obtain ⟨s', g1, g2⟩ := H.nextAccum s _ h1
      cases r1 with
      | nil =>
        simp only [List.head?_nil, Option.toList_none, List.append_nil, List.tail_nil] at g1 g2
        obtain ⟨c, s'', g3, g4, g5⟩ := H.accumDone s' _ g2
        obtain ⟨q, hq, hq2⟩ := h4.mem
        obtain ⟨o, a', g6, g7, g8⟩ := K.concat _ _ _ _ a (hacc.getD K) (K.ofChunk c _ q g4 hq hq2) h4.apart
        simp only [TextIter.nextAccumLoop, g1, g3, g6]
        rcases g8 with ⟨v, rfl, hv⟩ | ⟨hF, hne, hne', e, rfl⟩
        · refine ⟨_, _, _, _, _, rfl, g7, Or.inl ⟨rfl, Or.inl ⟨rfl, rfl, rfl, by simpa [TextType.SlicesOpt] using hv, ?_⟩⟩⟩
          simpa using h4.within
        · refine ⟨_, _, _, _, _, rfl, g7, Or.inr ⟨hF, by simp [hne], ⟨e, rfl⟩, Or.inr ?_⟩⟩
          exact ⟨s'', _, _, [], [], [], [], rfl, g5, .nil, rfl, rfl, rfl, h4.drop⟩
      | cons x r1 =>
        simp only [TextIter.nextAccumLoop, g1, List.head?_cons, Outcome.mapErr]
        exact ⟨_, _, _, _, _, rfl, K.refl a, Or.inl ⟨rfl, Or.inr ⟨s', _, _, p1, _, r1, [], rfl,
          g2, .nil, rfl, by simp, hacc, h4.accum⟩⟩⟩
  | cons c cs ih =>
    rintro cur acc p r a (⟨rfl, hcs, _⟩ | ⟨s, done, b, p1, p2, r1, rs, rfl, h1, h2, rfl, rfl, hacc, h4⟩)
    · cases hcs
    · obtain ⟨s', g1, g2⟩ := H.nextAccum s _ h1
      cases r1 with
      | nil =>
        simp only [List.head?_nil, Option.toList_none, List.append_nil, List.tail_nil] at g1 g2
        obtain ⟨c', s'', g3, g4, g5⟩ := H.accumDone s' _ g2
        obtain ⟨q, hq, hq2⟩ := h4.mem
        obtain ⟨o, a', g6, g7, g8⟩ := K.concat _ _ _ _ a (hacc.getD K) (K.ofChunk c' _ q g4 hq hq2) h4.apart
        rw [TextIter.nextAccumLoop]
        simp only [g1, g3, g6]
        rcases g8 with ⟨v, rfl, hv⟩ | ⟨hF, hne, hne', e, rfl⟩
        · cases h2 with
          | @cons _ l _ ls hc hcs =>
            obtain ⟨o, cur', cs', acc', a'', k1, k2, k3⟩ := ih (some (O.srcStrm c)) (some v) (p1 ++ p2)
              (l ++ ls.flatten) a' (Or.inr ⟨_, _, _, p1 ++ p2, [], l, ls, rfl, H.srcStrm c l hc, hcs, rfl, by simp, hv,
                h4.step⟩)
            refine ⟨o, cur', cs', acc', a'', k1, K.trans _ _ _ g7 k2, ?_⟩
            simpa using k3
        · refine ⟨_, _, _, _, _, rfl, g7, Or.inr ⟨hF, by simp [hne], ⟨e, rfl⟩, Or.inr ?_⟩⟩
          exact ⟨s'', _, _, [], [], [], rs, rfl, g5, h2, rfl, rfl, rfl, h4.drop⟩
      | cons x r1 =>
        simp only [TextIter.nextAccumLoop, g1, List.head?_cons, Outcome.mapErr]
        exact ⟨_, _, _, _, _, rfl, K.refl a, Or.inl ⟨rfl, Or.inr ⟨s', _, _, p1, _, r1, rs, rfl,
          g2, h2, rfl, by simp, hacc, h4.accum⟩⟩⟩

/-- What a `text::Iter` stands for, with its place in the pieces. -/
def TextIter.MeansIn (cc : Classifier) (T : TextType C τ α) (RC : C → List (Item P) → Prop) (RCS : CS → Seq P → Prop)
    (pieces : List (List (Item P))) (it : TextIter C CS P τ) (q : Seq P) : Prop :=
  CurSlices cc T RC RCS pieces it.cur it.nextChunks it.accum q.pending q.rest ∧
    (it.peeked = none ∨ it.peeked = q.rest.head?)

theorem textIter_slices (H : ChunkConf O RC RCS) {E : Env (TextIter C CS P τ) P τ ε α CE}
    (K : SliceConf E.cc T RC RA F pieces) (hs : E.strm = textIterOps O T) :
    SliceStream E (TextIter.MeansIn E.cc T RC RCS pieces) K.sem pieces where
  peek := by
    rintro ⟨cur, cs, acc, pk⟩ ⟨p, r⟩ ⟨h2, h4⟩
    simp only [hs, textIterOps, TextIter.peek] at *
    rcases h4 with rfl | rfl
    · rcases h2 with ⟨rfl, rfl, rfl, h1, h2⟩ | ⟨s, done, b, p1, p2, r1, rs, rfl, g1, g2, rfl, rfl, h3, h4⟩
      · exact ⟨_, rfl, Or.inl ⟨rfl, rfl, rfl, h1, h2⟩, Or.inl rfl⟩
      · obtain ⟨s', g3, g4⟩ := H.peek s _ g1
        simp only [g3]
        cases r1 with
        | nil =>
          simp only [List.head?_nil, TextIter.peekAhead_spec H g2]
          exact ⟨_, rfl, Or.inr ⟨s', done, b, p1, p2, [], rs, rfl, g4, g2, rfl, rfl, h3, h4⟩, Or.inr rfl⟩
        | cons x r1 =>
          exact ⟨_, rfl, Or.inr ⟨s', done, b, p1, p2, x :: r1, rs, rfl, g4, g2, rfl, rfl, h3, h4⟩, Or.inr rfl⟩
    · cases r with
      | cons x r => exact ⟨_, rfl, h2, Or.inr rfl⟩
      | nil =>
        rcases h2 with ⟨rfl, rfl, _, h1, h2⟩ | ⟨s, done, b, p1, p2, r1, rs, rfl, g1, g2, g3, rfl, h3, h4⟩
        · exact ⟨_, rfl, Or.inl ⟨rfl, rfl, rfl, h1, h2⟩, Or.inl rfl⟩
        · have g4 := List.append_eq_nil_iff.1 g3.symm
          have hr1 := g4.1
          subst hr1
          obtain ⟨s', g5, g6⟩ := H.peek s _ g1
          have g7 := TextIter.peekAhead_spec H g2
          rw [g4.2] at g7
          simp only [List.head?_nil] at g5 g7 ⊢
          simp only [g5, g7]
          exact ⟨_, rfl, Or.inr ⟨s', done, b, p1, p2, [], rs, rfl, g6, g2, g3, rfl, h3, h4⟩, Or.inr rfl⟩
  next := by
    rintro ⟨cur, cs, acc, pk⟩ ⟨p, r⟩ ⟨h2, h4⟩
    obtain ⟨cur', cs', g1, g2⟩ := CurSlices.nextLoop H cs cur acc p r h2
    simp only [hs, textIterOps, TextIter.next, g1]
    exact ⟨_, rfl, g2, Or.inl rfl⟩
  nextAccum := by
    rintro ⟨cur, cs, acc, pk⟩ ⟨p, r⟩ a ⟨h2, h4⟩
    obtain ⟨o, cur', cs', acc', a', g1, g2, g3⟩ := CurSlices.nextAccumLoop H K cs cur acc p r a h2
    simp only [hs, textIterOps, TextIter.nextAccum, g1]
    refine ⟨_, _, _, rfl, g2, ?_⟩
    rcases g3 with ⟨rfl, k1⟩ | ⟨hF, hne, ⟨e, rfl⟩, k⟩
    · exact Or.inl ⟨rfl, k1, Or.inl rfl⟩
    · exact Or.inr ⟨hF, hne, ⟨e, rfl⟩, k, Or.inl rfl⟩
  accumDone := by
    rintro ⟨cur, cs, acc, pk⟩ ⟨p, r⟩ a ⟨h2, h4⟩
    simp only [hs, textIterOps, TextIter.accumDone] at *
    rcases h2 with ⟨rfl, rfl, rfl, h1, h2⟩ | ⟨s, done, b, p1, p2, r1, rs, rfl, g1, g2, rfl, rfl, h3, h5⟩
    · refine ⟨_, _, _, rfl, K.refl a, ⟨Or.inl ⟨rfl, rfl, rfl, rfl, List.nil_suffix⟩, h4⟩, Or.inl ⟨_, rfl, h1.getD K⟩⟩
    · obtain ⟨c, s', g3, g4, g5⟩ := H.accumDone s _ g1
      obtain ⟨q, hq, hq2⟩ := h5.mem
      obtain ⟨o, a', g6, g7, g8⟩ := K.concat _ _ _ _ a (h3.getD K) (K.ofChunk c _ q g4 hq hq2) h5.apart
      simp only [g3, g6]
      refine ⟨_, _, _, rfl, g7, ⟨Or.inr ⟨s', done, _, [], [], r1, rs, rfl, g5, g2, rfl, rfl, rfl, h5.drop⟩, h4⟩, ?_⟩
      rcases g8 with ⟨v, rfl, hv⟩ | ⟨hF, hne, hne', e, rfl⟩
      · exact Or.inl ⟨v, rfl, hv⟩
      · exact Or.inr ⟨hF, by simp [hne], e, rfl⟩
  within := by
    rintro ⟨cur, cs, acc, pk⟩ ⟨p, r⟩ ⟨⟨_, _, rfl, _, h⟩ | ⟨s, done, b, p1, p2, r1, rs, _, _, _, rfl, rfl, _, h⟩, _⟩
    · simpa using h
    · exact h.within

/-- A fresh `text::Iter` stands at the beginning of the pieces. -/
theorem TextIter.ofChunks_slices (H : ChunkConf O RC RCS) {cs : List C} (h : List.Forall₂ RC cs pieces) :
    TextIter.MeansIn cc T RC RCS pieces (TextIter.ofChunks O cs) ⟨[], pieces.flatten⟩ := by
  cases h with
  | nil => exact ⟨Or.inl ⟨rfl, rfl, rfl, rfl, List.nil_suffix⟩, Or.inl rfl⟩
  | @cons c l cs ls hc hcs =>
    exact ⟨Or.inr ⟨_, [], [], [], [], l, ls, rfl, H.srcStrm c l hc, hcs, rfl, rfl, rfl, ⟨0, by simp⟩, Or.inl rfl⟩, Or.inl rfl⟩

/-! ## `CharIterSourceStream` -/

/-- What a `CharIterSourceStream` stands for, with its place in the source. -/
def CharIter.MeansIn (r : List (Item CharPos)) (it : CharIter) (q : Seq CharPos) : Prop :=
  CharIter.Means it q ∧ q.pending ++ q.rest <:+ r

theorem charIter_slices {T : TextType PosStrish τ α} {r : List (Item CharPos)} {E : Env CharIter CharPos τ ε α CE}
    {RA' : α → α → Prop} {F' : Prop} (K : SliceConf E.cc T PosStrish.Means RA F [r]) (K' : TextConf T PosStrish.Means RA' F')
    (hs : E.strm = charIterOps T) (ht : E.text = T.ops) : SliceStream E (CharIter.MeansIn r) K.sem [r] where
  peek := by
    rintro s q ⟨h, h'⟩
    obtain ⟨s', h1, h2⟩ := (charIter_conf K' hs ht).peek s q h
    exact ⟨s', h1, h2, h'⟩
  next := by
    rintro s ⟨p, r'⟩ ⟨h, h'⟩
    obtain ⟨s', h1, h2⟩ := (charIter_conf K' hs ht).next s _ h
    refine ⟨s', h1, h2, ?_⟩
    cases r' with
    | nil => exact List.nil_suffix
    | cons x r' => exact List.IsSuffix.trans ⟨p ++ [x], by simp⟩ h'
  nextAccum := by
    rintro s ⟨p, r'⟩ a ⟨h, h'⟩
    obtain ⟨o, s', a', h1, h2, h3⟩ := (charIter_conf K' hs ht).nextAccum s _ a h
    have ho : o = .ok (s.nextAccum).1 ∧ a' = a := by
      rw [hs] at h1
      simp only [charIterOps, Prod.mk.injEq] at h1
      exact ⟨h1.1.symm, h1.2.2.symm⟩
    obtain ⟨ho, rfl⟩ := ho
    refine ⟨o, s', a', h1, K.refl a', ?_⟩
    rcases h3 with ⟨h3, h4⟩ | ⟨h3, h4, ⟨x, h5⟩, h6⟩
    · refine .inl ⟨h3, h4, ?_⟩
      cases r' with
      | nil => simpa using h'
      | cons x r' => simpa using h'
    · rw [ho] at h5
      cases h5
  accumDone := by
    rintro s ⟨p, r'⟩ a ⟨⟨k, acc, w, h1, h2, h3, h4⟩, h'⟩
    simp only at h2 h3 h'
    subst h2 h3
    have hw : itemsFrom CharPos.adv ⟨k⟩ acc <:+: r := List.IsInfix.trans ⟨[], s.peIter, by simp⟩ h'.isInfix
    simp only [hs, charIterOps, CharIter.accumDone, h4]
    by_cases ha : acc = []
    · subst ha
      refine ⟨_, _, _, rfl, K.refl a, ⟨⟨k, [], w, h1, rfl, rfl, h4⟩, h'⟩, Or.inl ⟨_, rfl, ?_⟩⟩
      exact K.ofChunk _ _ r posStrish_conf.empty (by simp) List.nil_infix
    · simp only [if_neg ha]
      refine ⟨_, _, _, rfl, K.refl a, ⟨⟨k + acc.length, [], w, by simpa using h1, rfl, rfl, rfl⟩,
        List.IsSuffix.trans ⟨_, rfl⟩ h'⟩, Or.inl ⟨_, rfl, ?_⟩⟩
      exact K.ofChunk _ _ r (PosStrish.new_means acc ⟨k⟩) (by simp) hw
  within := by
    rintro s q ⟨_, h⟩
    simpa using h

/-! ## `StrishIterSourceStream` -/

theorem charPieces_flatten : ∀ (ss : List Str) (k : Nat),
    (charPieces k ss).flatten = itemsFrom CharPos.adv ⟨k⟩ ss.flatten
  | [], _ => rfl
  | s :: ss, k => by
    rw [charPieces, List.flatten_cons, charPieces_flatten ss, List.flatten_cons, itemsFrom_append, advs_charPos]

/-- What is left of the strings: nothing, or some empty ones before the next. -/
theorem StrishIter.nextPosstrishOf_pieces (k : Nat) (ss : List Str) :
    (nextPosstrishOf k ss = (none, []) ∧ ss.flatten = []) ∨
    (∃ ps v ss' n, nextPosstrishOf k ss = (some ps, ss') ∧ v ≠ [] ∧ ss = List.replicate n [] ++ v :: ss' ∧
      PosStrishIter.Means ps ⟨[], itemsFrom CharPos.adv ⟨k⟩ v⟩) := by
  induction ss with
  | nil => exact Or.inl ⟨rfl, rfl⟩
  | cons s ss ih =>
    simp only [nextPosstrishOf]
    by_cases h : Str.len s > 0
    · rw [if_pos h]
      refine Or.inr ⟨_, s, ss, 0, rfl, ?_, rfl, posStrish_conf.srcStrm _ _ (PosStrish.new_means s ⟨k⟩)⟩
      rintro rfl
      simp [Str.len] at h
    · rw [if_neg h]
      have hs : s = [] := (Str.len_eq_zero s).1 (by omega)
      subst hs
      rcases ih with h | ⟨ps, v, ss', n, h1, h2, h3, h4⟩
      · exact .inl (by simpa using h)
      · exact .inr ⟨ps, v, ss', n + 1, h1, h2, by rw [h3, List.replicate_succ]; rfl, h4⟩

theorem charPieces_skip (k : Nat) (v : Str) (ss : List Str) : ∀ n,
    charPieces k (List.replicate n [] ++ v :: ss) =
      List.replicate n [] ++ itemsFrom CharPos.adv ⟨k⟩ v :: charPieces (k + v.length) ss
  | 0 => rfl
  | n + 1 => by
    rw [List.replicate_succ, List.replicate_succ, List.cons_append, charPieces]
    simp only [List.length_nil, Nat.add_zero, charPieces_skip k v ss n]
    rfl

theorem charPieces_empty : ∀ {ss : List Str} {k : Nat}, ss.flatten = [] → charPieces k ss = List.replicate ss.length []
  | [], _, _ => rfl
  | s :: ss, k, h => by
    have h' := List.append_eq_nil_iff.1 (by simpa using h : s ++ ss.flatten = [])
    obtain ⟨rfl, h'⟩ := h'
    rw [charPieces, charPieces_empty h', List.length_cons, List.replicate_succ]
    rfl

/-- The stream goes on to the next piece that is not empty. -/
theorem PieceAt.skip : ∀ {k : Nat} {done b p1 p2 l} {rs : List (List (Item P))},
    PieceAt pieces done b p1 p2 [] (List.replicate k [] ++ l :: rs) →
    ∃ done', PieceAt pieces done' [] (p1 ++ p2) [] l rs
  | 0, _, _, _, _, _, _, h => ⟨_, h.step⟩
  | k + 1, _, _, _, _, _, _, h => by
    have := PieceAt.skip (PieceAt.step (l := []) (by simpa [List.replicate_succ] using h))
    simpa using this

/-- What a `StrishIterSourceStream` stands for, with its place in the pieces. -/
def StrishIter.MeansIn (cc : Classifier) (T : TextType PosStrish τ α) (pieces : List (List (Item CharPos)))
    (it : StrishIter τ) (q : Seq CharPos) : Prop :=
  (it.cur = none ∧ q.rest = [] ∧ T.SlicesOpt cc PosStrish.Means pieces it.accum q.pending ∧ q.pending <:+ pieces.flatten) ∨
  (∃ s done b p1 p2 w, it.cur = some s ∧ PosStrishIter.Means s ⟨p2, itemsFrom CharPos.adv ⟨it.charIdx⟩ w⟩ ∧
    q.pending = p1 ++ p2 ∧ T.SlicesOpt cc PosStrish.Means pieces it.accum p1 ∧
    ((it.peekedStrm = none ∧ q.rest = itemsFrom CharPos.adv ⟨it.charIdx⟩ (w ++ it.strishIter.flatten) ∧
      PieceAt pieces done b p1 p2 (itemsFrom CharPos.adv ⟨it.charIdx⟩ w) (charPieces (it.charIdx + w.length) it.strishIter)) ∨
     (w = [] ∧ ∃ ps v k, it.peekedStrm = some ps ∧ v ≠ [] ∧
      PosStrishIter.Means ps ⟨[], itemsFrom CharPos.adv ⟨it.charIdx⟩ v⟩ ∧
      q.rest = itemsFrom CharPos.adv ⟨it.charIdx⟩ (v ++ it.strishIter.flatten) ∧
      PieceAt pieces done b p1 p2 [] (List.replicate k [] ++ itemsFrom CharPos.adv ⟨it.charIdx⟩ v ::
        charPieces (it.charIdx + v.length) it.strishIter))))

/-- At the end of the current string: `next_posstrish` succeeds, and leads to the end
of the source or to a next, nonempty string. -/
theorem StrishIter.nextPosstrish_pieces {pieces : List (List (Item CharPos))} {it : StrishIter τ} {s : PosStrishIter}
    {r : List (Item CharPos)} {done b p1 p2} (hcur : it.cur = some s) (hs : PosStrishIter.Means s ⟨[], []⟩)
    (h : (it.peekedStrm = none ∧ r = itemsFrom CharPos.adv ⟨it.charIdx⟩ it.strishIter.flatten ∧
        PieceAt pieces done b p1 p2 [] (charPieces it.charIdx it.strishIter)) ∨
       (∃ ps v k, it.peekedStrm = some ps ∧ v ≠ [] ∧
        PosStrishIter.Means ps ⟨[], itemsFrom CharPos.adv ⟨it.charIdx⟩ v⟩ ∧
        r = itemsFrom CharPos.adv ⟨it.charIdx⟩ (v ++ it.strishIter.flatten) ∧
        PieceAt pieces done b p1 p2 [] (List.replicate k [] ++ itemsFrom CharPos.adv ⟨it.charIdx⟩ v ::
          charPieces (it.charIdx + v.length) it.strishIter))) :
    (∃ it', it.nextPosstrish = some it' ∧ it'.cur = none ∧ it'.accum = it.accum ∧ r = [] ∧
      p1 ++ p2 <:+ pieces.flatten) ∨
    (∃ it' s' v done', it.nextPosstrish = some it' ∧ it'.cur = some s' ∧ it'.accum = it.accum ∧
      it'.peekedStrm = none ∧ it'.charIdx = it.charIdx ∧
      v ≠ [] ∧ PosStrishIter.Means s' ⟨[], itemsFrom CharPos.adv ⟨it.charIdx⟩ v⟩ ∧
      r = itemsFrom CharPos.adv ⟨it.charIdx⟩ (v ++ it'.strishIter.flatten) ∧
      PieceAt pieces done' [] (p1 ++ p2) [] (itemsFrom CharPos.adv ⟨it.charIdx⟩ v)
        (charPieces (it.charIdx + v.length) it'.strishIter)) := by
  obtain ⟨s', g1, g2⟩ := posStrish_conf.peek s _ hs
  have g1' : s.peek = (.ok none, s') := g1
  simp only [nextPosstrish, hcur, g1']
  rcases h with ⟨h1, h2, h3⟩ | ⟨ps, v, k, h1, h2, h3, h4, h5⟩
  · rw [h1]
    simp only
    rcases nextPosstrishOf_pieces it.charIdx it.strishIter with ⟨k1, k2⟩ | ⟨ps, v, ss', n, k1, k2, k3, k4⟩
    · rw [k1]
      refine Or.inl ⟨_, rfl, rfl, rfl, by simp [h2, k2, itemsFrom], ?_⟩
      have := h3.within
      rw [charPieces_flatten, k2] at this
      simpa [itemsFrom] using this
    · rw [k1]
      rw [k3, charPieces_skip] at h3
      obtain ⟨done', h3⟩ := h3.skip
      exact Or.inr ⟨_, ps, v, done', rfl, rfl, rfl, rfl, rfl, k2, k4, by simp [h2, k3], h3⟩
  · rw [h1]
    obtain ⟨done', h5⟩ := h5.skip
    exact Or.inr ⟨_, ps, v, done', rfl, rfl, rfl, rfl, rfl, h2, h3, h4, h5⟩

theorem strishIter_slices {T : TextType PosStrish τ α} {pieces : List (List (Item CharPos))}
    {E : Env (StrishIter τ) CharPos τ ε α CE} (K : SliceConf E.cc T PosStrish.Means RA F pieces)
    (hs : E.strm = strishIterOps T) : SliceStream E (StrishIter.MeansIn E.cc T pieces) K.sem pieces where
  peek := by
    rintro it ⟨p, r⟩ h3
    simp only [hs, strishIterOps, StrishIter.peek, StrishIter.MeansIn] at *
    rcases h3 with ⟨h3, rfl, h1, h2⟩ | ⟨s, done, b, p1, p2, w, h3, h4, rfl, h1, h5⟩
    · rw [h3]
      exact ⟨_, rfl, Or.inl ⟨h3, rfl, h1, h2⟩⟩
    · rw [h3]
      obtain ⟨s', g1, g2⟩ := posStrish_conf.peek s _ h4
      cases w with
      | cons c w =>
        have g1' : s.peek = (.ok (some ⟨c, ⟨it.charIdx⟩⟩), s') := g1
        simp only [g1']
        rcases h5 with ⟨k1, rfl, k2⟩ | ⟨k, _⟩
        · exact ⟨_, rfl, Or.inr ⟨s', done, b, p1, p2, c :: w, rfl, g2, rfl, h1, Or.inl ⟨k1, rfl, k2⟩⟩⟩
        · cases k
      | nil =>
        have g1' : s.peek = (.ok none, s') := g1
        simp only [g1']
        rcases h5 with ⟨k1, rfl, k2⟩ | ⟨_, ps, v, k, k1, k2, k3, rfl, k4⟩
        · rw [k1]
          simp only
          rcases StrishIter.nextPosstrishOf_pieces it.charIdx it.strishIter with
            ⟨m1, m2⟩ | ⟨ps, v, ss', n, m1, m2, m3, m4⟩
          · simp only [m1, m2]
            rw [show it.charIdx + ([] : Str).length = it.charIdx from rfl, charPieces_empty m2] at k2
            exact ⟨_, rfl, Or.inr ⟨s', done, b, p1, p2, [], rfl, g2, rfl, h1, Or.inl ⟨rfl, rfl,
              PieceAt.cut (rs := []) k2⟩⟩⟩
          · obtain ⟨ps', l1, l2⟩ := posStrish_conf.peek ps _ m4
            cases v with
            | nil => exact absurd rfl m2
            | cons c v =>
              have l1' : ps.peek = (.ok (some ⟨c, ⟨it.charIdx⟩⟩), ps') := l1
              rw [m3, show it.charIdx + ([] : Str).length = it.charIdx from rfl, charPieces_skip] at k2
              simp only [m1, l1']
              refine ⟨{ it with cur := some s', peekedStrm := some ps', strishIter := ss' }, ?_, Or.inr ⟨s', done, b, p1, p2,
                [], rfl, g2, rfl, h1, Or.inr ⟨rfl, ps', c :: v, n, rfl, by simp, l2, by simp [m3], k2⟩⟩⟩
              simp [m3, itemsFrom]
        · rw [k1]
          obtain ⟨ps', l1, l2⟩ := posStrish_conf.peek ps _ k3
          cases v with
          | nil => exact absurd rfl k2
          | cons c v =>
            have l1' : ps.peek = (.ok (some ⟨c, ⟨it.charIdx⟩⟩), ps') := l1
            simp only [l1']
            exact ⟨_, rfl, Or.inr ⟨s', done, b, p1, p2, [], rfl, g2, rfl, h1, Or.inr ⟨rfl, ps', c :: v, k, rfl, by simp,
              l2, rfl, k4⟩⟩⟩
  next := by
    rintro it ⟨p, r⟩ h3
    simp only [hs, strishIterOps, StrishIter.next, StrishIter.MeansIn] at *
    rcases h3 with ⟨h3, rfl, h1, h2⟩ | ⟨s, done, b, p1, p2, w, h3, h4, rfl, h1, h5⟩
    · refine ⟨{ it with accum := none }, by simp only [StrishIter.nextLoop, StrishIter.turns, h3]; rfl, ?_⟩
      exact Or.inl ⟨h3, rfl, rfl, List.nil_suffix⟩
    · cases w with
      | cons c w =>
        obtain ⟨s', g1, g2⟩ := StrishIter.nextLoop_nonempty (it := { it with accum := none }) 1 h3 h4
        rcases h5 with ⟨k1, rfl, k2⟩ | ⟨k, _⟩
        · refine ⟨_, g1, Or.inr ⟨s', done, b ++ p2 ++ [⟨c, ⟨it.charIdx⟩⟩], [], [], w, rfl, g2, rfl, rfl, Or.inl ⟨k1, rfl, ?_⟩⟩⟩
          have := PieceAt.next k2
          simpa [Nat.add_assoc, Nat.add_comm 1, CharPos.adv] using this
        · cases k
      | nil =>
        obtain ⟨s', g1, g2⟩ := posStrish_conf.next s _ h4
        have g1' : s.next = (.ok none, s') := g1
        have h5' : (it.peekedStrm = none ∧ r = itemsFrom CharPos.adv ⟨it.charIdx⟩ it.strishIter.flatten ∧
          PieceAt pieces done b p1 p2 [] (charPieces it.charIdx it.strishIter)) ∨ _ := h5.imp id And.right
        rcases StrishIter.nextPosstrish_pieces (τ := τ) (it := { it with cur := some s', accum := none }) rfl g2 h5' with
          ⟨it', k1, k2, k3, rfl, k4⟩ | ⟨it', s'', v, done', k1, k2, k3, k4, k5, k6, k7, hr, k8⟩
        · refine ⟨it', ?_, Or.inl ⟨k2, rfl, by rw [k3]; rfl, List.nil_suffix⟩⟩
          simp only [StrishIter.nextLoop, StrishIter.turns, h3, g1', k1, k2]; rfl
        · cases v with
          | nil => exact absurd rfl k6
          | cons c v =>
            obtain ⟨s3, m1, m2⟩ := StrishIter.nextLoop_nonempty 0 k2 k7
            subst hr
            refine ⟨{ it' with cur := some s3, charIdx := it'.charIdx + 1 }, ?_,
              Or.inr ⟨s3, done', [] ++ [] ++ [⟨c, ⟨it.charIdx⟩⟩], [], [], v, rfl, ?_, rfl, ?_, Or.inl ⟨k4, ?_, ?_⟩⟩⟩
            · rw [StrishIter.turns, StrishIter.nextLoop]
              simp only [h3, g1', k1, m1]
              rfl
            · rw [k5]; exact m2
            · rw [k3]; rfl
            · rw [k5]; rfl
            · rw [k5]
              have := PieceAt.next k8
              simpa [Nat.add_assoc, Nat.add_comm 1, CharPos.adv] using this
  nextAccum := by
    rintro it ⟨p, r⟩ a h3
    simp only [hs, strishIterOps, StrishIter.nextAccum, StrishIter.MeansIn] at *
    rcases h3 with ⟨h3, rfl, h1, h2⟩ | ⟨s, done, b, p1, p2, w, h3, h4, rfl, h1, h5⟩
    · refine ⟨_, _, _, by simp only [StrishIter.nextAccumLoop, StrishIter.turns, h3]; rfl, K.refl a,
        Or.inl ⟨rfl, Or.inl ⟨h3, rfl, by simpa using h1, by simpa using h2⟩⟩⟩
    · cases w with
      | cons c w =>
        obtain ⟨s', g1, g2⟩ := StrishIter.nextAccumLoop_nonempty (T := T) 1 a h3 h4
        rcases h5 with ⟨k1, rfl, k2⟩ | ⟨k, _⟩
        · refine ⟨_, _, _, g1, K.refl a, Or.inl ⟨rfl,
            Or.inr ⟨s', done, b, p1, p2 ++ [⟨c, ⟨it.charIdx⟩⟩], w, rfl, g2, ?_, h1, Or.inl ⟨k1, rfl, ?_⟩⟩⟩⟩
          · simp [itemsFrom]
          · have := PieceAt.accum k2
            simpa [Nat.add_assoc, Nat.add_comm 1, CharPos.adv] using this
        · cases k
      | nil =>
        obtain ⟨s', g1, g2⟩ := posStrish_conf.nextAccum s _ h4
        have g1' : s.nextAccum = (.ok none, s') := g1
        obtain ⟨c, s'', g3, g4, g5⟩ := posStrish_conf.accumDone s' _ g2
        have g3' : s'.accumDone = (.ok c, s'') := g3
        have g4' : PosStrish.Means c p2 := by simpa [itemsFrom] using g4
        have h5' : (it.peekedStrm = none ∧ r = itemsFrom CharPos.adv ⟨it.charIdx⟩ it.strishIter.flatten ∧
          PieceAt pieces done b p1 p2 [] (charPieces it.charIdx it.strishIter)) ∨ _ := h5.imp id And.right
        have h6 : ∃ rs, PieceAt pieces done b p1 p2 [] rs := by
          rcases h5' with ⟨_, _, h⟩ | ⟨_, _, _, _, _, _, _, h⟩ <;> exact ⟨_, h⟩
        obtain ⟨_, h6⟩ := h6
        obtain ⟨q, hq, hq2⟩ := h6.mem
        obtain ⟨o, a', g6, g7, g8⟩ := K.concat _ _ _ _ a (h1.getD K) (K.ofChunk c _ q g4' hq hq2) h6.apart
        rcases g8 with ⟨acc, rfl, hv⟩ | ⟨hF, hne, hne', e, rfl⟩
        · rcases StrishIter.nextPosstrish_pieces (τ := τ) (it := { it with cur := some s'', accum := some acc }) rfl g5 h5'
            with ⟨it', k1, k2, k3, rfl, k4⟩ | ⟨it', s3, v, done', k1, k2, k3, k4, k5, k6, k7, hr, k8⟩
          · refine ⟨.ok none, it', a', ?_, g7, Or.inl ⟨rfl, Or.inl ⟨k2, rfl, ?_, by simpa using k4⟩⟩⟩
            · simp only [StrishIter.nextAccumLoop, StrishIter.turns, h3, g1', g3', g6, k1, k2]
            · rw [k3]; simpa [TextType.SlicesOpt] using hv
          · cases v with
            | nil => exact absurd rfl k6
            | cons c v =>
              obtain ⟨s4, m1, m2⟩ := StrishIter.nextAccumLoop_nonempty (T := T) 0 a' k2 k7
              subst hr
              refine ⟨_, { it' with cur := some s4, charIdx := it'.charIdx + 1 }, _, ?_, g7, Or.inl ⟨rfl,
                Or.inr ⟨s4, done', [], p1 ++ p2, [⟨c, ⟨it.charIdx⟩⟩], v, rfl, ?_, ?_, ?_, Or.inl ⟨k4, ?_, ?_⟩⟩⟩⟩
              · rw [StrishIter.turns, StrishIter.nextAccumLoop]
                simp only [h3, g1', g3', g6, k1, m1]
                rfl
              · rw [k5]; exact m2
              · simp [itemsFrom]
              · rw [k3]; exact hv
              · rw [k5]; rfl
              · rw [k5]
                have := PieceAt.accum k8
                simpa [Nat.add_assoc, Nat.add_comm 1, CharPos.adv] using this
        · refine ⟨.err e, { it with cur := some s'', accum := none }, a',
            by simp only [StrishIter.nextAccumLoop, StrishIter.turns, h3, g1', g3', g6], g7,
            Or.inr ⟨hF, by simp [hne], ⟨e, rfl⟩, Or.inr ⟨s'', done, b ++ p2, [], [], [], rfl, g5, rfl, rfl, ?_⟩⟩⟩
          rcases h5 with ⟨k1, k2, k3⟩ | ⟨k1, ps, v, k, k2, k3, k4, k5, k6⟩
          · exact Or.inl ⟨k1, k2, k3.drop⟩
          · exact Or.inr ⟨rfl, ps, v, k, k2, k3, k4, k5, k6.drop⟩
  accumDone := by
    rintro it ⟨p, r⟩ a h3
    simp only [hs, strishIterOps, StrishIter.accumDone, StrishIter.MeansIn] at *
    rcases h3 with ⟨h3, rfl, h1, h2⟩ | ⟨s, done, b, p1, p2, w, h3, h4, rfl, h1, h5⟩
    · rw [h3]
      exact ⟨_, _, _, rfl, K.refl a, Or.inl ⟨rfl, rfl, rfl, List.nil_suffix⟩, Or.inl ⟨_, rfl, h1.getD K⟩⟩
    · rw [h3]
      obtain ⟨c, s', g3, g4, g5⟩ := posStrish_conf.accumDone s _ h4
      have g3' : s.accumDone = (.ok c, s') := g3
      have h6 : ∃ r1 rs, PieceAt pieces done b p1 p2 r1 rs := by
        rcases h5 with ⟨_, _, h⟩ | ⟨_, _, _, _, _, _, _, _, h⟩ <;> exact ⟨_, _, h⟩
      obtain ⟨_, _, h6⟩ := h6
      obtain ⟨q, hq, hq2⟩ := h6.mem
      obtain ⟨o, a', g6, g7, g8⟩ := K.concat _ _ _ _ a (h1.getD K) (K.ofChunk c _ q g4 hq hq2) h6.apart
      simp only [g3', g6]
      refine ⟨_, _, _, rfl, g7, Or.inr ⟨s', done, b ++ p2, [], [], w, rfl, g5, rfl, rfl, ?_⟩, ?_⟩
      · rcases h5 with ⟨k1, k2, k3⟩ | ⟨k1, ps, v, k, k2, k3, k4, k5, k6⟩
        · exact Or.inl ⟨k1, k2, k3.drop⟩
        · exact Or.inr ⟨k1, ps, v, k, k2, k3, k4, k5, k6.drop⟩
      · rcases g8 with ⟨v, rfl, hv⟩ | ⟨hF, hne, hne', e, rfl⟩
        · exact Or.inl ⟨v, rfl, hv⟩
        · exact Or.inr ⟨hF, by simp [hne], e, rfl⟩
  within := by
    rintro it ⟨p, r⟩ h3
    simp only [StrishIter.MeansIn] at *
    rcases h3 with ⟨h3, rfl, h1, h2⟩ | ⟨s, done, b, p1, p2, w, h3, h4, rfl, h1, h5⟩
    · simpa using h2
    · rcases h5 with ⟨k1, rfl, k3⟩ | ⟨k1, ps, v, k, k2, k3, k4, rfl, k6⟩
      · have := k3.within
        rw [charPieces_flatten] at this
        rw [itemsFrom_append, advs_charPos]
        exact this
      · have := k6.within
        rw [List.flatten_append, List.flatten_cons, charPieces_flatten] at this
        simp only [itemsFrom_append, advs_charPos]
        simpa using this

/-- A fresh `StrishIterSourceStream` stands at the beginning of its strings. -/
theorem StrishIter.new_slices (cc : Classifier) (T : TextType PosStrish τ α) (ss : List Str) :
    StrishIter.MeansIn cc T (charPieces 0 ss) (.new ss) ⟨[], itemsFrom CharPos.adv ⟨0⟩ ss.flatten⟩ := by
  unfold StrishIter.new
  rcases nextPosstrishOf_pieces 0 ss with ⟨k1, k2⟩ | ⟨ps, v, ss', n, k1, k2, k3, k4⟩
  · rw [k1]
    exact Or.inl ⟨rfl, by simp [k2, itemsFrom], rfl, List.nil_suffix⟩
  · rw [k1]
    refine Or.inr ⟨ps, List.replicate n [], [], [], [], v, rfl, k4, rfl, rfl, Or.inl ⟨rfl, by simp [k3], ⟨0, ?_⟩, .inl rfl⟩⟩
    rw [k3, charPieces_skip]
    simp

/-! ## Chunks iterated by the states of texts -/

theorem SliceStream.byStates {S : Type} {N : ChunksState C S} {T : TextType C τ α} {al : AllocOps τ ε α}
    {lookup : Datum τ ε → Option (Combiner τ ε α P CE)} {RS : TextIter C CS P τ → Seq P → Prop} {X : TextSem P τ α}
    (H : SliceStream (textEnv O T cc al lookup) RS X pieces) (fuel : Nat) :
    SliceStream (stateEnv N O T fuel cc al lookup) (fun s q => ∃ it, StateIter.Sim N fuel s it ∧ RS it q) X pieces where
  peek := by
    rintro s q ⟨it, h1, h2⟩
    obtain ⟨o, s', it', g1, g2, g3⟩ := peek_sim (O := O) h1
    obtain ⟨it'', h3, h4⟩ := H.peek it q h2
    cases g2.symm.trans h3
    exact ⟨s', g1, it', g3, h4⟩
  next := by
    rintro s q ⟨it, h1, h2⟩
    obtain ⟨o, s', it', g1, g2, g3⟩ := next_sim (O := O) h1
    obtain ⟨it'', h3, h4⟩ := H.next it q h2
    cases g2.symm.trans h3
    exact ⟨s', g1, it', g3, h4⟩
  nextAccum := by
    rintro s q a ⟨it, h1, h2⟩
    obtain ⟨o, s', it', a', g1, g2, g3⟩ := nextAccum_sim (O := O) (T := T) h1 a
    obtain ⟨o', it'', a'', h3, h4, h5⟩ := H.nextAccum it q a h2
    cases g2.symm.trans h3
    exact ⟨o, s', a', g1, h4, h5.imp (fun h => ⟨h.1, it', g3, h.2⟩) fun h => ⟨h.1, h.2.1, h.2.2.1, it', g3, h.2.2.2⟩⟩
  accumDone := by
    rintro s q a ⟨it, h1, h2⟩
    obtain ⟨o, s', it', a', g1, g2, g3⟩ := accumDone_sim (O := O) (T := T) h1 a
    obtain ⟨o', it'', a'', h3, h4, h5, h6⟩ := H.accumDone it q a h2
    cases g2.symm.trans h3
    exact ⟨o, s', a', g1, h4, ⟨it', g3, h5⟩, h6⟩
  within := by
    rintro s q ⟨it, _, h⟩
    exact H.within it q h

/-! ## The library's parsers -/

theorem LibText.slices (H : ChunkConf O RC RCS) {T : TextType C τ α} {X : TextSem P τ α} (h : LibText O RC T X)
    (cc : Classifier) (pieces : List (List (Item P))) : SliceConf cc T RC X.RA X.F pieces := by
  cases h with
  | vec => exact textVec_slices H
  | datumList al => exact textDatumList_slices H al

theorem InPieces.conf {E : Env σ P τ ε α CE} {s : σ} {X : TextSem P τ α} (h : InPieces E s pieces T RC X) :
    ∃ RS, ConfJ E RS ⟨T.SlicesOf E.cc RC pieces, X.RA, X.F⟩ (CutBetween E.cc pieces) ∧ RS s ⟨[], pieces.flatten⟩ := by
  cases h with
  | @text _ _ _ _ _ _ _ O _ hC _ _ hT cc al lookup cs _ h =>
    obtain ⟨RCS, H⟩ := hC.conf
    have K := hT.slices H cc pieces
    exact ⟨_, (textIter_slices (E := textEnv O T cc al lookup) H K rfl).conf K rfl, TextIter.ofChunks_slices H h⟩
  | @byStates _ _ _ _ _ _ _ _ O _ hC _ _ hT state N hN cc al lookup t cs _ h1 h2 fuel hl it hi =>
    obtain ⟨RCS, H⟩ := hC.conf
    have K := hT.slices H cc pieces
    obtain ⟨fuel, rfl⟩ : ∃ f, fuel = f + 1 := ⟨fuel - 1, by omega⟩
    obtain ⟨it', g1, g2⟩ := StateIter.new_sim (O := O) (hN.gives h1) (fuel := fuel) (by omega)
    cases g1.symm.trans hi
    exact ⟨_, ((textIter_slices (E := textEnv O T cc al lookup) H K rfl).byStates (fuel + 1)).conf
      (E := stateEnv N O T (fuel + 1) cc al lookup) K rfl, _, g2, TextIter.ofChunks_slices H h2⟩
  | @strs _ _ _ _ T _ hT cc al lookup ss =>
    have K := hT.slices posStrish_conf cc (charPieces 0 ss)
    refine ⟨_, (strishIter_slices (E := strishEnv T cc al lookup) K rfl).conf K rfl, ?_⟩
    rw [charPieces_flatten]
    exact StrishIter.new_slices cc T ss
  | @chars _ _ _ _ T _ hT cc al lookup s =>
    have K := hT.slices posStrish_conf cc [charItems s]
    refine ⟨_, (charIter_slices (E := charEnv T cc al lookup) K (hT.conf posStrish_conf).2 rfl rfl).conf K rfl, ?_⟩
    exact ⟨by simpa [charItems] using CharIter.new_means s, by simp⟩

/-! ## How few slices -/

theorem nodup_cancel {A : Type} {x : A} {a b c d : List A} (h : (a ++ x :: b).Nodup) (he : a ++ x :: b = c ++ x :: d) :
    a = c ∧ b = d := by
  induction a generalizing c with
  | nil =>
    cases c with
    | nil => simpa using he
    | cons y c =>
      simp only [List.nil_append, List.cons_append, List.cons.injEq] at he
      obtain ⟨rfl, rfl⟩ := he
      simp at h
  | cons y a ih =>
    cases c with
    | nil =>
      simp only [List.nil_append, List.cons_append, List.cons.injEq] at he
      obtain ⟨rfl, rfl⟩ := he
      simp at h
    | cons z c =>
      simp only [List.cons_append, List.cons.injEq] at he h
      obtain ⟨rfl, he⟩ := he
      obtain ⟨rfl, rfl⟩ := ih h.tail he
      exact ⟨rfl, rfl⟩

theorem infix_flatten {A : Type} {l : List A} {ls : List (List A)} (h : l ∈ ls) : l <:+: ls.flatten := by
  obtain ⟨a, b, rfl⟩ := List.append_of_mem h
  exact ⟨a.flatten, b.flatten, by simp⟩

/-- No slice of a piece goes across a cut. -/
theorem Cut.not_infix {x y : Item P} (hn : pieces.flatten.Nodup) (h : Cut cc pieces x y) {p : List (Item P)} (hp : p ∈ pieces) :
    ¬ [x, y] <:+: p := by
  rintro ⟨a, b, hab⟩
  cases h with
  | escape it hi hx =>
    obtain ⟨c, d, hx⟩ := hx
    obtain ⟨u, v, hu⟩ := infix_flatten hp
    subst hab
    have h1 : (u ++ a) ++ x :: (y :: b ++ v) = c ++ x :: (it :: y :: d) := by simpa using hu.trans hx.symm
    have h2 : ((u ++ a) ++ x :: (y :: b ++ v)).Nodup := by
      rw [← hu] at hn; simpa using hn
    obtain ⟨_, h3⟩ := nodup_cancel h2 h1
    simp only [List.cons_append, List.cons.injEq] at h3
    obtain ⟨rfl, h3⟩ := h3
    have h4 := (List.nodup_append.1 h2).2.1
    simp [h3] at h4
  | pieces before after l l' k h =>
    subst hab
    -- `x` occurs once in the pieces
    rw [h] at hp hn
    rcases List.mem_append.1 hp with hp | hp
    · obtain ⟨c, d, rfl⟩ := List.append_of_mem hp
      have h2 : ((c.flatten ++ a) ++ x :: (y :: b ++ d.flatten ++ l ++ x :: ((List.replicate k [] ++ (y :: l') :: after).flatten))).Nodup := by
        simpa using hn
      have h3 := (List.nodup_append.1 h2).2.1
      simp at h3
    · rcases List.mem_cons.1 hp with hp | hp
      · have h2 : (a ++ x :: (y :: b)).Nodup := by
          have := (List.nodup_append.1 (by simpa using hn : (before.flatten ++ ((l ++ [x]) ++ (List.replicate k [] ++ (y :: l') :: after).flatten)).Nodup)).2.1
          have := (List.nodup_append.1 this).1
          rw [← hp] at this
          simpa using this
        have h3 := nodup_cancel h2 (by simpa using hp : a ++ x :: (y :: b) = l ++ x :: [])
        simp at h3
      · have h2 : x ∈ (List.replicate k [] ++ (y :: l') :: after).flatten := List.mem_flatten.2 ⟨_, hp, by simp⟩
        have h3 : (before.flatten ++ (l ++ x :: (List.replicate k [] ++ (y :: l') :: after).flatten)).Nodup := by
          simpa using hn
        have h4 := (List.nodup_append.1 (List.nodup_append.1 h3).2.1).2.1
        exact (List.nodup_cons.1 h4).1 h2

theorem Slices.tail {l : List (Item P)} {ls : List (List (Item P))} (h : Slices cc pieces (l :: ls)) : Slices cc pieces ls :=
  ⟨fun l' hl => h.slice l' (.tail _ hl), h.apart.tail⟩

/-- In fewer slices it cannot be done. -/
theorem Slices.fewest (hn : pieces.flatten.Nodup) : ∀ {ls' ls : List (List (Item P))}, Slices cc pieces ls →
    ls'.flatten = ls.flatten → (∀ l ∈ ls', ∃ p ∈ pieces, l <:+: p) → ls.length ≤ ls'.length
  | [], [], _, _, _ => Nat.le_refl _
  | [], l :: ls, h, he, _ => by
    have := h.ne l (by simp)
    simp at he
    exact absurd he.1 this
  | _ :: _, [], _, _, _ => Nat.zero_le _
  | s :: ls', l :: ls, h, he, hs => by
    have ih := fun {ls : List (List (Item P))} (h : Slices cc pieces ls) he =>
      Slices.fewest hn (ls' := ls') h he fun l hl => hs l (.tail _ hl)
    simp only [List.flatten_cons] at he
    rcases List.append_eq_append_iff.1 he with ⟨l2, h1, h2⟩ | ⟨s2, h1, h2⟩
    · -- `s` ends within `l`
      by_cases hl : l2 = []
      · subst hl
        have := ih h.tail (by simpa using h2)
        simp; omega
      · have h3 : Slices cc pieces (l2 :: ls) := by
          refine ⟨?_, ?_⟩
          · intro m hm
            rcases List.mem_cons.1 hm with rfl | hm
            · obtain ⟨_, p, hp, hlp⟩ := h.slice l (by simp)
              exact ⟨hl, p, hp, List.IsInfix.trans ⟨s, [], by simp [h1]⟩ hlp⟩
            · exact h.slice m (.tail _ hm)
          · cases ls with
            | nil => exact List.isChain_singleton _
            | cons l' ls =>
              have h4 := h.apart
              rw [List.isChain_cons_cons] at h4 ⊢
              refine ⟨fun x hx => h4.1 x ?_, h4.2⟩
              rw [h1, List.getLast?_append_of_ne_nil _ hl]
              exact hx
        have := ih h3 (by simpa using h2)
        simp at this ⊢; omega
    · by_cases hl : s2 = []
      · subst hl
        have := ih h.tail (by simpa using h2.symm)
        simp; omega
      · -- `s` goes across the end of `l`
        exfalso
        obtain ⟨hne, _⟩ := h.slice l (by simp)
        obtain ⟨p, hp, hsp⟩ := hs s (by simp)
        obtain ⟨y, s3, rfl⟩ := List.exists_cons_of_ne_nil hl
        obtain ⟨l1, x, rfl⟩ : ∃ p x, l = p ++ [x] := ⟨_, _, (List.dropLast_append_getLast hne).symm⟩
        have hy : ls.flatten.head? = some y := by rw [h2]; rfl
        cases ls with
        | nil => cases hy
        | cons l' ls =>
          have h4 := h.apart
          rw [List.isChain_cons_cons] at h4
          rw [head?_flatten h.tail.ne] at hy
          refine Cut.not_infix hn (h4.1 x (by simp) y hy) hp (List.IsInfix.trans ⟨l1, s3, ?_⟩ hsp)
          rw [h1]; simp

/-! ## One piece -/

/-- Where a text must be cut, it goes on further on in the source. -/
theorem Cut.flatten {x y : Item P} (h : Cut cc pieces x y) :
    ∃ a u b, pieces.flatten = a ++ x :: (u ++ y :: b) := by
  cases h with
  | escape it _ h =>
    obtain ⟨a, b, h⟩ := h
    exact ⟨a, [it], b, by simpa using h.symm⟩
  | pieces before after l l' k h => exact ⟨before.flatten ++ l, [], l' ++ after.flatten, by simp [h]⟩

/-- The slices are parts of the source in its order. -/
theorem Slices.sublist (hn : pieces.flatten.Nodup) : ∀ {ls : List (List (Item P))}, Slices cc pieces ls →
    ls.flatten.Sublist pieces.flatten := by
  suffices H : ∀ (ls : List (List (Item P))) (l a b : List (Item P)), Slices cc pieces (l :: ls) → pieces.flatten = a ++ (l ++ b) →
      ls.flatten.Sublist b by
    intro ls h
    cases ls with
    | nil => simp
    | cons l ls =>
      obtain ⟨_, p, hp, hl⟩ := h.slice l (by simp)
      obtain ⟨a, b, hab⟩ := hl.trans (infix_flatten hp)
      rw [← hab, List.flatten_cons, List.append_assoc]
      exact (List.Sublist.append_left (H ls l a b h (by simp [← hab])) l).trans (List.sublist_append_right a _)
  intro ls
  induction ls with
  | nil => intro l a b _ _; simp
  | cons l' ls ih =>
    intro l a b h hab
    obtain ⟨hl, _⟩ := h.slice l (by simp)
    obtain ⟨hl', p, hp, hlp⟩ := h.slice l' (by simp)
    obtain ⟨l0, x, rfl⟩ : ∃ l0 x, l = l0 ++ [x] := ⟨_, _, (List.dropLast_append_getLast hl).symm⟩
    obtain ⟨y, l1, rfl⟩ := List.exists_cons_of_ne_nil hl'
    have hc : Cut cc pieces x y := by
      have := h.apart
      rw [List.isChain_cons_cons] at this
      exact this.1 x (by simp) y (by simp)
    obtain ⟨a1, u, b1, h1⟩ := hc.flatten
    obtain ⟨a2, b2, h2⟩ := hlp.trans (infix_flatten hp)
    have e1 : b = u ++ y :: b1 := by
      refine (nodup_cancel (x := x) (a := a ++ l0) (b := b) (c := a1) (d := u ++ y :: b1) ?_ ?_).2
      · rw [← show pieces.flatten = (a ++ l0) ++ x :: b by rw [hab]; simp]; exact hn
      · rw [← h1, hab]; simp
    have e2 : b1 = l1 ++ b2 := by
      refine (nodup_cancel (x := y) (a := a1 ++ x :: u) (b := b1) (c := a2) (d := l1 ++ b2) ?_ ?_).2
      · rw [← show pieces.flatten = (a1 ++ x :: u) ++ y :: b1 by rw [h1]; simp]; exact hn
      · rw [← show pieces.flatten = (a1 ++ x :: u) ++ y :: b1 by rw [h1]; simp, ← h2]; simp
    subst e2
    rw [e1, List.flatten_cons]
    refine List.Sublist.trans (List.Sublist.append_left (ih (y :: l1) a2 b2 h.tail (by rw [← h2]; simp)) _) ?_
    exact List.sublist_append_right u _

theorem length_le_flatten {A : Type} : ∀ {ls : List (List A)}, (∀ l ∈ ls, l ≠ []) → ls.length ≤ ls.flatten.length
  | [], _ => by simp
  | l :: ls, h => by
    have h1 := length_le_flatten (ls := ls) fun l' hl => h l' (by simp [hl])
    have h2 := List.length_pos_iff.2 (h l (by simp))
    simp only [List.length_cons, List.flatten_cons, List.length_append]
    omega

theorem Slices.length_le (hn : pieces.flatten.Nodup) {ls : List (List (Item P))} (h : Slices cc pieces ls) :
    ls.length ≤ pieces.flatten.length :=
  (length_le_flatten h.ne).trans (h.sublist hn).length_le

theorem Cut.one {r : List (Item P)} {x y : Item P} (h : Cut cc [r] x y) :
    ∃ it, cc.isNestEscape it.ch = true ∧ [x, it, y] <:+: r := by
  cases h with
  | escape it h1 h2 => exact ⟨it, h1, by simpa using h2⟩
  | pieces before after l l' k h =>
    have := congrArg List.length h
    simp at this
    omega

theorem Spelt.head {ls : List (List (Item P))} {w : List (Item P)} (h : Spelt cc ls w) : w.head? = ls.head?.bind List.head? := by
  cases h with
  | one => rfl
  | @cons l _ _ _ h =>
    cases l with
    | nil => exact absurd rfl h
    | cons x l => rfl

theorem Slices.spelt {r : List (Item P)} (hn : r.Nodup) : ∀ {ls : List (List (Item P))}, Slices cc [r] ls → ls ≠ [] →
    ∃ w, Spelt cc ls w ∧ w <:+: r
  | [], _, h => absurd rfl h
  | [l], h, _ => by
    obtain ⟨h1, p, hp, h2⟩ := h.slice l (by simp)
    cases List.mem_singleton.1 hp
    exact ⟨l, .one h1, h2⟩
  | l :: l' :: ls, h, _ => by
    obtain ⟨w, h1, ⟨u, v, h2⟩⟩ := Slices.spelt hn h.tail (by simp)
    obtain ⟨h3, p, hp, h4⟩ := h.slice l (by simp)
    cases List.mem_singleton.1 hp
    obtain ⟨a, b, h4⟩ := h4
    obtain ⟨l1, x, rfl⟩ : ∃ p x, l = p ++ [x] := ⟨_, _, (List.dropLast_append_getLast h3).symm⟩
    obtain ⟨y, l2, rfl⟩ := List.exists_cons_of_ne_nil (h.tail.ne l' (by simp))
    have h5 := h.apart
    rw [List.isChain_cons_cons] at h5
    obtain ⟨it, h6, c, d, h7⟩ := Cut.one (h5.1 x (by simp) y (by simp))
    have h8 := h1.head
    simp only [List.head?_cons, Option.bind_some] at h8
    obtain ⟨w, rfl⟩ := List.head?_eq_some_iff.1 h8
    have e1 : (a ++ l1) ++ x :: b = c ++ x :: (it :: y :: d) := by simpa using h4.trans h7.symm
    have e2 : u ++ y :: (w ++ v) = (c ++ [x, it]) ++ y :: d := by simpa using h2.trans h7.symm
    obtain ⟨rfl, rfl⟩ := nodup_cancel (by rw [← h4] at hn; simpa using hn) e1
    obtain ⟨rfl, h9⟩ := nodup_cancel (by rw [← h2] at hn; simpa using hn) e2
    refine ⟨_, .cons (by simp) h6 h1, a, v, ?_⟩
    rw [← h2]
    simp

theorem Datum.All.imp {QT QT' : τ → Prop} {QX QX' : ε → Prop} (hT : ∀ t, QT t → QT' t) (hX : ∀ x, QX x → QX' x)
    {d : Datum τ ε} (h : d.All QT QX) : d.All QT' QX' := by
  induction h with
  | text h => exact .text (hT _ h)
  | combination _ _ ih1 ih2 => exact .combination ih1 ih2
  | emptyNest => exact .emptyNest
  | list _ _ ih1 ih2 => exact .list ih1 ih2
  | emptyList => exact .emptyList
  | extra h => exact .extra (hX _ h)

/-! ## Items of strings are all different -/

theorem itemsFrom_str_lt : ∀ (s : Str) (p : StrPos) {it : Item StrPos}, it ∈ itemsFrom StrPos.adv p s → p.charPos ≤ it.pos.charPos
  | [], _, _, h => by cases h
  | c :: s, p, it, h => by
    rcases List.mem_cons.1 h with rfl | h
    · exact Nat.le_refl _
    · have := itemsFrom_str_lt s _ h
      simp only [StrPos.adv] at this
      omega

theorem itemsFrom_str_nodup : ∀ (s : Str) (p : StrPos), (itemsFrom StrPos.adv p s).Nodup
  | [], _ => List.nodup_nil
  | c :: s, p => by
    refine List.nodup_cons.2 ⟨fun h => ?_, itemsFrom_str_nodup s _⟩
    have := itemsFrom_str_lt s _ h
    simp only [StrPos.adv] at this
    omega

theorem itemsFrom_char_lt : ∀ (s : Str) (p : CharPos) {it : Item CharPos}, it ∈ itemsFrom CharPos.adv p s → p.n ≤ it.pos.n
  | [], _, _, h => by cases h
  | c :: s, p, it, h => by
    rcases List.mem_cons.1 h with rfl | h
    · exact Nat.le_refl _
    · have := itemsFrom_char_lt s _ h
      simp only [CharPos.adv] at this
      omega

theorem itemsFrom_char_nodup : ∀ (s : Str) (p : CharPos), (itemsFrom CharPos.adv p s).Nodup
  | [], _ => List.nodup_nil
  | c :: s, p => by
    refine List.nodup_cons.2 ⟨fun h => ?_, itemsFrom_char_nodup s _⟩
    have := itemsFrom_char_lt s _ h
    simp only [CharPos.adv] at this
    omega

end Kul
