import Verif.Proof.LinkUse
import Verif.Model.AnyStream

/-! # The other streams with texts linked through memory -/

namespace Kul.Linked

open Mem (Addr Dat)

variable {σ σ' C CS P ε CE : Type}

/-! ## `CharIterSourceStream` -/

/-- The same stream, which owns nothing. -/
inductive SameChars : CharIter → CharIter → List (Res PosStrish ε) → Prop where
  | mk {it} : SameChars it it []

theorem charIter_laws : StreamLaws (ε := ε) (charIterOps (linkedText posStrishOps))
    (charIterOps (textDatumList posStrishOps (sliceAlloc _ _))) SameChars where
  peek := by
    rintro _ _ ss ⟨⟩
    exact ⟨_, _, _, [], rfl, rfl, .mk, id⟩
  next := by
    rintro _ _ ss ⟨⟩
    exact ⟨_, _, _, [], rfl, rfl, .mk, id⟩
  nextAccum := by
    rintro _ _ ss a b xs ⟨⟩ ho
    exact ⟨_, _, _, _, _, [], rfl, rfl, .mk, ho⟩
  accumDone := by
    rintro _ _ ss a b xs ⟨⟩ ho
    exact ⟨(_, _), _, _, (_, _), [], rfl, rfl, .mk, Or.inl ⟨_, _, _, rfl, rfl, .single, ho⟩⟩

theorem char_laws (cc : Classifier)
    {lookup : Dat (LText PosStrish) ε → Slice PosStrish ε →
      Option (Mem.Combiner (LText PosStrish) ε (Slice PosStrish ε) CharPos CE)}
    {lookup' : VDatum PosStrish ε → Option (Kul.Combiner (VText PosStrish ε) ε (VSlice PosStrish ε) CharPos CE)}
    (hl : SameBindings lookup lookup') :
    Laws (Mem.charEnv (linkedText posStrishOps) cc (Mem.sliceMem _ _) lookup)
      (Kul.charEnv (textDatumList posStrishOps (sliceAlloc _ _)) cc (sliceAlloc _ _) lookup') SameChars where
  toStreamLaws := charIter_laws
  alloc := rfl
  valloc := rfl
  cc := rfl
  empty := .single
  concat ht hu h := Own.concat posStrishOps ht hu h
  lookup := hl

/-! ## `StrishIterSourceStream` -/

/-- The same stream, but for the text. -/
inductive SameStrish : StrishIter (LText PosStrish) → StrishIter (VText PosStrish ε) → List (Res PosStrish ε) → Prop where
  | mk {cur i cs t T pk ts} : Accum t T ts → SameStrish ⟨cur, i, cs, pk, t⟩ ⟨cur, i, cs, pk, T⟩ ts

theorem nextPosstrish_same {s : StrishIter (LText PosStrish)} {t : StrishIter (VText PosStrish ε)}
    {ss : List (Res PosStrish ε)} (h : SameStrish s t ss) :
    (s.nextPosstrish = none ∧ t.nextPosstrish = none) ∨
    ∃ s' t', s.nextPosstrish = some s' ∧ t.nextPosstrish = some t' ∧ SameStrish s' t' ss := by
  obtain ⟨ha⟩ := h
  simp only [StrishIter.nextPosstrish]
  split
  · exact Or.inl ⟨rfl, rfl⟩
  · split
    · split
      · exact Or.inr ⟨_, _, rfl, rfl, .mk ha⟩
      · exact Or.inr ⟨_, _, rfl, rfl, .mk ha⟩
    · exact Or.inl ⟨rfl, rfl⟩

theorem nextLoop_same (n : Nat) : ∀ {s : StrishIter (LText PosStrish)} {t : StrishIter (VText PosStrish ε)}
    {ss : List (Res PosStrish ε)}, SameStrish s t ss → ∃ o s' t', s.nextLoop n = (o, s') ∧ t.nextLoop n = (o, t') ∧
      SameStrish s' t' ss := by
  induction n with
  | zero => exact fun h => ⟨_, _, _, rfl, rfl, h⟩
  | succ n ih =>
    rintro _ _ ss (@⟨cur, i, cs, t, T, pk, _, ha⟩)
    simp only [StrishIter.nextLoop]
    rcases cur with _ | s
    · exact ⟨_, _, _, rfl, rfl, .mk ha⟩
    · simp only
      rcases s.next with ⟨(_ | x) | e | _ | _, s⟩
      · simp only
        rcases nextPosstrish_same (s := ⟨some s, i, cs, pk, t⟩) (.mk ha) with ⟨e1, e2⟩ | ⟨s', t', e1, e2, h⟩
        · rw [e1, e2]
          exact ⟨_, _, _, rfl, rfl, .mk ha⟩
        · rw [e1, e2]
          exact ih h
      all_goals exact ⟨_, _, _, rfl, rfl, .mk ha⟩

theorem strishAccumLoop_same (n : Nat) : ∀ {s : StrishIter (LText PosStrish)} {t : StrishIter (VText PosStrish ε)}
    {ss xs : List (Res PosStrish ε)} {a : Slice PosStrish ε} {b : VSlice PosStrish ε}, SameStrish s t ss → Own a b (ss ++ xs) →
    ∃ o s' t' ss' a' b', StrishIter.nextAccumLoop (linkedText posStrishOps) n s a = (o, s', a') ∧
      StrishIter.nextAccumLoop (textDatumList posStrishOps (sliceAlloc _ _)) n t b = (o, t', b') ∧ SameStrish s' t' ss' ∧
      Own a' b' (ss' ++ xs) := by
  induction n with
  | zero => exact fun h ho => ⟨_, _, _, _, _, _, rfl, rfl, h, ho⟩
  | succ n ih =>
    rintro _ _ ss xs a b (@⟨cur, i, cs, t, T, pk, _, ha⟩) ho
    simp only [StrishIter.nextAccumLoop]
    rcases cur with _ | s
    · exact ⟨_, _, _, _, _, _, rfl, rfl, .mk ha, ho⟩
    · simp only
      rcases s.nextAccum with ⟨(_ | x) | e | _ | _, s⟩
      · simp only
        rcases s.accumDone with ⟨c | e | _ | _, s⟩
        · have hc := concat_same posStrishOps ha ho c
          have e3 : (linkedText (ε := ε) posStrishOps).concat (t.getD (linkedText (ε := ε) posStrishOps).empty)
              ((linkedText (ε := ε) posStrishOps).ofChunk c) a =
            Linked.concat posStrishOps (t.getD ⟨posStrishOps.empty, none⟩) ⟨c, none⟩ a := rfl
          have e4 : (textDatumList posStrishOps (sliceAlloc (VText PosStrish ε) ε)).concat
              (T.getD (textDatumList posStrishOps (sliceAlloc (VText PosStrish ε) ε)).empty)
              ((textDatumList posStrishOps (sliceAlloc (VText PosStrish ε) ε)).ofChunk c) b =
            TextDatumList.concat posStrishOps (sliceAlloc _ _) (T.getD (.mk posStrishOps.empty none)) (.mk c none) b := rfl
          simp only [e3, e4]
          rcases q1 : Linked.concat posStrishOps (t.getD ⟨posStrishOps.empty, none⟩) ⟨c, none⟩ a with ⟨o, a'⟩
          rcases q2 : TextDatumList.concat posStrishOps (sliceAlloc _ _) (T.getD (.mk posStrishOps.empty none)) (.mk c none) b
            with ⟨o', b'⟩
          rw [q1, q2] at hc
          clear q1 q2
          rcases hc with ⟨u, U, us, e1, e2, h6, h7⟩ | ⟨e, e1, e2, h6⟩ | ⟨e1, e2, h6⟩ <;> simp only at e1 e2 <;>
            subst e1 <;> subst e2
          · simp only
            rcases nextPosstrish_same (s := ⟨some s, i, cs, pk, some u⟩) (.mk (.some h6)) with ⟨e1, e2⟩ | ⟨s', t', e1, e2, h⟩
            · rw [e1, e2]
              exact ⟨_, _, _, _, _, _, rfl, rfl, .mk (.some h6), h7⟩
            · rw [e1, e2]
              exact ih h h7
          · exact ⟨_, _, _, _, _, _, rfl, rfl, .mk .none, h6⟩
          · exact ⟨_, _, _, _, _, _, rfl, rfl, .mk .none, h6⟩
        all_goals exact ⟨_, _, _, _, _, _, rfl, rfl, .mk ha, ho⟩
      all_goals exact ⟨_, _, _, _, _, _, rfl, rfl, .mk ha, ho⟩

theorem strishIter_laws : StreamLaws (ε := ε) (strishIterOps (linkedText posStrishOps))
    (strishIterOps (textDatumList posStrishOps (sliceAlloc _ _))) SameStrish where
  peek := by
    rintro _ _ ss (@⟨cur, i, cs, t, T, pk, _, ha⟩)
    simp only [strishIterOps, StrishIter.peek]
    rcases cur with _ | s
    · exact ⟨_, _, _, _, rfl, rfl, .mk ha, id⟩
    · simp only
      rcases s.peek with ⟨(_ | x) | e | _ | _, s⟩
      · simp only
        rcases pk with _ | pk
        · simp only
          rcases StrishIter.nextPosstrishOf i cs with ⟨_ | p, ss⟩
          · exact ⟨_, _, _, _, rfl, rfl, .mk ha, id⟩
          · exact ⟨_, _, _, _, rfl, rfl, .mk ha, id⟩
        · exact ⟨_, _, _, _, rfl, rfl, .mk ha, id⟩
      all_goals exact ⟨_, _, _, _, rfl, rfl, .mk ha, id⟩
  next := by
    rintro _ _ ss (@⟨cur, i, cs, t, T, pk, _, ha⟩)
    obtain ⟨o, s', t', e1, e2, h⟩ := nextLoop_same (ε := ε) StrishIter.turns
      (s := ⟨cur, i, cs, pk, none⟩) (t := ⟨cur, i, cs, pk, none⟩) (.mk .none)
    exact ⟨o, s', t', [], e1, e2, h, fun h => h.drop⟩
  nextAccum := by
    rintro s t ss a b xs h ho
    obtain ⟨o, s', t', ss', a', b', e1, e2, h3, h4⟩ := strishAccumLoop_same StrishIter.turns h ho
    exact ⟨o, s', a', t', b', ss', e1, e2, h3, h4⟩
  accumDone := by
    rintro _ _ ss a b xs (@⟨cur, i, cs, t, T, pk, _, ha⟩) ho
    rcases cur with _ | s
    · exact ⟨(_, _), _, _, (_, _), [], rfl, rfl, .mk .none, Or.inl ⟨_, _, _, rfl, rfl, ha.getD, ho⟩⟩
    · simp only [strishIterOps, StrishIter.accumDone]
      rcases s.accumDone with ⟨c | e | _ | _, s⟩
      · exact ⟨_, _, _, _, [], rfl, rfl, .mk .none, concat_same posStrishOps ha ho c⟩
      all_goals exact ⟨(_, _), _, _, (_, _), [], rfl, rfl, .mk .none, Or.inr (Or.inr ⟨rfl, rfl, ho.drop⟩)⟩

theorem strish_laws (cc : Classifier)
    {lookup : Dat (LText PosStrish) ε → Slice PosStrish ε →
      Option (Mem.Combiner (LText PosStrish) ε (Slice PosStrish ε) CharPos CE)}
    {lookup' : VDatum PosStrish ε → Option (Kul.Combiner (VText PosStrish ε) ε (VSlice PosStrish ε) CharPos CE)}
    (hl : SameBindings lookup lookup') :
    Laws (Mem.strishEnv (linkedText posStrishOps) cc (Mem.sliceMem _ _) lookup)
      (Kul.strishEnv (textDatumList posStrishOps (sliceAlloc _ _)) cc (sliceAlloc _ _) lookup') SameStrish where
  toStreamLaws := strishIter_laws
  alloc := rfl
  valloc := rfl
  cc := rfl
  empty := .single
  concat ht hu h := Own.concat posStrishOps ht hu h
  lookup := hl

end Kul.Linked
