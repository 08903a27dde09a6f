import Verif.Proof.LinkParser
import Verif.Proof.MemUse

/-! # Streams that own a linked text, and histories of use of a parser with such texts -/

namespace Kul.Linked

open Mem (Addr Dat)

variable {σ σ' C CS P ε CE : Type}

/-! ## Streams -/

/-- What a stream has accumulated. -/
inductive Accum : Option (LText C) → Option (VText C ε) → List (Res C ε) → Prop where
  | none : Accum none none []
  | some {t T ts} : TParts t T ts → Accum (some t) (some T) ts

theorem Accum.getD {O : ChunkOps C CS P} {t : Option (LText C)} {T : Option (VText C ε)} {ts : List (Res C ε)}
    (h : Accum t T ts) : TParts (t.getD ⟨O.empty, Option.none⟩) (T.getD (.mk O.empty Option.none)) ts := by
  cases h with
  | none => exact .single
  | some h => exact h

/-- The same `text::Iter`s, but for the text. -/
inductive SameIter : TextIter C CS P (LText C) → TextIter C CS P (VText C ε) → List (Res C ε) → Prop where
  | mk {cur cs t T pk ts} : Accum t T ts → SameIter ⟨cur, cs, t, pk⟩ ⟨cur, cs, T, pk⟩ ts

theorem concat_same (O : ChunkOps C CS P) {t : Option (LText C)} {T : Option (VText C ε)} {ts xs : List (Res C ε)}
    {a : Slice C ε} {b : VSlice C ε} (ha : Accum t T ts) (ho : Own a b (ts ++ xs)) (c : C) :
    TextOut xs (Linked.concat O (t.getD ⟨O.empty, none⟩) ⟨c, none⟩ a)
      (TextDatumList.concat O (sliceAlloc _ _) (T.getD (.mk O.empty none)) (.mk c none) b) :=
  Own.concat O (us := []) ha.getD .single ho

theorem nextAccumLoop_same (O : ChunkOps C CS P) : ∀ (cs : List C) (cur : Option CS) {t : Option (LText C)}
    {T : Option (VText C ε)} {ts xs : List (Res C ε)} {a : Slice C ε} {b : VSlice C ε}, Accum t T ts → Own a b (ts ++ xs) →
    ∃ o cur' cs' t' T' ts' a' b', TextIter.nextAccumLoop O (linkedText O) cs cur t a = (o, (cur', cs', t'), a') ∧
      TextIter.nextAccumLoop O (textDatumList O (sliceAlloc _ _)) cs cur T b = (o, (cur', cs', T'), b') ∧
      Accum t' T' ts' ∧ Own a' b' (ts' ++ xs) := by
  intro cs
  induction cs with
  | nil =>
    intro cur t T ts xs a b ha ho
    cases cur with
    | none => exact ⟨_, _, _, _, _, _, _, _, by rw [TextIter.nextAccumLoop], by rw [TextIter.nextAccumLoop], ha, ho⟩
    | some s =>
      rw [TextIter.nextAccumLoop, TextIter.nextAccumLoop]
      rcases O.nextAccum s with ⟨o, s⟩
      rcases o with (_ | x) | e | _ | _
      · simp only
        rcases O.accumDone s with ⟨o, s⟩
        rcases o with c | e | _ | _
        · have hc := concat_same O ha ho c
          have e3 : (linkedText (ε := ε) O).concat (t.getD (linkedText (ε := ε) O).empty) ((linkedText (ε := ε) O).ofChunk c) a =
            Linked.concat O (t.getD ⟨O.empty, none⟩) ⟨c, none⟩ a := rfl
          have e4 : (textDatumList O (sliceAlloc (VText C ε) ε)).concat (T.getD (textDatumList O (sliceAlloc (VText C ε) ε)).empty)
              ((textDatumList O (sliceAlloc (VText C ε) ε)).ofChunk c) b =
            TextDatumList.concat O (sliceAlloc _ _) (T.getD (.mk O.empty none)) (.mk c none) b := rfl
          simp only [e3, e4]
          rcases q1 : Linked.concat O (t.getD ⟨O.empty, none⟩) ⟨c, none⟩ a with ⟨o, a'⟩
          rcases q2 : TextDatumList.concat O (sliceAlloc _ _) (T.getD (.mk O.empty none)) (.mk c none) b with ⟨o', b'⟩
          rw [q1, q2] at hc
          clear q1 q2
          rcases hc with ⟨u, U, us, e1, e2, h6, h7⟩ | ⟨e, e1, e2, h6⟩ | ⟨e1, e2, h6⟩ <;> simp only at e1 e2 <;>
            subst e1 <;> subst e2
          · exact ⟨_, _, _, _, _, _, _, _, rfl, rfl, .some h6, h7⟩
          · exact ⟨_, _, _, _, _, _, _, _, rfl, rfl, .none, h6⟩
          · exact ⟨_, _, _, _, _, _, _, _, rfl, rfl, .none, h6⟩
        all_goals exact ⟨_, _, _, _, _, _, _, _, rfl, rfl, ha, ho⟩
      all_goals exact ⟨_, _, _, _, _, _, _, _, rfl, rfl, ha, ho⟩
  | cons c' cs ih =>
    intro cur t T ts xs a b ha ho
    cases cur with
    | none => exact ⟨_, _, _, _, _, _, _, _, by rw [TextIter.nextAccumLoop], by rw [TextIter.nextAccumLoop], ha, ho⟩
    | some s =>
      rw [TextIter.nextAccumLoop, TextIter.nextAccumLoop]
      rcases O.nextAccum s with ⟨o, s⟩
      rcases o with (_ | x) | e | _ | _
      · simp only
        rcases O.accumDone s with ⟨o, s⟩
        rcases o with c | e | _ | _
        · have hc := concat_same O ha ho c
          have e3 : (linkedText (ε := ε) O).concat (t.getD (linkedText (ε := ε) O).empty) ((linkedText (ε := ε) O).ofChunk c) a =
            Linked.concat O (t.getD ⟨O.empty, none⟩) ⟨c, none⟩ a := rfl
          have e4 : (textDatumList O (sliceAlloc (VText C ε) ε)).concat (T.getD (textDatumList O (sliceAlloc (VText C ε) ε)).empty)
              ((textDatumList O (sliceAlloc (VText C ε) ε)).ofChunk c) b =
            TextDatumList.concat O (sliceAlloc _ _) (T.getD (.mk O.empty none)) (.mk c none) b := rfl
          simp only [e3, e4]
          rcases q1 : Linked.concat O (t.getD ⟨O.empty, none⟩) ⟨c, none⟩ a with ⟨o, a'⟩
          rcases q2 : TextDatumList.concat O (sliceAlloc _ _) (T.getD (.mk O.empty none)) (.mk c none) b with ⟨o', b'⟩
          rw [q1, q2] at hc
          clear q1 q2
          rcases hc with ⟨u, U, us, e1, e2, h6, h7⟩ | ⟨e, e1, e2, h6⟩ | ⟨e1, e2, h6⟩ <;> simp only at e1 e2 <;>
            subst e1 <;> subst e2
          · exact ih _ (.some h6) h7
          · exact ⟨_, _, _, _, _, _, _, _, rfl, rfl, .none, h6⟩
          · exact ⟨_, _, _, _, _, _, _, _, rfl, rfl, .none, h6⟩
        all_goals exact ⟨_, _, _, _, _, _, _, _, rfl, rfl, ha, ho⟩
      all_goals exact ⟨_, _, _, _, _, _, _, _, rfl, rfl, ha, ho⟩

theorem textIter_laws (O : ChunkOps C CS P) : StreamLaws (ε := ε) (textIterOps O (linkedText O))
    (textIterOps O (textDatumList O (sliceAlloc _ _))) SameIter where
  peek := by
    rintro _ _ ss ⟨ha⟩
    simp only [textIterOps, TextIter.peek]
    split
    · exact ⟨_, _, _, _, rfl, rfl, .mk ha, id⟩
    · split
      · exact ⟨_, _, _, _, rfl, rfl, .mk ha, id⟩
      · split
        · split <;> exact ⟨_, _, _, _, rfl, rfl, .mk ha, id⟩
        · exact ⟨_, _, _, _, rfl, rfl, .mk ha, id⟩
        · exact ⟨_, _, _, _, rfl, rfl, .mk ha, id⟩
  next := by
    rintro _ _ ss ⟨ha⟩
    exact ⟨_, _, _, [], rfl, rfl, .mk .none, fun h => h.drop⟩
  nextAccum := by
    rintro _ _ ss a b xs ⟨ha⟩ ho
    obtain ⟨o, cur', cs', t', T', ts', a', b', h1, h2, h3, h4⟩ := nextAccumLoop_same O _ _ ha ho
    refine ⟨o, ⟨cur', cs', t', none⟩, a', ⟨cur', cs', T', none⟩, b', ts', ?_, ?_, .mk h3, h4⟩
    · unfold textIterOps TextIter.nextAccum
      simp only
      rw [h1]
    · unfold textIterOps TextIter.nextAccum
      simp only
      rw [h2]
  accumDone := by
    rintro _ _ ss a b xs (@⟨cur, cs, t, T, pk, _, ha⟩) ho
    rcases cur with _ | s
    · exact ⟨(_, _), _, _, (_, _), [], rfl, rfl, .mk .none, Or.inl ⟨_, _, _, rfl, rfl, ha.getD, ho⟩⟩
    · simp only [textIterOps, TextIter.accumDone]
      rcases O.accumDone s with ⟨o, s'⟩
      rcases o with c | e | _ | _
      · exact ⟨_, _, _, _, [], rfl, rfl, .mk .none, concat_same O ha ho c⟩
      all_goals exact ⟨(_, _), _, _, (_, _), [], rfl, rfl, .mk .none, Or.inr (Or.inr ⟨rfl, rfl, ho.drop⟩)⟩

/-- The laws hold for parsers of texts. -/
theorem text_laws (O : ChunkOps C CS P) (cc : Classifier)
    {lookup : Dat (LText C) ε → Slice C ε → Option (Mem.Combiner (LText C) ε (Slice C ε) P CE)}
    {lookup' : VDatum C ε → Option (Kul.Combiner (VText C ε) ε (VSlice C ε) P CE)} (hl : SameBindings lookup lookup') :
    Laws (linkedEnv O cc lookup) (Kul.textEnv O (textDatumList O (sliceAlloc _ _)) cc (sliceAlloc _ _) lookup') SameIter where
  toStreamLaws := textIter_laws O
  alloc := rfl
  valloc := rfl
  cc := rfl
  empty := .single
  concat ht hu h := Own.concat O ht hu h
  lookup := hl

/-! ## Histories -/

section

variable {E : Mem.Env σ P (LText C) ε (Slice C ε) CE} {V : Kul.Env σ' P (VText C ε) ε (VSlice C ε) CE}
variable {RS : σ → σ' → List (Res C ε) → Prop}

/-- What is held: each datum has got what it owns, and is the root of the datum that the same call gave by value. -/
inductive Held (os' : List (Outcome (Err P CE) (Option (VDatum C ε)))) :
    List (Nat × Dat (LText C) ε) → List (Res C ε) → Prop where
  | nil : Held os' [] []
  | cons {i d D rs held xs} : os'[i]? = some (.ok (some D)) → Parts d D rs → Held os' held xs →
      Held os' ((i, d) :: held) (rs ++ xs)

theorem Held.more {os' : List (Outcome (Err P CE) (Option (VDatum C ε)))} {held xs} (h : Held os' held xs) (o) :
    Held (os' ++ [o]) held xs := by
  induction h with
  | nil => exact .nil
  | @cons i _ _ _ _ _ h1 h2 _ ih =>
    refine .cons ?_ h2 ih
    rw [List.getElem?_append_left]
    · exact h1
    · by_contra hn
      rw [List.getElem?_eq_none (Nat.not_lt.mp hn)] at h1
      cases h1

theorem Held.snoc {os' : List (Outcome (Err P CE) (Option (VDatum C ε)))} {held xs} (h : Held os' held xs) {i d D rs}
    (hi : os'[i]? = some (.ok (some D))) (hp : Parts d D rs) : Held os' (held ++ [(i, d)]) (xs ++ rs) := by
  induction h with
  | nil => simpa using Held.cons hi hp .nil
  | cons h1 h2 _ ih => rw [List.append_assoc]; exact .cons h1 h2 ih

theorem Held.remove {os' : List (Outcome (Err P CE) (Option (VDatum C ε)))} {held held' i d} :
    ∀ {xs}, Held os' (held ++ (i, d) :: held') xs →
      ∃ D rs ys, Parts d D rs ∧ Held os' (held ++ held') ys ∧ xs.Perm (rs ++ ys) := by
  induction held with
  | nil =>
    intro xs h
    cases h with
    | cons h1 h2 h3 => exact ⟨_, _, _, h2, h3, List.Perm.refl _⟩
  | cons x held ih =>
    intro xs h
    cases h with
    | cons h1 h2 h3 =>
      obtain ⟨D, rs, ys, h4, h5, h6⟩ := ih h3
      refine ⟨D, rs, _, h4, .cons h1 h2 h5, ?_⟩
      refine (h6.append_left _).trans ?_
      rw [← List.append_assoc, ← List.append_assoc]
      exact (List.perm_append_comm).append_right _

theorem Held.read {os' : List (Outcome (Err P CE) (Option (VDatum C ε)))} {m : List (Dat (LText C) ε)} {held xs}
    (h : Held os' held xs) : ∀ {pss}, List.Forall₂ (Res.Slots m) xs pss →
      ∃ qss, HeldRead m os' held qss ∧ qss.flatten = pss.flatten := by
  induction h with
  | nil => intro pss h; cases h; exact ⟨[], .nil, rfl⟩
  | cons h1 h2 _ ih =>
    intro pss h
    obtain ⟨p1, p2, rfl, h3, h4⟩ := forall₂_split h
    obtain ⟨qss, h5, h6⟩ := ih h4
    exact ⟨p1.flatten :: qss, .cons ⟨_, h1, h2.reads h3⟩ h5, by simp [h6]⟩

/-- A history of use of a parser, in memory and by value. -/
def Along (V : Kul.Env σ' P (VText C ε) ε (VSlice C ε) CE) (RS : σ → σ' → List (Res C ε) → Prop) (t₀ : St σ' (VSlice C ε))
    (os : List (Outcome (Err P CE) (Option (Dat (LText C) ε)))) (held : List (Nat × Dat (LText C) ε))
    (s : St σ (Slice C ε)) : Prop :=
  ∃ os' t xs, V.Calls t₀ os' t ∧ List.Forall₂ Alike os os' ∧ Held os' held xs ∧ Hold RS s t xs

variable {t₀ : St σ' (VSlice C ε)} {os : List (Outcome (Err P CE) (Option (Dat (LText C) ε)))}
variable {held : List (Nat × Dat (LText C) ε)} {s s' : St σ (Slice C ε)}

theorem Along.datum (L : Laws E V RS) (h : Along V RS t₀ os held s) {d} (hc : E.Call s (.ok (some d)) s') :
    Along V RS t₀ (os ++ [.ok (some d)]) (held ++ [(os.length, d)]) s' := by
  obtain ⟨os', t, xs, k1, k2, k5, k6⟩ := h
  obtain ⟨n, hn, _⟩ := hc
  have q := (L.r_parse n).1 .base s t xs k6
  rcases hv : V.parseNext n .base t with ⟨o', t'⟩
  rw [hn, hv] at q
  rcases q with ⟨a, b, rs, e1, e2, h4, h5⟩ | ⟨e, e1, e2, h4⟩ | ⟨e1, e2⟩ | ⟨e1, e2⟩
  · cases e1
    simp only at e2
    subst e2
    rcases h4 with ⟨h4, _⟩ | ⟨x, X, h4, h6, h7⟩
    · cases h4
    · cases h4
      subst h6
      refine ⟨os' ++ [.ok (some X)], t', xs ++ rs, k1.snoc ⟨n, by exact hv, by simp⟩, ?_, ?_, ?_⟩
      · exact List.rel_append k2 (.cons .datum .nil)
      · refine (k5.more _).snoc ?_ h7
        rw [k2.length_eq]
        simp
      · exact h5.perm List.perm_append_comm
  all_goals cases e1

theorem Along.none (L : Laws E V RS) (h : Along V RS t₀ os held s) (hc : E.Call s (.ok none) s') :
    Along V RS t₀ (os ++ [.ok none]) held s' := by
  obtain ⟨os', t, xs, k1, k2, k5, k6⟩ := h
  obtain ⟨n, hn, _⟩ := hc
  have q := (L.r_parse n).1 .base s t xs k6
  rcases hv : V.parseNext n .base t with ⟨o', t'⟩
  rw [hn, hv] at q
  rcases q with ⟨a, b, rs, e1, e2, h4, h5⟩ | ⟨e, e1, e2, h4⟩ | ⟨e1, e2⟩ | ⟨e1, e2⟩
  · cases e1
    simp only at e2
    subst e2
    rcases h4 with ⟨_, h4, h6⟩ | ⟨x, X, h4, h6, h7⟩
    · subst h4 h6
      exact ⟨os' ++ [.ok .none], t', xs, k1.snoc ⟨n, by exact hv, by simp⟩, List.rel_append k2 (.cons .none .nil),
        k5.more _, h5⟩
    · cases h4
  all_goals cases e1

theorem Along.error (L : Laws E V RS) (h : Along V RS t₀ os held s) {e} (hc : E.Call s (.err e) s') :
    Along V RS t₀ (os ++ [.err e]) held s' := by
  obtain ⟨os', t, xs, k1, k2, k5, k6⟩ := h
  obtain ⟨n, hn, _⟩ := hc
  have q := (L.r_parse n).1 .base s t xs k6
  rcases hv : V.parseNext n .base t with ⟨o', t'⟩
  rw [hn, hv] at q
  rcases q with ⟨a, b, rs, e1, e2, h4, h5⟩ | ⟨e, e1, e2, h4⟩ | ⟨e1, e2⟩ | ⟨e1, e2⟩
  · cases e1
  · cases e1
    simp only at e2
    subst e2
    exact ⟨os' ++ [.err e], t', xs, k1.snoc ⟨n, by exact hv, by simp⟩, List.rel_append k2 (.cons .error .nil),
        k5.more _, h4⟩
  all_goals cases e1

theorem Along.drop (L : Laws E V RS) {i d held'} (h : Along V RS t₀ os (held ++ (i, d) :: held') s) :
    Along V RS t₀ os (held ++ held') { s with alloc := E.alloc.dropDat d s.alloc } := by
  obtain ⟨os', t, xs, k1, k2, k5, k6⟩ := h
  obtain ⟨D, rs, ys, m1, m2, m3⟩ := k5.remove
  refine ⟨os', t, ys, k1, k2, m2, ?_⟩
  rw [L.dropDat]
  exact (k6.perm m3).drop

/-- **History theorem**. -/
theorem Laws.uses (L : Laws E V RS) {cl : Bool} {s₀ : St σ (Slice C ε)} {t₀ : St σ' (VSlice C ε)} (h0 : Hold RS s₀ t₀ [])
    {os held s} (h : E.Uses cl s₀ os held s) : Along V RS t₀ os held s := by
  induction h with
  | start => exact ⟨[], t₀, [], .nil, .nil, .nil, h0⟩
  | datum _ hc ih => exact Along.datum L ih hc
  | none _ hc ih => exact Along.none L ih hc
  | error _ hc ih => exact Along.error L ih hc
  | drop _ ih => exact Along.drop L ih
  | clone hc _ hi he ih => rw [L.alloc] at he; cases he

theorem Laws.readBack (L : Laws E V RS) {s₀ : St σ (Slice C ε)} {t₀ : St σ' (VSlice C ε)} (h0 : Hold RS s₀ t₀ []) :
    ReadBack E V s₀ t₀ := by
  intro os held s h
  obtain ⟨os', t, xs, k1, k2, k5, _, ss, _, k6⟩ := L.uses h0 h
  obtain ⟨k7, _, pss, k8, k9, k10⟩ := k6.drop
  obtain ⟨qss, k11, k12⟩ := k5.read k8
  exact ⟨os', t, k1, k2, k7, qss, k11, k12 ▸ k9, k12 ▸ k10⟩

/-- The next call ends, if it does by value. -/
theorem Laws.ends (L : Laws E V RS) {s : St σ (Slice C ε)} {t : St σ' (VSlice C ε)} {xs : List (Res C ε)}
    (h : Hold RS s t xs) {o' t'} (hc : V.Call t o' t') (hp : o' ≠ .panic) : ∃ o s', E.Call s o s' ∧ Alike o o' := by
  obtain ⟨n, hv, hf⟩ := hc
  have q := (L.r_parse n).1 .base s t xs h
  change V.parseNext n .base t = (o', t') at hv
  rcases he : E.parseNext n .base s with ⟨o, s'⟩
  rw [he, hv] at q
  rcases q with ⟨a, b, rs, e1, e2, h4, h5⟩ | ⟨e, e1, e2, h4⟩ | ⟨e1, e2⟩ | ⟨e1, e2, _⟩ <;> simp only at e1 e2 <;>
    subst e1 <;> subst e2
  · refine ⟨_, s', ⟨n, he, by simp⟩, ?_⟩
    rcases h4 with ⟨rfl, rfl, _⟩ | ⟨_, _, rfl, rfl, _⟩
    · exact .none
    · exact .datum
  · exact ⟨_, s', ⟨n, he, by simp⟩, .error⟩
  · exact absurd rfl hp
  · exact absurd rfl hf

theorem Laws.goesOn (L : Laws E V RS) {RV : σ' → Seq P → Prop} {X : TextSem P (VText C ε) (VSlice C ε)} (K : Conf V RV X)
    {s : σ} {t : σ'} {r : List (Item P)} (hs : AtItems RV t r) {a : Slice C ε} {b : VSlice C ε}
    (h0 : Hold RS (St.init s a) (St.init t b) []) : Mem.GoesOn E (St.init s a) := by
  intro os held s' h
  obtain ⟨os', t', xs, k1, _, _, k6⟩ := L.uses h0 h
  obtain ⟨s₁, b₁, r₁, rfl, h4, _⟩ := K.calls k1 rfl hs
  obtain ⟨o, s₂, r₂, b₂, hc, _⟩ := K.call h4 b₁
  have hp : optOut o ≠ .panic := by rcases o with _ | _ | _ <;> simp [optOut]
  obtain ⟨o', s'', h5, h6⟩ := L.ends k6 hc hp
  refine ⟨o', s'', h5, ?_⟩
  generalize optOut o = x at h6
  cases h6 <;> simp

theorem Own.start (mem : List (Dat (LText C) ε)) (mem' : List (VDatum C ε)) (h : mem.length = mem'.length) :
    Own (SliceAlloc.new mem) (SliceAlloc.new mem') [] := by
  refine ⟨?_, h, [], .nil, by simp, by simp⟩
  simp only [SliceAlloc.new, List.isEmpty_iff_length_eq_zero, h]

end

end Kul.Linked
