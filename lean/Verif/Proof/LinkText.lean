import Verif.Spec.LinkText
import Verif.Proof.SimParser
import Mathlib.Data.List.Perm.Basic
import Mathlib.Data.List.Perm.Subperm

/-! # Ownership of slots when texts are linked through them -/

namespace Kul.Linked

open Mem (Addr Dat)

variable {C CS P ε CE : Type}

/-! ## Reading -/

/-- Writing to another slot does not matter. -/
theorem Reads.frame {m : List (Dat (LText C) ε)} {d : Dat (LText C) ε} {D : VDatum C ε} {ps : List Addr}
    (h : Reads m d D ps) {p : Addr} (hp : p ∉ ps) (x : Dat (LText C) ε) : Reads (m.set p x) d D ps := by
  have key : ∀ {q : Addr} {y : Dat (LText C) ε}, p ≠ q → m[q]? = some y → (m.set p x)[q]? = some y := fun hq hy => by
    rw [List.getElem?_set_ne hq]; exact hy
  induction h with
  | text => exact .text
  | linked h1 _ ih =>
    simp only [List.mem_cons, not_or] at hp
    exact .linked (key hp.1 h1) (ih hp.2)
  | combination h1 _ h2 _ ih1 ih2 =>
    simp only [List.mem_append, List.mem_cons, not_or] at hp
    exact .combination (key hp.1.1 h1) (ih1 hp.1.2) (key hp.2.1 h2) (ih2 hp.2.2)
  | emptyNest => exact .emptyNest
  | list h1 _ h2 _ ih1 ih2 =>
    simp only [List.mem_append, List.mem_cons, not_or] at hp
    exact .list (key hp.1.1 h1) (ih1 hp.1.2) (key hp.2.1 h2) (ih2 hp.2.2)
  | emptyList => exact .emptyList
  | extra => exact .extra

theorem Res.Slots.frame {m : List (Dat (LText C) ε)} {r : Res C ε} {ps : List Addr} (h : Res.Slots m r ps) {p : Addr}
    (hp : p ∉ ps) (x : Dat (LText C) ε) : Res.Slots (m.set p x) r ps := by
  have key : ∀ {q : Addr} {y : Dat (LText C) ε}, p ≠ q → m[q]? = some y → (m.set p x)[q]? = some y := fun hq hy => by
    rw [List.getElem?_set_ne hq]; exact hy
  cases h with
  | ref h1 h2 =>
    simp only [List.mem_cons, not_or] at hp
    exact .ref (key hp.1 h1) (h2.frame hp.2 x)
  | place h1 =>
    simp only [List.mem_singleton] at hp
    exact .place (key hp h1)

theorem frames {m : List (Dat (LText C) ε)} {xs : List (Res C ε)} {pss : List (List Addr)}
    (h : List.Forall₂ (Res.Slots m) xs pss) {p : Addr} (hp : p ∉ pss.flatten) (x : Dat (LText C) ε) :
    List.Forall₂ (Res.Slots (m.set p x)) xs pss := by
  induction h with
  | nil => exact .nil
  | cons h1 _ ih =>
    simp only [List.flatten_cons, List.mem_append, not_or] at hp
    exact .cons (h1.frame hp.1 x) (ih hp.2)

/-- The slots of a datum are those of what it owns. -/
theorem Reads.parts {m : List (Dat (LText C) ε)} {d : Dat (LText C) ε} {D : VDatum C ε} {ps : List Addr}
    (h : Reads m d D ps) : ∃ rs pss, Parts d D rs ∧ List.Forall₂ (Res.Slots m) rs pss ∧ pss.flatten = ps := by
  cases h with
  | text => exact ⟨[], [], .text .single, .nil, rfl⟩
  | linked h1 h2 => exact ⟨_, [_], .text .linked, .cons (.ref h1 h2) .nil, by simp⟩
  | combination h1 h2 h3 h4 => exact ⟨_, [_, _], .combination, .cons (.ref h1 h2) (.cons (.ref h3 h4) .nil), by simp⟩
  | emptyNest => exact ⟨[], [], .emptyNest, .nil, rfl⟩
  | list h1 h2 h3 h4 => exact ⟨_, [_, _], .list, .cons (.ref h1 h2) (.cons (.ref h3 h4) .nil), by simp⟩
  | emptyList => exact ⟨[], [], .emptyList, .nil, rfl⟩
  | extra => exact ⟨[], [], .extra, .nil, rfl⟩

theorem Parts.reads {m : List (Dat (LText C) ε)} {d : Dat (LText C) ε} {D : VDatum C ε} {rs : List (Res C ε)}
    {pss : List (List Addr)} (h : Parts d D rs) (hs : List.Forall₂ (Res.Slots m) rs pss) :
    Reads m d D pss.flatten := by
  cases h with
  | text h =>
    cases h with
    | single => cases hs; exact .text
    | linked =>
      obtain _ | ⟨h1, h2⟩ := hs
      cases h2
      cases h1 with
      | ref h1 h2 =>
        obtain ⟨rs, pss, h3, h4, h5⟩ := h2.parts
        cases h3
        simpa using Reads.linked h1 h2
  | combination =>
    obtain _ | ⟨h1, _ | ⟨h2, h3⟩⟩ := hs
    cases h3
    cases h1 with
    | ref a1 a2 =>
      cases h2 with
      | ref b1 b2 => simpa using Reads.combination a1 a2 b1 b2
  | emptyNest => cases hs; exact .emptyNest
  | list =>
    obtain _ | ⟨h1, _ | ⟨h2, h3⟩⟩ := hs
    cases h3
    cases h1 with
    | ref a1 a2 =>
      cases h2 with
      | ref b1 b2 => simpa using Reads.list a1 a2 b1 b2
  | emptyList => cases hs; exact .emptyList
  | extra => cases hs; exact .extra

/-! ## The laws of ownership -/

section

variable {a : Slice C ε} {b : VSlice C ε} {xs ys rs : List (Res C ε)} {p : Addr} {d : Dat (LText C) ε} {D : VDatum C ε}

theorem Own.perm (h : Own a b xs) (hp : xs.Perm ys) : Own a b ys := by
  obtain ⟨h1, h2, pss, h3, h4, h5⟩ := h
  obtain ⟨qss, h6, h7⟩ := List.perm_comp_forall₂ hp.symm h3
  have h8 : qss.flatten.Perm pss.flatten := h7.flatten
  exact ⟨h1, h2, qss, h6, h8.nodup_iff.mpr h4, fun p hp => h5 p (h8.mem_iff.mp hp)⟩

omit xs ys rs in
theorem forall₂_split {A B : Type} {R : A → B → Prop} {xs ys : List A} : ∀ {zs : List B}, List.Forall₂ R (xs ++ ys) zs →
    ∃ zs1 zs2, zs = zs1 ++ zs2 ∧ List.Forall₂ R xs zs1 ∧ List.Forall₂ R ys zs2 := by
  induction xs with
  | nil => exact fun {zs} h => ⟨[], zs, rfl, .nil, h⟩
  | cons x xs ih =>
    intro zs h
    obtain _ | ⟨h1, h2⟩ := h
    obtain ⟨zs1, zs2, rfl, h3, h4⟩ := ih h2
    exact ⟨_, zs2, rfl, .cons h1 h3, h4⟩

/-- What is owned can be forgotten. -/
theorem Own.drop (h : Own a b (rs ++ xs)) : Own a b xs := by
  obtain ⟨h1, h2, pss, h3, h4, h5⟩ := h
  obtain ⟨p1, p2, rfl, h6, h7⟩ := forall₂_split h3
  rw [List.flatten_append] at h4 h5
  exact ⟨h1, h2, p2, h7, (List.nodup_append.mp h4).2.1, fun p hp => h5 p (List.mem_append_right _ hp)⟩

/-- `get_mut` gives sole access. -/
theorem Own.getMut (h : Own a b (.ref p D :: xs)) : ∃ d rs, a.mem[p]? = some d ∧ Parts d D rs ∧
    Own a b (.place p d :: (rs ++ xs)) := by
  obtain ⟨h1, h2, pss, h3, h4, h5⟩ := h
  obtain _ | ⟨h6, h7⟩ := h3
  cases h6 with
  | @ref _ _ d ps h8 h9 =>
    obtain ⟨rs, qss, k1, k2, rfl⟩ := h9.parts
    refine ⟨d, rs, h8, k1, h1, h2, [p] :: (qss ++ _), .cons (.place h8) (List.rel_append k2 h7), ?_, ?_⟩
    · simpa using h4
    · intro q hq; exact h5 q (by simpa using hq)

/-- It can be given back. -/
theorem Own.giveBack (hp : Parts d D rs) (h : Own a b (.place p d :: (rs ++ xs))) : Own a b (.ref p D :: xs) := by
  obtain ⟨h1, h2, pss, h3, h4, h5⟩ := h
  obtain _ | ⟨h6, h7⟩ := h3
  obtain ⟨p1, p2, rfl, h8, h9⟩ := forall₂_split h7
  cases h6 with
  | place h6 =>
    refine ⟨h1, h2, (p :: p1.flatten) :: p2, .cons (.ref h6 (hp.reads h8)) h9, ?_, ?_⟩
    · simpa using h4
    · intro q hq; exact h5 q (by simpa using hq)

/-- Who has sole access may write. -/
theorem Own.write {d' : Dat (LText C) ε} (h : Own a b (.place p d :: xs)) :
    Own { a with mem := a.mem.set p d' } b (.place p d' :: xs) := by
  obtain ⟨h1, h2, pss, h3, h4, h5⟩ := h
  obtain _ | ⟨h6, h7⟩ := h3
  cases h6 with
  | place h6 =>
    have hlt : p < a.mem.length := (List.getElem?_eq_some_iff.mp h6).1
    have hn := h4
    simp only [List.flatten_cons, List.singleton_append, List.nodup_cons] at hn
    refine ⟨h1, by simpa using h2, _, .cons (.place ?_) (frames h7 hn.1 d'), h4, h5⟩
    simp [hlt]

theorem Own.read (h : Own a b (.place p d :: xs)) : a.mem[p]? = some d := by
  obtain ⟨_, _, pss, h3, _⟩ := h
  obtain _ | ⟨h6, _⟩ := h3
  cases h6 with
  | place h6 => exact h6

/-- A new datum takes over what is in it. -/
theorem Own.newDatum (hp : Parts d D rs) (h : Own a b (rs ++ xs)) :
    (∃ p a' b', a.newDatum d = (.ok p, a') ∧ (sliceAlloc (VText C ε) ε).newDatum D b = (.ok (), b') ∧
      Own a' b' (.ref p D :: xs)) ∨
    (∃ e a' b', a.newDatum d = (.error e, a') ∧ (sliceAlloc (VText C ε) ε).newDatum D b = (.error e, b') ∧
      Own a' b' xs) := by
  have hd := h.drop
  obtain ⟨h1, h2, pss, h3, h4, h5⟩ := h
  simp only [SliceAlloc.newDatum, sliceAlloc]
  cases hf : a.free with
  | none =>
    rw [hf] at h1
    rw [← h1]
    exact Or.inr ⟨_, a, b, rfl, rfl, hd⟩
  | some i =>
    rw [hf] at h1
    rw [← h1]
    simp only
    by_cases hi : i < a.mem.length
    · rw [if_pos hi, if_pos (h2 ▸ hi)]
      have hni : i ∉ pss.flatten := fun hm => absurd (h5 i hm i hf) (Nat.lt_irrefl _)
      refine Or.inl ⟨i, _, _, rfl, rfl, Own.giveBack hp ⟨rfl, by simpa using h2, [i] :: pss,
        .cons (.place (by simp [hi])) (frames h3 hni d), ?_, ?_⟩⟩
      · simpa using ⟨by simpa using hni, h4⟩
      · intro q hq j hj
        cases hj
        simp only [List.flatten_cons, List.mem_append, List.mem_singleton] at hq
        rcases hq with rfl | hq
        · exact Nat.lt_succ_self _
        · exact Nat.lt_succ_of_lt (h5 q hq i hf)
    · rw [if_neg hi, if_neg (h2 ▸ hi)]
      refine Or.inr ⟨_, _, _, rfl, rfl, ?_⟩
      obtain ⟨_, k2, pss, k3, k4, _⟩ := hd
      exact ⟨rfl, k2, pss, k3, k4, fun _ _ _ hj => by cases hj⟩

/-- What is owned can be read. -/
theorem Own.reads (hp : Parts d D rs) (h : Own a b (rs ++ xs)) : ∃ ps, Reads a.mem d D ps ∧ ps.Nodup := by
  obtain ⟨_, _, pss, h3, h4, _⟩ := h
  obtain ⟨p1, p2, rfl, h6, h7⟩ := forall₂_split h3
  rw [List.flatten_append] at h4
  exact ⟨_, hp.reads h6, (List.nodup_append.mp h4).1⟩

end

/-! ## Texts -/

theorem Reads.lt {m : List (Dat (LText C) ε)} {d : Dat (LText C) ε} {D : VDatum C ε} {ps : List Addr}
    (h : Reads m d D ps) : ∀ p ∈ ps, p < m.length := by
  induction h with
  | text | emptyNest | emptyList | extra => intro p hp; cases hp
  | linked h1 _ ih =>
    intro p hp
    rcases List.mem_cons.mp hp with rfl | hp
    · exact (List.getElem?_eq_some_iff.mp h1).1
    · exact ih p hp
  | combination h1 _ h2 _ ih1 ih2 | list h1 _ h2 _ ih1 ih2 =>
    intro p hp
    rcases List.mem_append.mp hp with hp | hp <;> rcases List.mem_cons.mp hp with rfl | hp
    · exact (List.getElem?_eq_some_iff.mp h1).1
    · exact ih1 p hp
    · exact (List.getElem?_eq_some_iff.mp h2).1
    · exact ih2 p hp

/-- There are no more slots than there are. -/
theorem Reads.length_le {m : List (Dat (LText C) ε)} {d : Dat (LText C) ε} {D : VDatum C ε} {ps : List Addr}
    (h : Reads m d D ps) (hn : ps.Nodup) : ps.length ≤ m.length := by
  have := (List.subperm_of_subset hn (l₂ := List.range m.length) fun p hp => List.mem_range.mpr (h.lt p hp)).length_le
  simpa using this

/-- Iterating the chunks of a text in memory, with enough steps, gives what it gives by value. -/
theorem Reads.chunksFrom {m : List (Dat (LText C) ε)} : ∀ {n : Nat} {t : LText C} {T : VText C ε} {ps : List Addr},
    Reads m (.text t) (.text T) ps → ps.length < n → Linked.chunksFrom m n t = T.chunks := by
  intro n
  induction n with
  | zero => intro t T ps _ h; exact absurd h (Nat.not_lt_zero _)
  | succ n ih =>
    intro t T ps h hl
    cases h with
    | text => simp only [Linked.chunksFrom, stateNext, TextDatumList.chunks]
    | linked h1 h2 =>
      simp only [List.length_cons, Nat.add_lt_add_iff_right] at hl
      simp only [Linked.chunksFrom, stateNext, h1, TextDatumList.chunks, ih h2 hl]
      cases TextDatumList.chunks _ <;> rfl

theorem Own.chunks {a : Slice C ε} {b : VSlice C ε} {t : LText C} {T : VText C ε} {rs xs : List (Res C ε)}
    (hp : TParts t T rs) (h : Own a b (rs ++ xs)) : Linked.chunks a.mem t = T.chunks := by
  obtain ⟨ps, h1, h2⟩ := h.reads (.text hp)
  exact h1.chunksFrom (Nat.lt_succ_of_le (h1.length_le h2))

theorem Own.isEmpty (O : ChunkOps C CS P) {a : Slice C ε} {b : VSlice C ε} {t : LText C} {T : VText C ε}
    {rs xs : List (Res C ε)} (hp : TParts t T rs) (h : Own a b (rs ++ xs)) :
    Linked.isEmpty O a.mem t = T.isEmpty O := by
  unfold Linked.isEmpty TextDatumList.isEmpty
  rw [h.chunks hp]
  cases T.chunks <;> rfl

/-- The number of links of a text. -/
def links : VText C ε → Nat
  | .mk _ none => 0
  | .mk _ (some (.text t)) => links t + 1
  | .mk _ (some _) => 0

theorem Reads.links_le {m : List (Dat (LText C) ε)} : ∀ {T : VText C ε} {t : LText C} {ps : List Addr},
    Reads m (.text t) (.text T) ps → links T ≤ ps.length
  | .mk _ none, _, _, h => by simp [links]
  | .mk _ (some (.text T)), _, _, h => by
    cases h with
    | linked h1 h2 => simpa [links] using h2.links_le
  | .mk _ (some (.combination _ _)), _, _, h => by cases h
  | .mk _ (some .emptyNest), _, _, h => by cases h
  | .mk _ (some (.list _ _)), _, _, h => by cases h
  | .mk _ (some .emptyList), _, _, h => by cases h
  | .mk _ (some (.extra _)), _, _, h => by cases h

/-- Results of an operation on texts. -/
def TextOut (xs : List (Res C ε)) (x : Outcome AllocErr (LText C) × Slice C ε)
    (y : Outcome AllocErr (VText C ε) × VSlice C ε) : Prop :=
  (∃ t T ts, x.1 = .ok t ∧ y.1 = .ok T ∧ TParts t T ts ∧ Own x.2 y.2 (ts ++ xs)) ∨
  (∃ e, x.1 = .err e ∧ y.1 = .err e ∧ Own x.2 y.2 xs) ∨
  (x.1 = .panic ∧ y.1 = .panic ∧ Own x.2 y.2 xs)

theorem Own.linkAt {u : LText C} {U : VText C ε} {us : List (Res C ε)} (hu : TParts u U us) :
    ∀ {n : Nat} {a : Slice C ε} {b : VSlice C ε} {p : Addr} {T : VText C ε} {xs : List (Res C ε)}, links T < n →
      Own a b (.ref p (.text T) :: (us ++ xs)) →
      (∃ a' b' T', Linked.linkAt n p u a = (.ok (), a') ∧ T.link (sliceAlloc _ _) U b = (.ok T', b') ∧
        Own a' b' (.ref p (.text T') :: xs)) ∨
      (∃ e a' b', Linked.linkAt n p u a = (.err e, a') ∧ T.link (sliceAlloc _ _) U b = (.err e, b') ∧ Own a' b' xs) := by
  intro n
  induction n with
  | zero => intro a b p T xs h; exact absurd h (Nat.not_lt_zero _)
  | succ n ih =>
    intro a b p T xs hl h
    obtain ⟨d, rs, h1, h2, h3⟩ := h.getMut
    cases h2 with
    | text h2 =>
      cases h2 with
      | @single c =>
        simp only [Linked.linkAt, h1, TextDatumList.link]
        have h4 : Own a b (us ++ (.place p (.text ⟨c, none⟩) :: xs)) := h3.perm (by simpa using List.perm_middle.symm)
        rcases Own.newDatum (.text hu) h4 with ⟨q, a', b', e1, e2, h5⟩ | ⟨e, a', b', e1, e2, h5⟩ <;> simp only [e1, e2]
        · refine Or.inl ⟨_, _, _, rfl, rfl, ?_⟩
          have h6 := (h5.perm (List.Perm.swap _ _ _)).write (d' := .text ⟨c, some q⟩)
          exact Own.giveBack (.text .linked) h6
        · exact Or.inr ⟨_, _, _, rfl, rfl, h5.drop (rs := [_])⟩
      | @linked c q T =>
        simp only [links, Nat.add_lt_add_iff_right] at hl
        simp only [Linked.linkAt, h1, TextDatumList.link]
        have h4 : Own a b (.ref q (.text T) :: (us ++ (.place p (.text ⟨c, some q⟩) :: xs))) :=
          h3.perm ((List.Perm.swap _ _ _).trans (List.Perm.cons _ (by simpa using List.perm_middle.symm)))
        rcases ih hl h4 with ⟨a', b', T', e1, e2, h5⟩ | ⟨e, a', b', e1, e2, h5⟩ <;> simp only [e1, e2]
        · exact Or.inl ⟨_, _, _, rfl, rfl, Own.giveBack (.text .linked) (h5.perm (List.Perm.swap _ _ _))⟩
        · exact Or.inr ⟨_, _, _, rfl, rfl, h5.drop (rs := [_])⟩

theorem Own.link {a : Slice C ε} {b : VSlice C ε} {t u : LText C} {T U : VText C ε} {ts us xs : List (Res C ε)}
    (ht : TParts t T ts) (hu : TParts u U us) (h : Own a b (ts ++ (us ++ xs))) :
    TextOut xs (Linked.link t u a) (T.link (sliceAlloc _ _) U b) := by
  obtain ⟨ps, h1, h2⟩ := h.reads (.text ht)
  have hl : links T < a.mem.length + 1 := Nat.lt_succ_of_le (Nat.le_trans h1.links_le (h1.length_le h2))
  cases ht with
  | @single c =>
    simp only [Linked.link, TextDatumList.link]
    rcases Own.newDatum (.text hu) h with ⟨q, a', b', e1, e2, h5⟩ | ⟨e, a', b', e1, e2, h5⟩ <;> simp only [e1, e2]
    · exact Or.inl ⟨_, _, _, rfl, rfl, .linked, h5⟩
    · exact Or.inr (Or.inl ⟨_, rfl, rfl, h5⟩)
  | @linked c p T =>
    simp only [links] at hl
    simp only [Linked.link, TextDatumList.link]
    rcases Own.linkAt hu (Nat.lt_of_succ_lt hl) h with ⟨a', b', T', e1, e2, h5⟩ | ⟨e, a', b', e1, e2, h5⟩ <;>
      simp only [e1, e2]
    · exact Or.inl ⟨_, _, _, rfl, rfl, .linked, h5⟩
    · exact Or.inr (Or.inl ⟨_, rfl, rfl, h5⟩)

theorem Own.concat (O : ChunkOps C CS P) {a : Slice C ε} {b : VSlice C ε} {t u : LText C} {T U : VText C ε}
    {ts us xs : List (Res C ε)} (ht : TParts t T ts) (hu : TParts u U us) (h : Own a b (ts ++ (us ++ xs))) :
    TextOut xs (Linked.concat O t u a) (T.concat O (sliceAlloc _ _) U b) := by
  unfold Linked.concat TextDatumList.concat
  rw [h.isEmpty O ht, h.drop.isEmpty O hu]
  rcases T.isEmpty O with ⟨⟨⟩ | ⟨⟩⟩ | e | _ | _
  · rcases U.isEmpty O with ⟨⟨⟩ | ⟨⟩⟩ | e | _ | _
    · exact h.link ht hu
    · refine Or.inl ⟨_, _, _, rfl, rfl, ht, ?_⟩
      exact (h.perm (ys := us ++ (ts ++ xs)) (by
        rw [← List.append_assoc, ← List.append_assoc]
        exact List.perm_append_comm.append_right _)).drop
    · exact nomatch e
    · exact Or.inr (Or.inr ⟨rfl, rfl, h.drop.drop⟩)
    · exact Or.inr (Or.inr ⟨rfl, rfl, h.drop.drop⟩)
  · exact Or.inl ⟨_, _, _, rfl, rfl, hu, h.drop⟩
  · exact nomatch e
  · exact Or.inr (Or.inr ⟨rfl, rfl, h.drop.drop⟩)
  · exact Or.inr (Or.inr ⟨rfl, rfl, h.drop.drop⟩)

end Kul.Linked
