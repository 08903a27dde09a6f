import Verif.Spec.Bound
import Verif.Proof.EvalDet

/-! # Texts of the grammar and `scanText` -/

namespace Kul

variable {P τ ε α CE : Type} {cc : Classifier}

/-- The stop characters of a text in a mode. -/
def stopOf (cc : Classifier) : Mode → Char → Bool
  | .base => cc.delim
  | .operator => cc.headDelim
  | .operands => cc.isNestEnd

theorem delim_false {c : Char} (h : cc.delim c = false) :
    cc.isNestStart c = false ∧ cc.isNestEnd c = false := by
  simpa [Classifier.delim] using h

theorem headDelim_false {c : Char} (h : cc.headDelim c = false) :
    cc.isWhitespace c = false ∧ cc.isNestStart c = false ∧ cc.isNestEnd c = false := by
  simpa [Classifier.headDelim, Classifier.delim] using h

theorem stopOf_delim {m : Mode} (hm : m ≠ .operands) {c : Char} (h : stopOf cc m c = false) :
    cc.isNestStart c = false ∧ cc.isNestEnd c = false ∧ isEndChar cc m c = false := by
  cases m with
  | base => obtain ⟨h1, h2⟩ := delim_false h; exact ⟨h1, h2, by simp [isEndChar, h1]⟩
  | operator =>
    obtain ⟨h1, h2, h3⟩ := headDelim_false h
    exact ⟨h2, h3, by simp [isEndChar, h1, h2, h3]⟩
  | operands => exact absurd rfl hm

theorem TextRes.cons_ok {it : Item P} {t : TextRes P} {c r} (h : t.cons it = .ok c r) :
    ∃ c', c = it :: c' ∧ t = .ok c' r := by
  cases t <;> simp only [TextRes.cons, reduceCtorEq, TextRes.ok.injEq] at h
  obtain ⟨rfl, rfl⟩ := h
  exact ⟨_, rfl, rfl⟩

/-- A scanned text is a written text up to a stop character, or up to a lone escape
character at the end of the source. -/
theorem scanText_textOf {m : Mode} (hm : m ≠ .operands) {top : Bool}
    {r c r' : List (Item P)} (h : scanText cc m top 0 r = .ok c r') :
    (∃ s, r = s ++ r' ∧ TextOf cc (stopOf cc m) s c ∧ (r' = [] ∨ ∃ it r1, r' = it :: r1 ∧
      stopOf cc m it.ch = true ∧ (top = true → m = .base → cc.isNestStart it.ch = true))) ∨
    (∃ s e, r = s ++ [e] ∧ r' = [] ∧ cc.isNestEscape e.ch = true ∧ TextOf cc (stopOf cc m) s c) := by
  induction hn : r.length using Nat.strongRecOn generalizing r c r' with
  | ind n ih =>
    subst hn
    match r with
    | [] =>
      unfold scanText at h
      simp only [if_true, TextRes.ok.injEq] at h
      obtain ⟨rfl, rfl⟩ := h
      exact Or.inl ⟨[], rfl, .nil, Or.inl rfl⟩
    | it :: r =>
      unfold scanText at h
      split at h
      · rename_i hend
        simp only [TextRes.ok.injEq] at h
        obtain ⟨rfl, rfl⟩ := h
        refine Or.inl ⟨[], rfl, .nil, Or.inr ⟨it, r, rfl, ?_, ?_⟩⟩
        · cases m with
          | base => simp [stopOf, Classifier.delim, show cc.isNestStart it.ch = true from hend.2]
          | operator =>
            have := hend.2
            simpa [stopOf, Classifier.headDelim, Classifier.delim, isEndChar, or_assoc] using this
          | operands => exact absurd rfl hm
        · rintro _ rfl
          exact hend.2
      rename_i hend
      simp only [true_and, Bool.not_eq_true] at hend
      split at h
      · rename_i hesc
        cases r with
        | nil =>
          simp only [if_true, TextRes.ok.injEq] at h
          obtain ⟨rfl, rfl⟩ := h
          exact Or.inr ⟨[], it, rfl, rfl, hesc, .nil⟩
        | cons x r2 =>
          obtain ⟨c', rfl, h0⟩ := TextRes.cons_ok h
          rcases ih r2.length (by simp; omega) h0 rfl with ⟨s, rfl, h1, h2⟩ | ⟨s, e, rfl, rfl, h1, h2⟩
          · exact Or.inl ⟨it :: x :: s, rfl, .escaped hesc h1, h2⟩
          · exact Or.inr ⟨it :: x :: s, e, rfl, rfl, h1, .escaped hesc h2⟩
      rename_i hesc
      simp only [Bool.not_eq_true] at hesc
      split at h
      · rename_i hst
        exfalso
        cases m with
        | base => simp [isEndChar, hst] at hend
        | operator => simp [isEndChar, hst] at hend
        | operands => exact hm rfl
      rename_i hst
      simp only [Bool.not_eq_true] at hst
      split at h
      · rename_i hfin
        rw [if_neg (by omega)] at h
        split at h
        · cases h
        · rename_i htop
          simp only [TextRes.ok.injEq] at h
          obtain ⟨rfl, rfl⟩ := h
          refine Or.inl ⟨[], rfl, .nil, Or.inr ⟨it, r, rfl, ?_, fun h => absurd h htop⟩⟩
          cases m with
          | base => simp [stopOf, Classifier.delim, hfin]
          | operator => simp [stopOf, Classifier.headDelim, Classifier.delim, hfin]
          | operands => exact hfin
      · rename_i hfin
        simp only [Bool.not_eq_true] at hfin
        obtain ⟨c', rfl, h0⟩ := TextRes.cons_ok h
        have hstop : stopOf cc m it.ch = false := by
          cases m with
          | base => simp [stopOf, Classifier.delim, hst, hfin]
          | operator =>
            simp only [isEndChar, Bool.or_eq_false_iff] at hend
            simp [stopOf, Classifier.headDelim, Classifier.delim, hst, hfin, hend]
          | operands => exact absurd rfl hm
        rcases ih r.length (by simp) h0 rfl with ⟨s, rfl, h1, h2⟩ | ⟨s, e, rfl, rfl, h1, h2⟩
        · exact Or.inl ⟨it :: s, rfl, .plain hstop hesc h1, h2⟩
        · exact Or.inr ⟨it :: s, e, rfl, rfl, h1, .plain hstop hesc h2⟩

/-- Operands text with `n` ends more than starts. -/
def RawLev (cc : Classifier) : Nat → List (Item P) → List (Item P) → Prop
  | 0, s, c => RawOf cc s c
  | n + 1, s, c => ∃ s1 c1 e s2 c2, s = s1 ++ e :: s2 ∧ c = c1 ++ e :: c2 ∧
      cc.isNestEnd e.ch = true ∧ RawOf cc s1 c1 ∧ RawLev cc n s2 c2

theorem RawLev.plain {n : Nat} {it : Item P} {s c} (h1 : cc.delim it.ch = false)
    (h2 : cc.isNestEscape it.ch = false) (h : RawLev cc n s c) : RawLev cc n (it :: s) (it :: c) := by
  cases n with
  | zero => exact RawOf.plain h1 h2 h
  | succ n =>
    obtain ⟨s1, c1, e, s2, c2, rfl, rfl, h3, h4, h5⟩ := h
    exact ⟨it :: s1, it :: c1, e, s2, c2, rfl, rfl, h3, .plain h1 h2 h4, h5⟩

theorem RawLev.escaped {n : Nat} {e it : Item P} {s c} (h1 : cc.isNestEscape e.ch = true)
    (h : RawLev cc n s c) : RawLev cc n (e :: it :: s) (it :: c) := by
  cases n with
  | zero => exact RawOf.escaped h1 h
  | succ n =>
    obtain ⟨s1, c1, e, s2, c2, rfl, rfl, h3, h4, h5⟩ := h
    exact ⟨_ :: it :: s1, it :: c1, e, s2, c2, rfl, rfl, h3, .escaped h1 h4, h5⟩

theorem RawLev.start {n : Nat} {b : Item P} {s c} (h1 : cc.isNestStart b.ch = true)
    (h : RawLev cc (n + 1) s c) : RawLev cc n (b :: s) (b :: c) := by
  obtain ⟨s1, c1, e, s2, c2, rfl, rfl, h3, h4, h5⟩ := h
  cases n with
  | zero => exact RawOf.nest h1 h3 h4 h5
  | succ n =>
    obtain ⟨s3, c3, e', s4, c4, rfl, rfl, h6, h7, h8⟩ := h5
    exact ⟨b :: (s1 ++ e :: s3), b :: (c1 ++ e :: c3), e', s4, c4, by simp, by simp, h6,
      .nest h1 h3 h4 h7, h8⟩

/-- A scanned operands text is balanced. -/
theorem scanText_rawOf {top : Bool} {nl : Nat}
    {r c r1 : List (Item P)} {e : Item P} (h : scanText cc .operands top nl r = .ok c (e :: r1)) :
    cc.isNestEnd e.ch = true ∧ ∃ s, r = s ++ e :: r1 ∧ RawLev cc nl s c := by
  induction hn : r.length using Nat.strongRecOn generalizing r c nl with
  | ind n ih =>
    subst hn
    match r with
    | [] => unfold scanText at h; split at h <;> cases h
    | it :: r =>
      unfold scanText at h
      split at h
      · rename_i hend
        simp only [TextRes.ok.injEq, List.cons.injEq] at h
        obtain ⟨rfl, rfl, rfl⟩ := h
        obtain ⟨rfl, hend⟩ := hend
        exact ⟨hend, [], rfl, .nil⟩
      rename_i hend
      split at h
      · rename_i hesc
        cases r with
        | nil => simp only at h; split at h <;> cases h
        | cons x r2 =>
          obtain ⟨c', rfl, h0⟩ := TextRes.cons_ok h
          obtain ⟨h1, s, rfl, h2⟩ := ih r2.length (by simp; omega) h0 rfl
          exact ⟨h1, it :: x :: s, rfl, .escaped hesc h2⟩
      rename_i hesc
      simp only [Bool.not_eq_true] at hesc
      split at h
      · rename_i hst
        obtain ⟨c', rfl, h0⟩ := TextRes.cons_ok h
        obtain ⟨h1, s, rfl, h2⟩ := ih r.length (by simp) h0 rfl
        exact ⟨h1, it :: s, rfl, .start hst h2⟩
      rename_i hst
      simp only [Bool.not_eq_true] at hst
      split at h
      · rename_i hfin
        split at h
        · obtain ⟨c', rfl, h0⟩ := TextRes.cons_ok h
          obtain ⟨h1, s, rfl, h2⟩ := ih r.length (by simp) h0 rfl
          obtain ⟨nl, rfl⟩ : ∃ k, nl = k + 1 := ⟨nl - 1, by omega⟩
          exact ⟨h1, it :: s, rfl, [], [], it, s, c', rfl, rfl, hfin, .nil, h2⟩
        · exact absurd ⟨by omega, hfin⟩ hend
      · rename_i hfin
        simp only [Bool.not_eq_true] at hfin
        obtain ⟨c', rfl, h0⟩ := TextRes.cons_ok h
        obtain ⟨h1, s, rfl, h2⟩ := ih r.length (by simp) h0 rfl
        exact ⟨h1, it :: s, rfl, .plain (by simp [Classifier.delim, hst, hfin]) hesc h2⟩

/-! ## The converse -/

theorem scanText_cons (m : Mode) (top : Bool) (nl : Nat) (it : Item P) (r : List (Item P)) :
    scanText cc m top nl (it :: r) =
      if nl = 0 ∧ isEndChar cc m it.ch then .ok [] (it :: r)
      else if cc.isNestEscape it.ch then
        match r with
        | [] => if nl = 0 then .ok [] [] else .missing
        | x :: r' => (scanText cc m top nl r').cons x
      else if cc.isNestStart it.ch then (scanText cc m top (nl + 1) r).cons it
      else if cc.isNestEnd it.ch then
        if nl > 0 then (scanText cc m top (nl - 1) r).cons it
        else if top then .unbalanced it.pos r
        else .ok [] (it :: r)
      else (scanText cc m top nl r).cons it := by
  conv => lhs; unfold scanText
  rfl

/-- Where a text in mode `m` stops. -/
def StopsAt (cc : Classifier) (m : Mode) (top : Bool) (rest : List (Item P)) : Prop :=
  ∀ it, rest.head? = some it → stopOf cc m it.ch = true ∧ (top = true → cc.isNestEnd it.ch = false)

theorem stop_not_esc (D : cc.Disjoint) {m : Mode} {c : Char} (h : cc.isNestEscape c = true) :
    stopOf cc m c = false := by
  have h1 : cc.isNestStart c = false := by
    cases hs : cc.isNestStart c with
    | false => rfl
    | true => simp [D.start_esc c hs] at h
  have h2 : cc.isNestEnd c = false := by
    cases hs : cc.isNestEnd c with
    | false => rfl
    | true => simp [D.end_esc c hs] at h
  have h3 := D.esc_ws c h
  cases m <;> simp [stopOf, Classifier.delim, Classifier.headDelim, h1, h2, h3]

theorem scanText_of_stop {m : Mode} (D : cc.Disjoint) (hm : m ≠ .operands) {top : Bool}
    {rest : List (Item P)} (h : StopsAt cc m top rest) : scanText cc m top 0 rest = .ok [] rest := by
  cases rest with
  | nil => simp [scanText]
  | cons it r =>
    obtain ⟨h1, h2⟩ := h it rfl
    unfold scanText
    split
    · rfl
    rename_i hend
    simp only [true_and, Bool.not_eq_true] at hend
    have hfin : cc.isNestEnd it.ch = true := by
      cases m with
      | base =>
        simp only [isEndChar] at hend
        simpa [stopOf, Classifier.delim, hend] using h1
      | operator =>
        simp only [isEndChar, Bool.or_eq_false_iff] at hend
        simp [stopOf, Classifier.headDelim, Classifier.delim, hend] at h1
      | operands => exact absurd rfl hm
    have hst : cc.isNestStart it.ch = false := by
      cases hs : cc.isNestStart it.ch with
      | false => rfl
      | true => simp [D.start_end _ hs] at hfin
    have ht : top = false := by
      cases top with
      | false => rfl
      | true => simp [h2 rfl] at hfin
    simp [D.end_esc _ hfin, hst, hfin, ht]

theorem scanText_of_textOf (D : cc.Disjoint) {m : Mode} (hm : m ≠ .operands) {top : Bool}
    {s c : List (Item P)} (h : TextOf cc (stopOf cc m) s c) {rest : List (Item P)}
    (hr : StopsAt cc m top rest) : scanText cc m top 0 (s ++ rest) = .ok c rest := by
  induction h with
  | nil => exact scanText_of_stop D hm hr
  | @plain it s c h1 h2 _ ih =>
    obtain ⟨h3, h4, h5⟩ := stopOf_delim hm h1
    rw [List.cons_append]
    unfold scanText
    simp [h2, h3, h4, h5, ih, TextRes.cons]
  | @escaped e it s c h1 _ ih =>
    obtain ⟨_, _, h5⟩ := stopOf_delim hm (stop_not_esc D h1 (m := m))
    simp only [List.cons_append]
    rw [scanText_cons]
    simp [h1, h5, ih, TextRes.cons]

theorem scanText_of_dangling (D : cc.Disjoint) {m : Mode} (hm : m ≠ .operands) {top : Bool}
    {s c : List (Item P)} (h : TextOf cc (stopOf cc m) s c) {e : Item P}
    (he : cc.isNestEscape e.ch = true) : scanText cc m top 0 (s ++ [e]) = .ok c [] := by
  induction h with
  | nil =>
    obtain ⟨_, _, h5⟩ := stopOf_delim hm (stop_not_esc D he (m := m))
    simp [scanText, he, h5]
  | @plain it s c h1 h2 _ ih =>
    obtain ⟨h3, h4, h5⟩ := stopOf_delim hm h1
    rw [List.cons_append]
    unfold scanText
    simp [h2, h3, h4, h5, ih, TextRes.cons]
  | @escaped e' it s c h1 _ ih =>
    obtain ⟨_, _, h5⟩ := stopOf_delim hm (stop_not_esc D h1 (m := m))
    simp only [List.cons_append]
    rw [scanText_cons]
    simp [h1, h5, ih, TextRes.cons]

/-- Put a content in front. -/
def TextRes.prepend (c : List (Item P)) (t : TextRes P) : TextRes P := c.foldr TextRes.cons t

theorem TextRes.prepend_ok (c c' r : List (Item P)) :
    TextRes.prepend c (.ok c' r) = .ok (c ++ c') r := by
  induction c with
  | nil => rfl
  | cons it c ih => simp only [prepend, List.foldr_cons, List.cons_append] at ih ⊢; rw [ih]; rfl

theorem TextRes.prepend_append (c c' : List (Item P)) (t : TextRes P) :
    TextRes.prepend (c ++ c') t = TextRes.prepend c (TextRes.prepend c' t) := by
  simp [prepend]

theorem scanText_of_rawOf (D : cc.Disjoint) {top : Bool} {s c : List (Item P)} (h : RawOf cc s c) :
    ∀ nl rest, scanText cc .operands top nl (s ++ rest) =
      TextRes.prepend c (scanText cc .operands top nl rest) := by
  induction h with
  | nil => intro nl rest; rfl
  | @plain it s c h1 h2 _ ih =>
    intro nl rest
    obtain ⟨h3, h4⟩ := delim_false h1
    rw [List.cons_append]
    rw [scanText_cons]
    simp [isEndChar, h2, h3, h4, ih, TextRes.prepend]
  | @escaped e it s c h1 _ ih =>
    intro nl rest
    have h5 : cc.isNestEnd e.ch = false := stop_not_esc D h1 (m := .operands)
    simp only [List.cons_append]
    rw [scanText_cons]
    simp [isEndChar, h1, h5, ih, TextRes.prepend]
  | @nest b e s c s' c' h1 h2 _ _ ih1 ih2 =>
    intro nl rest
    have hb : cc.isNestEnd b.ch = false := D.start_end _ h1
    have hb' : cc.isNestEscape b.ch = false := D.start_esc _ h1
    have he : cc.isNestEscape e.ch = false := D.end_esc _ h2
    have he' : cc.isNestStart e.ch = false := by
      cases hs : cc.isNestStart e.ch with
      | false => rfl
      | true => simp [D.start_end _ hs] at h2
    simp only [List.cons_append, List.append_assoc]
    rw [scanText_cons]
    simp only [isEndChar, hb, hb', h1]
    simp only [Bool.false_eq_true, and_false, if_false, if_true]
    rw [ih1]
    rw [scanText_cons]
    simp only [he, he', h2, isEndChar]
    rw [if_neg (by omega), if_neg (by simp), if_neg (by simp), if_pos trivial, if_pos (by omega), Nat.add_sub_cancel, ih2]
    rw [show (b :: (c ++ e :: c')) = [b] ++ (c ++ ([e] ++ c')) by simp,
      TextRes.prepend_append, TextRes.prepend_append, TextRes.prepend_append]
    rfl

theorem scanText_of_raw (D : cc.Disjoint) {top : Bool} {s c : List (Item P)} (h : RawOf cc s c)
    {e : Item P} (he : cc.isNestEnd e.ch = true) (rest : List (Item P)) :
    scanText cc .operands top 0 (s ++ e :: rest) = .ok c (e :: rest) := by
  rw [scanText_of_rawOf D h]
  have : scanText cc .operands top 0 (e :: rest) = .ok [] (e :: rest) := by
    simp [scanText_cons, isEndChar, he]
  rw [this, TextRes.prepend_ok, List.append_nil]

end Kul
