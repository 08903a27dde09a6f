import Verif.Model.Delims
import Verif.Proof.EvalRun

/-!
# Texts and scanning, for a parser whose delimiters may change

What `Proof/EvalRun.lean` proves about the functions that call no combiner, again for
`Model/Delims.lean`: operations on texts do not change what the classifier answers.
-/

namespace Kul.Cls

variable {σ P τ ε α CE : Type} {U : ClsEnv σ P τ ε α CE} {RS : σ → Seq P → Prop} {X : TextSem P τ α}

theorem c_here (s : σ) (a : α) (d : Nat) : U.here ⟨s, a, d⟩ = (.ok (U.cc a), ⟨s, a, d⟩) := rfl

section

variable (C : Conf U.env RS X) (hR : ∀ a b, X.RA a b → U.cc a = U.cc b)
include C

theorem c_skipWhitespace (r : List (Item P)) : ∀ (n : Nat) (p : List (Item P)) (s : σ) (a : α)
    (d : Nat), RS s ⟨p, r⟩ → r.length < n →
    ∃ s' p', U.skipWhitespace n ⟨s, a, d⟩ = (.ok (), ⟨s', a, d⟩) ∧
      RS s' ⟨p', r.dropWhile fun it => (U.cc a).isWhitespace it.ch⟩ ∧ (p' = p ∨ p' = []) := by
  induction r with
  | nil =>
    intro n p s a d hs hn
    cases n with
    | zero => omega
    | succ n =>
      obtain ⟨s', h1, h2⟩ := C.toJ.c_peek hs a d
      refine ⟨s', p, ?_, h2, Or.inl rfl⟩
      unfold ClsEnv.skipWhitespace
      rw [Act.bind_ok h1]; rfl
  | cons it r ih =>
    intro n p s a d hs hn
    cases n with
    | zero => omega
    | succ n =>
      unfold ClsEnv.skipWhitespace
      obtain ⟨s', h1, h2⟩ := C.toJ.c_peek hs a d
      rw [Act.bind_ok h1]
      simp only [List.head?_cons]
      rw [Act.bind_ok (c_here (U := U) s' a d)]
      by_cases hw : (U.cc a).isWhitespace it.ch = true
      · obtain ⟨s2, h3, h4⟩ := C.toJ.c_next h2 a d
        simp only [List.tail_cons] at h4
        obtain ⟨s3, p', h5, h6, h7⟩ := ih n [] s2 a d h4 (by simp at hn; omega)
        refine ⟨s3, p', ?_, ?_, Or.inr (by rcases h7 with h | h <;> exact h)⟩
        · rw [if_pos hw, Act.bind_ok h3, h5]
        · simpa only [List.dropWhile_cons, hw, if_true] using h6
      · refine ⟨s', p, ?_, ?_, Or.inl rfl⟩
        · rw [if_neg hw]; rfl
        · simpa only [List.dropWhile_cons, if_neg hw] using h2

theorem c_skipLeading (m : Mode) (r : List (Item P)) (n : Nat) (p : List (Item P)) (s : σ) (a : α)
    (d : Nat) (hs : RS s ⟨p, r⟩) (hn : r.length < n) (hc : Clean p r) :
    ∃ s' p', U.skipLeading n m ⟨s, a, d⟩ = (.ok (), ⟨s', a, d⟩) ∧ RS s' ⟨p', lead (U.cc a) m r⟩ ∧
      Clean p' (lead (U.cc a) m r) ∧ (p = [] → p' = []) := by
  unfold ClsEnv.skipLeading lead
  by_cases hm : m = .operator
  · rw [if_pos hm, if_pos hm]
    obtain ⟨s', p', h1, h2, h3⟩ := c_skipWhitespace C r n p s a d hs hn
    refine ⟨s', p', h1, h2, ?_, fun hp => ?_⟩
    · rcases h3 with rfl | rfl
      · rcases hc with rfl | rfl
        · exact Or.inl rfl
        · exact Or.inr rfl
      · exact Or.inl rfl
    · rcases h3 with rfl | rfl
      · exact hp
      · rfl
  · rw [if_neg hm, if_neg hm]
    exact ⟨s, p, rfl, hs, hc, id⟩

theorem c_checkEndChar (it : Item P) {s : σ} {p r : List (Item P)} (hs : RS s ⟨p, it :: r⟩) (a : α)
    (d : Nat) (h : (U.cc a).isNestEnd it.ch = true) :
    (d > 0 → ∃ s', U.checkEndChar ⟨s, a, d⟩ = (.ok (), ⟨s', a, d⟩) ∧ RS s' ⟨p, it :: r⟩) ∧
    (d = 0 → ∃ s', U.checkEndChar ⟨s, a, d⟩ = (.err (.unbalancedEndChar it.pos), ⟨s', a, d⟩) ∧
      RS s' ⟨[], r⟩) := by
  unfold ClsEnv.checkEndChar
  obtain ⟨s1, h1, h2⟩ := C.toJ.c_peek hs a d
  rw [Act.bind_ok h1]
  have h3 : (((it :: r).head?).map (fun it => (U.cc a).isNestEnd it.ch) == some true) = true := by
    simp [h]
  rw [Act.bind_ok (c_here (U := U) s1 a d), h3, Act.bind_ok (debugAssert_true _), Act.bind_ok (c_getDepth s1 a d)]
  refine ⟨fun hd => ?_, fun hd => ?_⟩
  · rw [if_pos hd]; exact ⟨s1, rfl, h2⟩
  · rw [if_neg (by omega)]
    obtain ⟨s2, h4, h5⟩ := C.toJ.c_next h2 a d
    refine ⟨s2, ?_, h5⟩
    rw [Act.bind_ok h4]; rfl

theorem c_finish {s : σ} {p r : List (Item P)} (hs : RS s ⟨p, r⟩) {t : τ} {c : List (Item P)}
    (ht : X.RT t c) (a : α) (d : Nat) (m : Mode) (top : Bool)
    (hsc : scanText (U.cc a) m top 0 r = .ok [] r) :
    ∃ o s' a' r' p', U.env.finishText t 0 ⟨s, a, d⟩ = (Outcome.ofExcept o, ⟨s', a', d⟩) ∧
      RS s' ⟨p', r'⟩ ∧ LoopEv (U.cc a) X m top 0 c p r a o p' r' a' := by
  obtain ⟨s', a', h1, h2, h3⟩ := C.toJ.c_concatAccum hs ht trivial a d
  unfold Env.finishText
  rw [if_pos rfl]
  rcases h3 with ⟨v, h3, hv⟩ | ⟨hF, hp, e, h3⟩
  · exact ⟨.ok v, s', a', r, [], h3, h2, h1, Or.inl ⟨v, [], rfl, rfl, hsc, by simpa using hv⟩⟩
  · exact ⟨.error (.failedAlloc e), s', a', r, [], h3, h2, h1,
      Or.inr (Or.inr (Or.inr ⟨hF, ⟨e, rfl⟩, rfl, List.suffix_refl _, fun h => absurd h hp⟩))⟩

include hR in
theorem c_loopStep {m : Mode} {nl nl' n : Nat} {it : Item P} {r p c : List (Item P)} {t : τ}
    {s : σ} {a : α} {d : Nat} (hs : RS s ⟨p, it :: r⟩) (ht : X.RT t c)
    (ih : ∀ (t : τ) (c p : List (Item P)) (s : σ) (a : α), RS s ⟨p, r⟩ → X.RT t c →
      ∃ o s' a' r' p', U.parseTextLoop m n t nl' ⟨s, a, d⟩ = (Outcome.ofExcept o, ⟨s', a', d⟩) ∧
        RS s' ⟨p', r'⟩ ∧ LoopEv (U.cc a) X m (d == 0) nl' c p r a o p' r' a')
    (hsc : scanText (U.cc a) m (d == 0) nl (it :: r) = (scanText (U.cc a) m (d == 0) nl' r).cons it) :
    ∃ o s' a' r' p', ((U.env.nextAccum >>= fun _ => U.parseTextLoop m n t nl') : Act _ _ _) ⟨s, a, d⟩ =
      (Outcome.ofExcept o, ⟨s', a', d⟩) ∧
      RS s' ⟨p', r'⟩ ∧ LoopEv (U.cc a) X m (d == 0) nl c p (it :: r) a o p' r' a' := by
  obtain ⟨s1, a1, ha, h⟩ := C.toJ.c_nextAccum hs a d
  rcases h with ⟨h1, h2⟩ | ⟨hF, hp, ⟨e, h1⟩, h2⟩
  · obtain ⟨o, s', a', r', p', h3, h4, h5⟩ := ih t c _ s1 a1 h2 ht
    refine ⟨o, s', a', r', p', ?_, h4, ?_⟩
    · rw [Act.bind_ok h1, h3]
    · rw [← hR _ _ ha] at h5
      exact LoopEv.step C.toJ h5 ha (by simp) hsc ⟨[it], rfl⟩ (by simp)
  · refine ⟨.error (.failedAlloc e), s1, a1, it :: r, [], Act.bind_err h1, h2, ha, ?_⟩
    exact Or.inr (Or.inr (Or.inr ⟨hF, ⟨e, rfl⟩, rfl, List.suffix_refl _, fun h => absurd h hp⟩))

include hR in
theorem c_parseTextLoop (m : Mode) (d : Nat) (r : List (Item P)) :
    ∀ (n nl : Nat) (t : τ) (c p : List (Item P)) (s : σ) (a : α), RS s ⟨p, r⟩ → X.RT t c →
      r.length < n →
      ∃ o s' a' r' p', U.parseTextLoop m n t nl ⟨s, a, d⟩ = (Outcome.ofExcept o, ⟨s', a', d⟩) ∧
        RS s' ⟨p', r'⟩ ∧ LoopEv (U.cc a) X m (d == 0) nl c p r a o p' r' a' := by
  induction h : r.length using Nat.strongRecOn generalizing r with
  | ind k ih =>
    subst h
    intro n nl t c p s a hs ht hn
    cases n with
    | zero => omega
    | succ n =>
      obtain ⟨s1, hpk, hs1⟩ := C.toJ.c_peek hs a d
      unfold ClsEnv.parseTextLoop
      rw [Act.bind_ok hpk]
      match r with
      | [] =>
        simp only [List.head?_nil]
        by_cases h0 : nl = 0
        · subst h0
          exact c_finish C hs1 ht a d m (d == 0) (by simp [scanText])
        · refine ⟨.error .missingEndChar, s1, a, [], p, ?_, hs1, C.refl _, ?_⟩
          · unfold Env.finishText; rw [if_neg h0]; rfl
          · exact Or.inr (Or.inl ⟨rfl, by simp [scanText, h0], rfl⟩)
      | it :: r =>
        simp only [List.head?_cons]
        rw [Act.bind_ok (c_here (U := U) s1 a d)]
        have hn' : r.length < n := by simp at hn; omega
        have ih1 : ∀ nl' (t : τ) (c p : List (Item P)) (s : σ) (a : α), RS s ⟨p, r⟩ → X.RT t c →
            ∃ o s' a' r' p', U.parseTextLoop m n t nl' ⟨s, a, d⟩ =
              (Outcome.ofExcept o, ⟨s', a', d⟩) ∧
              RS s' ⟨p', r'⟩ ∧ LoopEv (U.cc a) X m (d == 0) nl' c p r a o p' r' a' :=
          fun nl' t c p s a h1 h2 => ih r.length (by simp) r rfl n nl' t c p s a h1 h2 hn'
        by_cases h1 : nl = 0 ∧ isEndChar (U.cc a) m it.ch = true
        · rw [if_pos h1, h1.1]
          exact c_finish C hs1 ht a d m (d == 0) (by unfold scanText; rw [if_pos ⟨rfl, h1.2⟩])
        rw [if_neg h1]
        by_cases h2 : (U.cc a).isNestEscape it.ch = true
        · rw [if_pos h2]
          obtain ⟨s2, a2, ha2, hs2, h3⟩ := C.toJ.c_concatAccum hs1 ht trivial a d
          rcases h3 with ⟨v, h3, hv⟩ | ⟨hF, hp, e, h3⟩
          · rw [Act.bind_ok h3]
            obtain ⟨s3, h4, hs3⟩ := C.toJ.c_next hs2 a2 d
            rw [Act.bind_ok h4]
            simp only [List.tail_cons] at hs3
            obtain ⟨s4, a4, ha4, h5⟩ := C.toJ.c_nextAccum hs3 a2 d
            rcases h5 with ⟨h5, hs4⟩ | ⟨_, hp, _⟩
            · have hR4 : U.cc a4 = U.cc a := (hR _ _ (C.trans _ _ _ ha2 ha4)).symm
              rw [Act.bind_ok h5]
              cases r with
              | nil =>
                simp only [List.head?_nil, Option.toList_none, List.append_nil, List.tail_nil] at hs4
                obtain ⟨o, s', a', r', p', h6, h7, h8⟩ := ih1 nl v (c ++ p) [] s4 a4 hs4 hv
                rw [hR4] at h8
                refine ⟨o, s', a', r', p', h6, h7, C.trans _ _ _ (C.trans _ _ _ ha2 ha4) h8.1, ?_⟩
                have hsc : scanText (U.cc a) m (d == 0) nl [it] = scanText (U.cc a) m (d == 0) nl [] := by
                  conv_lhs => unfold scanText
                  rw [if_neg h1, if_pos h2]
                  simp only [scanText]
                rw [hsc]
                rcases h8.2 with h | h | h | ⟨hF, he, hp, hr, hl⟩
                · refine Or.inl ?_; simpa using h
                · exact Or.inr (Or.inl h)
                · exact Or.inr (Or.inr (Or.inl h))
                · have := hl rfl
                  simp at this
              | cons x r1 =>
                simp only [List.head?_cons, Option.toList_some, List.nil_append, List.tail_cons] at hs4
                obtain ⟨o, s', a', r', p', h6, h7, h8⟩ :=
                  ih r1.length (by simp; omega) r1 rfl n nl v (c ++ p) [x] s4 a4 hs4 hv
                    (by simp at hn'; omega)
                rw [hR4] at h8
                refine ⟨o, s', a', r', p', h6, h7, ?_⟩
                refine LoopEv.step C.toJ h8 (C.trans _ _ _ ha2 ha4) (x := x) rfl ?_ ⟨[it, x], rfl⟩
                  (by simp; omega)
                conv_lhs => unfold scanText
                rw [if_neg h1, if_pos h2]
            · exact absurd rfl hp
          · exact ⟨.error (.failedAlloc e), s2, a2, it :: r, [], Act.bind_err h3, hs2, ha2,
              Or.inr (Or.inr (Or.inr
                ⟨hF, ⟨e, rfl⟩, rfl, List.suffix_refl _, fun h => absurd h hp⟩))⟩
        rw [if_neg h2]
        by_cases h3 : (U.cc a).isNestStart it.ch = true
        · rw [if_pos h3]
          refine c_loopStep C hR hs1 ht (ih1 (nl + 1)) ?_
          conv_lhs => unfold scanText
          rw [if_neg h1, if_neg h2, if_pos h3]
        rw [if_neg h3]
        by_cases h4 : (U.cc a).isNestEnd it.ch = true
        · rw [if_pos h4]
          by_cases h5 : nl > 0
          · rw [if_pos h5]
            refine c_loopStep C hR hs1 ht (ih1 (nl - 1)) ?_
            conv_lhs => unfold scanText
            rw [if_neg h1, if_neg h2, if_neg h3, if_pos h4, if_pos h5]
          · rw [if_neg h5]
            have hce := c_checkEndChar C it hs1 a d h4
            have h0 : nl = 0 := by omega
            subst h0
            by_cases hd : d > 0
            · obtain ⟨s2, h6, hs2⟩ := hce.1 hd
              rw [Act.bind_ok h6]
              refine c_finish C hs2 ht a d m (d == 0) ?_
              have : (d == 0) = false := by simp; omega
              rw [this]
              conv_lhs => unfold scanText
              rw [if_neg h1, if_neg h2, if_neg h3, if_pos h4, if_neg h5]
              simp
            · obtain ⟨s2, h6, hs2⟩ := hce.2 (by omega)
              refine ⟨.error (.unbalancedEndChar it.pos), s2, a, r, [], Act.bind_err h6, hs2,
                C.refl _, ?_⟩
              refine Or.inr (Or.inr (Or.inl ⟨it.pos, rfl, rfl, ?_⟩))
              have : (d == 0) = true := by simp; omega
              rw [this]
              conv_lhs => unfold scanText
              rw [if_neg h1, if_neg h2, if_neg h3, if_pos h4, if_neg h5]
              simp
        rw [if_neg h4]
        refine c_loopStep C hR hs1 ht (ih1 nl) ?_
        conv_lhs => unfold scanText
        rw [if_neg h1, if_neg h2, if_neg h3, if_neg h4]

include hR in
theorem c_parseText (m : Mode) (n : Nat) {s : σ} {r : List (Item P)} (hs : RS s ⟨[], r⟩)
    (a : α) (d : Nat) (hn : r.length < n) :
    ∃ o s' a' r' p', U.parseText n m ⟨s, a, d⟩ = (Outcome.ofExcept o, ⟨s', a', d⟩) ∧
      RS s' ⟨p', r'⟩ ∧ Clean p' r' ∧ (∀ t, o = .ok t → p' = []) ∧
      TextEv (U.cc a) X m (d == 0) r a o r' a' := by
  obtain ⟨o, s', a', r', p', h1, h2, h3⟩ :=
    c_parseTextLoop C hR m d r n 0 U.env.text.empty [] [] s a hs C.empty hn
  refine ⟨o, s', a', r', p', h1, h2, h3.clean, fun t ht => ?_, h3.1, ?_⟩
  · rcases h3.2 with ⟨t, c', rfl, h, h4, h5⟩ | ⟨rfl, h4, hr⟩ | ⟨q, rfl, _, h4⟩ | ⟨hF, ⟨e, rfl⟩, _, h4, h5⟩
    · exact h
    all_goals cases ht
  · rcases h3.2 with ⟨t, c', rfl, _, h4, h5⟩ | ⟨rfl, h4, hr⟩ | ⟨q, rfl, _, h4⟩ | ⟨hF, he, _, h4, h5⟩
    · exact Or.inl ⟨t, c', rfl, h4, by simpa using h5⟩
    · exact Or.inr (Or.inl ⟨rfl, h4, hr⟩)
    · exact Or.inr (Or.inr (Or.inl ⟨q, rfl, h4⟩))
    · exact Or.inr (Or.inr (Or.inr ⟨hF, he, h4, fun _ => h5 rfl⟩))

theorem c_nestEnd_cons (it : Item P) {s : σ} {p r : List (Item P)} (hs : RS s ⟨p, it :: r⟩) (a : α)
    (d : Nat) (h : (U.cc a).isNestEnd it.ch = true) :
    ∃ s', U.nestEnd ⟨s, a, d⟩ = (.ok (), ⟨s', a, d⟩) ∧ RS s' ⟨[], r⟩ := by
  unfold ClsEnv.nestEnd
  obtain ⟨s', h1, h2⟩ := C.toJ.c_next hs a d
  refine ⟨s', ?_, h2⟩
  rw [Act.bind_ok h1]
  simp only [List.head?_cons]
  rw [Act.bind_ok (c_here (U := U) s' a d), h]
  rfl

theorem c_nestEnd_nil {s : σ} {p : List (Item P)} (hs : RS s ⟨p, []⟩) (a : α) (d : Nat) :
    ∃ s', U.nestEnd ⟨s, a, d⟩ = (.err .missingEndChar, ⟨s', a, d⟩) ∧ RS s' ⟨[], []⟩ := by
  unfold ClsEnv.nestEnd
  obtain ⟨s', h1, h2⟩ := C.toJ.c_next hs a d
  refine ⟨s', ?_, h2⟩
  rw [Act.bind_ok h1]
  rfl

theorem c_skipSeparator {s : σ} {r : List (Item P)} (hs : RS s ⟨[], r⟩) (a : α) (d : Nat) :
    ∃ s', U.skipSeparator ⟨s, a, d⟩ = (.ok (), ⟨s', a, d⟩) ∧ RS s' ⟨[], dropSep (U.cc a) r⟩ := by
  unfold ClsEnv.skipSeparator
  obtain ⟨s1, h1, h2⟩ := C.toJ.c_peek hs a d
  rw [Act.bind_ok h1]
  cases r with
  | nil => exact ⟨s1, rfl, h2⟩
  | cons it r =>
    simp only [List.head?_cons]
    rw [Act.bind_ok (c_here (U := U) s1 a d)]
    by_cases hw : (U.cc a).isWhitespace it.ch = true
    · rw [if_pos hw]
      obtain ⟨s2, h3, h4⟩ := C.toJ.c_next h2 a d
      rw [Act.bind_ok h3]
      exact ⟨s2, rfl, by simpa only [dropSep, hw, if_true, List.tail_cons] using h4⟩
    · rw [if_neg hw]
      exact ⟨s1, rfl, by simpa only [dropSep, if_neg hw] using h2⟩

end

end Kul.Cls
