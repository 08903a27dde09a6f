import Verif.Spec.Depth
import Verif.Proof.Balance
import Verif.Proof.Mono

/-!
# The parser with a finite stack: proofs
-/

namespace Kul

variable {σ P τ ε α CE : Type}

/-! ## Depth of sources -/

section
variable {cc : Classifier}

theorem deepest_cons (d : Nat) (it : Item P) (r : List (Item P)) :
    deepest cc d (it :: r) =
      if cc.isNestEscape it.ch then
        match r with
        | [] => d
        | _ :: r' => deepest cc d r'
      else if cc.isNestStart it.ch then deepest cc (d + 1) r
      else if cc.isNestEnd it.ch then max d (deepest cc (d - 1) r)
      else deepest cc d r := by
  conv => lhs; unfold deepest
  rfl

theorem deepest_start (D : cc.Disjoint) {d : Nat} {it : Item P} {r : List (Item P)}
    (h : cc.isNestStart it.ch = true) : deepest cc d (it :: r) = deepest cc (d + 1) r := by
  rw [deepest_cons, D.start_esc _ h, h]; rfl

theorem deepest_end (D : cc.Disjoint) {d : Nat} {it : Item P} {r : List (Item P)}
    (h : cc.isNestEnd it.ch = true) : deepest cc d (it :: r) = max d (deepest cc (d - 1) r) := by
  rw [deepest_cons, D.end_esc _ h, end_not_start D h, h]; rfl

theorem deepest_end_le (D : cc.Disjoint) {d : Nat} {it : Item P} {r : List (Item P)}
    (h : cc.isNestEnd it.ch = true) : deepest cc d r ≤ deepest cc (d + 1) (it :: r) := by
  rw [deepest_end D h]
  exact Nat.le_max_right _ _

theorem deepest_ws (D : cc.Disjoint) {d : Nat} {it : Item P} {r : List (Item P)}
    (h : cc.isWhitespace it.ch = true) : deepest cc d (it :: r) = deepest cc d r := by
  obtain ⟨h1, h2, h3⟩ := ws_plain D h
  rw [deepest_cons, h1, h2, h3]; rfl

theorem deepest_dropSep (D : cc.Disjoint) (d : Nat) (r : List (Item P)) :
    deepest cc d (dropSep cc r) = deepest cc d r := by
  cases r with
  | nil => rfl
  | cons it r =>
    simp only [dropSep]
    split
    · rename_i h; rw [deepest_ws D h]
    · rfl

theorem deepest_lead (D : cc.Disjoint) (d : Nat) (m : Mode) (r : List (Item P)) :
    deepest cc d (lead cc m r) = deepest cc d r := by
  unfold lead
  split
  · induction r with
    | nil => rfl
    | cons it r ih =>
      simp only [List.dropWhile_cons]
      split
      · rename_i h; rw [ih, deepest_ws D h]
      · rfl
  · rfl

theorem le_deepest (d : Nat) (r : List (Item P)) : d ≤ deepest cc d r := by
  induction hn : r.length using Nat.strongRecOn generalizing r d with
  | ind n ih =>
    subst hn
    cases r with
    | nil => exact Nat.le_refl d
    | cons x r =>
      rw [deepest_cons]
      split
      · cases r with
        | nil => exact Nat.le_refl d
        | cons y r => exact ih r.length (by simp; omega) d r rfl
      · split
        · exact Nat.le_trans (Nat.le_succ d) (ih r.length (by simp) _ r rfl)
        · split
          · exact Nat.le_max_left _ _
          · exact ih r.length (by simp) d r rfl

theorem deepest_le_length (d : Nat) (r : List (Item P)) : deepest cc d r ≤ d + r.length := by
  induction hn : r.length using Nat.strongRecOn generalizing r d with
  | ind n ih =>
    subst hn
    cases r with
    | nil => exact Nat.le_refl d
    | cons x r =>
      rw [deepest_cons, List.length_cons]
      split
      · cases r with
        | nil => simp
        | cons y r => have := ih r.length (by simp; omega) d r rfl; simp; omega
      · split
        · have := ih r.length (by simp) (d + 1) r rfl; omega
        · split
          · have := ih r.length (by simp) (d - 1) r rfl; omega
          · have := ih r.length (by simp) d r rfl; omega

/-- Texts do not deepen what follows. -/
theorem scanText_deepest (D : cc.Disjoint) {m : Mode} {top : Bool} (d : Nat) {nl : Nat}
    {r c r' : List (Item P)} (h : scanText cc m top nl r = .ok c r') :
    deepest cc d r' ≤ deepest cc (d + nl) r := by
  induction hn : r.length using Nat.strongRecOn generalizing r nl c with
  | ind n ih =>
    subst hn
    have cons : ∀ {t : TextRes P} {x : Item P} {c r'}, t.cons x = .ok c r' → ∃ c', t = .ok c' r' := by
      rintro (_ | _ | _) x c r' h <;> cases h
      exact ⟨_, rfl⟩
    match r with
    | [] =>
      unfold scanText at h
      split at h
      · cases h; subst nl; exact Nat.le_refl _
      · cases h
    | it :: r =>
      rw [scanText_cons] at h
      by_cases hend : nl = 0 ∧ isEndChar cc m it.ch
      · rw [if_pos hend] at h; obtain ⟨rfl, _⟩ := hend; cases h; exact Nat.le_refl _
      rw [if_neg hend] at h
      by_cases hesc : cc.isNestEscape it.ch
      · rw [if_pos hesc] at h
        cases r with
        | nil =>
          simp only at h
          split at h
          · cases h; subst nl; exact le_deepest _ _
          · cases h
        | cons x r2 =>
          obtain ⟨c', h⟩ := cons h
          have := ih r2.length (by simp; omega) h rfl
          rwa [deepest_cons, hesc]
      rw [if_neg hesc] at h
      simp only [Bool.not_eq_true] at hesc
      by_cases hst : cc.isNestStart it.ch
      · rw [if_pos hst] at h
        obtain ⟨c', h⟩ := cons h
        rw [deepest_start D hst]
        exact ih r.length (by simp) h rfl
      rw [if_neg hst] at h
      simp only [Bool.not_eq_true] at hst
      by_cases hfin : cc.isNestEnd it.ch
      · rw [if_pos hfin] at h
        by_cases hnl : nl > 0
        · rw [if_pos hnl] at h
          obtain ⟨nl, rfl⟩ : ∃ k, nl = k + 1 := ⟨nl - 1, by omega⟩
          obtain ⟨c', h⟩ := cons h
          exact Nat.le_trans (ih r.length (by simp) h rfl) (deepest_end_le D hfin)
        · rw [if_neg hnl] at h
          obtain rfl : nl = 0 := by omega
          split at h
          · cases h
          · cases h; exact Nat.le_refl _
      · rw [if_neg hfin] at h
        simp only [Bool.not_eq_true] at hfin
        obtain ⟨c', h⟩ := cons h
        have := ih r.length (by simp) h rfl
        rw [deepest_cons, hesc, hst, hfin]; exact this

theorem TextEv.deepest (D : cc.Disjoint) {X : TextSem P τ α} {m : Mode} {top : Bool} (d : Nat)
    {r r' : List (Item P)} {a a' : α} {t : τ}
    (h : TextEv (CE := CE) cc X m top r a (.ok t) r' a') :
    Kul.deepest cc d r' ≤ Kul.deepest cc d r := by
  rcases h.2 with ⟨_, _, h1, h2, _⟩ | ⟨h1, _⟩ | ⟨p, h1, h2⟩ | ⟨hF, ⟨x, h1⟩, _⟩
  · exact scanText_deepest D d h2
  all_goals cases h1

/-- What follows a completed job nests no deeper than what the job was given. -/
def DeepJob (cc : Classifier) (j : Job) (r : List (Item P)) (o : Except (Err P CE) (List (Datum τ ε)))
    (r' : List (Item P)) : Prop :=
  ∀ l, o = .ok l →
    match j with
    | .next _ d => deepest cc d r' ≤ deepest cc d r
    | .all d => deepest cc d r' ≤ deepest cc d r
    | .nested d => d ≠ 0 → deepest cc (d - 1) r' ≤ deepest cc d r.tail

theorem Eval.deepest (D : cc.Disjoint) {X : TextSem P τ α} {al : AllocOps τ ε α}
    {lookup : Datum τ ε → Option (Combiner τ ε α P CE)} {j r a o r' a'}
    (h : Eval cc X al lookup j r a o r' a') : DeepJob cc j r o r' := by
  induction h with
  | @next_eof m d r a o h ho =>
    intro l _
    exact le_deepest d r
  | @next_nest m d r a it r1 o r' a' h1 h2 h3 h4 ih =>
    intro l hl
    have := ih l hl (by omega)
    show Kul.deepest cc d r' ≤ Kul.deepest cc d r
    rw [← deepest_lead D d m r, h1, deepest_start D h2]
    exact this
  | @next_removed m d r a it r1 r2 a2 o r' a' h1 h2 h3 h4 ih1 ih2 =>
    intro l hl
    have e1 := ih1 [] rfl (by omega)
    have e2 : Kul.deepest cc d r' ≤ Kul.deepest cc d r2 := ih2 l hl
    show Kul.deepest cc d r' ≤ Kul.deepest cc d r
    rw [← deepest_lead D d m r, h1, deepest_start D h2]
    exact Nat.le_trans e2 e1
  | @next_end m d r a it r1 o r' h1 h2 h3 ho =>
    rintro l rfl
    show Kul.deepest cc d r' ≤ Kul.deepest cc d r
    rw [← deepest_lead D d m r, h1]
    rcases endForm_cases ho with ⟨_, ho, _⟩ | ⟨hd, _, rfl⟩
    · cases ho
    · exact Nat.le_refl _
  | @next_text m d r a it r1 o r' a' h1 h2 h3 ho =>
    rintro l rfl
    show Kul.deepest cc d r' ≤ Kul.deepest cc d r
    rw [← deepest_lead D d m r, h1]
    rcases ho with ⟨t, ho, _⟩ | ⟨e, _, ho⟩
    · exact ho.deepest D d
    · cases ho
  | nested_head_err _ _ => intro l hl; cases hl
  | @nested_empty d it r a r1 a1 o r' h1 ho ih =>
    rintro l rfl hd
    obtain ⟨d, rfl⟩ : ∃ k, d = k + 1 := ⟨d - 1, by omega⟩
    show Kul.deepest cc d r' ≤ Kul.deepest cc (d + 1) r
    have e1 : Kul.deepest cc (d + 1) r1 ≤ Kul.deepest cc (d + 1) r := ih [] rfl
    rcases finishEmpty_cases ho with ⟨h, ho', _⟩ | ⟨e, he, _⟩
    · cases ho'
    · rcases h1.at_end rfl with ⟨h, _⟩ | ⟨_, e', r2, rfl, h2, h3, h4⟩
      · omega
      · have : dropSep cc (e' :: r2) = e' :: r2 := by simp [dropSep, h4 rfl]
        rw [this] at he
        cases he
        exact Nat.le_trans (deepest_end_le D h2) e1
  | @nested_operative d it r a h r1 a1 f o r' a' h1 h2 ho ih =>
    rintro l hl hd
    obtain ⟨d, rfl⟩ : ∃ k, d = k + 1 := ⟨d - 1, by omega⟩
    show Kul.deepest cc d r' ≤ Kul.deepest cc (d + 1) r
    have e1 : Kul.deepest cc (d + 1) r1 ≤ Kul.deepest cc (d + 1) r := ih _ rfl
    rw [← deepest_dropSep D] at e1
    rcases ho with ⟨t, e, a2, h3, _, rfl⟩ | ⟨t, h3, rfl, rfl⟩ | ⟨e, h3, rfl⟩
    · refine Nat.le_trans ?_ (Nat.le_trans (h3.deepest D (d + 1)) e1)
      rcases h3.2 with ⟨_, _, _, hsc, _⟩ | ⟨h, _⟩ | ⟨_, h, _⟩ | ⟨_, ⟨_, h⟩, _⟩
      · exact deepest_end_le D (scanText_rawOf hsc).1
      all_goals cases h
    · cases hl
    · cases hl
  | nested_args_err _ _ _ _ _ => intro l hl; cases hl
  | @nested_args d it r a h r1 a1 c ds r2 a2 o r' a' h1 h2 h3 ho ih1 ih2 =>
    rintro l hl hd
    obtain ⟨d, rfl⟩ : ∃ k, d = k + 1 := ⟨d - 1, by omega⟩
    show Kul.deepest cc d r' ≤ Kul.deepest cc (d + 1) r
    have e1 : Kul.deepest cc (d + 1) r1 ≤ Kul.deepest cc (d + 1) r := ih1 _ rfl
    have e2 : Kul.deepest cc (d + 1) r2 ≤ Kul.deepest cc (d + 1) (dropSep cc r1) := ih2 _ rfl
    rw [deepest_dropSep D] at e2
    refine Nat.le_trans ?_ (Nat.le_trans e2 e1)
    have hok : ∀ e, r2 = e :: r' → Kul.deepest cc d r' ≤ Kul.deepest cc (d + 1) r2 := by
      rintro e rfl
      rcases h3.at_end _ rfl with ⟨h, _⟩ | ⟨_, e', r2, hr, h4, h5⟩
      · omega
      · cases hr; exact deepest_end_le D h4
    rcases finishNest_cases ho with ⟨rfl, rfl, rfl, _⟩ | ⟨e, f, hr, rfl, rfl, rfl⟩ |
      ⟨e, hr, rfl, rfl, rfl⟩
    · cases hl
    · exact hok e hr
    · exact hok e hr
  | all_err _ ih => exact ih
  | all_nil _ ih => exact ih
  | all_alloc_err _ _ _ => intro l hl; cases hl
  | all_cons_err _ _ _ _ _ => intro l hl; cases hl
  | all_cons _ _ _ ih1 ih2 =>
    intro l hl
    exact Nat.le_trans (ih2 _ rfl) (ih1 _ rfl)

end

/-! ## Enough frames -/

theorem Act.bind_congr {S X A B : Type} {x x' : Act S X A} {f g : A → Act S X B} {s : S} (h : x s = x' s)
    (hf : ∀ v s', x' s = (.ok v, s') → f v s' = g v s') : (x >>= f) s = (x' >>= g) s := by
  show Act.bind x f s = Act.bind x' g s
  unfold Act.bind
  rw [h]
  rcases hx : x' s with ⟨_ | _ | _ | _, s'⟩
  · exact hf _ _ hx
  all_goals rfl

theorem Refines.le {S X A : Type} {x : Nat → Act S X A} (h : ∀ n, Refines (x n) (x (n + 1))) {n m : Nat}
    (hn : n ≤ m) : Refines (x n) (x m) := by
  induction hn with
  | refl => exact Refines.rfl' _
  | @step m _ ih =>
    intro s
    rcases ih s with e | e
    · exact Or.inl e
    · rcases h m s with e' | e'
      · exact Or.inl (by rw [e]; exact e')
      · exact Or.inr (e.trans e')

theorem Refines.ok {S X A : Type} {x y : Act S X A} (h : Refines x y) {s : S} {v s'} (hx : x s = (.ok v, s')) :
    y s = (.ok v, s') := by
  rcases h s with e | e
  · rw [hx] at e; cases e
  · rw [← e, hx]

variable {E : Env σ P τ ε α CE} {RS : σ → Seq P → Prop} {X : TextSem P τ α}

section
variable (C : Conf E RS X)
include C

theorem Conf.skipLeading_ok {m : Mode} {r p : List (Item P)} {n : Nat} {s : σ} {a : α} {d : Nat}
    (hs : RS s ⟨p, r⟩) (hc : Clean p r) {v st} (h : E.skipLeading n m ⟨s, a, d⟩ = (.ok v, st)) :
    ∃ s' p', st = ⟨s', a, d⟩ ∧ RS s' ⟨p', lead E.cc m r⟩ ∧ Clean p' (lead E.cc m r) := by
  have h1 := (Refines.le (fun n => E.mono_skipLeading n m) (Nat.le_max_left n (r.length + 1))).ok h
  obtain ⟨s', p', h2, h3, h4, _⟩ := C.c_skipLeading m r (max n (r.length + 1)) p s a d hs (by omega) hc
  rw [h2] at h1
  cases h1
  exact ⟨s', p', rfl, h3, h4⟩

theorem Conf.parseNext_ok {m : Mode} {r p : List (Item P)} {n : Nat} {s : σ} {a : α} {d : Nat} (hm : m ≠ .operands)
    (hs : RS s ⟨p, r⟩) (hc : Clean p r) {v st} (h : E.parseNext n m ⟨s, a, d⟩ = (.ok v, st)) :
    ∃ l s' r' a', v = l.head? ∧ st = ⟨s', a', d⟩ ∧ Ends RS p (.ok l : Except (Err P CE) (List (Datum τ ε))) s' r' ∧
      Eval E.cc X E.alloc E.lookup (.next m d) r a (.ok l) r' a' := by
  have h1 := (Refines.le (fun n => (E.mono_step n).1 m) (Nat.le_max_left n (3 * r.length + 2))).ok h
  obtain ⟨o, s', r', a', h2, h3, h4⟩ :=
    (run C (max n (3 * r.length + 2))).1 m p r s a d hm hs hc (by omega)
  rw [h2] at h1
  rcases o with e | l
  · cases h1
  · cases h1
    exact ⟨l, s', r', a', rfl, rfl, h3, h4⟩

theorem Conf.parseNested_ok {it : Item P} {r p : List (Item P)} {n : Nat} {s : σ} {a : α} {d : Nat} (hd : d ≠ 0)
    (hs : RS s ⟨p, it :: r⟩) (hst : E.cc.isNestStart it.ch = true) {v st}
    (h : E.parseNested n ⟨s, a, d⟩ = (.ok v, st)) :
    ∃ l s' r' a', v = l.head? ∧ st = ⟨s', a', d⟩ ∧ Ends RS [] (.ok l : Except (Err P CE) (List (Datum τ ε))) s' r' ∧
      Eval E.cc X E.alloc E.lookup (.nested d) (it :: r) a (.ok l) r' a' := by
  have h1 := (Refines.le (fun n => (E.mono_step n).2.1) (Nat.le_max_left n (3 * (it :: r).length + 1))).ok h
  obtain ⟨o, s', r', a', h2, h3, h4⟩ :=
    (run C (max n (3 * (it :: r).length + 1))).2.1 p it r s a d hd hs hst (by omega)
  rw [h2] at h1
  rcases o with e | l
  · cases h1
  · cases h1
    exact ⟨l, s', r', a', rfl, rfl, h3, h4⟩

/-- The loop of `parse_text` with counters up to `M`. -/
theorem textLoopK_eq {M : Nat} (m : Mode) (d n : Nat) :
    ∀ (r : List (Item P)) (nl : Nat) (t : τ) (c p : List (Item P)) (s : σ) (a : α), RS s ⟨p, r⟩ → X.RT t c →
      deepest E.cc (d + nl) r ≤ M →
      E.parseTextLoopK M m n t nl ⟨s, a, d⟩ = E.parseTextLoop m n t nl ⟨s, a, d⟩ := by
  induction n with
  | zero => intros; rfl
  | succ n ih =>
    intro r nl t c p s a hs ht hM
    obtain ⟨s1, hpk, hs1⟩ := C.c_peek hs a d
    unfold Env.parseTextLoopK Env.parseTextLoop
    rw [Act.bind_ok hpk, Act.bind_ok hpk]
    cases r with
    | nil => rfl
    | cons it r =>
      simp only [List.head?_cons]
      have acc : ∀ nl', deepest E.cc (d + nl') r ≤ M → ∀ f : Act (St σ α) (Err P CE) τ,
          f = E.parseTextLoopK M m n t nl' →
          ((E.nextAccum >>= fun _ => f) : Act _ _ _) ⟨s1, a, d⟩ =
          ((E.nextAccum >>= fun _ => E.parseTextLoop m n t nl') : Act _ _ _) ⟨s1, a, d⟩ := by
        rintro nl' hM' f rfl
        obtain ⟨s2, a2, _, ⟨h1, h2⟩ | ⟨_, _, ⟨e, h1⟩, _⟩⟩ := C.c_nextAccum hs1 a d
        · rw [Act.bind_ok h1, Act.bind_ok h1]
          exact ih r nl' t c _ s2 a2 h2 ht hM'
        · rw [Act.bind_err h1, Act.bind_err h1]
      by_cases h0 : nl = 0 ∧ isEndChar E.cc m it.ch
      · rw [if_pos h0, if_pos h0]
      rw [if_neg h0, if_neg h0]
      by_cases hesc : E.cc.isNestEscape it.ch
      · rw [if_pos hesc, if_pos hesc]
        obtain ⟨s2, a2, _, hs2, ⟨v, h1, hv⟩ | ⟨_, _, e, h1⟩⟩ := C.c_concatAccum hs1 ht a d
        · rw [Act.bind_ok h1, Act.bind_ok h1]
          obtain ⟨s3, h3, hs3⟩ := C.c_next hs2 a2 d
          rw [Act.bind_ok h3, Act.bind_ok h3]
          simp only [List.tail_cons] at hs3
          obtain ⟨s4, a4, _, ⟨h4, hs4⟩ | ⟨_, _, ⟨e, h4⟩, _⟩⟩ := C.c_nextAccum hs3 a2 d
          · rw [Act.bind_ok h4, Act.bind_ok h4]
            refine ih r.tail nl v _ _ s4 a4 hs4 hv (Nat.le_trans ?_ hM)
            rw [deepest_cons, if_pos hesc]
            cases r <;> exact Nat.le_refl _
          · rw [Act.bind_err h4, Act.bind_err h4]
        · rw [Act.bind_err h1, Act.bind_err h1]
      rw [if_neg hesc, if_neg hesc]
      rw [deepest_cons, if_neg hesc] at hM
      by_cases hst : E.cc.isNestStart it.ch
      · rw [if_pos hst, if_pos hst]
        rw [if_pos hst] at hM
        refine acc (nl + 1) hM _ ?_
        have := le_deepest (cc := E.cc) (d + nl + 1) r
        rw [if_pos (by omega)]
      rw [if_neg hst, if_neg hst]
      rw [if_neg hst] at hM
      by_cases hen : E.cc.isNestEnd it.ch
      · rw [if_pos hen, if_pos hen]
        rw [if_pos hen] at hM
        by_cases hnl : nl > 0
        · rw [if_pos hnl, if_pos hnl]
          refine acc (nl - 1) ?_ _ rfl
          rw [show d + (nl - 1) = d + nl - 1 by omega]
          exact Nat.le_trans (Nat.le_max_right _ _) hM
        · rw [if_neg hnl, if_neg hnl]
      · rw [if_neg hen, if_neg hen]
        rw [if_neg hen] at hM
        exact acc nl hM _ rfl

theorem textK_eq {M : Nat} (m : Mode) (d n k : Nat) {r : List (Item P)} {s : σ} {a : α}
    (hs : RS s ⟨[], r⟩) (hM : deepest E.cc d r ≤ M) (hk : k ≠ 0) :
    E.parseTextK M n k m ⟨s, a, d⟩ = E.parseText n m ⟨s, a, d⟩ := by
  obtain ⟨k, rfl⟩ : ∃ j, k = j + 1 := ⟨k - 1, by omega⟩
  exact textLoopK_eq C m d n r 0 _ [] [] s a hs C.empty hM

end

variable (E RS) in
def KNext (M B n : Nat) : Prop :=
  ∀ (m : Mode) (k : Nat) (p r : List (Item P)) (s : σ) (a : α) (d : Nat), m ≠ .operands → RS s ⟨p, r⟩ →
    Clean p r → deepest E.cc d r ≤ B → 3 * (B - d) + 2 ≤ k →
    E.parseNextK M n k m ⟨s, a, d⟩ = E.parseNext n m ⟨s, a, d⟩

variable (E RS) in
def KNested (M B n : Nat) : Prop :=
  ∀ (k : Nat) (p : List (Item P)) (it : Item P) (r : List (Item P)) (s : σ) (a : α) (d : Nat), d ≠ 0 →
    RS s ⟨p, it :: r⟩ → E.cc.isNestStart it.ch = true → deepest E.cc d r ≤ B → 3 * (B - d) + 4 ≤ k →
    E.parseNestedK M n k ⟨s, a, d⟩ = E.parseNested n ⟨s, a, d⟩

variable (E RS) in
def KAll (M B n : Nat) : Prop :=
  ∀ (k : Nat) (r : List (Item P)) (s : σ) (a : α) (d : Nat) (acc : List (Datum τ ε)), d ≠ 0 →
    RS s ⟨[], r⟩ → deepest E.cc d r ≤ B → 3 * (B - d) + 3 ≤ k →
    E.parseAllK M n k .base acc ⟨s, a, d⟩ = E.parseAll n .base acc ⟨s, a, d⟩

theorem nestedInDepth_congr {A : Type} {x y : Act (St σ α) (Err P CE) A} {s : σ} {a : α} {d : Nat}
    (h : x ⟨s, a, d + 1⟩ = y ⟨s, a, d + 1⟩) :
    Env.nestedInDepth x ⟨s, a, d⟩ = Env.nestedInDepth y ⟨s, a, d⟩ := by
  unfold Env.nestedInDepth
  simp only [h]

variable (C : Conf E RS X)
include C

theorem kNext_succ (D : E.cc.Disjoint) {M B n : Nat} (hB : B ≤ M) (ihn : KNext E RS M B n) (ihd : KNested E RS M B n) :
    KNext E RS M B (n + 1) := by
  intro m k p r s a d hm hs hc hr hk
  obtain ⟨k, rfl⟩ : ∃ j, k = j + 1 := ⟨k - 1, by omega⟩
  unfold Env.parseNextK Env.parseNext
  refine Act.bind_congr rfl fun _ st h1 => ?_
  obtain ⟨s1, p1, rfl, hs1, hc1⟩ := C.skipLeading_ok hs hc h1
  obtain ⟨s2, h2, hs2⟩ := C.c_peek hs1 a d
  rw [Act.bind_ok h2, Act.bind_ok h2]
  rw [← deepest_lead D d m r] at hr
  cases hl : lead E.cc m r with
  | nil => rfl
  | cons it r1 =>
    rw [hl] at hs2 hr hc1
    simp only [List.head?_cons]
    by_cases hst : E.cc.isNestStart it.ch = true
    · rw [if_pos hst, if_pos hst]
      rw [deepest_start D hst] at hr
      have hd := le_deepest (cc := E.cc) (d + 1) r1
      have e : Env.nestedInDepthK M (E.parseNestedK M n k) ⟨s2, a, d⟩ =
          Env.nestedInDepth (E.parseNested n) ⟨s2, a, d⟩ := by
        unfold Env.nestedInDepthK
        rw [if_pos (by simp only; omega)]
        exact nestedInDepth_congr (ihd k p1 it r1 s2 a (d + 1) (by omega) hs2 hst hr (by omega))
      refine Act.bind_congr e fun v st h3 => ?_
      cases v with
      | some _ => rfl
      | none =>
        unfold Env.nestedInDepth at h3
        rcases h4 : E.parseNested n ⟨s2, a, d + 1⟩ with ⟨o, st'⟩
        rw [h4] at h3
        simp only at h3
        split at h3
        · cases h3
        · cases h3
          obtain ⟨l, s3, r3, a3, hl, rfl, ⟨p3, hs3, hc3, _⟩, hev⟩ := C.parseNested_ok (by omega) hs2 hst h4
          simp only [Nat.add_sub_cancel]
          have := hev.deepest D _ rfl (by omega)
          simp only [Nat.add_sub_cancel, List.tail_cons] at this
          exact ihn m (k + 1) p3 r3 s3 a3 d hm hs3 hc3 (by omega) (by omega)
    · rw [if_neg hst, if_neg hst]
      by_cases hen : E.cc.isNestEnd it.ch = true
      · rw [if_pos hen, if_pos hen]
      · rw [if_neg hen, if_neg hen]
        have hp1 : p1 = [] := by rcases hc1 with h | h; exact h; cases h
        subst hp1
        exact Act.bind_congr (textK_eq C m d n k hs2 (by omega) (by omega)) fun _ _ _ => rfl

theorem kNested_succ (D : E.cc.Disjoint) {M B n : Nat} (hB : B ≤ M) (ihn : KNext E RS M B n) (iha : KAll E RS M B n) :
    KNested E RS M B (n + 1) := by
  intro k p it r s a d hd hs hst hr hk
  obtain ⟨k, rfl⟩ : ∃ j, k = j + 1 := ⟨k - 1, by omega⟩
  unfold Env.parseNestedK Env.parseNested
  obtain ⟨s1, h1, hs1⟩ := C.c_next hs a d
  rw [Act.bind_ok h1, Act.bind_ok h1]
  simp only [List.tail_cons] at hs1
  refine Act.bind_congr rfl fun _ st h2 => ?_
  have h2' : (((it :: r).head?).map (fun it => E.cc.isNestStart it.ch) == some true) = true := by
    simp [hst]
  rw [h2', debugAssert_true] at h2
  cases h2
  refine Act.bind_congr (ihn .operator k [] r s1 a d (by simp) hs1 (Or.inl rfl) hr (by omega)) fun v st h3 => ?_
  obtain ⟨l, s2, r2, a2, rfl, rfl, ⟨p2, hs2, hc2, hp2⟩, hev⟩ := C.parseNext_ok (by simp) hs1 (Or.inl rfl) h3
  cases hp2 rfl _ rfl
  obtain ⟨s3, h4, hs3⟩ := C.c_skipSeparator hs2 a2 d
  rw [Act.bind_ok h4, Act.bind_ok h4]
  have hr2 : deepest E.cc d r2 ≤ deepest E.cc d r := hev.deepest D _ rfl
  rw [← deepest_dropSep D] at hr2
  cases l.head? with
  | none => rfl
  | some h =>
    simp only
    rcases E.lookup h with _ | (f | f)
    · exact Act.bind_congr (iha k _ s3 a2 d [] hd hs3 (by omega) (by omega)) fun _ _ _ => rfl
    · exact Act.bind_congr (textK_eq C _ d n k hs3 (by omega) (by omega)) fun _ _ _ => rfl
    · exact Act.bind_congr (iha k _ s3 a2 d [] hd hs3 (by omega) (by omega)) fun _ _ _ => rfl

theorem kAll_succ (D : E.cc.Disjoint) {M B n : Nat} (ihn : KNext E RS M B n) (iha : KAll E RS M B n) :
    KAll E RS M B (n + 1) := by
  intro k r s a d acc hd hs hr hk
  obtain ⟨k, rfl⟩ : ∃ j, k = j + 1 := ⟨k - 1, by omega⟩
  unfold Env.parseAllK Env.parseAll
  refine Act.bind_congr (ihn .base k [] r s a d (by simp) hs (Or.inl rfl) hr (by omega)) fun v st h3 => ?_
  obtain ⟨l, s2, r2, a2, rfl, rfl, ⟨p2, hs2, hc2, hp2⟩, hev⟩ := C.parseNext_ok (by simp) hs (Or.inl rfl) h3
  cases hp2 rfl _ rfl
  have hr2 : deepest E.cc d r2 ≤ deepest E.cc d r := hev.deepest D _ rfl
  cases l.head? with
  | none => rfl
  | some x =>
    simp only
    have nd : ∀ x (a : α), (∃ a', E.newDatum x ⟨s2, a, d⟩ = (.ok (), ⟨s2, a', d⟩)) ∨
        ∃ e a', E.newDatum x ⟨s2, a, d⟩ = (.err e, ⟨s2, a', d⟩) := by
      intro x a
      have e1 := c_newDatum (E := E) x s2 a d
      rcases hq : E.alloc.newDatum x a with ⟨er | u, a2⟩
      · exact Or.inr ⟨_, a2, e1.2 _ _ hq⟩
      · exact Or.inl ⟨a2, e1.1 _ _ hq⟩
    rcases nd x a2 with ⟨a3, h4⟩ | ⟨e, a3, h4⟩
    · rw [Act.bind_ok h4, Act.bind_ok h4]
      rcases nd .emptyList a3 with ⟨a4, h5⟩ | ⟨e, a4, h5⟩
      · rw [Act.bind_ok h5, Act.bind_ok h5]
        have e3 : E.getMutFresh ⟨s2, a4, d⟩ = (.ok (E.alloc.getMutFresh a4), ⟨s2, a4, d⟩) := rfl
        rw [Act.bind_ok e3, Act.bind_ok e3]
        by_cases hg : E.alloc.getMutFresh a4 = true
        · rw [if_pos hg, if_pos hg]
          exact iha (k + 1) r2 s2 a4 d _ hd hs2 (by omega) (by omega)
        · rw [if_neg hg, if_neg hg]
      · rw [Act.bind_err h5, Act.bind_err h5]
    · rw [Act.bind_err h4, Act.bind_err h4]

theorem k_eq (D : E.cc.Disjoint) {M B : Nat} (hB : B ≤ M) (n : Nat) :
    KNext E RS M B n ∧ KNested E RS M B n ∧ KAll E RS M B n := by
  induction n with
  | zero =>
    refine ⟨fun m k p r s a d _ _ _ _ _ => ?_, fun k p it r s a d _ _ _ _ _ => ?_, fun k r s a d acc _ _ _ _ => ?_⟩
    · unfold Env.parseNextK Env.parseNext; rfl
    · unfold Env.parseNestedK Env.parseNested; rfl
    · unfold Env.parseAllK Env.parseAll; rfl
  | succ n ih => exact ⟨kNext_succ C D hB ih.1 ih.2.1, kNested_succ C D hB ih.1 ih.2.2, kAll_succ C D ih.1 ih.2.2⟩

/-- With enough frames, and counters that go far enough, the limits change nothing. -/
theorem Conf.callK_iff (D : E.cc.Disjoint) {M k : Nat} {s : σ} {r : List (Item P)} (h : AtItems RS s r)
    (hM : deepest E.cc 0 r ≤ M) (hk : 3 * deepest E.cc 0 r + 2 ≤ k) (a : α) (o t) :
    E.CallK M k ⟨s, a, 0⟩ o t ↔ E.Call ⟨s, a, 0⟩ o t := by
  obtain ⟨p, hs, hc⟩ := h
  have e : ∀ n, E.doNextK M n k ⟨s, a, 0⟩ = E.doNext n ⟨s, a, 0⟩ := fun n =>
    (k_eq C D hM n).1 .base k p r s a 0 (by simp) hs hc (Nat.le_refl _) (by simpa using hk)
  unfold Env.CallK Env.Call
  simp only [e]

end Kul
