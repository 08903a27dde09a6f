import Verif.Proof.Stack

/-!
# The parser with a finite stack: what the limits can do, and sources that need many frames
-/

namespace Kul

variable {σ P τ ε α CE : Type}

/-- `x` does what `y` does, or panics. -/
def SameOrPanic {S X A : Type} (x y : Act S X A) : Prop := ∀ s, (x s).1 = .panic ∨ x s = y s

namespace SameOrPanic

variable {S X A B : Type}

theorem rfl' (x : Act S X A) : SameOrPanic x x := fun _ => Or.inr rfl

theorem panic (y : Act S X A) : SameOrPanic Act.panic y := fun _ => Or.inl rfl

theorem bind {x y : Act S X A} {f g : A → Act S X B} (h : SameOrPanic x y)
    (hf : ∀ a, SameOrPanic (f a) (g a)) : SameOrPanic (x >>= f) (y >>= g) := by
  intro s
  show (Act.bind x f s).1 = _ ∨ Act.bind x f s = Act.bind y g s
  unfold Act.bind
  rcases h s with h | h
  · rcases hx : x s with ⟨o, s'⟩
    rw [hx] at h
    cases h
    exact Or.inl rfl
  · rw [← h]
    rcases x s with ⟨_ | _ | _ | _, s'⟩
    · exact hf _ s'
    all_goals exact Or.inr rfl

theorem ite {p : Prop} [Decidable p] {x y x' y' : Act S X A} (h : SameOrPanic x y) (h' : SameOrPanic x' y') :
    SameOrPanic (if p then x else x') (if p then y else y') := by
  split <;> assumption

theorem ite_left {p : Prop} [Decidable p] {x y : Act S X A} (h : SameOrPanic x y) :
    SameOrPanic (if p then x else Act.panic) y := by
  split
  · exact h
  · exact panic _

end SameOrPanic

theorem SameOrPanic.nestedInDepthK {M : Nat} {x y : Act (St σ α) (Err P CE) (Option (Datum τ ε))} (h : SameOrPanic x y) :
    SameOrPanic (Env.nestedInDepthK M x) (Env.nestedInDepth y) := by
  intro s
  unfold Env.nestedInDepthK
  by_cases hM : s.ndepth + 1 ≤ M
  · rw [if_pos hM]
    unfold Env.nestedInDepth
    rcases h { s with ndepth := s.ndepth + 1 } with h | h
    · left
      rcases hx : x { s with ndepth := s.ndepth + 1 } with ⟨o, s'⟩
      rw [hx] at h
      cases h
      simp only
      split <;> rfl
    · right; rw [h]
  · rw [if_neg hM]; exact Or.inl rfl

variable (E : Env σ P τ ε α CE)

theorem Env.same_parseTextLoop (M : Nat) (m : Mode) (n : Nat) : ∀ t l,
    SameOrPanic (E.parseTextLoopK M m n t l) (E.parseTextLoop m n t l) := by
  induction n with
  | zero => intro t l; exact SameOrPanic.rfl' _
  | succ n ih =>
    intro t l
    refine SameOrPanic.bind (SameOrPanic.rfl' _) fun o => ?_
    cases o with
    | none => exact SameOrPanic.rfl' _
    | some it =>
      refine SameOrPanic.ite (SameOrPanic.rfl' _) (SameOrPanic.ite ?_ (SameOrPanic.ite ?_ (SameOrPanic.ite
        (SameOrPanic.ite ?_ (SameOrPanic.rfl' _)) ?_)))
      · exact SameOrPanic.bind (SameOrPanic.rfl' _) fun _ => SameOrPanic.bind (SameOrPanic.rfl' _) fun _ =>
          SameOrPanic.bind (SameOrPanic.rfl' _) fun _ => ih _ _
      · exact SameOrPanic.bind (SameOrPanic.rfl' _) fun _ => SameOrPanic.ite_left (ih _ _)
      all_goals exact SameOrPanic.bind (SameOrPanic.rfl' _) fun _ => ih _ _

theorem Env.same_parseText (M n k : Nat) (m : Mode) : SameOrPanic (E.parseTextK M n k m) (E.parseText n m) := by
  cases k with
  | zero => exact SameOrPanic.panic _
  | succ k => exact E.same_parseTextLoop M m n _ _

theorem Env.same_step (M n : Nat) :
    (∀ k m, SameOrPanic (E.parseNextK M n k m) (E.parseNext n m)) ∧
    (∀ k, SameOrPanic (E.parseNestedK M n k) (E.parseNested n)) ∧
    (∀ k m acc, SameOrPanic (E.parseAllK M n k m acc) (E.parseAll n m acc)) := by
  induction n with
  | zero =>
    refine ⟨fun k m => ?_, fun k => ?_, fun k m acc => ?_⟩
    · unfold Env.parseNextK Env.parseNext; exact SameOrPanic.rfl' _
    · unfold Env.parseNestedK Env.parseNested; exact SameOrPanic.rfl' _
    · unfold Env.parseAllK Env.parseAll; exact SameOrPanic.rfl' _
  | succ n ih =>
    obtain ⟨ihn, ihd, iha⟩ := ih
    refine ⟨fun k m => ?_, fun k => ?_, fun k m acc => ?_⟩
    · cases k with
      | zero => unfold Env.parseNextK; exact SameOrPanic.panic _
      | succ k =>
        unfold Env.parseNextK Env.parseNext
        refine SameOrPanic.bind (SameOrPanic.rfl' _) fun _ => SameOrPanic.bind (SameOrPanic.rfl' _) fun o => ?_
        cases o with
        | none => exact SameOrPanic.rfl' _
        | some it =>
          refine SameOrPanic.ite (SameOrPanic.bind (SameOrPanic.nestedInDepthK (ihd k)) fun o => ?_)
            (SameOrPanic.ite (SameOrPanic.rfl' _) (SameOrPanic.bind (E.same_parseText M n k m) fun _ =>
              SameOrPanic.rfl' _))
          cases o with
          | none => exact ihn _ m
          | some d => exact SameOrPanic.rfl' _
    · cases k with
      | zero => unfold Env.parseNestedK; exact SameOrPanic.panic _
      | succ k =>
        unfold Env.parseNestedK Env.parseNested
        refine SameOrPanic.bind (SameOrPanic.rfl' _) fun _ => SameOrPanic.bind (SameOrPanic.rfl' _) fun _ =>
          SameOrPanic.bind (ihn _ _) fun o => SameOrPanic.bind (SameOrPanic.rfl' _) fun _ => ?_
        cases o with
        | none => exact SameOrPanic.rfl' _
        | some h =>
          simp only
          rcases E.lookup h with _ | (f | f)
          · exact SameOrPanic.bind (iha _ _ _) fun _ => SameOrPanic.rfl' _
          · exact SameOrPanic.bind (E.same_parseText M n k _) fun _ => SameOrPanic.rfl' _
          · exact SameOrPanic.bind (iha _ _ _) fun _ => SameOrPanic.rfl' _
    · cases k with
      | zero => unfold Env.parseAllK; exact SameOrPanic.panic _
      | succ k =>
        unfold Env.parseAllK Env.parseAll
        refine SameOrPanic.bind (ihn _ _) fun o => ?_
        cases o with
        | none => exact SameOrPanic.rfl' _
        | some d =>
          exact SameOrPanic.bind (SameOrPanic.rfl' _) fun _ => SameOrPanic.bind (SameOrPanic.rfl' _) fun _ =>
            SameOrPanic.bind (SameOrPanic.rfl' _) fun _ => SameOrPanic.ite (iha _ _ _) (SameOrPanic.rfl' _)

/-! ## The result does not depend on the step counter -/

theorem Env.monoK_parseTextLoop (M : Nat) (m : Mode) (n : Nat) : ∀ t l,
    Refines (E.parseTextLoopK M m n t l) (E.parseTextLoopK M m (n + 1) t l) := by
  induction n with
  | zero => intro t l; exact Refines.fuel _
  | succ n ih =>
    intro t l
    refine Refines.bind (Refines.rfl' _) fun o => ?_
    cases o with
    | none => exact Refines.rfl' _
    | some it =>
      refine Refines.ite (Refines.rfl' _) (Refines.ite ?_ (Refines.ite ?_ (Refines.ite
        (Refines.ite ?_ (Refines.rfl' _)) ?_)))
      · exact Refines.bind (Refines.rfl' _) fun _ => Refines.bind (Refines.rfl' _) fun _ =>
          Refines.bind (Refines.rfl' _) fun _ => ih _ _
      · exact Refines.bind (Refines.rfl' _) fun _ => Refines.ite (ih _ _) (Refines.rfl' _)
      all_goals exact Refines.bind (Refines.rfl' _) fun _ => ih _ _

theorem Env.monoK_parseText (M n k : Nat) (m : Mode) : Refines (E.parseTextK M n k m) (E.parseTextK M (n + 1) k m) := by
  cases k with
  | zero => exact Refines.rfl' _
  | succ k => exact E.monoK_parseTextLoop M m n _ _

theorem Env.monoK_nested (M n k : Nat) (h : Refines (E.parseNestedK M n k) (E.parseNestedK M (n + 1) k)) :
    Refines (Env.nestedInDepthK M (E.parseNestedK M n k)) (Env.nestedInDepthK M (E.parseNestedK M (n + 1) k)) := by
  intro s
  unfold Env.nestedInDepthK
  by_cases hM : s.ndepth + 1 ≤ M
  · rw [if_pos hM, if_pos hM]
    unfold Env.nestedInDepth
    rcases h { s with ndepth := s.ndepth + 1 } with h | h
    · left
      have hk := (E.keeps_parse n).2.1 { s with ndepth := s.ndepth + 1 }
      rcases (E.same_step M n).2.1 k { s with ndepth := s.ndepth + 1 } with e | e
      · rw [e] at h; cases h
      · rw [← e] at hk
        rcases hx : E.parseNestedK M n k { s with ndepth := s.ndepth + 1 } with ⟨o, s'⟩
        rw [hx] at h hk
        cases h
        simp only at hk ⊢
        rw [hk, if_neg (by omega)]
    · right; rw [h]
  · rw [if_neg hM, if_neg hM]; exact Or.inr rfl

theorem Env.monoK_step (M n : Nat) :
    (∀ k m, Refines (E.parseNextK M n k m) (E.parseNextK M (n + 1) k m)) ∧
    (∀ k, Refines (E.parseNestedK M n k) (E.parseNestedK M (n + 1) k)) ∧
    (∀ k m acc, Refines (E.parseAllK M n k m acc) (E.parseAllK M (n + 1) k m acc)) := by
  induction n with
  | zero =>
    refine ⟨fun k m => ?_, fun k => ?_, fun k m acc => ?_⟩
    · conv in E.parseNextK M 0 k m => unfold Env.parseNextK
      exact Refines.fuel _
    · conv in E.parseNestedK M 0 k => unfold Env.parseNestedK
      exact Refines.fuel _
    · conv in E.parseAllK M 0 k m acc => unfold Env.parseAllK
      exact Refines.fuel _
  | succ n ih =>
    obtain ⟨ihn, ihd, iha⟩ := ih
    refine ⟨fun k m => ?_, fun k => ?_, fun k m acc => ?_⟩
    · cases k with
      | zero => unfold Env.parseNextK; exact Refines.rfl' _
      | succ k =>
        unfold Env.parseNextK
        refine Refines.bind (E.mono_skipLeading n m) fun _ => Refines.bind (Refines.rfl' _) fun o => ?_
        cases o with
        | none => exact Refines.rfl' _
        | some it =>
          refine Refines.ite (Refines.bind (E.monoK_nested M n k (ihd k)) fun o => ?_)
            (Refines.ite (Refines.rfl' _) (Refines.bind (E.monoK_parseText M n k m) fun _ =>
              Refines.rfl' _))
          cases o with
          | none => exact ihn _ m
          | some d => exact Refines.rfl' _
    · cases k with
      | zero => unfold Env.parseNestedK; exact Refines.rfl' _
      | succ k =>
        unfold Env.parseNestedK
        refine Refines.bind (Refines.rfl' _) fun _ => Refines.bind (Refines.rfl' _) fun _ =>
          Refines.bind (ihn _ _) fun o => Refines.bind (Refines.rfl' _) fun _ => ?_
        cases o with
        | none => exact Refines.rfl' _
        | some h =>
          simp only
          rcases E.lookup h with _ | (f | f)
          · exact Refines.bind (iha _ _ _) fun _ => Refines.rfl' _
          · exact Refines.bind (E.monoK_parseText M n k _) fun _ => Refines.rfl' _
          · exact Refines.bind (iha _ _ _) fun _ => Refines.rfl' _
    · cases k with
      | zero => unfold Env.parseAllK; exact Refines.rfl' _
      | succ k =>
        unfold Env.parseAllK
        refine Refines.bind (ihn _ _) fun o => ?_
        cases o with
        | none => exact Refines.rfl' _
        | some d =>
          exact Refines.bind (Refines.rfl' _) fun _ => Refines.bind (Refines.rfl' _) fun _ =>
            Refines.bind (Refines.rfl' _) fun _ => Refines.ite (iha _ _ _) (Refines.rfl' _)

variable {E}

theorem Env.CallK.unique {M k : Nat} {s : St σ α} {o o' s' s''} (h : E.CallK M k s o s') (h' : E.CallK M k s o' s'') :
    o = o' ∧ s' = s'' := by
  obtain ⟨n, h1, h2⟩ := h
  obtain ⟨m, h3, h4⟩ := h'
  have up : ∀ {n o s'} m, n ≤ m → E.doNextK M n k s = (o, s') → o ≠ .fuel → E.doNextK M m k s = (o, s') := by
    intro n o s' m hn h ho
    rcases Refines.le (fun n => (E.monoK_step M n).1 k .base) hn s with e | e
    · unfold Env.doNextK at h; rw [h] at e; exact absurd e ho
    · unfold Env.doNextK at h ⊢; rw [← e, h]
  have h5 := up (max n m) (Nat.le_max_left n m) h1 h2
  have h6 := up (max n m) (Nat.le_max_right n m) h3 h4
  rw [h5] at h6
  cases h6
  exact ⟨rfl, rfl⟩

/-- The limits can only abort a call, not change what it does. -/
theorem Env.CallK.same {M k : Nat} {s : St σ α} {o s'} (h : E.CallK M k s o s') :
    o = .panic ∨ E.Call s o s' := by
  obtain ⟨n, h1, h2⟩ := h
  rcases (E.same_step M n).1 k .base s with e | e
  · unfold Env.doNextK at h1; rw [h1] at e; exact Or.inl e
  · unfold Env.doNextK at h1; exact Or.inr ⟨n, by rw [← h1, e]; rfl, h2⟩

/-! ## Sources that need many frames -/

theorem Act.bind_panic {S X A B : Type} {x : Act S X A} {f : A → Act S X B} {s : S} (h : (x s).1 = .panic) :
    ((x >>= f) s).1 = .panic := by
  show (Act.bind x f s).1 = _
  unfold Act.bind
  rcases hx : x s with ⟨o, s'⟩
  rw [hx] at h
  cases h
  rfl

theorem nestedInDepthK_panic {M : Nat} {A : Type} {x : Act (St σ α) (Err P CE) A} {s : σ} {a : α} {d : Nat}
    (h : d + 1 ≤ M → (x ⟨s, a, d + 1⟩).1 = .panic) : (Env.nestedInDepthK M x ⟨s, a, d⟩).1 = .panic := by
  unfold Env.nestedInDepthK
  by_cases hM : d + 1 ≤ M
  · rw [if_pos (by exact hM)]
    unfold Env.nestedInDepth
    have := h hM
    rcases hx : x ⟨s, a, d + 1⟩ with ⟨o, s'⟩
    rw [hx] at this
    cases this
    simp only
    split <;> rfl
  · rw [if_neg (by exact hM)]

variable {RS : σ → Seq P → Prop} {X : TextSem P τ α} (C : Conf E RS X)
include C

/-- `parse_next` at the start of a nest, when `parse_nested` runs out of frames. -/
theorem parseNextK_panic_nested (D : E.cc.Disjoint) {M n k : Nat} {m : Mode} {it : Item P} {r p : List (Item P)} {s : σ} {a : α} {d : Nat}
    (hs : RS s ⟨p, it :: r⟩) (hc : Clean p (it :: r)) (hst : E.cc.isNestStart it.ch = true) (hn : r.length + 2 ≤ n)
    (h : ∀ s', RS s' ⟨p, it :: r⟩ → d + 1 ≤ M → (E.parseNestedK M n k ⟨s', a, d + 1⟩).1 = .panic) :
    (E.parseNextK M (n + 1) (k + 1) m ⟨s, a, d⟩).1 = .panic := by
  unfold Env.parseNextK
  have hp : p = [] := by rcases hc with h | h; exact h; cases h
  subst hp
  obtain ⟨s1, p1, h1, hs1, hc1, hp1⟩ := C.c_skipLeading m (it :: r) n [] s a d hs (by simp; omega) hc
  have hl : lead E.cc m (it :: r) = it :: r := by
    unfold lead
    split
    · rw [List.dropWhile_cons, D.start_ws _ hst]; rfl
    · rfl
  rw [hl] at hs1
  rw [Act.bind_ok h1]
  obtain ⟨s2, h2, hs2⟩ := C.c_peek hs1 a d
  rw [Act.bind_ok h2]
  simp only [List.head?_cons]
  rw [if_pos hst]
  refine Act.bind_panic (nestedInDepthK_panic fun hM => h s2 ?_ hM)
  rw [hp1 rfl] at hs2
  exact hs2

/-- As many start delimiters as wished, whatever follows. -/
theorem starts_panic (D : E.cc.Disjoint) (M : Nat) (u : List (Item P)) (hu : ∀ it ∈ u, E.cc.isNestStart it.ch = true) :
    ∀ (n k : Nat) (m : Mode) (v p : List (Item P)) (s : σ) (a : α) (d : Nat), m ≠ .operands → RS s ⟨p, u ++ v⟩ →
      Clean p (u ++ v) → d ≤ M → k ≤ 2 * u.length ∨ M < d + u.length → 3 * (u ++ v).length + 2 ≤ n →
      (E.parseNextK M n k m ⟨s, a, d⟩).1 = .panic := by
  induction u with
  | nil =>
    intro n k m v p s a d _ _ _ hd h hn
    obtain ⟨n, rfl⟩ : ∃ j, n = j + 1 := ⟨n - 1, by omega⟩
    obtain rfl : k = 0 := by simp at h; omega
    unfold Env.parseNextK; rfl
  | cons it u ih =>
    intro n k m v p s a d hm hs hc hd h hn
    simp only [List.cons_append, List.length_cons] at hs hc h hn
    obtain ⟨n, rfl⟩ : ∃ j, n = j + 2 := ⟨n - 2, by omega⟩
    cases k with
    | zero => unfold Env.parseNextK; rfl
    | succ k =>
      refine parseNextK_panic_nested C D hs hc (hu it (by simp)) (by omega) fun s1 hs1 hM => ?_
      cases k with
      | zero => unfold Env.parseNestedK; rfl
      | succ k =>
        unfold Env.parseNestedK
        obtain ⟨s2, h2, hs2⟩ := C.c_next hs1 a (d + 1)
        rw [Act.bind_ok h2]
        have h2' : (((it :: (u ++ v)).head?).map (fun it => E.cc.isNestStart it.ch) == some true) = true := by
          simp [hu it (by simp)]
        rw [h2', Act.bind_ok (debugAssert_true _)]
        exact Act.bind_panic (ih (fun x hx => hu x (by simp [hx])) n k .operator v [] s2 a (d + 1) (by simp) hs2 (Or.inl rfl) hM
          (by omega) (by omega))

omit C in
theorem Eval.ordinary_head {d : Nat} {x w : Item P} {r r' : List (Item P)} {a a' : α} {o}
    (h : Eval E.cc X E.alloc E.lookup (.next .operator d) (x :: w :: r) a o r' a') (hF : ¬ X.F)
    (hx : E.cc.Ordinary x.ch) (hw : E.cc.isWhitespace w.ch = true) :
    ∃ t, o = .ok [.text t] ∧ r' = w :: r := by
  obtain ⟨x1, x2, x3, x4⟩ := hx
  have hl : lead E.cc .operator (x :: w :: r) = x :: w :: r := by
    unfold lead
    rw [if_pos rfl, List.dropWhile_cons, x4]; rfl
  have hsc : ∀ top, scanText E.cc .operator top 0 (x :: w :: r) = .ok [x] (w :: r) := by
    intro top
    rw [scanText_cons, if_neg (by simp [isEndChar, x2, x3, x4]), x1, x2, x3]
    simp only [Bool.false_eq_true, if_false]
    rw [scanText_cons, if_pos ⟨rfl, by simp [isEndChar, hw]⟩]
    rfl
  cases h with
  | next_eof h _ => rw [hl] at h; cases h
  | next_nest h h' _ _ => rw [hl] at h; cases h; rw [x2] at h'; cases h'
  | next_removed h h' _ _ => rw [hl] at h; cases h; rw [x2] at h'; cases h'
  | next_end h _ h' _ => rw [hl] at h; cases h; rw [x3] at h'; cases h'
  | next_text h _ _ ho =>
    rw [hl] at h; cases h
    rcases ho with ⟨t, ho, rfl⟩ | ⟨e, ho, rfl⟩
    · rcases ho.2 with ⟨_, _, h1, h2, _⟩ | ⟨h1, _⟩ | ⟨p, h1, h2⟩ | ⟨_, ⟨x, h1⟩, _⟩
      · rw [hsc] at h2; cases h2; exact ⟨t, rfl, rfl⟩
      all_goals cases h1
    · rcases ho.2 with ⟨_, _, h1, _⟩ | ⟨_, h1, _⟩ | ⟨p, _, h1⟩ | ⟨h1, _⟩
      · cases h1
      · rw [hsc] at h1; cases h1
      · rw [hsc] at h1; cases h1
      · exact absurd h1 hF

/-- Nests that are operands of nests. -/
theorem operands_panic (D : E.cc.Disjoint) (hb : ∀ d, E.lookup d = none) (hF : ¬ X.F) (M : Nat) {b x w : Char}
    (hst : E.cc.isNestStart b = true) (hx : E.cc.Ordinary x) (hw : E.cc.isWhitespace w = true) (L : Nat) :
    ∀ (n k : Nat) (r p : List (Item P)) (s : σ) (a : α) (d : Nat), r.map Item.ch = nestedOperands b x w L →
      RS s ⟨p, r⟩ → Clean p r → k ≤ 3 * L + 1 → 3 * r.length + 2 ≤ n →
      (E.parseNextK M n k .base ⟨s, a, d⟩).1 = .panic := by
  induction L with
  | zero =>
    intro n k r p s a d hr hs hc hk hn
    obtain ⟨n, rfl⟩ : ∃ j, n = j + 1 := ⟨n - 1, by omega⟩
    cases k with
    | zero => unfold Env.parseNextK; rfl
    | succ k =>
      obtain rfl : k = 0 := by omega
      match r, hr with
      | [it], hr =>
        simp only [nestedOperands, List.map_cons, List.map_nil, List.cons.injEq, and_true] at hr
        subst hr
        unfold Env.parseNextK
        obtain ⟨s1, p1, h1, hs1, _⟩ := C.c_skipLeading .base [it] n p s a d hs (by simp at hn ⊢; omega) hc
        rw [Act.bind_ok h1]
        obtain ⟨s2, h2, _⟩ := C.c_peek hs1 a d
        rw [Act.bind_ok h2]
        have hl : lead E.cc .base [it] = [it] := rfl
        rw [hl]
        simp only [List.head?_cons]
        rw [hx.2.1, hx.2.2.1]
        simp only [Bool.false_eq_true, if_false]
        exact Act.bind_panic rfl
  | succ L ih =>
    intro n k r p s a d hr hs hc hk hn
    match r, hr with
    | bi :: xi :: wi :: r, hr =>
      simp only [nestedOperands, List.map_cons, List.cons.injEq] at hr
      obtain ⟨hb1, hx1, hw1, hr⟩ := hr
      simp only [List.length_cons] at hn
      obtain ⟨n, rfl⟩ : ∃ j, n = j + 3 := ⟨n - 3, by omega⟩
      cases k with
      | zero => unfold Env.parseNextK; rfl
      | succ k =>
        refine parseNextK_panic_nested C D hs hc (by rw [hb1]; exact hst) (by simp; omega) fun s1 hs1 hM => ?_
        cases k with
        | zero => unfold Env.parseNestedK; rfl
        | succ k =>
          unfold Env.parseNestedK
          obtain ⟨s2, h2, hs2⟩ := C.c_next hs1 a (d + 1)
          rw [Act.bind_ok h2]
          have h2' : (((bi :: xi :: wi :: r).head?).map (fun it => E.cc.isNestStart it.ch) == some true) = true := by
            simp [hb1, hst]
          rw [h2', Act.bind_ok (debugAssert_true _)]
          simp only [List.tail_cons] at hs2
          rcases (E.same_step M (n + 1)).1 k .operator ⟨s2, a, d + 1⟩ with e | e
          · exact Act.bind_panic e
          · obtain ⟨o, s3, r3, a3, h3, ⟨p3, hs3, hc3, hp3⟩, hev⟩ :=
              (run C (n + 1)).1 .operator [] (xi :: wi :: r) s2 a (d + 1) (by simp) hs2 (Or.inl rfl) (by simp; omega)
            obtain ⟨t, rfl, rfl⟩ := hev.ordinary_head hF (by rw [hx1]; exact hx) (by rw [hw1]; exact hw)
            rw [h3] at e
            rw [Act.bind_ok e]
            cases hp3 rfl _ rfl
            obtain ⟨s4, h4, hs4⟩ := C.c_skipSeparator hs3 a3 (d + 1)
            rw [Act.bind_ok h4]
            have hds : dropSep E.cc (wi :: r) = r := by simp [dropSep, hw1, hw]
            rw [hds] at hs4
            simp only [List.head?_cons, hb]
            refine Act.bind_panic ?_
            cases k with
            | zero => unfold Env.parseAllK; rfl
            | succ k =>
              unfold Env.parseAllK
              exact Act.bind_panic (ih n k r [] s4 a3 (d + 1) hr hs4 (Or.inl rfl) (by omega) (by omega))

omit C in
theorem deepest_starts {cc : Classifier} (D : cc.Disjoint) (u v : List (Item P)) (hu : ∀ it ∈ u, cc.isNestStart it.ch = true) (d : Nat) :
    deepest cc d (u ++ v) = deepest cc (d + u.length) v := by
  induction u generalizing d with
  | nil => rfl
  | cons it u ih =>
    rw [List.cons_append, deepest_start D (hu it (by simp)), ih (fun x hx => hu x (by simp [hx])), List.length_cons]
    congr 1; omega

omit C in
theorem deepest_operands {cc : Classifier} (D : cc.Disjoint) {b x w : Char}
    (hst : cc.isNestStart b = true) (hx : cc.Ordinary x) (hw : cc.isWhitespace w = true) (L : Nat) :
    ∀ (r : List (Item P)) (d : Nat), r.map Item.ch = nestedOperands b x w L → deepest cc d r = d + L := by
  induction L with
  | zero =>
    intro r d hr
    match r, hr with
    | [it], hr =>
      simp only [nestedOperands, List.map_cons, List.map_nil, List.cons.injEq, and_true] at hr
      subst hr
      rw [deepest_cons, hx.1, hx.2.1, hx.2.2.1]; rfl
  | succ L ih =>
    intro r d hr
    match r, hr with
    | bi :: xi :: wi :: r, hr =>
      simp only [nestedOperands, List.map_cons, List.cons.injEq] at hr
      obtain ⟨rfl, rfl, rfl, hr⟩ := hr
      rw [deepest_start D hst, deepest_cons, hx.1, hx.2.1, hx.2.2.1]
      simp only [Bool.false_eq_true, if_false]
      rw [deepest_ws D hw, ih r _ hr]
      omega

omit C in
theorem deepest_le_count (cc : Classifier) (d : Nat) (r : List (Item P)) :
    deepest cc d r ≤ d + r.countP fun it => cc.isNestStart it.ch := by
  induction hn : r.length using Nat.strongRecOn generalizing r d with
  | ind n ih =>
    subst hn
    cases r with
    | nil => simp [deepest]
    | cons x r =>
      rw [deepest_cons, List.countP_cons]
      split
      · cases r with
        | nil => simp
        | cons y r =>
          have := ih r.length (by simp; omega) d r rfl
          rw [List.countP_cons]; simp only; omega
      · split
        · have := ih r.length (by simp) (d + 1) r rfl; omega
        · split
          · have := ih r.length (by simp) (d - 1) r rfl; omega
          · have := ih r.length (by simp) d r rfl; omega

end Kul
