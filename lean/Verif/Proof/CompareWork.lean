import Verif.Spec.CompareWork
import Verif.Spec.Related
import Verif.Spec.Shape
import Verif.Proof.TextFns

/-! # What comparing and hashing look at: lemmas -/

namespace Kul

variable {τ τ' ε ε' A B S S₁ S₂ : Type} {M : Type → Type} [Monad M]

section
variable [LawfulMonad M] {turn : M Unit} {teq : τ → τ' → M Bool} {xeq : ε → ε' → M Bool}

/-- Comparing sequences that begin with the parts of two datums is comparing the datums, then the rest. -/
theorem inOrder_toks (d : Datum τ ε) : ∀ (e : Datum τ' ε') (r : List (Tok τ ε)) (s : List (Tok τ' ε')),
    inOrder turn (Tok.same teq xeq) (d.toks ++ r) (e.toks ++ s) = (do
      if ← d.eqM turn teq xeq e then inOrder turn (Tok.same teq xeq) r s else pure false) := by
  induction d with
  | combination f a ihf iha =>
    intro e r s
    cases e <;> simp [Datum.toks, inOrder, Tok.same, Datum.eqM]
    simp only [iha, ihf]
    congr 1; funext _; congr 1; funext b
    cases b <;> simp
  | list f a ihf iha =>
    intro e r s
    cases e <;> simp [Datum.toks, inOrder, Tok.same, Datum.eqM]
    simp only [iha, ihf]
    congr 1; funext _; congr 1; funext b
    cases b <;> simp
  | _ =>
    intro e r s
    cases e <;> simp [Datum.toks, inOrder, Tok.same, Datum.eqM]

theorem eqM_inOrder (d : Datum τ ε) (e : Datum τ' ε') :
    d.eqM turn teq xeq e = inOrder turn (Tok.same teq xeq) d.toks e.toks := by
  have := inOrder_toks (turn := turn) (teq := teq) (xeq := xeq) d e [] []
  rw [List.append_nil, List.append_nil] at this
  rw [this]
  simp [inOrder]
  conv_lhs => rw [← bind_pure (d.eqM turn teq xeq e)]
  congr 1; funext b
  cases b <;> rfl

end

theorem Datum.toks_length (d : Datum τ ε) : d.toks.length = d.nodes := by
  induction d with
  | combination f a ihf iha | list f a ihf iha =>
    simp only [toks, nodes, List.length_cons, List.length_append, ihf, iha, Nat.add_comm]
  | _ => rfl

/-- In memory. -/
theorem eqIn_eqM {turn : M Unit} {teq : τ → τ' → M Bool} {xeq : ε → ε' → M Bool} {bad : M Bool}
    {m : Mem.Addr → Option (Mem.Dat τ ε)} {m' : Mem.Addr → Option (Mem.Dat τ' ε')} {d : Mem.Dat τ ε} {D : Datum τ ε}
    (h : Mem.Reads m d D) : ∀ {e : Mem.Dat τ' ε'} {E : Datum τ' ε'}, Mem.Reads m' e E → ∀ n, D.nodes ≤ n →
      d.eqIn turn teq xeq bad m m' n e = D.eqM turn teq xeq E := by
  induction h with
  | combination h1 _ h2 _ ih1 ih2 =>
    intro e E he n hn
    simp only [Datum.nodes] at hn
    obtain ⟨n, rfl⟩ : ∃ k, n = k + 1 := ⟨n - 1, by omega⟩
    cases he <;> simp only [Mem.Dat.eqIn, Datum.eqM]
    case combination k1 k2 k3 k4 =>
      simp only [h1, h2, k1, k3, ih1 k2 n (by omega), ih2 k4 n (by omega)]
  | list h1 _ h2 _ ih1 ih2 =>
    intro e E he n hn
    simp only [Datum.nodes] at hn
    obtain ⟨n, rfl⟩ : ∃ k, n = k + 1 := ⟨n - 1, by omega⟩
    cases he <;> simp only [Mem.Dat.eqIn, Datum.eqM]
    case list k1 k2 k3 k4 =>
      simp only [h1, h2, k1, k3, ih1 k2 n (by omega), ih2 k4 n (by omega)]
  | _ =>
    intro e E he n hn
    simp only [Datum.nodes] at hn
    obtain ⟨n, rfl⟩ : ∃ k, n = k + 1 := ⟨n - 1, by omega⟩
    cases he <;> simp only [Mem.Dat.eqIn, Datum.eqM]

/-! ## Counting -/

theorem Differ.append {same : A → B → Prop} {as bs as' bs'} {b k b' k'} (h : Differ same as bs b k)
    (h' : Differ same as' bs' b' k') :
    Differ same (as ++ as') (bs ++ bs') (b && b') (if b then k + k' else k) := by
  rcases h with ⟨rfl, h1, rfl⟩ | ⟨rfl, p, p', x, y, q, q', rfl, rfl, h1, h2, rfl⟩
  · rcases h' with ⟨rfl, h3, rfl⟩ | ⟨rfl, p, p', x, y, q, q', rfl, rfl, h3, h4, rfl⟩
    · exact Or.inl ⟨rfl, List.rel_append h1 h3, by simp⟩
    · refine Or.inr ⟨rfl, as ++ p, bs ++ p', x, y, q, q', by simp, by simp, List.rel_append h1 h3, h4, by simp; omega⟩
  · exact Or.inr ⟨rfl, p, p', x, y, q ++ as', q' ++ bs', by simp, by simp, h1, h2, rfl⟩

theorem Differ.cons {same : A → B → Prop} {as bs b k} {x : A} {y : B} (hs : same x y) (h : Differ same as bs b k) :
    Differ same (x :: as) (y :: bs) b (k + 1) := by
  rcases h with ⟨rfl, h1, rfl⟩ | ⟨rfl, p, p', x, y, q, q', rfl, rfl, h1, h2, rfl⟩
  · exact Or.inl ⟨rfl, .cons hs h1, rfl⟩
  · exact Or.inr ⟨rfl, _ :: p, _ :: p', x, y, q, q', rfl, rfl, .cons hs h1, h2, rfl⟩

theorem Differ.head {same : A → B → Prop} {as bs} {x : A} {y : B} (h : ¬ same x y) :
    Differ same (x :: as) (y :: bs) false 1 :=
  Or.inr ⟨rfl, [], [], x, y, as, bs, rfl, rfl, .nil, h, rfl⟩

theorem Differ.single {same : A → B → Prop} {x : A} {y : B} {b : Bool} (h : same x y ↔ b = true) :
    Differ same [x] [y] b 1 := by
  cases b
  · exact .head (by simpa using h)
  · exact Or.inl ⟨rfl, .cons (h.mpr rfl) .nil, rfl⟩

theorem run_both (x y : StateM Nat Bool) (n : Nat) {b k} (h : x.run (n + 1) = (b, k)) :
    (do oneTurn; if ← x then y else pure false : StateM Nat Bool).run n = if b then y.run k else (false, k) := by
  have e : (do oneTurn; if ← x then y else pure false : StateM Nat Bool).run n =
    match x.run (n + 1) with | (b, k) => (if b then y else pure false : StateM Nat Bool).run k := rfl
  rw [e, h]
  cases b <;> rfl

theorem eqM_turns (teq : τ → τ' → Bool) (xeq : ε → ε' → Bool) (d : Datum τ ε) : ∀ (e : Datum τ' ε') (n : Nat), ∃ b k,
    (Datum.eqM oneTurn (fun t u => (pure (teq t u) : StateM Nat Bool)) (fun x y => pure (xeq x y)) d e).run n = (b, n + k) ∧
      Differ (fun x y => Tok.sameB teq xeq x y = true) d.toks e.toks b k := by
  induction d with
  | combination f a ihf iha =>
    intro e n
    cases e
    case combination g b =>
      obtain ⟨b1, k1, h1, h2⟩ := iha b (n + 1)
      obtain ⟨b2, k2, h3, h4⟩ := ihf g (n + 1 + k1)
      refine ⟨_, _, ?_, (h2.append h4).cons rfl⟩
      rw [Datum.eqM, run_both _ _ _ h1]
      cases b1
      · exact Prod.ext rfl (show n + 1 + k1 = n + (k1 + 1) by omega)
      · simp only [if_true, h3]
        exact Prod.ext rfl (show n + 1 + k1 + k2 = n + (k1 + k2 + 1) by omega)
    all_goals exact ⟨false, 1, rfl, .head (by simp [Tok.sameB])⟩
  | list f a ihf iha =>
    intro e n
    cases e
    case list g b =>
      obtain ⟨b1, k1, h1, h2⟩ := ihf g (n + 1)
      obtain ⟨b2, k2, h3, h4⟩ := iha b (n + 1 + k1)
      refine ⟨_, _, ?_, (h2.append h4).cons rfl⟩
      rw [Datum.eqM, run_both _ _ _ h1]
      cases b1
      · exact Prod.ext rfl (show n + 1 + k1 = n + (k1 + 1) by omega)
      · simp only [if_true, h3]
        exact Prod.ext rfl (show n + 1 + k1 + k2 = n + (k1 + k2 + 1) by omega)
    all_goals exact ⟨false, 1, rfl, .head (by simp [Tok.sameB])⟩
  | text t =>
    intro e n
    cases e
    case text u => exact ⟨teq t u, 1, rfl, .single (by simp [Tok.sameB])⟩
    all_goals exact ⟨false, 1, rfl, .head (by simp [Tok.sameB])⟩
  | extra t =>
    intro e n
    cases e
    case extra u => exact ⟨xeq t u, 1, rfl, .single (by simp [Tok.sameB])⟩
    all_goals exact ⟨false, 1, rfl, .head (by simp [Tok.sameB])⟩
  | emptyNest =>
    intro e n
    cases e
    case emptyNest => exact ⟨true, 1, rfl, .single (by simp [Tok.sameB])⟩
    all_goals exact ⟨false, 1, rfl, .head (by simp [Tok.sameB])⟩
  | emptyList =>
    intro e n
    cases e
    case emptyList => exact ⟨true, 1, rfl, .single (by simp [Tok.sameB])⟩
    all_goals exact ⟨false, 1, rfl, .head (by simp [Tok.sameB])⟩

/-- With costs of comparing texts. -/
theorem eqM_cost (teq : τ → τ' → Bool) (w : τ → τ' → Nat) (xeq : ε → ε' → Bool) {R : ε → ε → Prop} {d : Datum τ ε}
    {D : Datum (List A) ε} (h : DatumRel (fun t (c : List A) => ∀ u, w t u ≤ c.length + 1) R d D) : ∀ (e : Datum τ' ε') (n : Nat), ∃ b k,
    (Datum.eqM oneTurn (costing teq w) (fun x y => pure (xeq x y)) d e).run n = (b, n + k) ∧
      k ≤ 2 * d.nodes + D.texts.length := by
  have one : ∀ (d : Datum τ ε) (x : Nat), 1 ≤ 2 * d.nodes + x := fun d x => by
    cases d <;> simp only [Datum.nodes] <;> omega
  induction h with
  | combination _ _ ihf iha =>
    intro e n
    cases e
    case combination g b =>
      obtain ⟨b1, k1, h1, h2⟩ := iha b (n + 1)
      obtain ⟨b2, k2, h3, h4⟩ := ihf g (n + 1 + k1)
      rw [Datum.eqM, run_both _ _ _ h1]
      cases b1
      · exact ⟨false, k1 + 1, Prod.ext rfl (show n + 1 + k1 = n + (k1 + 1) by omega), by simp only [Datum.nodes, Datum.texts, List.length_append]; omega⟩
      · exact ⟨b2, k1 + k2 + 1, by
          simp only [if_true, h3]
          exact Prod.ext rfl (show n + 1 + k1 + k2 = n + (k1 + k2 + 1) by omega), by
          simp only [Datum.nodes, Datum.texts, List.length_append]; omega⟩
    all_goals exact ⟨false, 1, rfl, one _ _⟩
  | list _ _ ihf iha =>
    intro e n
    cases e
    case list g b =>
      obtain ⟨b1, k1, h1, h2⟩ := ihf g (n + 1)
      obtain ⟨b2, k2, h3, h4⟩ := iha b (n + 1 + k1)
      rw [Datum.eqM, run_both _ _ _ h1]
      cases b1
      · exact ⟨false, k1 + 1, Prod.ext rfl (show n + 1 + k1 = n + (k1 + 1) by omega), by simp only [Datum.nodes, Datum.texts, List.length_append]; omega⟩
      · exact ⟨b2, k1 + k2 + 1, by
          simp only [if_true, h3]
          exact Prod.ext rfl (show n + 1 + k1 + k2 = n + (k1 + k2 + 1) by omega), by
          simp only [Datum.nodes, Datum.texts, List.length_append]; omega⟩
    all_goals exact ⟨false, 1, rfl, one _ _⟩
  | @text t c ht =>
    intro e n
    cases e
    case text u =>
      refine ⟨teq t u, w t u + 1, ?_, by simp only [Datum.nodes, Datum.texts]; have := ht u; omega⟩
      show (teq t u, n + 1 + w t u) = _
      simp; omega
    all_goals exact ⟨false, 1, rfl, one _ _⟩
  | @extra x y hx =>
    intro e n
    cases e
    case extra u => exact ⟨xeq x u, 1, rfl, one _ _⟩
    all_goals exact ⟨false, 1, rfl, one _ _⟩
  | emptyNest | emptyList =>
    intro e n
    cases e
    all_goals first | exact ⟨false, 1, rfl, one _ _⟩ | exact ⟨true, 1, rfl, one _ _⟩

/-! ## Iterators -/

theorem IterNext.atMost_succ (next : IterNext S A) (s : S) (k : Nat) :
    next.atMost (s, k + 1) = ((next s).1, ((next s).2, k)) := rfl

theorem IterNext.atMost_zero (next : IterNext S A) (s : S) : next.atMost (s, 0) = (.panic, (s, 0)) := rfl

theorem commonPrefix_le [DecidableEq A] (l m : List A) : commonPrefix l m ≤ l.length := by
  induction l generalizing m with
  | nil => simp [commonPrefix]
  | cons a l ih =>
    cases m with
    | nil => simp [commonPrefix]
    | cons b m =>
      have := ih m
      simp only [commonPrefix, List.length_cons]
      split <;> omega

/-- `Iterator::eq` asks each iterator for as many items as are the same, and once more. -/
theorem iterEq_atMost [DecidableEq A] {next₁ : IterNext S₁ A} {next₂ : IterNext S₂ A} {s₁ : S₁} {s₂ : S₂}
    {l m : List A} (h : next₁.Gives s₁ l) (h' : next₂.Gives s₂ m) :
    ∀ n i j, l.length < n → iterEq next₁.atMost next₂.atMost n (s₁, i) (s₂, j) =
      if commonPrefix l m < i ∧ commonPrefix l m < j then .ok (decide (l = m)) else .panic := by
  induction h generalizing s₂ m with
  | done h =>
    intro n i j hn
    obtain ⟨n, rfl⟩ : ∃ k, n = k + 1 := ⟨n - 1, by omega⟩
    cases i <;> cases j <;> cases h' <;>
      simp_all [iterEq, IterNext.atMost_succ, IterNext.atMost_zero, commonPrefix]
  | @item s x s' l h _ ih =>
    intro n i j hn
    obtain ⟨n, rfl⟩ : ∃ k, n = k + 1 := ⟨n - 1, by omega⟩
    simp only [List.length_cons] at hn
    cases i with
    | zero => simp [iterEq, IterNext.atMost_zero]
    | succ i =>
      cases j with
      | zero => simp [iterEq, IterNext.atMost_zero, IterNext.atMost_succ, h]
      | succ j =>
        cases h' with
        | done h' => simp [iterEq, IterNext.atMost_succ, h, h', commonPrefix]
        | @item _ y s₂' m h1 h2 =>
          simp only [iterEq, IterNext.atMost_succ, h, h1, commonPrefix]
          by_cases e : x = y
          · subst e
            simp only [if_true, ih h2 n i j (by omega)]
            simp
          · simp [e]

/-- `Iterator::cmp` too. -/
theorem iterCmp_atMost {next₁ : IterNext S₁ Char} {next₂ : IterNext S₂ Char} {s₁ : S₁} {s₂ : S₂}
    {l m : List Char} (h : next₁.Gives s₁ l) (h' : next₂.Gives s₂ m) :
    ∀ n i j, l.length < n → iterCmp next₁.atMost next₂.atMost n (s₁, i) (s₂, j) =
      if commonPrefix l m < i ∧ commonPrefix l m < j then iterCmp next₁ next₂ n s₁ s₂ else .panic := by
  induction h generalizing s₂ m with
  | done h =>
    intro n i j hn
    obtain ⟨n, rfl⟩ : ∃ k, n = k + 1 := ⟨n - 1, by omega⟩
    cases i <;> cases j <;> cases h' <;>
      simp_all [iterCmp, IterNext.atMost_succ, IterNext.atMost_zero, commonPrefix]
  | @item s x s' l h _ ih =>
    intro n i j hn
    obtain ⟨n, rfl⟩ : ∃ k, n = k + 1 := ⟨n - 1, by omega⟩
    simp only [List.length_cons] at hn
    cases i with
    | zero => simp [iterCmp, IterNext.atMost_zero]
    | succ i =>
      cases j with
      | zero => simp [iterCmp, IterNext.atMost_zero, IterNext.atMost_succ, h]
      | succ j =>
        cases h' with
        | done h' => simp [iterCmp, IterNext.atMost_succ, h, h', commonPrefix]
        | @item _ y s₂' m h1 h2 =>
          simp only [iterCmp, IterNext.atMost_succ, h, h1, commonPrefix]
          have hc := (charCmp_spec x y).2.2
          by_cases e : x = y
          · subst e
            simp only [hc.mpr, if_true, ih h2 n i j (by omega)]
            simp
          · have : charCmp x y ≠ .eq := fun h => e (hc.mp h)
            cases hr : charCmp x y <;> simp_all

/-- Hashing asks for all, and once more. -/
theorem hashLoop_atMost {H : Type} (W : HasherOps H) {next : IterNext S Char} {s : S} {l : List Char} (h : next.Gives s l) :
    ∀ n i (x : H), l.length < n → hashLoop W next.atMost n (s, i) x =
      if l.length < i then hashLoop W next n s x else .panic := by
  induction h with
  | done h =>
    intro n i x hn
    obtain ⟨n, rfl⟩ : ∃ k, n = k + 1 := ⟨n - 1, by omega⟩
    cases i <;> simp [hashLoop, IterNext.atMost_succ, IterNext.atMost_zero, h]
  | @item s c s' l h _ ih =>
    intro n i x hn
    obtain ⟨n, rfl⟩ : ∃ k, n = k + 1 := ⟨n - 1, by omega⟩
    simp only [List.length_cons] at hn
    cases i with
    | zero => simp [hashLoop, IterNext.atMost_zero]
    | succ i =>
      simp only [hashLoop, IterNext.atMost_succ, h, ih n i _ (by omega)]
      simp

/-- Encoding asks for those that fit, and once more. -/
theorem encodeLoop_atMost {next : IterNext S Char} {s : S} {l p q : List Char} (h : next.Gives s l) (hl : l = p ++ q) :
    ∀ n i buf pos, l.length < n → pos + Str.len p ≤ buf.length →
      (∀ c q', q = c :: q' → buf.length < pos + Str.len p + Str.lenUtf8 c) →
      encodeLoop next.atMost n (s, i) buf pos = if p.length < i then encodeLoop next n s buf pos else .panic := by
  induction h generalizing p with
  | done h =>
    intro n i buf pos hn hp hq
    obtain ⟨n, rfl⟩ : ∃ k, n = k + 1 := ⟨n - 1, by omega⟩
    obtain ⟨rfl, rfl⟩ := List.append_eq_nil_iff.mp hl.symm
    cases i <;> simp [encodeLoop, IterNext.atMost_succ, IterNext.atMost_zero, h]
  | @item s c s' l h _ ih =>
    intro n i buf pos hn hp hq
    obtain ⟨n, rfl⟩ : ∃ k, n = k + 1 := ⟨n - 1, by omega⟩
    simp only [List.length_cons] at hn
    cases i with
    | zero => simp [encodeLoop, IterNext.atMost_zero]
    | succ i =>
      simp only [encodeLoop, IterNext.atMost_succ, h]
      cases p with
      | nil =>
        have := hq c l (by simpa using hl.symm)
        simp only [Str.len, Nat.add_zero] at this
        have hf : ¬ pos + Str.lenUtf8 c ≤ buf.length := by omega
        simp only [if_neg hf, List.length_nil, Nat.zero_lt_succ, if_true]
      | cons c' p =>
        rw [List.cons_append] at hl
        cases hl
        simp only [Str.len] at hp hq
        have hf : pos + Str.lenUtf8 c ≤ buf.length := by omega
        simp only [if_pos hf]
        have hw : ∃ buf', writeChar c buf pos = some buf' ∧ buf'.length = buf.length := by
          unfold writeChar
          have := lenUtf8_eq c
          rw [if_pos (by omega)]
          refine ⟨_, rfl, ?_⟩
          simp only [List.length_append, List.length_take, List.length_drop]
          omega
        obtain ⟨buf', h1, h2⟩ := hw
        simp only [h1]
        rw [ih rfl n i buf' _ (by omega) (by rw [lenUtf8_eq, h2]; omega) (fun c' q' e => by
          have := hq c' q' e
          rw [lenUtf8_eq, h2]; omega)]
        simp

/-- Each call of `next` takes one turn, and one for each chunk that it passes. -/
theorem TextIter.nextTurns_le {C CS P : Type} (O : ChunkOps C CS P) (cs : List C) (cur : Option CS) :
    TextIter.nextTurns O cs cur + ((TextIter.nextLoop O cs cur).2.2.length + (TextIter.nextLoop O cs cur).2.1.toList.length) ≤
      1 + (cs.length + cur.toList.length) := by
  induction cs generalizing cur with
  | nil =>
    cases cur with
    | none => simp [TextIter.nextTurns, TextIter.nextLoop]
    | some s =>
      unfold TextIter.nextTurns TextIter.nextLoop
      rcases hs : O.next s with ⟨_ | _ | _ | _, s'⟩ <;> try simp
      rename_i o
      cases o <;> simp
  | cons c cs ih =>
    cases cur with
    | none => simp [TextIter.nextTurns, TextIter.nextLoop]
    | some s =>
      have := ih (some (O.srcStrm c))
      unfold TextIter.nextTurns TextIter.nextLoop
      rcases hs : O.next s with ⟨_ | _ | _ | _, s'⟩ <;> try simp
      rename_i o
      cases o <;> simp at this ⊢
      omega

end Kul
