import Verif.Proof.Mono
import Verif.Proof.GramComplete

/-! # Whole parses -/

namespace Kul

variable {σ P τ ε α CE : Type} {cc : Classifier} {X : TextSem P τ α} {al : AllocOps τ ε α}
  {lookup : Datum τ ε → Option (Combiner τ ε α P CE)}

/-- At top level every result but the end consumes something. -/
def TopProgress (j : Job) (r : List (Item P)) (o : Except (Err P CE) (List (Datum τ ε)))
    (r' : List (Item P)) : Prop :=
  match j with
  | .next .base 0 => o ≠ .ok [] → r'.length < r.length
  | _ => True

theorem Eval.top_progress {j r a o r' a'} (h : Eval cc X al lookup j r a o r' a') :
    TopProgress j r o r' := by
  induction h with
  | @next_eof m d r a o h ho =>
    cases m <;> cases d <;> first | trivial | (intro h'; exact absurd ho.symm h')
  | @next_nest m d r a it r1 o r' a' h1 h2 h3 h4 ih =>
    cases m <;> cases d <;> try trivial
    rw [lead_base] at h1
    intro _
    rw [h1]; exact h3.length
  | @next_removed m d r a it r1 r2 a2 o r' a' h1 h2 h3 h4 ih1 ih2 =>
    cases m <;> cases d <;> try trivial
    rw [lead_base] at h1
    intro ho
    have := h3.length
    have h5 := ih2 ho
    simp only [LenP] at this
    rw [h1]; omega
  | @next_end m d r a it r1 o r' h1 h2 h3 ho =>
    cases m <;> cases d <;> try trivial
    rw [lead_base] at h1
    intro _
    rcases endForm_cases ho with ⟨_, _, rfl⟩ | ⟨h, _⟩
    · rw [h1]; simp
    · exact absurd rfl h
  | @next_text m d r a it r1 o r' a' h1 h2 h3 ho =>
    cases m <;> cases d <;> try trivial
    intro _
    obtain ⟨o', ho'⟩ := ho.ev
    have := ho'.progress (isEndChar_of_lead cc (by simp) h1 h2 h3) h3
    rw [lead_base] at h1
    rw [h1]; exact this
  | _ => trivial

variable (cc X al lookup)

/-- Successive results at top level, errors included, to the end of the source. -/
inductive Run : List (Item P) → α → List (Except (Err P CE) (Datum τ ε)) → List (Item P) → α → Prop where
  | done {r a r' a'} : Eval cc X al lookup (.next .base 0) r a (.ok []) r' a' → Run r a [] r' a'
  | datum {r a d r₁ a₁ l r' a'} : Eval cc X al lookup (.next .base 0) r a (.ok [d]) r₁ a₁ →
      Run r₁ a₁ l r' a' → Run r a (.ok d :: l) r' a'
  | error {r a e r₁ a₁ l r' a'} : Eval cc X al lookup (.next .base 0) r a (.error e) r₁ a₁ →
      Run r₁ a₁ l r' a' → Run r a (.error e :: l) r' a'

variable {cc X al lookup}

theorem TopEval.run {r a ds r' a'} (h : TopEval cc X al lookup r a ds r' a') :
    Run cc X al lookup r a (ds.map .ok) r' a' := by
  induction h with
  | done h => exact .done h
  | step h _ ih => exact .datum h ih

theorem Run.top {r a l r' a'} (h : Run cc X al lookup r a l r' a') :
    ∀ ds, l = ds.map .ok → TopEval cc X al lookup r a ds r' a' := by
  induction h with
  | done h =>
    intro ds hd
    cases ds with
    | nil => exact .done h
    | cons => cases hd
  | datum h _ ih =>
    intro ds hd
    cases ds with
    | nil => cases hd
    | cons d ds =>
      simp only [List.map_cons, List.cons.injEq, Except.ok.injEq] at hd
      obtain ⟨rfl, hd⟩ := hd
      exact .step h (ih ds hd)
  | error h _ ih =>
    intro ds hd
    cases ds <;> cases hd

theorem Run.det (hX : X.Func) {r a l r' a'} (h : Run cc X al lookup r a l r' a') :
    ∀ {l2 r2 a2}, Run cc X al lookup r a l2 r2 a2 → l = l2 ∧ r' = r2 ∧ a' = a2 := by
  induction h with
  | done h =>
    intro l2 r2 a2 h2
    cases h2 with
    | done h' => obtain ⟨_, rfl, rfl⟩ := h.det hX h'; exact ⟨rfl, rfl, rfl⟩
    | datum h' => obtain ⟨h, _⟩ := h.det hX h'; cases h
    | error h' => obtain ⟨h, _⟩ := h.det hX h'; cases h
  | datum h _ ih =>
    intro l2 r2 a2 h2
    cases h2 with
    | done h' => obtain ⟨h, _⟩ := h.det hX h'; cases h
    | datum h' h'' =>
      obtain ⟨h1, rfl, rfl⟩ := h.det hX h'
      cases h1
      obtain ⟨rfl, rfl, rfl⟩ := ih h''
      exact ⟨rfl, rfl, rfl⟩
    | error h' => obtain ⟨h, _⟩ := h.det hX h'; cases h
  | error h _ ih =>
    intro l2 r2 a2 h2
    cases h2 with
    | done h' => obtain ⟨h, _⟩ := h.det hX h'; cases h
    | datum h' => obtain ⟨h, _⟩ := h.det hX h'; cases h
    | error h' h'' =>
      obtain ⟨h1, rfl, rfl⟩ := h.det hX h'
      cases h1
      obtain ⟨rfl, rfl, rfl⟩ := ih h''
      exact ⟨rfl, rfl, rfl⟩

theorem Run.length {r a l r' a'} (h : Run cc X al lookup r a l r' a') : l.length ≤ r.length := by
  induction h with
  | done h => simp
  | datum h _ ih =>
    have : _ < _ := h.top_progress (by simp)
    simp only [List.length_cons]; omega
  | error h _ ih =>
    have : _ < _ := h.top_progress (by simp)
    simp only [List.length_cons]; omega

theorem Run.rest {r a l r' a'} (h : Run cc X al lookup r a l r' a') : r' = [] := by
  induction h with
  | done h =>
    rcases h.at_end rfl with ⟨_, h⟩ | ⟨h, _⟩
    · exact h
    · exact absurd rfl h
  | datum _ _ ih => exact ih
  | error _ _ ih => exact ih

variable {E : Env σ P τ ε α CE} {RS : σ → Seq P → Prop}

/-- Every parse on a conforming source comes to an end. -/
theorem Conf.yields_run (C : Conf E RS X) (a : α) : ∀ {s : σ} {r : List (Item P)}, AtItems RS s r →
    ∃ l s' r' a', E.Yields ⟨s, a, 0⟩ l ⟨s', a', 0⟩ ∧ AtItems RS s' r' ∧
      Run E.cc X E.alloc E.lookup r a l r' a' := by
  suffices H : ∀ n (s : σ) (r : List (Item P)) (a : α), r.length = n → AtItems RS s r →
      ∃ l s' r' a', E.Yields ⟨s, a, 0⟩ l ⟨s', a', 0⟩ ∧ AtItems RS s' r' ∧
        Run E.cc X E.alloc E.lookup r a l r' a' from fun {s r} h => H _ s r a rfl h
  intro n
  induction n using Nat.strongRecOn with
  | ind n ih =>
    rintro s r a rfl h
    obtain ⟨o, s', r', a', h1, h2, h3⟩ := C.call h a
    have hp : o ≠ .ok [] → r'.length < r.length := h3.top_progress
    have hl : ∀ l, o = .ok l → l.length ≤ 1 := h3.le_one
    match o, hp, hl with
    | .error e, hp, _ =>
      obtain ⟨l, s2, r2, a2, h4, h5, h6⟩ := ih _ (hp (by simp)) s' r' a' rfl h2
      exact ⟨_, s2, r2, a2, .error h1 h4, h5, .error h3 h6⟩
    | .ok [], _, _ => exact ⟨[], s', r', a', .done h1, h2, .done h3⟩
    | .ok [d], hp, _ =>
      obtain ⟨l, s2, r2, a2, h4, h5, h6⟩ := ih _ (hp (by simp)) s' r' a' rfl h2
      exact ⟨_, s2, r2, a2, .datum h1 h4, h5, .datum h3 h6⟩
    | .ok (_ :: _ :: _), _, hl => have := hl _ rfl; simp at this

/-- The items of a parse are a function of the starting state. -/
theorem Env.Yields.unique {s : St σ α} {l s'} (h : E.Yields s l s') :
    ∀ {l2 s2}, E.Yields s l2 s2 → l = l2 ∧ s' = s2 := by
  induction h with
  | done h =>
    intro l2 s2 h2
    cases h2 with
    | done h' => exact ⟨rfl, (h.unique h').2⟩
    | datum h' => cases (h.unique h').1
    | error h' => cases (h.unique h').1
  | datum h _ ih =>
    intro l2 s2 h2
    cases h2 with
    | done h' => cases (h.unique h').1
    | datum h' h'' =>
      obtain ⟨h1, rfl⟩ := h.unique h'
      cases h1
      obtain ⟨rfl, rfl⟩ := ih h''
      exact ⟨rfl, rfl⟩
    | error h' => cases (h.unique h').1
  | error h _ ih =>
    intro l2 s2 h2
    cases h2 with
    | done h' => cases (h.unique h').1
    | datum h' => cases (h.unique h').1
    | error h' h'' =>
      obtain ⟨h1, rfl⟩ := h.unique h'
      cases h1
      obtain ⟨rfl, rfl⟩ := ih h''
      exact ⟨rfl, rfl⟩

/-- Every parse on a conforming source follows the rules. -/
theorem Conf.yields_inv (C : Conf E RS X) {s : σ} {r : List (Item P)} (h : AtItems RS s r) {a : α} {l t}
    (hy : E.Yields ⟨s, a, 0⟩ l t) : ∃ s' a', t = ⟨s', a', 0⟩ ∧ AtItems RS s' [] ∧
      Run E.cc X E.alloc E.lookup r a l [] a' := by
  obtain ⟨l2, s', r', a', h1, h2, h3⟩ := C.yields_run a h
  obtain ⟨rfl, rfl⟩ := hy.unique h1
  have := h3.rest
  subst this
  exact ⟨s', a', rfl, h2, h3⟩

/-- Items stood for by a fresh stream. -/
theorem AtItems.fresh {s : σ} {r : List (Item P)} (h : RS s ⟨[], r⟩) : AtItems RS s r :=
  ⟨[], h, Or.inl rfl⟩

/-- An accepted source is written in the grammar. -/
theorem TopEval.sound (D : cc.Disjoint) {Mem : α → α → Prop} (M : MemOk X al Mem) {r a ds r' a'}
    (h : TopEval cc X al lookup r a ds r' a') :
    ∀ b, (b = true → AtDelim cc r) → Reads cc X.RT Mem lookup (.forms true b) r a ds a' := by
  induction h with
  | done h =>
    intro b hb
    rcases h.at_end rfl with ⟨_, rfl⟩ | ⟨h, _⟩
    · obtain ⟨s, hs, h2⟩ := (h.sound D M _ rfl (fun h => absurd rfl h)).1 rfl
      rw [List.append_nil] at hs
      subst hs
      exact h2 b hb
    · exact absurd rfl h
  | step h h' ih =>
    intro b hb
    rcases (h.sound D M _ rfl (fun h => absurd rfl h)).2 _ rfl with ⟨s, k, rfl, h4, h5⟩ | ⟨_, rfl, h5⟩
    · exact h5 b hb _ _ _ _ (M.refl _) (ih k h4)
    · cases h' with
      | done h6 =>
        cases h6 with
        | next_eof => exact h5 b hb _ (M.refl _)
        | next_nest h => cases h
        | next_removed h => cases h
        | next_end h => cases h
        | next_text h => cases h
      | step h6 =>
        cases h6 with
        | next_eof _ h => cases h
        | next_nest h => cases h
        | next_removed h => cases h
        | next_end h => cases h
        | next_text h => cases h

end Kul
