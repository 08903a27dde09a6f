import Verif.Proof.Unbound
import Verif.Props.Concrete
import Verif.Props.Streams
import Verif.Props.Append

/-!
# Bindings that are not used (C74)
-/

namespace Kul

variable {σ P τ ε α CE : Type}

/-- C74. Any parser, whatever its source stream, text type, memory and bindings are and do. If, without the bindings, a
call of `next` returns `None`, or a datum none of whose operators is bound, or the error for an end delimiter without a
start, then with the bindings it returns the same and leaves the same state. -/
theorem C74_call (E : Env σ P τ ε α CE) {s o s'} (h : E.unbound.Call s o s')
    (hd : ∀ d, o = .ok (some d) → ∀ h, OperatorIn h d → E.lookup h = none)
    (ho : (∃ r, o = .ok r) ∨ ∃ p, o = .err (.unbalancedEndChar p)) : E.Call s o s' := by
  obtain ⟨n, h, hf⟩ := h
  refine ⟨n, (E.unbound_parse n).1 _ _ _ _ h ?_, hf⟩
  rcases ho with ⟨r, rfl⟩ | ⟨p, rfl⟩
  · cases r with
    | none => trivial
    | some d => exact hd d rfl
  · exact ⟨p, rfl⟩

/-- C74. A whole source: if all that it yields without the bindings is datums none of whose operators is bound, and
errors for end delimiters without a start, then with the bindings it yields the same, and nothing else is possible. -/
theorem C74_yields (E : Env σ P τ ε α CE) {s l t} (h : E.unbound.Yields s l t)
    (hd : ∀ d, .ok d ∈ l → ∀ h, OperatorIn h d → E.lookup h = none)
    (he : ∀ e, .error e ∈ l → ∃ p, e = .unbalancedEndChar p) :
    E.Yields s l t ∧ ∀ l' t', E.Yields s l' t' → l' = l ∧ t' = t := by
  have key : E.Yields s l t := by
    induction h with
    | done h => exact .done (C74_call E h (fun d hd => by cases hd) (Or.inl ⟨_, rfl⟩))
    | @datum s d s' l s'' h _ ih =>
      refine .datum (C74_call E h (fun d' hd' => ?_) (Or.inl ⟨_, rfl⟩)) (ih (fun d h => hd d (List.mem_cons_of_mem _ h))
        (fun e h => he e (List.mem_cons_of_mem _ h)))
      cases hd'
      exact hd _ List.mem_cons_self
    | @error s e s' l s'' h _ ih =>
      obtain ⟨p, rfl⟩ := he _ List.mem_cons_self
      exact .error (C74_call E h (fun d hd => by cases hd) (Or.inr ⟨_, rfl⟩)) (ih (fun d h => hd d (List.mem_cons_of_mem _ h))
        (fun e h => he e (List.mem_cons_of_mem _ h)))
  exact ⟨key, fun l' t' h' => h'.unique key⟩

/-- C74. `parse_str`, with any bindings: if what it returns without them has no bound operator, and no error, then it
returns the same with them. -/
theorem C74_parse_str {lookup : Datum (TextVec PosStr) ε → Option (Combiner (TextVec PosStr) ε α StrPos CE)} (s : Str)
    (a : α) {n k n' k'} {ds : List (Datum (TextVec PosStr) ε)} {v t t'}
    (h : parseStrWith n k (noBindings _ ε α StrPos CE) s a = (.ok (ds.map .ok), t))
    (h' : parseStrWith n' k' lookup s a = (.ok v, t'))
    (hd : ∀ d ∈ ds, ∀ h, OperatorIn h d → lookup h = none) : v = ds.map .ok := by
  obtain ⟨l₀, _, _, _, g0, _⟩ := (inmem_conf (noBindings _ ε α StrPos CE)).yields_run a
    (AtItems.fresh (strSource_means _ s))
  have oks : ∀ x ∈ ds.map (Except.ok (ε := Err StrPos CE)), ∃ d, x = .ok d := by
    intro x hx
    obtain ⟨d, _, rfl⟩ := List.mem_map.1 hx
    exact ⟨d, rfl⟩
  have e0 := ((C46_parse_str _ s a g0).2 _ _ _ _ h).eq_of_ok oks
  subst e0
  have := (C74_yields (inmemEnv lookup) (l := ds.map .ok) g0 (fun d hm => hd d (by simpa using hm))
    (fun e hm => by simp at hm)).1
  have e1 := (C46_parse_str _ s a this).2 _ _ _ _ h'
  obtain ⟨w, _, hu⟩ := upToFirstError_total_unique (ds.map (Except.ok (ε := Err StrPos CE)))
  have h3 : UpToFirstError (ds.map (Except.ok (ε := Err StrPos CE))) (ds.map .ok) := by
    have := UpToFirstError.append (l₂ := []) (v₂ := []) (upToFirstError_nil.2 rfl) _ oks
    simpa using this
  rw [hu _ e1, hu _ h3]

/-! ## The hypotheses are met, and are needed -/

/-- The combiner that counts is bound to `{}`. In `{f {}}}x` it is only an operand, and there is an
end delimiter without a start. -/
example :
    (∃ t, (inmemEnv (countingLookup _ _)).unbound.Yields (St.init (inmemSource "{f {}}}x".toList) 0)
      [.ok (.combination (.text (.single ⟨['f'], ⟨"{f {}}}x".toList, 1, 1⟩⟩)) (.list .emptyNest .emptyList)),
       .error (.unbalancedEndChar ⟨"{f {}}}x".toList, 6, 6⟩),
       .ok (.text (.single ⟨['x'], ⟨"{f {}}}x".toList, 7, 7⟩⟩))] t) ∧
    (∀ h, OperatorIn h (.combination (.text (.single ⟨['f'], ⟨"{f {}}}x".toList, 1, 1⟩⟩)) (.list .emptyNest .emptyList)) →
      (inmemEnv (countingLookup _ _)).lookup h = none) ∧
    (inmemEnv (countingLookup _ _)).lookup .emptyNest ≠ none := by
  refine ⟨Env.yields_of' 80 9 (by decide +kernel), fun h hh => ?_, fun h => by cases h⟩
  cases hh with
  | here => rfl
  | operator h => cases h
  | operands h => cases h with | element h => cases h | rest h => cases h

/-- It is false when an operator is bound: without the bindings `{{}}` is a datum, with them it is removed. And it is
false when a nest is not closed, since the combiner of a nest within has been called: then what is yielded is the same in
`{a {{}}`, but not the state. -/
example :
    (∃ t, (inmemEnv (countingLookup _ _)).unbound.Yields (St.init (inmemSource "{{}}".toList) 0)
      [.ok (.combination .emptyNest .emptyList)] t ∧ t.alloc = 0) ∧
    (∃ t, (inmemEnv (countingLookup _ _)).Yields (St.init (inmemSource "{{}}".toList) 0) [] t ∧ t.alloc = 1) ∧
    (∃ t, (inmemEnv (countingLookup _ _)).unbound.Yields (St.init (inmemSource "{a {{}}".toList) 0)
      [.error .missingEndChar] t ∧ t.alloc = 0) ∧
    (∃ t, (inmemEnv (countingLookup _ _)).Yields (St.init (inmemSource "{a {{}}".toList) 0)
      [.error .missingEndChar] t ∧ t.alloc = 1) := by
  refine ⟨?_, ?_, ?_, ?_⟩
  all_goals
    first
    | obtain ⟨l, t, h, e⟩ := Env.yields_of_view (fun p => (p.1, p.2.alloc)) (n := 80) (k := 9)
        (E := (inmemEnv (countingLookup _ _)).unbound) (v := ([.ok (.combination .emptyNest .emptyList)], 0))
        (s := St.init (inmemSource "{{}}".toList) 0) (by decide +kernel)
      simp only [Prod.mk.injEq] at e
      exact ⟨t, e.1 ▸ h, e.2⟩
    | obtain ⟨l, t, h, e⟩ := Env.yields_of_view (fun p => (p.1, p.2.alloc)) (n := 80) (k := 9)
        (E := inmemEnv (countingLookup _ _)) (v := ([], 1))
        (s := St.init (inmemSource "{{}}".toList) 0) (by decide +kernel)
      simp only [Prod.mk.injEq] at e
      exact ⟨t, e.1 ▸ h, e.2⟩
    | obtain ⟨l, t, h, e⟩ := Env.yields_of_view (fun p => (p.1, p.2.alloc)) (n := 80) (k := 9)
        (E := (inmemEnv (countingLookup _ _)).unbound) (v := ([.error .missingEndChar], 0))
        (s := St.init (inmemSource "{a {{}}".toList) 0) (by decide +kernel)
      simp only [Prod.mk.injEq] at e
      exact ⟨t, e.1 ▸ h, e.2⟩
    | obtain ⟨l, t, h, e⟩ := Env.yields_of_view (fun p => (p.1, p.2.alloc)) (n := 80) (k := 9)
        (E := inmemEnv (countingLookup _ _)) (v := ([.error .missingEndChar], 1))
        (s := St.init (inmemSource "{a {{}}".toList) 0) (by decide +kernel)
      simp only [Prod.mk.injEq] at e
      exact ⟨t, e.1 ▸ h, e.2⟩

end Kul
