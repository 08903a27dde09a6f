import Verif.Proof.ResultsPlain
import Verif.Props.Balance

/-!
# C52: what every source yields, errors included

The specification is `Spec/Results.lean`: `Results` for parsers with bindings and any memory,
`PlainResults` for parsers without bindings.
-/

namespace Kul

variable {σ P τ ε α CE : Type} {E : Env σ P τ ε α CE} {RS : σ → Seq P → Prop} {X : TextSem P τ α}

/-- C52. Whatever a parser yields, datums and errors to the end of the source, is what the
specification says of the source: with any bindings, any memory, any text type. -/
theorem C52_results (C : Conf E RS X) (D : E.cc.Disjoint) {Mem : α → α → Prop}
    (M : MemOk X E.alloc Mem) {s : σ} {r : List (Item P)} (hs : RS s ⟨[], r⟩) {a : α} {l t}
    (hy : E.Yields (St.init s a) l t) :
    Results E.cc X.RT Mem (MemoryError X.F E.alloc) E.lookup r a l t.alloc := by
  have key : ∀ (n : Nat) {l s r a}, l.length = n → AtItems RS s r → E.Yields (St.init s a) l t →
      Results E.cc X.RT Mem (MemoryError X.F E.alloc) E.lookup r a l t.alloc := by
    intro n
    induction n using Nat.strongRecOn with
    | ind n ih =>
    intro l s r a hn hs hy
    rcases results_cases l with ⟨ds, rfl⟩ | ⟨ds, e, l', rfl⟩
    · obtain ⟨s', a', rfl, _, hr⟩ := C.yields_inv hs hy
      exact .all ((hr.top ds rfl).sound D M false (fun h => by cases h))
    · obtain ⟨r₁, rest, s₁, a₁, rfl, h2, h3, h4⟩ := first_error_at C D M hs hy
      refine .fails h2 (ih l'.length ?_ rfl h3 h4)
      rw [← hn]
      simp only [List.length_append, List.length_cons]
      omega
  exact key _ rfl (AtItems.fresh hs) hy

theorem Results.run {cc : Classifier} {al : AllocOps τ ε α} {lookup : Datum τ ε → Option (Combiner τ ε α P CE)}
    (D : cc.Disjoint) (hX : ∀ a, X.RA a a) (hT : ∀ c, ∃ t, X.RT t c) (A : al.Free) {s a l a'}
    (h : Results cc X.RT Eq (fun _ => False) lookup s a l a') : Run cc X al lookup s a l [] a' := by
  induction h with
  | all h => exact TopEval.run (h.complete D hX A)
  | fails h1 _ ih => exact TopFail.run (h1.complete D hX hT A) ih

/-- C52. For the reference parser, with any bindings: a source yields exactly what the
specification says, and leaves exactly the state it says. -/
theorem C52_exact (cc : Classifier) (D : cc.Disjoint)
    (lookup : Datum (List (Item P)) ε → Option (Combiner (List (Item P)) ε α P CE))
    (r : List (Item P)) (a : α) (l : List (Except (Err P CE) (Datum (List (Item P)) ε))) (a' : α) :
    (∃ t, (seqEnv cc (freeAlloc _ ε α) lookup).Yields (St.init ⟨[], r⟩ a) l t ∧ t.alloc = a') ↔
    Results cc Eq Eq (fun _ => False) lookup r a l a' := by
  constructor
  · rintro ⟨t, hy, rfl⟩
    have h := C52_results (seqConf cc (freeAlloc _ ε α) lookup) D
      ⟨fun _ => rfl, fun _ _ _ h1 h2 => h1.trans h2, fun _ _ h => h, fun _ _ => rfl⟩ rfl hy
    have hm : MemoryError (P := P) (CE := CE) (seqSem P α).F (freeAlloc (List (Item P)) ε α) =
        fun _ => False := by
      funext e
      exact eq_false ((freeAlloc_reliable (List (Item P)) ε α).no_memoryError (fun h => h) e)
    rw [← hm]
    exact h
  · intro h
    obtain ⟨p, hy⟩ := (h.run (X := seqSem P α) D (fun _ => rfl) (fun c => ⟨c, rfl⟩) freeAlloc_free).seqYields
    exact ⟨_, hy, rfl⟩

/-! ## Without bindings -/

section
variable {cc : Classifier}

private theorem plain_fails (D : cc.Disjoint) {x : Item P} {q : List (Item P)} {k : Nat}
    (hx : cc.isNestStart x.ch = true) (hq : balance cc 0 q = .opened k) :
    Fails cc (fun t c => t = c) Eq (fun _ => False) (noBindings _ ε Unit P CE) .nest (x :: q) [] () []
      .missingEndChar () := by
  obtain ⟨l, s', r', a', hy, _⟩ := (seqConf cc (freeAlloc _ ε Unit) (noBindings _ ε Unit P CE)).yields_run ()
    (AtItems.fresh (s := (⟨[], x :: q⟩ : Seq P)) rfl)
  have h := (C52_exact cc D (noBindings _ ε Unit P CE) (x :: q) () l _).1 ⟨_, hy, rfl⟩
  generalize hr : x :: q = r at h
  cases h with
  | @all s a ds a' h =>
    exfalso
    subst hr
    have := (TopEval.run (h.complete D (X := seqSem P Unit) (fun _ => rfl) freeAlloc_free)).bal_ok D ds rfl
    rw [balance_start D hx, balance_opened_succ hq] at this
    cases this
  | @fails s rest a ds e a₁ l a' h1 _ =>
    rcases h1.plain_top (fun _ => rfl) rfl with ⟨p, t, c, y, rfl, h2, h3, h4, h5, rfl⟩ | ⟨p, q', a₂, rfl, h2, h3⟩
    · exfalso
      have : balance cc 0 (x :: q) = .unmatched y rest := by
        rw [hr, List.append_assoc, List.append_assoc, h2.balance D (fun b hb => by cases hb),
          h4.balance D (fun _ h => h)]
        exact balance_end_zero D h5
      rw [balance_start D hx, balance_opened_succ hq] at this
      cases this
    · have h4 := h3.plain_open D (fun _ => rfl)
      obtain ⟨rfl, rfl, x', q2, k', rfl, h5, h6⟩ := h4
      cases h2 with
      | nil =>
        simp only [List.nil_append, List.append_nil, List.cons.injEq] at hr
        obtain ⟨hr1, hr2⟩ := hr
        cases a₂
        cases a₁
        rw [List.nil_append, List.append_nil]
        exact h3
      | @text _ s c r ds h7 h8 _ =>
        exfalso
        cases s with
        | nil => exact h7 rfl
        | cons y s =>
          have := (List.cons.inj hr).1
          subst this
          obtain ⟨h9, _⟩ := delim_false (h8.head_not_delim D)
          rw [hx] at h9
          cases h9
      | @form _ _ s d r ds h7 h8 =>
        exfalso
        cases h7 with
        | @emptyNest b e h h9 h10 h11 =>
          obtain ⟨it, r', h12⟩ := (Gram.emptyNest (ε := ε) h9 h10 h11).nest_closes D rfl rfl (r ++ (x' :: q2))
          have : q = h ++ [e] ++ (r ++ x' :: q2) := by simpa using (List.cons.inj hr).2
          rw [this, h12] at hq
          cases hq
        | @combination b e h k d sep s ds h9 h10 h11 h12 h13 =>
          obtain ⟨it, r', h14⟩ := (Gram.combination (ε := ε) h9 h10 h11 h12 h13).nest_closes D rfl rfl (r ++ (x' :: q2))
          have : q = h ++ sep ++ s ++ [e] ++ (r ++ x' :: q2) := by simpa using (List.cons.inj hr).2
          rw [this, h14] at hq
          cases hq

theorem PlainResults.results (D : cc.Disjoint) {s : List (Item P)}
    {l : List (Except (Err P CE) (Datum (List (Item P)) ε))} (h : PlainResults cc s l) :
    Results cc Eq Eq (fun _ => False) (noBindings _ ε Unit P CE) s () l () := by
  induction h with
  | all h => exact .all (Gram.reads (fun _ => rfl) () h)
  | @stray s t c x rest ds l h1 h2 h3 h4 _ ih =>
    have hf : Fails cc Eq Eq (fun _ => False) (noBindings _ ε Unit P CE) (.forms true (endsText false ds))
        (t ++ [x]) rest () [] (.unbalancedEndChar x.pos) () := by
      rw [endsText_false.2 h2]
      cases t with
      | nil => exact .unbalanced h4
      | cons y t => exact .textUnbalanced (by simp) h3 h4 rfl
    have := Results.fails (h1.then_fails (lookup := noBindings _ ε Unit P CE) (fun _ => rfl) rfl hf) ih
    simpa using this
  | @unclosed s x rest k ds h1 h2 h3 =>
    have := Results.fails (h1.then_fails (lookup := noBindings _ ε Unit P CE) (fun _ => rfl) rfl (.inNest (plain_fails D h2 h3)))
      (.all (Gram.reads (fun _ => rfl) () .nil))
    simpa using this

theorem Results.plain (D : cc.Disjoint) {s : List (Item P)} {a a' : Unit}
    {l : List (Except (Err P CE) (Datum (List (Item P)) ε))}
    (h : Results cc Eq Eq (fun _ => False) (noBindings _ ε Unit P CE) s a l a') : PlainResults cc s l := by
  induction h with
  | all h =>
    obtain ⟨ds', h1, h2⟩ := h.gram (fun _ => rfl)
    rw [forall₂_datumRel_eq.mp h1]
    exact .all h2
  | @fails s rest a ds e a₁ l a' h1 h2 ih =>
    rcases h1.plain_top (fun _ => rfl) rfl with ⟨p, t, c, y, rfl, h2, h3, h4, h5, rfl⟩ | ⟨p, q', a₂, rfl, h3, h4⟩
    · have := PlainResults.stray h2 (endsText_false.1 h3) h4 h5 ih
      simpa using this
    · obtain ⟨rfl, rfl, x', q2, k', rfl, h5, h6⟩ := h4.plain_open D (fun _ => rfl)
      have hl : l = [] := by
        have := (h2.run (X := seqSem P Unit) (al := freeAlloc _ ε Unit) D (fun _ => rfl) (fun c => ⟨c, rfl⟩)
          freeAlloc_free).length
        simpa using this
      subst hl
      rw [List.append_nil]
      exact .unclosed h3 h5 h6

/-- C52. The specification for sources without bindings gives every source exactly one meaning:
the rules cover every source and never contradict each other. -/
theorem C52_plain_total_unique (D : cc.Disjoint) (s : List (Item P)) :
    ∃ l : List (Except (Err P CE) (Datum (List (Item P)) ε)), PlainResults cc s l ∧
      ∀ l', PlainResults cc s l' → l' = l := by
  obtain ⟨l, s', r', a', hy, _⟩ := (seqConf cc (freeAlloc _ ε Unit) (noBindings _ ε Unit P CE)).yields_run ()
    (AtItems.fresh (s := (⟨[], s⟩ : Seq P)) rfl)
  have h := (C52_exact cc D (noBindings _ ε Unit P CE) s () l _).1 ⟨_, hy, rfl⟩
  refine ⟨l, h.plain D, fun l' h' => ?_⟩
  exact ((h'.results D).run (X := seqSem P Unit) (al := freeAlloc _ ε Unit) D (fun _ => rfl) (fun c => ⟨c, rfl⟩)
    freeAlloc_free).det (seqSem_func P Unit) (h.run D (fun _ => rfl) (fun c => ⟨c, rfl⟩) freeAlloc_free) |>.1
end

/-- C52. A parser without bindings and with enough memory yields, for every source, exactly the
results that the specification gives it, with the texts of its own type. -/
theorem C52_plain (C : Conf E RS X) (D : E.cc.Disjoint) (hb : ∀ d, E.lookup d = none) (A : E.alloc.Reliable)
    (hF : ¬ X.F) {s : σ} {r : List (Item P)} (hs : RS s ⟨[], r⟩) {a : α} {l t}
    (hy : E.Yields (St.init s a) l t) (l' : List (Except (Err P CE) (Datum (List (Item P)) ε)))
    (h : PlainResults E.cc r l') : List.Forall₂ (ResultRel Eq Eq (DatumRel X.RT Eq)) l l' := by
  obtain ⟨l₁, h1, h2⟩ := C.yields_plain hb A hF hs hy
  obtain ⟨rfl, _⟩ := ((h.results D).run (X := seqSem P Unit) (al := freeAlloc _ ε Unit) D (fun _ => rfl)
    (fun c => ⟨c, rfl⟩) freeAlloc_free).det (seqSem_func P Unit) h1
  exact h2

/-! ## Non-vacuity -/

/-- C52: `a{b}c}d{e` yields `a`, the nest, an error for the stray `}` (which takes the text `c` with
it), `d`, and an error for the nest that is never closed. -/
example : PlainResults (CE := Empty) (ε := Empty) defaultClassifier (itemsOf "a{b}c}d{e")
    [.ok (.text [⟨'a', 0⟩]), .ok (.combination (.text [⟨'b', 2⟩]) .emptyList), .error (.unbalancedEndChar 5),
      .ok (.text [⟨'d', 6⟩]), .error .missingEndChar] :=
  .stray (s := [⟨'a', 0⟩, ⟨'{', 1⟩, ⟨'b', 2⟩, ⟨'}', 3⟩]) (t := [⟨'c', 4⟩]) (x := ⟨'}', 5⟩)
    (rest := [⟨'d', 6⟩, ⟨'{', 7⟩, ⟨'e', 8⟩]) (ds := [.text [⟨'a', 0⟩], .combination (.text [⟨'b', 2⟩]) .emptyList])
    (.text (s := [⟨'a', 0⟩]) (by simp) (.plain (by decide) (by decide) .nil)
      (.form (s := [⟨'{', 1⟩, ⟨'b', 2⟩, ⟨'}', 3⟩]) (r := [])
        (.combination (h := [⟨'b', 2⟩]) (sep := []) (r := []) (ds := []) (by decide) (by decide)
          (.textHead (ws := []) (fun _ h => by cases h) (by simp) (.plain (by decide) (by decide) .nil)) .empty .nil)
        .nil))
    (by simp) (.plain (by decide) (by decide) .nil) (by decide)
    (.unclosed (s := [⟨'d', 6⟩]) (ds := [.text [⟨'d', 6⟩]]) (k := 0)
      (.text (s := [⟨'d', 6⟩]) (r := []) (by simp) (.plain (by decide) (by decide) .nil) .nil)
      (by decide) (by decide +kernel))

/-- C52: a parser with bindings that log their calls, on a source with a failing combiner, a stray
end delimiter and an open nest. -/
example : ∃ l t, logEnv.Yields (St.init ⟨[], charsOf "a{p {o b}{x {q c}}{o d}}{q e}{p{o f}"⟩ []) l t ∧
    (l = [.ok (.text (charsOf "a")), .error (.failedCombiner 7), .ok (.text (charsOf "d")),
      .error (.unbalancedEndChar ()), .error .missingEndChar] ∧
      t.alloc = [['b'], ['c'], ['x'], ['d'], ['e'], ['f']]) ∧
    Results defaultClassifier Eq Eq (fun _ => False) logLookup (charsOf "a{p {o b}{x {q c}}{o d}}{q e}{p{o f}") []
      l t.alloc := by
  obtain ⟨l, t, h, ht⟩ := Env.yields_of_view (E := logEnv) (β := LogView) (n := 200) (k := 9)
    (s := St.init ⟨[], charsOf "a{p {o b}{x {q c}}{o d}}{q e}{p{o f}"⟩ [])
    (v := ([.ok (.text (charsOf "a")), .error (.failedCombiner 7), .ok (.text (charsOf "d")),
      .error (.unbalancedEndChar ()), .error .missingEndChar], [['b'], ['c'], ['x'], ['d'], ['e'], ['f']]))
    (fun x => (x.1, x.2.alloc)) (by decide +kernel)
  obtain ⟨h1, h2⟩ := Prod.mk.inj ht
  exact ⟨l, t, h, ⟨h1, h2⟩, (C52_exact _ defaultClassifier_disjoint _ _ _ _ _).1 ⟨t, h, rfl⟩⟩

end Kul
