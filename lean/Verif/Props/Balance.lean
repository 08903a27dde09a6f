import Verif.Proof.Balance
import Verif.Proof.Transfer
import Verif.Proof.Sample

/-!
# C05, C06, C07: errors and the balance of delimiters

The specification is the scan `balance` of `Spec/Balance.lean`. Bindings are arbitrary;
the errors of combiners and of memory are those of `CombinerError` and `MemoryError`.
-/

namespace Kul

variable {σ P τ ε α CE : Type} {E : Env σ P τ ε α CE} {RS : σ → Seq P → Prop} {X : TextSem P τ α}

/-- A list of results is all datums, or has a first error. -/
theorem results_cases {A B : Type} (l : List (Except A B)) :
    (∃ ds : List B, l = ds.map .ok) ∨
    (∃ (ds : List B) (e : A) (l' : List (Except A B)), l = ds.map .ok ++ .error e :: l') := by
  induction l with
  | nil => exact Or.inl ⟨[], rfl⟩
  | cons x l ih =>
    cases x with
    | error e => exact Or.inr ⟨[], e, l, rfl⟩
    | ok d =>
      rcases ih with ⟨ds, rfl⟩ | ⟨ds, e, l', rfl⟩
      · exact Or.inl ⟨d :: ds, rfl⟩
      · exact Or.inr ⟨d :: ds, e, l', rfl⟩

theorem Run.bal_ok {cc : Classifier} {al : AllocOps τ ε α}
    {lookup : Datum τ ε → Option (Combiner τ ε α P CE)} (D : cc.Disjoint) {r a l r' a'}
    (h : Run cc X al lookup r a l r' a') : ∀ ds : List (Datum τ ε), l = ds.map .ok → balance cc 0 r = .opened 0 := by
  induction h with
  | done h =>
    intro ds _
    have hr := (Run.done h).rest
    have hb := h.bal D
    rw [hb, hr]
    rfl
  | datum h _ ih =>
    intro ds hd
    cases ds with
    | nil => cases hd
    | cons d ds =>
      simp only [List.map_cons, List.cons.injEq] at hd
      exact (h.bal D).trans (ih ds hd.2)
  | error h _ ih =>
    intro ds hd
    cases ds <;> cases hd

theorem Run.bal_err {cc : Classifier} {al : AllocOps τ ε α}
    {lookup : Datum τ ε → Option (Combiner τ ε α P CE)} (D : cc.Disjoint) {r a l r' a'}
    (h : Run cc X al lookup r a l r' a') : ∀ (ds : List (Datum τ ε)) e l', l = ds.map .ok ++ .error e :: l' →
    MemoryError X.F al e ∨ CombinerError lookup e ∨
    (e = .missingEndChar ∧ l' = [] ∧ ∃ k, 0 < k ∧ balance cc 0 r = .opened k) ∨
    (∃ it r₁ a₁, e = .unbalancedEndChar it.pos ∧ balance cc 0 r = .unmatched it r₁ ∧
      Run cc X al lookup r₁ a₁ l' r' a') := by
  induction h with
  | done h => intro ds e l' hd; cases ds <;> cases hd
  | datum h _ ih =>
    intro ds e l' hd
    cases ds with
    | nil => cases hd
    | cons d ds =>
      simp only [List.map_cons, List.cons_append, List.cons.injEq] at hd
      rw [show balance cc 0 _ = balance cc 0 _ from h.bal D]
      exact ih ds e l' hd.2
  | error h h2 ih =>
    intro ds e l' hd
    cases ds with
    | cons d ds => cases hd
    | nil =>
      simp only [List.map_nil, List.nil_append, List.cons.injEq, Except.error.injEq] at hd
      obtain ⟨rfl, rfl⟩ := hd
      rcases h.bal with h1 | h1 | ⟨h1, h3, h4⟩ | ⟨it, h1, h3⟩
      · exact Or.inl h1
      · exact Or.inr (Or.inl h1)
      · subst h3
        refine Or.inr (Or.inr (Or.inl ⟨h1, ?_, h4 D⟩))
        simpa using h2.length
      · exact Or.inr (Or.inr (Or.inr ⟨it, _, _, h1, h3 D, h2⟩))

theorem AllocOps.Reliable.no_memoryError {al : AllocOps τ ε α} (A : al.Reliable) {F : Prop}
    (hF : ¬ F) (e : Err P CE) : ¬ MemoryError F al e := by
  rintro (⟨_, h | ⟨d, a, x, a', h⟩⟩ | ⟨_, d, a, a', h, h'⟩)
  · exact hF h
  · obtain ⟨a2, h2, _⟩ := A.newDatum d a
    rw [h2] at h; cases h
  · obtain ⟨a2, h2, h3⟩ := A.newDatum d a
    rw [h2] at h; cases h
    rw [h3] at h'; cases h'

/-- C05. When neither memory nor combiners fail, a parse yields no error if and only if
the unescaped delimiters of the source balance. The bindings are arbitrary and do not occur
on the right-hand side. -/
theorem C05_no_error_iff_balanced (C : Conf E RS X) (D : E.cc.Disjoint) (A : E.alloc.Reliable)
    (hF : ¬ X.F) (hc : ∀ e, ¬ CombinerError E.lookup e) {s : σ} {r : List (Item P)}
    (hs : RS s ⟨[], r⟩) {a : α} {l t} (hy : E.Yields (St.init s a) l t) :
    (∀ x ∈ l, ∃ d, x = .ok d) ↔ Balanced E.cc r := by
  obtain ⟨s', a', rfl, _, hr⟩ := C.yields_inv (AtItems.fresh hs) hy
  rcases results_cases l with ⟨ds, rfl⟩ | ⟨ds, e, l', rfl⟩
  · exact ⟨fun _ => hr.bal_ok D ds rfl, fun _ => by simp⟩
  · constructor
    · intro h
      obtain ⟨d, h⟩ := h (.error e) (by simp)
      cases h
    · intro hb
      rcases hr.bal_err D ds e l' rfl with h | h | ⟨_, _, k, hk, h⟩ | ⟨it, r₁, _, _, h, _⟩
      · exact absurd h (A.no_memoryError hF e)
      · exact absurd h (hc e)
      · rw [Balanced, h] at hb; cases hb; omega
      · rw [Balanced, h] at hb; cases hb

/-- C06, first part. If the first error is `UnbalancedEndChar(p)`, and no combiner
returns that error, then `p` is the position of the first unmatched end delimiter. -/
theorem C06_reported_is_unmatched (C : Conf E RS X) (D : E.cc.Disjoint)
    {s : σ} {r : List (Item P)} (hs : RS s ⟨[], r⟩) {a : α} {ds : List (Datum τ ε)} {p : P} {l t}
    (hc : ¬ CombinerError E.lookup (.unbalancedEndChar p))
    (hy : E.Yields (St.init s a) (ds.map .ok ++ .error (.unbalancedEndChar p) :: l) t) :
    ∃ it rest, balance E.cc 0 r = .unmatched it rest ∧ it.pos = p := by
  obtain ⟨s', a', rfl, _, hr⟩ := C.yields_inv (AtItems.fresh hs) hy
  rcases hr.bal_err D ds _ l rfl with (⟨⟨x, h⟩, _⟩ | ⟨h, _⟩) | h | ⟨h, _⟩ | ⟨it, r₁, _, h, h2, _⟩
  · cases h
  · cases h
  · exact absurd h hc
  · cases h
  · cases h; exact ⟨it, r₁, h2, rfl⟩

/-- C06, second part. If the source has an unmatched end delimiter and nothing else
fails, the first error is `UnbalancedEndChar` with its position. -/
theorem C06_unmatched_is_reported (C : Conf E RS X) (D : E.cc.Disjoint) (A : E.alloc.Reliable)
    (hF : ¬ X.F) (hc : ∀ e, ¬ CombinerError E.lookup e) {s : σ} {r : List (Item P)}
    (hs : RS s ⟨[], r⟩) {a : α} {l t} (hy : E.Yields (St.init s a) l t) {it rest}
    (hb : balance E.cc 0 r = .unmatched it rest) :
    ∃ (ds : List (Datum τ ε)) (l' : _), l = ds.map .ok ++ .error (.unbalancedEndChar it.pos) :: l' := by
  obtain ⟨s', a', rfl, _, hr⟩ := C.yields_inv (AtItems.fresh hs) hy
  rcases results_cases l with ⟨ds, rfl⟩ | ⟨ds, e, l', rfl⟩
  · rw [hr.bal_ok D ds rfl] at hb; cases hb
  · rcases hr.bal_err D ds e l' rfl with h | h | ⟨_, _, k, hk, h⟩ | ⟨it, r₁, _, rfl, h, _⟩
    · exact absurd h (A.no_memoryError hF e)
    · exact absurd h (hc e)
    · rw [h] at hb; cases hb
    · rw [h] at hb; cases hb; exact ⟨ds, l', rfl⟩

/-- C07, first part. If the first error is `MissingEndChar`, and no combiner returns that
error, then all end delimiters are matched and at least one start delimiter is not. The
error is then the last item of the parse. -/
theorem C07_reported_is_open (C : Conf E RS X) (D : E.cc.Disjoint)
    {s : σ} {r : List (Item P)} (hs : RS s ⟨[], r⟩) {a : α} {ds : List (Datum τ ε)} {l t}
    (hc : ¬ CombinerError E.lookup .missingEndChar)
    (hy : E.Yields (St.init s a) (ds.map .ok ++ .error .missingEndChar :: l) t) :
    (∃ k, 0 < k ∧ balance E.cc 0 r = .opened k) ∧ l = [] := by
  obtain ⟨s', a', rfl, _, hr⟩ := C.yields_inv (AtItems.fresh hs) hy
  rcases hr.bal_err D ds _ l rfl with (⟨⟨x, h⟩, _⟩ | ⟨h, _⟩) | h | ⟨_, h2, h3⟩ | ⟨it, r₁, _, h, h2, _⟩
  · cases h
  · cases h
  · exact absurd h hc
  · exact ⟨h3, h2⟩
  · cases h

/-- C07, second part. If the source ends inside a nest and nothing else fails, then
the parse yields datums followed by `MissingEndChar` and nothing more. -/
theorem C07_open_is_reported (C : Conf E RS X) (D : E.cc.Disjoint) (A : E.alloc.Reliable)
    (hF : ¬ X.F) (hc : ∀ e, ¬ CombinerError E.lookup e) {s : σ} {r : List (Item P)}
    (hs : RS s ⟨[], r⟩) {a : α} {l t} (hy : E.Yields (St.init s a) l t) {k : Nat} (hk : 0 < k)
    (hb : balance E.cc 0 r = .opened k) :
    ∃ ds : List (Datum τ ε), l = ds.map .ok ++ [.error .missingEndChar] := by
  obtain ⟨s', a', rfl, _, hr⟩ := C.yields_inv (AtItems.fresh hs) hy
  rcases results_cases l with ⟨ds, rfl⟩ | ⟨ds, e, l', rfl⟩
  · rw [hr.bal_ok D ds rfl] at hb; cases hb; omega
  · rcases hr.bal_err D ds e l' rfl with h | h | ⟨rfl, rfl, k, hk, h⟩ | ⟨it, r₁, _, rfl, h, _⟩
    · exact absurd h (A.no_memoryError hF e)
    · exact absurd h (hc e)
    · exact ⟨ds, rfl⟩
    · rw [h] at hb; cases hb

/-! Non-vacuity: a parser with an operative, an applicative, and the default
delimiters. -/

/-- Bindings for examples: `o` drops its nest, `p` is replaced by its operand list. -/
def sampleLookup : Datum (List (Item Nat)) Empty → Option (Combiner (List (Item Nat)) Empty Unit Nat Empty)
  | .text t => if t.map Item.ch = ['o'] then some (.operative fun _ _ a => (.ok none, a))
      else if t.map Item.ch = ['p'] then some (.applicative fun _ l a => (.ok (some l), a)) else none
  | _ => none

theorem sampleLookup_no_error (e : Err Nat Empty) : ¬ CombinerError sampleLookup e := by
  rintro (⟨h, f, t, a, a', h1, h2⟩ | ⟨h, f, t, a, a', h1, h2⟩) <;> cases h <;>
    simp only [sampleLookup] at h1 <;> (try split at h1) <;> (try split at h1) <;> cases h1 <;> cases h2

theorem freeAlloc_reliable (P τ ε : Type) : (freeAlloc P τ ε).Reliable :=
  ⟨fun _ _ => ⟨_, rfl, rfl⟩⟩

def boundEnv : Env (Seq Nat) Nat (List (Item Nat)) Empty Unit Empty :=
  seqEnv defaultClassifier (freeAlloc _ _ _) sampleLookup

/-- C05: `{p a{o }}\}` balances. -/
example (l t) (hy : boundEnv.Yields (St.init ⟨[], itemsOf "{p a{o }}\\}"⟩ ()) l t) :
    ∀ x ∈ l, ∃ d, x = .ok d :=
  (C05_no_error_iff_balanced (seqConf _ _ _) defaultClassifier_disjoint (freeAlloc_reliable _ _ _)
    (fun h => h) sampleLookup_no_error (r := itemsOf "{p a{o }}\\}") rfl hy).2 (by unfold Balanced; decide +kernel)

/-- C06: in `{p \}}a}}` the delimiter at position 7 is the first unmatched one. -/
example : ∃ (ds : List (Datum (List (Item Nat)) Empty)) (l : _) (t : _), boundEnv.Yields
    (St.init ⟨[], itemsOf "{p \\}}a}}"⟩ ()) (ds.map .ok ++ .error (.unbalancedEndChar 7) :: l) t ∧
    balance defaultClassifier 0 (itemsOf "{p \\}}a}}") = .unmatched ⟨'}', 7⟩ [⟨'}', 8⟩] := by
  obtain ⟨t, h⟩ := Env.yields_of' (E := boundEnv) 80 9 (s := St.init ⟨[], itemsOf "{p \\}}a}}"⟩ ())
    (l := [.list (.text [⟨'}', 4⟩]) .emptyList].map .ok ++
      [.error (.unbalancedEndChar 7), .error (.unbalancedEndChar 8)]) (by decide +kernel)
  exact ⟨[.list (.text [⟨'}', 4⟩]) .emptyList], [.error (.unbalancedEndChar 8)], t, h, by decide +kernel⟩

/-- C07: `a{o {}` ends inside one nest. -/
example : (∃ (ds : List (Datum (List (Item Nat)) Empty)) (t : _), boundEnv.Yields
    (St.init ⟨[], itemsOf "a{o {}"⟩ ()) (ds.map .ok ++ [.error .missingEndChar]) t) ∧
    balance defaultClassifier 0 (itemsOf "a{o {}") = .opened 1 := by
  obtain ⟨t, h⟩ := Env.yields_of' (E := boundEnv) 80 9 (s := St.init ⟨[], itemsOf "a{o {}"⟩ ())
    (l := [.text [⟨'a', 0⟩]].map .ok ++ [.error .missingEndChar]) (by decide +kernel)
  exact ⟨⟨_, t, h⟩, by decide +kernel⟩

end Kul
