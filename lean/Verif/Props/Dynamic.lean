import Verif.Proof.DynamicComplete
import Verif.Proof.DynamicCount
import Verif.Props.Bound
import Verif.Proof.Provided

/-!
# C76: bindings that change while parsing

`OperatorBindings::lookup` may answer differently at different times, and may change something
itself: combiners may define and remove operators. `U` is a parser whose bindings are asked in a
state (`Model/Dynamic.lean`); `Spec/Dynamic.lean` says what sources mean then, and how reading them
fails. The state is also the memory of the allocator and whatever else combiners can reach, so an
equation about the state says what was looked up and called, how often and in which order.
-/

namespace Kul

variable {σ P τ ε α CE : Type} {U : DynEnv σ P τ ε α CE} {RS : σ → Seq P → Prop} {X : TextSem P τ α}

open Dyn

/-! ## Any conforming parser -/

/-- C76. What an error-free parse yields, and the state it leaves, is a meaning of the source: every
head is looked up once, in the state that what is written before it and its own evaluation have
left, and everything after it is read in the state the lookup has left. -/
theorem C76_meaning (C : Conf U.env RS X) (D : U.env.cc.Disjoint) {Mem : α → α → Prop}
    (M : MemOk X U.env.alloc Mem) {s : σ} {r : List (Item P)} (hs : RS s ⟨[], r⟩) {a : α}
    {ds : List (Datum τ ε)} {t} (hy : U.Yields (St.init s a) (ds.map .ok) t) :
    Dyn.Means U.env.cc X.RT Mem U.lookup r a ds t.alloc := by
  obtain ⟨s', a', rfl, _, hr⟩ := Dyn.yields_inv C (AtItems.fresh hs) hy
  exact (hr.top ds rfl).sound D M false (fun h => by cases h)

/-- C76. Every parse comes to an end, with at most one result per item. -/
theorem C76_ends (C : Conf U.env RS X) {s : σ} {r : List (Item P)} (hs : RS s ⟨[], r⟩) (a : α) :
    ∃ l t, U.Yields (St.init s a) l t ∧ l.length ≤ r.length ∧
      ∀ {l' t'}, U.Yields (St.init s a) l' t' → l' = l ∧ t' = t := by
  obtain ⟨l, s', r', a', hy, _, hr⟩ := Dyn.yields_run C a (AtItems.fresh hs)
  exact ⟨l, _, hy, hr.length, fun h => h.unique hy⟩

theorem Dyn.calls (C : Conf U.env RS X) {t₀ : St σ α} {os t} (h : U.Calls t₀ os t) :
    ∀ {s a r}, t₀ = ⟨s, a, 0⟩ → AtItems RS s r →
    ∃ s₁ a₁ r₁, t = ⟨s₁, a₁, 0⟩ ∧ AtItems RS s₁ r₁ ∧ .panic ∉ os := by
  induction h with
  | nil => rintro s a r rfl hs; exact ⟨s, a, r, rfl, hs, by simp⟩
  | cons hc _ ih =>
    rintro s a r rfl hs
    obtain ⟨o, s', r', a', rfl, rfl, h2, _⟩ := Dyn.call_inv C.toJ hs hc
    obtain ⟨s₁, a₁, r₁, rfl, h3, h4⟩ := ih rfl h2
    refine ⟨s₁, a₁, r₁, rfl, h3, ?_⟩
    simp only [List.mem_cons, not_or]
    exact ⟨by rcases o with _ | (_ | _) <;> simp [optOut], h4⟩

/-- C76. No history of calls panics, and every call returns. -/
theorem C76_no_panic (C : Conf U.env RS X) {s : σ} {r : List (Item P)} (hs : RS s ⟨[], r⟩) {a : α}
    {os t} (h : U.Calls (St.init s a) os t) :
    .panic ∉ os ∧ ∃ o t', U.Call t o t' ∧ o ≠ .panic := by
  obtain ⟨s₁, a₁, r₁, rfl, h1, h2⟩ := Dyn.calls C h rfl (AtItems.fresh hs)
  refine ⟨h2, ?_⟩
  obtain ⟨o, s', r', a', h3, _⟩ := Dyn.call C.toJ h1 a₁
  refine ⟨_, _, h3, ?_⟩
  rcases o with _ | (_ | _) <;> simp [optOut]

/-- C76. When neither memory nor combiners fail, a parse yields no error if and only if the
unescaped delimiters of the source balance, whatever combiners and lookups do to the bindings. -/
theorem C76_no_error_iff_balanced (C : Conf U.env RS X) (D : U.env.cc.Disjoint) (A : U.env.alloc.Reliable)
    (hF : ¬ X.F) (hc : ∀ e, ¬ Dyn.CombinerError U.lookup e) {s : σ} {r : List (Item P)}
    (hs : RS s ⟨[], r⟩) {a : α} {l t} (hy : U.Yields (St.init s a) l t) :
    (∀ x ∈ l, ∃ d, x = .ok d) ↔ Balanced U.env.cc r := by
  obtain ⟨s', a', rfl, _, hr⟩ := Dyn.yields_inv C (AtItems.fresh hs) hy
  rcases results_cases l with ⟨ds, rfl⟩ | ⟨ds, e, l', rfl⟩
  · exact ⟨fun _ => hr.bal_ok D ds rfl, fun _ => by simp⟩
  · constructor
    · intro h
      obtain ⟨d, h⟩ := h (.error e) (by simp)
      cases h
    · intro hb
      rcases hr.bal_err D ds e l' rfl with h | h | ⟨_, _, k, hk, h⟩ | ⟨it, r₁, _, _, h, _⟩
      · exact absurd h (A.no_memoryError hF e)
      · exact absurd h (hc e)
      · rw [Balanced, h] at hb; cases hb; omega
      · rw [Balanced, h] at hb; cases hb

/-- C76. Every balanced source is parsed without error to a meaning of it, if memory does not run
out and combiners do not fail. -/
theorem C76_total (C : Conf U.env RS X) (D : U.env.cc.Disjoint) {Mem : α → α → Prop}
    (M : MemOk X U.env.alloc Mem) (A : U.env.alloc.Reliable) (hF : ¬ X.F)
    (hc : ∀ e, ¬ Dyn.CombinerError U.lookup e) {s : σ} {r : List (Item P)} (hs : RS s ⟨[], r⟩)
    (hb : Balanced U.env.cc r) (a : α) :
    ∃ ds t, U.Yields (St.init s a) (ds.map .ok) t ∧
      Dyn.Means U.env.cc X.RT Mem U.lookup r a ds t.alloc := by
  obtain ⟨l, s', r', a', hy, _, hr⟩ := Dyn.yields_run C a (AtItems.fresh hs)
  have hl := (C76_no_error_iff_balanced C D A hF hc hs hy).2 hb
  rcases results_cases l with ⟨ds, rfl⟩ | ⟨ds, e, l', rfl⟩
  · exact ⟨ds, _, hy, C76_meaning C D M hs hy⟩
  · obtain ⟨d, h⟩ := hl (.error e) (by simp)
    cases h

/-- C76. The first error of a parse is a failure of reading the source as `Dyn.Fails` describes it,
and the parse goes on where that failure left off. -/
theorem C76_first_error (C : Conf U.env RS X) (D : U.env.cc.Disjoint) {Mem : α → α → Prop}
    (M : MemOk X U.env.alloc Mem) {s : σ} {r : List (Item P)} (hs : RS s ⟨[], r⟩) {a : α}
    {ds : List (Datum τ ε)} {e after t}
    (hy : U.Yields (St.init s a) (ds.map .ok ++ .error e :: after) t) :
    ∃ r₁ rest s₁ a₁, r = r₁ ++ rest ∧
      Dyn.Fails U.env.cc X.RT Mem (MemoryError X.F U.env.alloc) U.lookup (.forms true false) r₁ rest a ds e a₁ ∧
      AtItems RS s₁ rest ∧ U.Yields (St.init s₁ a₁) after t :=
  Dyn.first_error_at C D M (AtItems.fresh hs) hy

/-- C76. Whatever a parser yields, datums and errors to the end of the source, is what the
specification says of the source. -/
theorem C76_results (C : Conf U.env RS X) (D : U.env.cc.Disjoint) {Mem : α → α → Prop}
    (M : MemOk X U.env.alloc Mem) {s : σ} {r : List (Item P)} (hs : RS s ⟨[], r⟩) {a : α} {l t}
    (hy : U.Yields (St.init s a) l t) :
    Dyn.Results U.env.cc X.RT Mem (MemoryError X.F U.env.alloc) U.lookup r a l t.alloc := by
  have key : ∀ (n : Nat) {l s r a}, l.length = n → AtItems RS s r → U.Yields (St.init s a) l t →
      Dyn.Results U.env.cc X.RT Mem (MemoryError X.F U.env.alloc) U.lookup r a l t.alloc := by
    intro n
    induction n using Nat.strongRecOn with
    | ind n ih =>
    intro l s r a hn hs hy
    rcases results_cases l with ⟨ds, rfl⟩ | ⟨ds, e, l', rfl⟩
    · obtain ⟨s', a', rfl, _, hr⟩ := Dyn.yields_inv C hs hy
      exact .all ((hr.top ds rfl).sound D M false (fun h => by cases h))
    · obtain ⟨r₁, rest, s₁, a₁, rfl, h2, h3, h4⟩ := Dyn.first_error_at C D M hs hy
      refine .fails h2 (ih l'.length ?_ rfl h3 h4)
      rw [← hn]
      simp only [List.length_append, List.length_cons]
      omega
  exact key _ rfl (AtItems.fresh hs) hy

/-- C76. For every start delimiter there is at most one lookup and at most one call of a combiner:
what grows by at most `p` with a lookup and by at most `q` with a call, and not otherwise, grows by
at most `p + q` times the number of start delimiters. -/
theorem C76_once_per_nest (C : Conf U.env RS X) {p q : Nat} {n : α → Nat}
    (N : Dyn.Counts X U.env.alloc U.lookup p q n) {s : σ} {r : List (Item P)} (hs : RS s ⟨[], r⟩) {a : α}
    {l t} (hy : U.Yields (St.init s a) l t) :
    n t.alloc ≤ n a + (p + q) * r.countP fun it => U.env.cc.isNestStart it.ch := by
  obtain ⟨s', a', rfl, _, hr⟩ := Dyn.yields_inv C (AtItems.fresh hs) hy
  exact Nat.le_trans (Nat.le_add_right _ _) (hr.count N)

/-! ## The library's parsers -/

/-- C76 of the parsers made from what the library provides. -/
theorem C76_meaning_provided (D : U.env.cc.Disjoint) {Mem : α → α → Prop} (M : MemOk X U.env.alloc Mem)
    {s : σ} {r : List (Item P)} (pr : Provided U.env s r X) {a : α} {ds : List (Datum τ ε)} {t}
    (hy : U.Yields (St.init s a) (ds.map .ok) t) :
    Dyn.Means U.env.cc X.RT Mem U.lookup r a ds t.alloc :=
  have ⟨_, C, hs⟩ := pr.conf
  C76_meaning C D M hs hy

theorem C76_total_provided (D : U.env.cc.Disjoint) {Mem : α → α → Prop} (M : MemOk X U.env.alloc Mem)
    (A : U.env.alloc.Reliable) (hF : ¬ X.F) (hc : ∀ e, ¬ Dyn.CombinerError U.lookup e) {s : σ}
    {r : List (Item P)} (pr : Provided U.env s r X) (hb : Balanced U.env.cc r) (a : α) :
    ∃ ds t, U.Yields (St.init s a) (ds.map .ok) t ∧
      Dyn.Means U.env.cc X.RT Mem U.lookup r a ds t.alloc :=
  have ⟨_, C, hs⟩ := pr.conf
  C76_total C D M A hF hc hs hb a

theorem C76_no_panic_provided {s : σ} {r : List (Item P)} (pr : Provided U.env s r X) {a : α} {os t}
    (h : U.Calls (St.init s a) os t) : .panic ∉ os ∧ ∃ o t', U.Call t o t' ∧ o ≠ .panic :=
  have ⟨_, C, hs⟩ := pr.conf
  C76_no_panic C hs h

theorem C76_results_provided (D : U.env.cc.Disjoint) {Mem : α → α → Prop} (M : MemOk X U.env.alloc Mem)
    {s : σ} {r : List (Item P)} (pr : Provided U.env s r X) {a : α} {l t}
    (hy : U.Yields (St.init s a) l t) :
    Dyn.Results U.env.cc X.RT Mem (MemoryError X.F U.env.alloc) U.lookup r a l t.alloc :=
  have ⟨_, C, hs⟩ := pr.conf
  C76_results C D M hs hy

theorem C76_first_error_provided (D : U.env.cc.Disjoint) {Mem : α → α → Prop} (M : MemOk X U.env.alloc Mem)
    {s : σ} {r : List (Item P)} (pr : Provided U.env s r X) {a : α} {ds : List (Datum τ ε)} {e after t}
    (hy : U.Yields (St.init s a) (ds.map .ok ++ .error e :: after) t) :
    ∃ r₁ rest s₁ a₁, r = r₁ ++ rest ∧
      Dyn.Fails U.env.cc X.RT Mem (MemoryError X.F U.env.alloc) U.lookup (.forms true false) r₁ rest a ds e a₁ ∧
      U.Yields (St.init s₁ a₁) after t :=
  have ⟨_, C, hs⟩ := pr.conf
  have ⟨r₁, rest, s₁, a₁, h1, h2, _, h3⟩ := C76_first_error C D M hs hy
  ⟨r₁, rest, s₁, a₁, h1, h2, h3⟩

/-! ## The reference parser -/

/-- The parser of a source of plain items, where texts are lists of items and take no memory, with
bindings that may change. -/
def seqDyn (cc : Classifier)
    (lookup : Datum (List (Item P)) ε → α → Option (Combiner (List (Item P)) ε α P CE) × α) :
    DynEnv (Seq P) P (List (Item P)) ε α CE :=
  ⟨seqEnv cc (freeAlloc _ ε α) (noBindings _ _ _ _ _), lookup⟩

theorem Dyn.Results.run {cc : Classifier} {al : AllocOps τ ε α}
    {lookup : Datum τ ε → α → Option (Combiner τ ε α P CE) × α}
    (D : cc.Disjoint) (hX : ∀ a, X.RA a a) (hT : ∀ c, ∃ t, X.RT t c) (A : al.Free) {s a l a'}
    (h : Dyn.Results cc X.RT Eq (fun _ => False) lookup s a l a') : Dyn.Run cc X al lookup s a l [] a' := by
  induction h with
  | all h => exact Dyn.TopEval.run (h.complete D hX A)
  | fails h1 _ ih => exact Dyn.TopFail.run (h1.complete D hX hT A) ih

/-- C76. For the reference parser: a source yields exactly what the specification says, errors
included, and leaves exactly the state it says. -/
theorem C76_exact (cc : Classifier) (D : cc.Disjoint)
    (lookup : Datum (List (Item P)) ε → α → Option (Combiner (List (Item P)) ε α P CE) × α)
    (r : List (Item P)) (a : α) (l : List (Except (Err P CE) (Datum (List (Item P)) ε))) (a' : α) :
    (∃ t, (seqDyn cc lookup).Yields (St.init ⟨[], r⟩ a) l t ∧ t.alloc = a') ↔
    Dyn.Results cc Eq Eq (fun _ => False) lookup r a l a' := by
  have C : Conf (seqDyn cc lookup).env SeqAt (seqSem P α) := seqConf cc (freeAlloc _ ε α) _
  constructor
  · rintro ⟨t, hy, rfl⟩
    have h := C76_results C D
      ⟨fun _ => rfl, fun _ _ _ h1 h2 => h1.trans h2, fun _ _ h => h, fun _ _ => rfl⟩ rfl hy
    have hm : MemoryError (P := P) (CE := CE) (seqSem P α).F (freeAlloc (List (Item P)) ε α) =
        fun _ => False := by
      funext e
      exact eq_false ((freeAlloc_reliable (List (Item P)) ε α).no_memoryError (fun h => h) e)
    rw [← hm]
    exact h
  · intro h
    have := h.run (X := seqSem P α) D (fun _ => rfl) (fun c => ⟨c, rfl⟩) freeAlloc_free
    obtain ⟨l, s', r', a₂, hy, _, hr⟩ := Dyn.yields_run C a (AtItems.fresh (r := r) (s := ⟨[], r⟩) rfl)
    obtain ⟨rfl, _, rfl⟩ := hr.det (seqSem_func P α) this
    exact ⟨_, hy, rfl⟩

/-! ## Bindings that do not change -/

theorem Dyn.fixed_parse (E : Env σ P τ ε α CE) (n : Nat) :
    (∀ m, (⟨E, fixed E.lookup⟩ : DynEnv σ P τ ε α CE).parseNext n m = E.parseNext n m) ∧
    (⟨E, fixed E.lookup⟩ : DynEnv σ P τ ε α CE).parseNested n = E.parseNested n ∧
    (∀ m l, (⟨E, fixed E.lookup⟩ : DynEnv σ P τ ε α CE).parseAll n m l = E.parseAll n m l) := by
  induction n with
  | zero => exact ⟨fun _ => rfl, rfl, fun _ _ => rfl⟩
  | succ n ih =>
    refine ⟨fun m => ?_, ?_, fun m l => ?_⟩
    · unfold DynEnv.parseNext Env.parseNext
      simp only [ih.1, ih.2.1]
      rfl
    · unfold DynEnv.parseNested Env.parseNested
      simp only [ih.1, ih.2.2]
      rfl
    · unfold DynEnv.parseAll Env.parseAll
      simp only [ih.1, ih.2.2]
      rfl

/-- C76. With bindings that do not change, this is the parser of all the other properties: every
call does the same. -/
theorem C76_fixed (E : Env σ P τ ε α CE) (s : St σ α) (o : Outcome (Err P CE) (Option (Datum τ ε)))
    (s' : St σ α) : (⟨E, fixed E.lookup⟩ : DynEnv σ P τ ε α CE).Call s o s' ↔ E.Call s o s' := by
  unfold DynEnv.Call Env.Call
  simp only [(Dyn.fixed_parse E _).1]
  rfl

/-! ## Non-vacuity -/

/-- Runs a parse: at most `k` results, budget `n` each. -/
def DynEnv.yieldsOf (U : DynEnv σ P τ ε α CE) (n : Nat) : Nat → St σ α →
    Option (List (Except (Err P CE) (Datum τ ε)) × St σ α)
  | 0, _ => none
  | k + 1, s =>
    match U.parseNext n .base s with
    | (.ok none, s') => some ([], s')
    | (.ok (some d), s') => (DynEnv.yieldsOf U n k s').map fun (l, t) => (.ok d :: l, t)
    | (.err e, s') => (DynEnv.yieldsOf U n k s').map fun (l, t) => (.error e :: l, t)
    | (.panic, _) => none
    | (.fuel, _) => none

theorem DynEnv.yields_of {U : DynEnv σ P τ ε α CE} {n k : Nat} {s : St σ α} {l t}
    (h : U.yieldsOf n k s = some (l, t)) : U.Yields s l t := by
  induction k generalizing s l t with
  | zero => cases h
  | succ k ih =>
    simp only [DynEnv.yieldsOf] at h
    rcases hd : U.parseNext n .base s with ⟨(_ | d) | e | _ | _, s'⟩ <;> rw [hd] at h <;> simp only at h
    · cases h
      exact .done ⟨n, hd, by simp⟩
    · rcases hy : U.yieldsOf n k s' with _ | ⟨l', t'⟩ <;> rw [hy] at h <;> cases h
      exact .datum ⟨n, hd, by simp⟩ (ih hy)
    · rcases hy : U.yieldsOf n k s' with _ | ⟨l', t'⟩ <;> rw [hy] at h <;> cases h
      exact .error ⟨n, hd, by simp⟩ (ih hy)
    · cases h
    · cases h

theorem DynEnv.yields_of_view {U : DynEnv σ P τ ε α CE} {n k : Nat} {s : St σ α} {β : Type} {v : β}
    (f : List (Except (Err P CE) (Datum τ ε)) × St σ α → β)
    (h : (U.yieldsOf n k s).map f = some v) : ∃ l t, U.Yields s l t ∧ f (l, t) = v := by
  rcases hy : U.yieldsOf n k s with _ | ⟨l', t⟩ <;> rw [hy] at h <;> cases h
  exact ⟨_, _, DynEnv.yields_of hy, rfl⟩

/-- What is defined, and what has been looked up. -/
abbrev Defs := List (List Char) × List (List Char)

/-- Bindings that can be changed by what is parsed: `def` defines its operand and is removed; what is
defined gives its operands as text. Every lookup is logged. -/
def defLookup : Datum (List (Item Unit)) Empty → Defs →
    Option (Combiner (List (Item Unit)) Empty Defs Unit Nat) × Defs
  | .text t, a =>
    let x := t.map Item.ch
    (if x = ['d', 'e', 'f'] then some (.operative fun _ t a => (.ok none, (t.map Item.ch :: a.1, a.2)))
      else if x ∈ a.1 then some (.operative fun _ t a => (.ok (some (.text t)), a))
      else none, (a.1, a.2 ++ [x]))
  | _, a => (none, a)

/-- Results and state. -/
abbrev DefView := List (Except (Err Unit Nat) (Datum (List (Item Unit)) Empty)) × Defs

instance : DecidableEq DefView :=
  haveI : DecidableEq (List (Except (Err Unit Nat) (Datum (List (Item Unit)) Empty))) := fun _ _ => inferInstance
  fun x y => instDecidableEqProd x y

theorem defLookup_mem : MemOk (seqSem Unit Defs) (seqDyn defaultClassifier defLookup).env.alloc Eq :=
  ⟨fun _ => rfl, fun _ _ _ h1 h2 => h1.trans h2, fun _ _ h => h, fun _ _ => rfl⟩

/-- C76: in `{x a}{def x}{x a}{{x def}y}{y b}` the first nest is a combination, because `x` is not
defined yet, the third is a text; `{x def}` is the text `def`, so the next nest defines `y`. -/
example : Dyn.Means defaultClassifier Eq Eq defLookup (charsOf "{x a}{def x}{x a}{{x def}y}{y b}") ([], [])
    [.combination (.text (charsOf "x")) (listOf [.text (charsOf "a")]), .text (charsOf "a"), .text (charsOf "b")]
    ([['y'], ['x']], [['x'], ['d', 'e', 'f'], ['x'], ['x'], ['d', 'e', 'f'], ['y']]) := by
  obtain ⟨l, t, h, ht⟩ := DynEnv.yields_of_view (U := seqDyn defaultClassifier defLookup) (β := DefView) (n := 200) (k := 9)
    (s := St.init ⟨[], charsOf "{x a}{def x}{x a}{{x def}y}{y b}"⟩ ([], []))
    (v := ([.combination (.text (charsOf "x")) (listOf [.text (charsOf "a")]), .text (charsOf "a"), .text (charsOf "b")].map .ok,
      ([['y'], ['x']], [['x'], ['d', 'e', 'f'], ['x'], ['x'], ['d', 'e', 'f'], ['y']])))
    (fun x => (x.1, x.2.alloc)) (by decide +kernel)
  obtain ⟨h1, h2⟩ := Prod.mk.inj ht
  subst h1
  exact h2 ▸ C76_meaning (seqConf _ _ _) defaultClassifier_disjoint defLookup_mem rfl h

theorem defLookup_no_error (e : Err Unit Nat) : ¬ Dyn.CombinerError defLookup e := by
  have key : ∀ d a c, (defLookup d a).1 = some c → ∃ f, c = .operative f ∧ ∀ t b, (f d t b).1 ≠ .error e := by
    intro d a c h
    cases d with
    | text t =>
      simp only [defLookup] at h
      split at h
      · cases h; exact ⟨_, rfl, fun _ _ h => by cases h⟩
      · split at h
        · cases h; exact ⟨_, rfl, fun _ _ h => by cases h⟩
        · cases h
    | _ => cases h
  rintro (⟨d, a, f, t, a', h, h2⟩ | ⟨d, a, f, t, a', h, h2⟩)
  · obtain ⟨f', hf, h3⟩ := key _ _ _ h
    cases hf
    exact h3 _ _ h2
  · obtain ⟨f', hf, _⟩ := key _ _ _ h
    cases hf

/-- C76: `{def x}{x {\\}}}` balances, so it is parsed to a meaning. -/
example : ∃ ds t, (seqDyn defaultClassifier defLookup).Yields (St.init ⟨[], charsOf "{def x}{x {\\}}}"⟩ ([], [])) (ds.map .ok) t ∧
    Dyn.Means defaultClassifier Eq Eq defLookup (charsOf "{def x}{x {\\}}}") ([], []) ds t.alloc :=
  C76_total (U := seqDyn defaultClassifier defLookup) (seqConf _ _ _) defaultClassifier_disjoint defLookup_mem
    (freeAlloc_reliable _ _ _) (fun h => h) defLookup_no_error rfl (by unfold Balanced; decide +kernel) ([], [])

/-- C76: `{def x}a{x\\` fails at its end, after `x` has been looked up. -/
example : ∃ l t, (seqDyn defaultClassifier defLookup).Yields (St.init ⟨[], charsOf "{def x}a{x\\"⟩ ([], [])) l t ∧
    (l = [.text (charsOf "a")].map .ok ++ .error .missingEndChar :: [] ∧
      t.alloc = ([['x']], [['d', 'e', 'f'], ['x']])) ∧
    ∃ r₁ rest s₁ a₁, charsOf "{def x}a{x\\" = r₁ ++ rest ∧
      Dyn.Fails defaultClassifier Eq Eq (MemoryError False (seqDyn defaultClassifier defLookup).env.alloc) defLookup (.forms true false) r₁ rest
        ([], []) [.text (charsOf "a")] .missingEndChar a₁ ∧ AtItems SeqAt s₁ rest ∧
      (seqDyn defaultClassifier defLookup).Yields (St.init s₁ a₁) [] t := by
  obtain ⟨l, t, h, ht⟩ := DynEnv.yields_of_view (U := seqDyn defaultClassifier defLookup) (β := DefView) (n := 200) (k := 9)
    (s := St.init ⟨[], charsOf "{def x}a{x\\"⟩ ([], []))
    (v := ([.text (charsOf "a")].map .ok ++ .error .missingEndChar :: [], ([['x']], [['d', 'e', 'f'], ['x']])))
    (fun x => (x.1, x.2.alloc)) (by decide +kernel)
  obtain ⟨h1, h2⟩ := Prod.mk.inj ht
  subst h1
  exact ⟨_, t, h, ⟨rfl, h2⟩, C76_first_error (seqConf _ _ _) defaultClassifier_disjoint defLookup_mem rfl h⟩

/-- C76: `defLookup` logs each lookup, and nothing else does. -/
example : Dyn.Counts (seqSem Unit Defs) (freeAlloc _ _ _) defLookup 1 0 (fun a => a.2.length) where
  find d a := by cases d <;> simp [defLookup]
  operative d a₀ f h := by
    cases d with
    | text t =>
      simp only [defLookup] at h
      split at h
      · cases h; simp
      · split at h <;> cases h; simp
    | _ => cases h
  applicative d a₀ f h := by
    cases d with
    | text t =>
      simp only [defLookup] at h
      split at h
      · cases h
      · split at h <;> cases h
    | _ => cases h
  text a b h := by cases h; exact Nat.le_refl _
  alloc d a := Nat.le_refl _

end Kul
