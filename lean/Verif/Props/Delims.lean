import Verif.Proof.DelimsComplete
import Verif.Proof.Provided
import Verif.Props.Dynamic

/-!
# C77: delimiters that change while parsing

`CharClassifier` may be implemented so that its answers depend on what combiners have done: a source can
change its own delimiters while it is read. `U` is a parser whose classifier is asked in a state
(`Model/Delims.lean`); `Spec/Delims.lean` says what sources mean then, and how reading them fails. The
state is also the memory of the allocator, the bindings and whatever else combiners can reach.
`Steady U.cc Mem` says that allocating alone does not change the delimiters.
-/

namespace Kul

variable {σ P τ ε α CE : Type} {U : ClsEnv σ P τ ε α CE} {RS : σ → Seq P → Prop} {X : TextSem P τ α}

open Cls

theorem Cls.Steady.text {cc : α → Classifier} {al : AllocOps τ ε α} {Mem : α → α → Prop}
    (h : Steady cc Mem) (M : MemOk X al Mem) : Steady cc X.RA :=
  fun a b hab => h a b (M.text _ _ hab)

/-! ## Any conforming parser -/

/-- C77. What an error-free parse yields, and the state it leaves, is a meaning of the source: every
character is classified as a delimiter, or as none, in the state that the evaluation of what is written
before it has left. -/
theorem C77_meaning (C : Conf U.env RS X) {Mem : α → α → Prop} (hM : Steady U.cc Mem)
    (M : MemOk X U.env.alloc Mem) {s : σ} {r : List (Item P)} (hs : RS s ⟨[], r⟩) {a : α}
    {ds : List (Datum τ ε)} {t} (hy : U.Yields (St.init s a) (ds.map .ok) t) :
    Cls.Means U.cc X.RT Mem U.lookup r a ds t.alloc := by
  obtain ⟨s', a', rfl, _, hr⟩ := Cls.yields_inv C (hM.text M) (AtItems.fresh hs) hy
  exact (hr.top ds rfl).sound hM M false (fun h => by cases h)

/-- C77. Every parse comes to an end, with at most one result per item. -/
theorem C77_ends (C : Conf U.env RS X) (hR : Steady U.cc X.RA) {s : σ} {r : List (Item P)}
    (hs : RS s ⟨[], r⟩) (a : α) :
    ∃ l t, U.Yields (St.init s a) l t ∧ l.length ≤ r.length ∧
      ∀ {l' t'}, U.Yields (St.init s a) l' t' → l' = l ∧ t' = t := by
  obtain ⟨l, s', r', a', hy, _, hr⟩ := Cls.yields_run C hR a (AtItems.fresh hs)
  exact ⟨l, _, hy, hr.length, fun h => h.unique hy⟩

theorem Cls.calls (C : Conf U.env RS X) (hR : Steady U.cc X.RA) {t₀ : St σ α} {os t} (h : U.Calls t₀ os t) :
    ∀ {s a r}, t₀ = ⟨s, a, 0⟩ → AtItems RS s r →
    ∃ s₁ a₁ r₁, t = ⟨s₁, a₁, 0⟩ ∧ AtItems RS s₁ r₁ ∧ .panic ∉ os := by
  induction h with
  | nil => rintro s a r rfl hs; exact ⟨s, a, r, rfl, hs, by simp⟩
  | cons hc _ ih =>
    rintro s a r rfl hs
    obtain ⟨o, s', r', a', rfl, rfl, h2, _⟩ := Cls.call_inv C hR hs hc
    obtain ⟨s₁, a₁, r₁, rfl, h3, h4⟩ := ih rfl h2
    refine ⟨s₁, a₁, r₁, rfl, h3, ?_⟩
    simp only [List.mem_cons, not_or]
    exact ⟨by rcases o with _ | (_ | _) <;> simp [optOut], h4⟩

/-- C77. No history of calls panics, and every call returns. -/
theorem C77_no_panic (C : Conf U.env RS X) (hR : Steady U.cc X.RA) {s : σ} {r : List (Item P)}
    (hs : RS s ⟨[], r⟩) {a : α} {os t} (h : U.Calls (St.init s a) os t) :
    .panic ∉ os ∧ ∃ o t', U.Call t o t' ∧ o ≠ .panic := by
  obtain ⟨s₁, a₁, r₁, rfl, h1, h2⟩ := Cls.calls C hR h rfl (AtItems.fresh hs)
  refine ⟨h2, ?_⟩
  obtain ⟨o, s', r', a', h3, _⟩ := Cls.call C hR h1 a₁
  refine ⟨_, _, h3, ?_⟩
  rcases o with _ | (_ | _) <;> simp [optOut]

/-- C77. The first error of a parse is a failure of reading the source as `Cls.Fails` describes it,
and the parse goes on where that failure left off. -/
theorem C77_first_error (C : Conf U.env RS X)
    (D : ∀ a, (U.cc a).Disjoint) {Mem : α → α → Prop} (hM : Steady U.cc Mem)
    (M : MemOk X U.env.alloc Mem) {s : σ} {r : List (Item P)} (hs : RS s ⟨[], r⟩) {a : α}
    {ds : List (Datum τ ε)} {e after t}
    (hy : U.Yields (St.init s a) (ds.map .ok ++ .error e :: after) t) :
    ∃ r₁ rest s₁ a₁, r = r₁ ++ rest ∧
      Cls.Fails U.cc X.RT Mem (MemoryError X.F U.env.alloc) U.lookup (.forms true false) r₁ rest a ds e a₁ ∧
      AtItems RS s₁ rest ∧ U.Yields (St.init s₁ a₁) after t :=
  Cls.first_error_at C (hM.text M) D hM M (AtItems.fresh hs) hy

/-- C77. Whatever a parser yields, datums and errors to the end of the source, is what the
specification says of the source. -/
theorem C77_results (C : Conf U.env RS X)
    (D : ∀ a, (U.cc a).Disjoint) {Mem : α → α → Prop} (hM : Steady U.cc Mem)
    (M : MemOk X U.env.alloc Mem) {s : σ} {r : List (Item P)} (hs : RS s ⟨[], r⟩) {a : α} {l t}
    (hy : U.Yields (St.init s a) l t) :
    Cls.Results U.cc X.RT Mem (MemoryError X.F U.env.alloc) U.lookup r a l t.alloc := by
  have key : ∀ (n : Nat) {l s r a}, l.length = n → AtItems RS s r → U.Yields (St.init s a) l t →
      Cls.Results U.cc X.RT Mem (MemoryError X.F U.env.alloc) U.lookup r a l t.alloc := by
    intro n
    induction n using Nat.strongRecOn with
    | ind n ih =>
    intro l s r a hn hs hy
    rcases results_cases l with ⟨ds, rfl⟩ | ⟨ds, e, l', rfl⟩
    · obtain ⟨s', a', rfl, _, hr⟩ := Cls.yields_inv C (hM.text M) hs hy
      exact .all ((hr.top ds rfl).sound hM M false (fun h => by cases h))
    · obtain ⟨r₁, rest, s₁, a₁, rfl, h2, h3, h4⟩ := Cls.first_error_at C (hM.text M) D hM M hs hy
      refine .fails h2 (ih l'.length ?_ rfl h3 h4)
      rw [← hn]
      simp only [List.length_append, List.length_cons]
      omega
  exact key _ rfl (AtItems.fresh hs) hy

/-! ## The library's parsers -/

/-- C77 of the parsers made from what the library provides. -/
theorem C77_meaning_provided {Mem : α → α → Prop} (hM : Steady U.cc Mem) (M : MemOk X U.env.alloc Mem)
    {s : σ} {r : List (Item P)} (pr : Provided U.env s r X) {a : α} {ds : List (Datum τ ε)} {t}
    (hy : U.Yields (St.init s a) (ds.map .ok) t) :
    Cls.Means U.cc X.RT Mem U.lookup r a ds t.alloc :=
  have ⟨_, C, hs⟩ := pr.conf
  C77_meaning C hM M hs hy

theorem C77_no_panic_provided (hR : Steady U.cc X.RA) {s : σ} {r : List (Item P)} (pr : Provided U.env s r X) {a : α} {os t}
    (h : U.Calls (St.init s a) os t) : .panic ∉ os ∧ ∃ o t', U.Call t o t' ∧ o ≠ .panic :=
  have ⟨_, C, hs⟩ := pr.conf
  C77_no_panic C hR hs h

theorem C77_results_provided
    (D : ∀ a, (U.cc a).Disjoint) {Mem : α → α → Prop} (hM : Steady U.cc Mem) (M : MemOk X U.env.alloc Mem)
    {s : σ} {r : List (Item P)} (pr : Provided U.env s r X) {a : α} {l t}
    (hy : U.Yields (St.init s a) l t) :
    Cls.Results U.cc X.RT Mem (MemoryError X.F U.env.alloc) U.lookup r a l t.alloc :=
  have ⟨_, C, hs⟩ := pr.conf
  C77_results C D hM M hs hy

theorem C77_first_error_provided
    (D : ∀ a, (U.cc a).Disjoint) {Mem : α → α → Prop} (hM : Steady U.cc Mem) (M : MemOk X U.env.alloc Mem)
    {s : σ} {r : List (Item P)} (pr : Provided U.env s r X) {a : α} {ds : List (Datum τ ε)} {e after t}
    (hy : U.Yields (St.init s a) (ds.map .ok ++ .error e :: after) t) :
    ∃ r₁ rest s₁ a₁, r = r₁ ++ rest ∧
      Cls.Fails U.cc X.RT Mem (MemoryError X.F U.env.alloc) U.lookup (.forms true false) r₁ rest a ds e a₁ ∧
      U.Yields (St.init s₁ a₁) after t :=
  have ⟨_, C, hs⟩ := pr.conf
  have ⟨r₁, rest, s₁, a₁, h1, h2, _, h3⟩ := C77_first_error C D hM M hs hy
  ⟨r₁, rest, s₁, a₁, h1, h2, h3⟩

/-! ## The reference parser -/

/-- The parser of a source of plain items, where texts are lists of items and take no memory, with
delimiters and bindings that may change. -/
def seqCls (cc : α → Classifier)
    (lookup : Datum (List (Item P)) ε → α → Option (Combiner (List (Item P)) ε α P CE) × α) :
    ClsEnv (Seq P) P (List (Item P)) ε α CE :=
  ⟨seqEnv defaultClassifier (freeAlloc _ ε α) (noBindings _ _ _ _ _), cc, lookup⟩

theorem Cls.Results.run {cc : α → Classifier} {al : AllocOps τ ε α}
    {lookup : Datum τ ε → α → Option (Combiner τ ε α P CE) × α}
    (D : ∀ a, (cc a).Disjoint) (hX : ∀ a, X.RA a a) (hT : ∀ c, ∃ t, X.RT t c) (A : al.Free) {s a l a'}
    (h : Cls.Results cc X.RT Eq (fun _ => False) lookup s a l a') : Cls.Run cc X al lookup s a l [] a' := by
  induction h with
  | all h => exact Cls.TopEval.run (h.complete D hX A)
  | fails h1 _ ih => exact Cls.TopFail.run (h1.complete D hX hT A) ih

/-- C77. For the reference parser: a source yields exactly what the specification says, errors
included, and leaves exactly the state it says. -/
theorem C77_exact (cc : α → Classifier) (D : ∀ a, (cc a).Disjoint)
    (lookup : Datum (List (Item P)) ε → α → Option (Combiner (List (Item P)) ε α P CE) × α)
    (r : List (Item P)) (a : α) (l : List (Except (Err P CE) (Datum (List (Item P)) ε))) (a' : α) :
    (∃ t, (seqCls cc lookup).Yields (St.init ⟨[], r⟩ a) l t ∧ t.alloc = a') ↔
    Cls.Results cc Eq Eq (fun _ => False) lookup r a l a' := by
  have C : Conf (seqCls cc lookup).env SeqAt (seqSem P α) := seqConf _ (freeAlloc _ ε α) _
  constructor
  · rintro ⟨t, hy, rfl⟩
    have h := C77_results C D (fun a b h => congrArg cc h)
      ⟨fun _ => rfl, fun _ _ _ h1 h2 => h1.trans h2, fun _ _ h => h, fun _ _ => rfl⟩ rfl hy
    have hm : MemoryError (P := P) (CE := CE) (seqSem P α).F (freeAlloc (List (Item P)) ε α) =
        fun _ => False := by
      funext e
      exact eq_false ((freeAlloc_reliable (List (Item P)) ε α).no_memoryError (fun h => h) e)
    rw [← hm]
    exact h
  · intro h
    have := h.run (X := seqSem P α) D (fun _ => rfl) (fun c => ⟨c, rfl⟩) freeAlloc_free
    obtain ⟨l, s', r', a₂, hy, _, hr⟩ := Cls.yields_run C (fun a b h => congrArg cc h) a (AtItems.fresh (r := r) (s := ⟨[], r⟩) rfl)
    obtain ⟨rfl, _, rfl⟩ := hr.det (seqSem_func P α) this
    exact ⟨_, hy, rfl⟩

/-! ## Delimiters that do not change -/

section
variable (E : Env σ P τ ε α CE) (lookup : Datum τ ε → α → Option (Combiner τ ε α P CE) × α)

/-- A classifier that does not depend on the state. -/
abbrev Cls.fixed : ClsEnv σ P τ ε α CE := ⟨E, fun _ => E.cc, lookup⟩

theorem Cls.fixed_here {A : Type} (f : Classifier → Act (St σ α) (Err P CE) A) :
    ((fixed E lookup).here >>= f) = f E.cc := rfl

theorem Cls.fixed_ws (n : Nat) : (fixed E lookup).skipWhitespace n = E.skipWhitespace n := by
  induction n with
  | zero => rfl
  | succ n ih =>
    unfold ClsEnv.skipWhitespace Env.skipWhitespace
    simp only [ih, fixed_here]
    rfl

theorem Cls.fixed_check : (fixed E lookup).checkEndChar = E.checkEndChar := by
  unfold ClsEnv.checkEndChar Env.checkEndChar
  simp only [fixed_here]
  rfl

theorem Cls.fixed_loop (m : Mode) (n : Nat) : ∀ t k,
    (fixed E lookup).parseTextLoop m n t k = E.parseTextLoop m n t k := by
  induction n with
  | zero => intro t k; rfl
  | succ n ih =>
    intro t k
    unfold ClsEnv.parseTextLoop Env.parseTextLoop
    simp only [ih, fixed_here, fixed_check]
    rfl

theorem Cls.fixed_text (n : Nat) (m : Mode) : (fixed E lookup).parseText n m = E.parseText n m := by
  unfold ClsEnv.parseText Env.parseText
  simp only [fixed_loop]

theorem Cls.fixed_end : (fixed E lookup).nestEnd = E.nestEnd := by
  unfold ClsEnv.nestEnd Env.nestEnd
  simp only [fixed_here]
  rfl

theorem Cls.fixed_sep : (fixed E lookup).skipSeparator = E.skipSeparator := by
  unfold ClsEnv.skipSeparator Env.skipSeparator
  simp only [fixed_here]
  rfl

theorem Cls.fixed_lead (n : Nat) (m : Mode) : (fixed E lookup).skipLeading n m = E.skipLeading n m := by
  unfold ClsEnv.skipLeading Env.skipLeading
  simp only [fixed_ws]

theorem Cls.fixed_parse (n : Nat) :
    (∀ m, (fixed E lookup).parseNext n m = (⟨E, lookup⟩ : DynEnv σ P τ ε α CE).parseNext n m) ∧
    (fixed E lookup).parseNested n = (⟨E, lookup⟩ : DynEnv σ P τ ε α CE).parseNested n ∧
    (∀ m l, (fixed E lookup).parseAll n m l = (⟨E, lookup⟩ : DynEnv σ P τ ε α CE).parseAll n m l) := by
  induction n with
  | zero => exact ⟨fun _ => rfl, rfl, fun _ _ => rfl⟩
  | succ n ih =>
    refine ⟨fun m => ?_, ?_, fun m l => ?_⟩
    · unfold ClsEnv.parseNext DynEnv.parseNext
      simp only [ih.1, ih.2.1, fixed_here, fixed_lead, fixed_check, fixed_text]
      rfl
    · unfold ClsEnv.parseNested DynEnv.parseNested
      simp only [ih.1, ih.2.2, fixed_here, fixed_sep, fixed_text, fixed_end]
      rfl
    · unfold ClsEnv.parseAll DynEnv.parseAll
      simp only [ih.1, ih.2.2]
      rfl

/-- C77. With delimiters that do not change, this is the parser of C76: every call does the same. -/
theorem C77_fixed (s : St σ α) (o : Outcome (Err P CE) (Option (Datum τ ε))) (s' : St σ α) :
    (fixed E lookup).Call s o s' ↔ (⟨E, lookup⟩ : DynEnv σ P τ ε α CE).Call s o s' := by
  unfold ClsEnv.Call DynEnv.Call
  simp only [(Cls.fixed_parse E lookup _).1]

end

/-! ## Non-vacuity -/

/-- Runs a parse: at most `k` results, budget `n` each. -/
def ClsEnv.yieldsOf (U : ClsEnv σ P τ ε α CE) (n : Nat) : Nat → St σ α →
    Option (List (Except (Err P CE) (Datum τ ε)) × St σ α)
  | 0, _ => none
  | k + 1, s =>
    match U.parseNext n .base s with
    | (.ok none, s') => some ([], s')
    | (.ok (some d), s') => (ClsEnv.yieldsOf U n k s').map fun (l, t) => (.ok d :: l, t)
    | (.err e, s') => (ClsEnv.yieldsOf U n k s').map fun (l, t) => (.error e :: l, t)
    | (.panic, _) => none
    | (.fuel, _) => none

theorem ClsEnv.yields_of {U : ClsEnv σ P τ ε α CE} {n k : Nat} {s : St σ α} {l t}
    (h : U.yieldsOf n k s = some (l, t)) : U.Yields s l t := by
  induction k generalizing s l t with
  | zero => cases h
  | succ k ih =>
    simp only [ClsEnv.yieldsOf] at h
    rcases hd : U.parseNext n .base s with ⟨(_ | d) | e | _ | _, s'⟩ <;> rw [hd] at h <;> simp only at h
    · cases h
      exact .done ⟨n, hd, by simp⟩
    · rcases hy : U.yieldsOf n k s' with _ | ⟨l', t'⟩ <;> rw [hy] at h <;> cases h
      exact .datum ⟨n, hd, by simp⟩ (ih hy)
    · rcases hy : U.yieldsOf n k s' with _ | ⟨l', t'⟩ <;> rw [hy] at h <;> cases h
      exact .error ⟨n, hd, by simp⟩ (ih hy)
    · cases h
    · cases h

theorem ClsEnv.yields_of_view {U : ClsEnv σ P τ ε α CE} {n k : Nat} {s : St σ α} {β : Type} {v : β}
    (f : List (Except (Err P CE) (Datum τ ε)) × St σ α → β)
    (h : (U.yieldsOf n k s).map f = some v) : ∃ l t, U.Yields s l t ∧ f (l, t) = v := by
  rcases hy : U.yieldsOf n k s with _ | ⟨l', t⟩ <;> rw [hy] at h <;> cases h
  exact ⟨_, _, ClsEnv.yields_of hy, rfl⟩


/-- Delimiters that can be changed by what is parsed: curly braces, or round ones. -/
def swapClassifier (round : Bool) : Classifier :=
  if round then { defaultClassifier with isNestStart := fun c => c == '(', isNestEnd := fun c => c == ')' }
  else defaultClassifier

theorem swapClassifier_disjoint (round : Bool) : (swapClassifier round).Disjoint := by
  cases round
  · exact defaultClassifier_disjoint
  · constructor <;> intro c h <;>
      simp only [swapClassifier, if_true, defaultClassifier, beq_iff_eq, charIsWhitespace] at h ⊢ <;>
      subst h <;> decide

/-- `swap` changes the delimiters and is removed. -/
def swapLookup : Datum (List (Item Unit)) Empty → Bool →
    Option (Combiner (List (Item Unit)) Empty Bool Unit Nat) × Bool
  | .text t, a => (if t.map Item.ch = ['s', 'w', 'a', 'p'] then some (.operative fun _ _ a => (.ok none, !a)) else none, a)
  | _, a => (none, a)

/-- Results and state. -/
abbrev SwapView := List (Except (Err Unit Nat) (Datum (List (Item Unit)) Empty)) × Bool

instance : DecidableEq SwapView :=
  haveI : DecidableEq (List (Except (Err Unit Nat) (Datum (List (Item Unit)) Empty))) := fun _ _ => inferInstance
  fun x y => instDecidableEqProd x y

theorem swapLookup_mem : MemOk (seqSem Unit Bool) (seqCls swapClassifier swapLookup).env.alloc Eq :=
  ⟨fun _ => rfl, fun _ _ _ h1 h2 => h1.trans h2, fun _ _ h => h, fun _ _ => rfl⟩

/-- C77: in `{swap}(a {b})` the second nest is round and `{b}` in it is a text. -/
example : Cls.Means swapClassifier Eq Eq swapLookup (charsOf "{swap}(a {b})") false
    [.combination (.text (charsOf "a")) (listOf [.text (charsOf "{b}")])] true := by
  obtain ⟨l, t, h, ht⟩ := ClsEnv.yields_of_view (U := seqCls swapClassifier swapLookup) (β := SwapView) (n := 99) (k := 3)
    (s := St.init ⟨[], charsOf "{swap}(a {b})"⟩ false)
    (v := ([.combination (.text (charsOf "a")) (listOf [.text (charsOf "{b}")])].map .ok, true))
    (fun x => (x.1, x.2.alloc)) (by decide +kernel)
  obtain ⟨h1, h2⟩ := Prod.mk.inj ht
  subst h1
  exact h2 ▸ C77_meaning (seqConf _ _ _) (fun a b h => congrArg swapClassifier h) swapLookup_mem rfl h

/-- C77: a nest that is opened with one delimiter and closed with another, because an operand has changed
them: `{x a{swap}})` has the operands `a` and `}`. -/
example : Cls.Means swapClassifier Eq Eq swapLookup (charsOf "{x a{swap}})") false
    [.combination (.text (charsOf "x")) (listOf [.text (charsOf "a"), .text (charsOf "}")])] true := by
  obtain ⟨l, t, h, ht⟩ := ClsEnv.yields_of_view (U := seqCls swapClassifier swapLookup) (β := SwapView) (n := 99) (k := 3)
    (s := St.init ⟨[], charsOf "{x a{swap}})"⟩ false)
    (v := ([.combination (.text (charsOf "x")) (listOf [.text (charsOf "a"), .text (charsOf "}")])].map .ok, true))
    (fun x => (x.1, x.2.alloc)) (by decide +kernel)
  obtain ⟨h1, h2⟩ := Prod.mk.inj ht
  subst h1
  exact h2 ▸ C77_meaning (seqConf _ _ _) (fun a b h => congrArg swapClassifier h) swapLookup_mem rfl h

/-- C77: `{{swap}` and then `)` is an empty nest; the next `)` is unbalanced, the next `}` a text. -/
example : Cls.Results swapClassifier Eq Eq (MemoryError False (seqCls swapClassifier swapLookup).env.alloc) swapLookup
    (charsOf "{{swap}))}") false [.ok .emptyNest, .error (.unbalancedEndChar ()), .ok (.text (charsOf "}"))] true := by
  obtain ⟨l, t, h, ht⟩ := ClsEnv.yields_of_view (U := seqCls swapClassifier swapLookup) (β := SwapView) (n := 99) (k := 5)
    (s := St.init ⟨[], charsOf "{{swap}))}"⟩ false)
    (v := ([.ok .emptyNest, .error (.unbalancedEndChar ()), .ok (.text (charsOf "}"))], true))
    (fun x => (x.1, x.2.alloc)) (by decide +kernel)
  obtain ⟨h1, h2⟩ := Prod.mk.inj ht
  subst h1
  exact h2 ▸ C77_results (seqConf _ _ _) swapClassifier_disjoint (fun a b h => congrArg swapClassifier h) swapLookup_mem rfl h

end Kul
