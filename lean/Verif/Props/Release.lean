import Verif.Proof.Release
import Verif.Props.Provided
import Verif.Proof.Sample

/-!
# Release builds (C75)
-/

namespace Kul

variable {σ P τ ε α CE : Type}

/-- C75. Any parser whose source stream shows the same when peeked again: where a call of `next` does not panic in a debug
build, it does the same in a release build: same result, same state of the stream, the allocator and the nest depth. -/
theorem C75_call (W : Nat) {E : Env σ P τ ε α CE} {R : StreamOps σ P τ α} (H : E.strm.SameUnlessPanic R)
    (Q : E.strm.Repeats) {s o s'} (h : E.Call s o s') (ho : o ≠ .panic) : (E.withStream R).RelCall W s o s' := by
  obtain ⟨n, h, hf⟩ := h
  rcases (rel_parse W H Q n).1 .base s with hp | hp
  · change (E.doNext n s).1 = _ at hp
    rw [h] at hp
    exact absurd hp ho
  · exact ⟨n, hp.trans h, hf⟩

/-- C75. And where it does not panic in a debug build, nothing else is possible in a release build. -/
theorem C75_only (W : Nat) {E : Env σ P τ ε α CE} {R : StreamOps σ P τ α} (H : E.strm.SameUnlessPanic R)
    (Q : E.strm.Repeats) {s o s' o₁ s₁} (h : E.Call s o s') (ho : o ≠ .panic)
    (h₁ : (E.withStream R).RelCall W s o₁ s₁) : o₁ = o ∧ s₁ = s' := by
  obtain ⟨n, h₁, hf⟩ := h₁
  rcases (rel_parse W H Q n).1 .base s with hp | hp
  · rcases hx : E.parseNext n .base s with ⟨o₂, s₂⟩
    rw [hx] at hp
    cases hp
    have := (Env.Call.unique h ⟨n, hx, by simp⟩).1
    exact absurd this ho
  · have := Env.Call.unique (E := E) ⟨n, hp.symm.trans h₁, hf⟩ h
    exact this

/-- C75, for the provided source streams: whatever the bindings and allocator are, and for any history of calls, a release
build does exactly what a debug build does. So what was proved of any of the other properties, of calls of these parsers,
holds of release builds. -/
theorem C75_provided (W : Nat) {E : Env σ P τ ε α CE} {R : StreamOps σ P τ α} {X : TextSem P τ α} {s : σ}
    {r : List (Item P)} (p : Provided E s r X) (B : ReleaseOf W E R) (a : α) (os t) :
    (E.withStream R).RelCalls W (St.init s a) os t ↔ E.Calls (St.init s a) os t := by
  obtain ⟨H, Q⟩ := B.same
  have fine : ∀ os t, E.Calls (St.init s a) os t → ∃ o t', E.Call t o t' ∧ o ≠ .panic := fun os t h =>
    (C15_no_panic_provided p h).2
  generalize St.init s a = s₀ at fine ⊢
  constructor
  · intro h
    induction h with
    | nil => exact .nil
    | cons h _ ih =>
      obtain ⟨o, t', h1, h2⟩ := fine [] _ .nil
      obtain ⟨rfl, rfl⟩ := C75_only W H Q h1 h2 h
      exact .cons h1 (ih fun os t h => fine _ _ (.cons h1 h))
  · intro h
    induction h with
    | nil => exact .nil
    | cons h _ ih =>
      obtain ⟨o, t', h1, h2⟩ := fine [] _ .nil
      obtain ⟨rfl, rfl⟩ := Env.Call.unique h1 h
      exact .cons (C75_call W H Q h1 h2) (ih fun os t h' => fine _ _ (.cons h h'))

/-- C75: so it is for each of the provided parsers: what it is in a release build is modelled for all of them. -/
theorem C75_every (W : Nat) {E : Env σ P τ ε α CE} {X : TextSem P τ α} {s : σ} {r : List (Item P)} (p : Provided E s r X) :
    ∃ R, ReleaseOf W E R := by
  cases p with
  | str => exact ⟨_, .text .posStr _ _ _ _⟩
  | text => exact ⟨_, .text .posStr _ _ _ _⟩
  | textish => exact ⟨_, .text .posStrish _ _ _ _⟩
  | strs => exact ⟨_, .strs _ _ _ _⟩
  | chars => exact ⟨_, .chars _ _ _ _⟩
  | sharedText => exact ⟨_, .text (.shared _) _ _ _ _⟩
  | shared => exact ⟨_, .shared _ _ _ _ _⟩
  | byStates hC =>
    cases hC with
    | posStr => exact ⟨_, .byStates .posStr _ _ _ _ _ _⟩
    | posStrish => exact ⟨_, .byStates .posStrish _ _ _ _ _ _⟩
    | shared => exact ⟨_, .byStates (.shared _) _ _ _ _ _ _⟩

/-- C75, for strings that are parsed in memory, and for iterators of strings, as by `kul::common`. -/
theorem C75_common (W : Nat)
    (lookup : Datum (TextVec PosStr) ε → Option (Combiner (TextVec PosStr) ε α StrPos CE))
    (lookup' : Datum (TextVec PosStrish) ε → Option (Combiner (TextVec PosStrish) ε α CharPos CE)) (s : Str)
    (ss : List Str) (a : α) :
    (∀ os t, (inmemEnv lookup).RelCalls W (St.init (inmemSource s) a) os t ↔
      (inmemEnv lookup).Calls (St.init (inmemSource s) a) os t) ∧
    (∀ os t, ((streamEnv lookup').withStream (strishIterRel W (textVec α posStrishOps))).RelCalls W
        (St.init (.new ss) a) os t ↔
      (streamEnv lookup').Calls (St.init (.new ss) a) os t) :=
  ⟨C75_provided W (Provided.str (.vec) _ _ lookup s) (.text .posStr _ _ _ _) a,
    C75_provided W (Provided.strs (.vec) _ _ lookup' ss) (.strs _ _ _ _) a⟩

/-! ## Instances -/

/-- Makes `k` calls in a release build, budget `n` each. -/
private def runRel (E : Env σ P τ ε α CE) (W n : Nat) : Nat → St σ α → List (Outcome (Err P CE) (Option (Datum τ ε)))
  | 0, _ => []
  | k + 1, s => (E.relParseNext W n .base s).1 :: runRel E W n k (E.relParseNext W n .base s).2

private theorem runRel_calls {E : Env σ P τ ε α CE} {W : Nat} (n k : Nat) {s os} (h : runRel E W n k s = os)
    (hf : ∀ o ∈ os, o ≠ .fuel) : ∃ t, E.RelCalls W s os t := by
  induction k generalizing s os with
  | zero => subst h; exact ⟨s, .nil⟩
  | succ k ih =>
    subst h
    simp only [runRel] at hf ⊢
    obtain ⟨t, ht⟩ := ih (s := (E.relParseNext W n .base s).2) rfl (fun o ho => hf o (by simp [ho]))
    exact ⟨t, .cons ⟨n, rfl, hf _ (by simp)⟩ ht⟩

/-- C75: pieces of `}{a}b` in a release build: an end delimiter without a start, which is where an assertion is left out
that peeks; then a nest over the end of a piece; then a text, whose slice is made without assertions. By `C75_common` the same
is so in a debug build. -/
example : ∃ t, ((streamEnv (noBindings _ Empty Unit _ Empty)).withStream
      (strishIterRel (2 ^ 64) (textVec Unit posStrishOps))).RelCalls (2 ^ 64)
      (St.init (.new ["}{a".toList, "}b".toList]) ())
    [.err (.unbalancedEndChar ⟨0⟩),
     .ok (some (.combination (.text (.single ⟨⟨"}{a".toList, 2, 3⟩, ⟨2⟩⟩)) .emptyList)),
     .ok (some (.text (.single ⟨⟨"}b".toList, 1, 2⟩, ⟨4⟩⟩))), .ok none] t :=
  runRel_calls 12 4 (by decide +kernel) (by decide +kernel)

/-- A source stream that can be peeked only so often, and then is as at its end. -/
private def shy : StreamOps (List (Item Unit) × Nat) Unit (List Char) Unit where
  peek s := match s.2 with
    | 0 => (.ok none, s)
    | k + 1 => (.ok s.1.head?, (s.1, k))
  next s := (.ok s.1.head?, (s.1.tail, s.2))
  nextAccum s a := (.ok s.1.head?, (s.1.tail, s.2), a)
  accumDone s a := (.ok [], s, a)

private def shyEnv : Env (List (Item Unit) × Nat) Unit (List Char) Empty Unit Empty where
  cc := defaultClassifier
  strm := shy
  text := ⟨[], fun t u a => (.ok (t ++ u), a)⟩
  alloc := boxAlloc _ _ _
  lookup _ := none

/-- That the stream shows the same again is needed: with this one, after the error for `}`, a debug build finds no more, a
release build finds a text. -/
example : (∃ t, shyEnv.Calls (St.init ([⟨'}', ()⟩, ⟨'a', ()⟩], 2) ()) [.err (.unbalancedEndChar ()), .ok none] t) ∧
    (∃ t, shyEnv.RelCalls 0 (St.init ([⟨'}', ()⟩, ⟨'a', ()⟩], 2) ())
      [.err (.unbalancedEndChar ()), .ok (some (.text []))] t) :=
  ⟨Env.calls_of 9 2 (by decide +kernel) (by decide +kernel), runRel_calls 9 2 (by decide +kernel) (by decide +kernel)⟩

end Kul
