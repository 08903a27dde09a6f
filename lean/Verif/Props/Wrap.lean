import Verif.Proof.WrapStreams
import Verif.Props.Counters

/-!
# Release builds with wrapping arithmetic (C91)

`E.WrapCalls (M + 1)` are histories of calls in a release build in which every addition and subtraction of the parser and its
stream wraps around above `M` (`Model/Wrap.lean`).
-/

namespace Kul

variable {σ P τ ε α CE : Type} {M : Nat} {E : Env σ P τ ε α CE} {R : StreamOps σ P τ α}

/-- C91. The arithmetic is that of integers modulo the number of values. -/
theorem C91_modular (W : Nat) (a b : Fin W) :
    addWrap W a b = ((a + b : Fin W) : Nat) ∧ subWrap W a b = ((a - b : Fin W) : Nat) := by
  obtain ⟨a, ha⟩ := a
  obtain ⟨b, hb⟩ := b
  refine ⟨rfl, ?_⟩
  show subWrap W a b = (W - b + a) % W
  unfold subWrap
  split
  · rw [show W - b + a = a - b + W by omega, Nat.add_mod_right, Nat.mod_eq_of_lt (by omega)]
  · rw [Nat.mod_eq_of_lt (by omega)]
    omega

/-- C91. Any parser whose source stream shows the same when peeked again, with checked arithmetic and a stack of any size: where
a call of `next` does not panic in a debug build, it does the same in a release build with wrapping arithmetic. -/
theorem C91_call (H : E.strm.SameUnlessPanic R) (Q : E.strm.Repeats) {k s o s'} (h : E.CallK M k s o s') (ho : o ≠ .panic) :
    (E.withStream R).WrapCall (M + 1) s o s' := by
  obtain ⟨n, h, hf⟩ := h
  rcases (wrap_parse M H Q n).1 k .base s with hp | hp
  · change (E.doNextK M n k s).1 = _ at hp
    rw [h] at hp
    exact absurd hp ho
  · exact ⟨n, hp.trans h, hf⟩

/-- C91. And nothing else is possible there. -/
theorem C91_only (H : E.strm.SameUnlessPanic R) (Q : E.strm.Repeats) {k s o s' o₁ s₁} (h : E.CallK M k s o s')
    (ho : o ≠ .panic) (h₁ : (E.withStream R).WrapCall (M + 1) s o₁ s₁) : o₁ = o ∧ s₁ = s' := by
  obtain ⟨n, h₁, hf⟩ := h₁
  rcases (wrap_parse M H Q n).1 k .base s with hp | hp
  · rcases hx : E.parseNextK M n k .base s with ⟨o₂, s₂⟩
    rw [hx] at hp
    cases hp
    exact absurd (h.unique (E := E) ⟨n, hx, by simp⟩).1 ho
  · exact Env.CallK.unique (E := E) (M := M) (k := k) ⟨n, hp.symm.trans h₁, hf⟩ h

variable {s : σ} {r : List (Item P)} {X : TextSem P τ α} {S : StreamOps σ P τ α}

/-- C91, for the provided source streams: if the largest value `M` of `usize` is not less than the strings are long, and than the
source has characters and start delimiters, then, whatever the bindings and the allocator, a release build makes the same
histories of calls as the parser without limits. So what was proved of its calls holds of release builds as they are. -/
theorem C91_provided (w : WithinLimit M E s r X S) (B : WrapOf M S R) (D : E.cc.Disjoint)
    (hM : (r.countP fun it => E.cc.isNestStart it.ch) ≤ M) (a : α) (os t) :
    (E.withStream R).WrapCalls (M + 1) (St.init s a) os t ↔ E.Calls (St.init s a) os t := by
  rw [← C80_same w a os t]
  obtain ⟨_, RS, _, _, _, C, hs⟩ := w.conf
  obtain ⟨H, Q⟩ := B.same
  let k := 3 * (r.countP fun it => E.cc.isNestStart it.ch) + 2
  have key : ∀ {s a r'}, AtItems RS s r' → r' <:+ r → ∃ o t', (E.withStream S).Call ⟨s, a, 0⟩ o t' ∧
      (E.withStream S).CallK M k ⟨s, a, 0⟩ o t' ∧ o ≠ .panic ∧
      ∃ s' a' r₂, t' = ⟨s', a', 0⟩ ∧ AtItems RS s' r₂ ∧ r₂ <:+ r := by
    intro s a r' hi hsuf
    have hc := hsuf.sublist.countP_le (p := fun it => E.cc.isNestStart it.ch)
    have hd := deepest_le_count E.cc 0 r'
    obtain ⟨o, s', r₂, a', h1, h3, h4⟩ := C.call hi a
    refine ⟨_, _, h1, (C.callK_iff D hi (by show deepest E.cc 0 _ ≤ M; omega) (by show 3 * deepest E.cc 0 _ + 2 ≤ k; omega) a _ _).2 h1, ?_, _, _, _, rfl, h3,
      h4.suffix.trans hsuf⟩
    cases o <;> simp [optOut]
  have both : ∀ {t₀ os t}, ∀ {s a r'}, t₀ = ⟨s, a, 0⟩ → AtItems RS s r' → r' <:+ r →
      ((E.withStream R).WrapCalls (M + 1) t₀ os t ↔ (E.withStream S).Calls t₀ os t) := by
    intro t₀ os t
    induction os generalizing t₀ with
    | nil =>
      intros
      constructor <;> (intro h; cases h; exact .nil)
    | cons o os ih =>
      rintro s a r' rfl hi hsuf
      obtain ⟨o₁, t', h1, h2, h3, s', a', r₂, rfl, h5, h6⟩ := key (a := a) hi hsuf
      constructor
      · rintro (_ | ⟨h, h'⟩)
        obtain ⟨rfl, rfl⟩ := C91_only (E := E.withStream S) H Q h2 h3 h
        exact .cons h1 ((ih rfl h5 h6).1 h')
      · rintro (_ | ⟨h, h'⟩)
        obtain ⟨rfl, rfl⟩ := Env.Call.unique h h1
        exact .cons (C91_call (E := E.withStream S) H Q h2 h3) ((ih rfl h5 h6).2 h')
  exact both rfl (AtItems.fresh hs) List.suffix_rfl

/-- C91: what each of the provided streams is in such a build is modelled. -/
theorem C91_every (w : WithinLimit M E s r X S) : ∃ R, WrapOf M S R := by
  cases w with
  | str => exact ⟨_, .text .posStr _⟩
  | text => exact ⟨_, .text .posStr _⟩
  | textish => exact ⟨_, .text .posStrish _⟩
  | strs => exact ⟨_, .strs _⟩
  | chars => exact ⟨_, .chars _⟩
  | sharedText => exact ⟨_, .text (.shared _) _⟩
  | shared => exact ⟨_, .shared _ _⟩
  | byStates hC =>
    cases hC with
    | posStr => exact ⟨_, .byStates .posStr _ _ _⟩
    | posStrish => exact ⟨_, .byStates .posStrish _ _ _⟩
    | shared => exact ⟨_, .byStates (.shared _) _ _ _⟩

/-- C91, the library's parsers in `common`: a string of at most `M` bytes, or strings of at most `M` bytes each and at most `M`
characters together. (No string in memory is longer than `isize::MAX` bytes.) -/
theorem C91_common
    (lookup : Datum (TextVec PosStr) ε → Option (Combiner (TextVec PosStr) ε α StrPos CE))
    (lookup' : Datum (TextVec PosStrish) ε → Option (Combiner (TextVec PosStrish) ε α CharPos CE)) (a : α) :
    (∀ s : Str, Str.len s ≤ M → ∀ os t,
      ((inmemEnv lookup).withStream (textIterOps (posStrWrap (M + 1)) (textVec α posStrOps))).WrapCalls (M + 1)
          (St.init (inmemSource s) a) os t ↔
        (inmemEnv lookup).Calls (St.init (inmemSource s) a) os t) ∧
    (∀ ss : List Str, (∀ s ∈ ss, Str.len s ≤ M) → ss.flatten.length ≤ M → ∀ os t,
      ((streamEnv lookup').withStream (strishIterWrap (M + 1) (textVec α posStrishOps))).WrapCalls (M + 1)
          (St.init (.new ss) a) os t ↔
        (streamEnv lookup').Calls (St.init (.new ss) a) os t) := by
  refine ⟨fun s hs os t => ?_, fun ss h1 h2 os t => ?_⟩
  · have hl := Str.length_le_len s
    have hc := countP_itemsFrom_le StrPos.adv ⟨s, 0, 0⟩ (fun it => defaultClassifier.isNestStart it.ch) s
    exact C91_provided (WithinLimit.str .vec _ _ lookup hs) (.text .posStr _) defaultClassifier_disjoint
      (Nat.le_trans hc (by omega)) a os t
  · have hc := countP_itemsFrom_le CharPos.adv ⟨0⟩ (fun it => defaultClassifier.isNestStart it.ch) ss.flatten
    exact C91_provided (WithinLimit.strs .vec _ _ lookup' h1 h2) (.strs _) defaultClassifier_disjoint
      (Nat.le_trans hc (by omega)) a os t

/-- The stream `CharIterSourceStream` in a release build, as the parser of the theorem below has it. -/
abbrev wrapChars (W : Nat) (lookup : Datum (TextVec PosStrish) ε → Option (Combiner (TextVec PosStrish) ε α CharPos CE))
    (al : AllocOps (TextVec PosStrish) ε α) : Env CharIter CharPos (TextVec PosStrish) ε α CE :=
  (charEnv (textVec α posStrishOps) defaultClassifier al lookup).withStream (charIterWrap W (textVec α posStrishOps))

/-- C91, beyond the limit: an iterator can give more characters than `usize` has values. Nothing panics then; the positions
start again at 0. For a source of `n` end delimiters, the `i`th error is at the position `i` modulo `W`. So the position in an
error need not be that of the character. -/
theorem C91_beyond (W : Nat) (lookup : Datum (TextVec PosStrish) ε → Option (Combiner (TextVec PosStrish) ε α CharPos CE))
    (al : AllocOps (TextVec PosStrish) ε α) (n : Nat) (a : α) :
    ∃ t, (wrapChars W lookup al).WrapCalls W (St.init (.new (List.replicate n '}')) a)
      ((List.range n).map fun i => .err (.unbalancedEndChar ⟨i % W⟩)) t := by
  have key : ∀ (n k : Nat) (acc : Option (Str × CharPos)), ∃ t, (wrapChars W lookup al).WrapCalls W
      ⟨⟨((List.replicate n '}').zipIdx k).map fun (ch, pos) => ⟨ch, ⟨pos⟩⟩, acc⟩, a, 0⟩
      ((List.range' k n).map fun i => .err (.unbalancedEndChar ⟨i % W⟩)) t := by
    intro n
    induction n with
    | zero => exact fun k acc => ⟨_, .nil⟩
    | succ n ih =>
      intro k acc
      obtain ⟨t, ht⟩ := ih (k + 1) none
      exact ⟨t, .cons ⟨1, rfl, by simp⟩ ht⟩
  rw [List.range_eq_range']
  exact key n 0 none

/-! ## Non-vacuity -/

/-- Makes `k` calls in such a build, budget `n` each. -/
private def runWrap (E : Env σ P τ ε α CE) (W n : Nat) : Nat → St σ α → List (Outcome (Err P CE) (Option (Datum τ ε)))
  | 0, _ => []
  | k + 1, s => (E.wrapParseNext W n .base s).1 :: runWrap E W n k (E.wrapParseNext W n .base s).2

private theorem runWrap_calls {E : Env σ P τ ε α CE} {W : Nat} (n k : Nat) {s os} (h : runWrap E W n k s = os)
    (hf : ∀ o ∈ os, o ≠ .fuel) : ∃ t, E.WrapCalls W s os t := by
  induction k generalizing s os with
  | zero => subst h; exact ⟨s, .nil⟩
  | succ k ih =>
    subst h
    simp only [runWrap] at hf ⊢
    obtain ⟨t, ht⟩ := ih (s := (E.wrapParseNext W n .base s).2) rfl (fun o ho => hf o (by simp [ho]))
    exact ⟨t, .cons ⟨n, rfl, hf _ (by simp)⟩ ht⟩

/-- C91: `{é}b`, of 5 bytes, where `usize` has 6 values. -/
example : ∃ t, ((inmemEnv (noBindings _ Empty Unit StrPos Empty)).withStream
      (textIterOps (posStrWrap 6) (textVec Unit posStrOps))).WrapCalls 6 (St.init (inmemSource "{é}b".toList) ())
    [.ok (some (.combination (.text (.single ⟨"é".toList, ⟨"{é}b".toList, 1, 1⟩⟩)) .emptyList)),
     .ok (some (.text (.single ⟨"b".toList, ⟨"{é}b".toList, 4, 3⟩⟩))), .ok none] t :=
  runWrap_calls 12 3 (by decide +kernel) (by decide +kernel)

/-- With 5 values the end of the last text wraps around, and slicing panics. -/
example : ∃ t, ((inmemEnv (noBindings _ Empty Unit StrPos Empty)).withStream
      (textIterOps (posStrWrap 5) (textVec Unit posStrOps))).WrapCalls 5 (St.init (inmemSource "{é}b".toList) ())
    [.ok (some (.combination (.text (.single ⟨"é".toList, ⟨"{é}b".toList, 1, 1⟩⟩)) .emptyList)), .panic] t :=
  runWrap_calls 12 2 (by decide +kernel) (by decide +kernel)

/-- Strings of at most 3 bytes and of 4 characters together: with 5 values all is well, with 3 the second text is at the
position 0 instead of 3. -/
example : (∃ t, ((streamEnv (noBindings _ Empty Unit CharPos Empty)).withStream
      (strishIterWrap 5 (textVec Unit posStrishOps))).WrapCalls 5 (St.init (.new ["{a".toList, "}é".toList]) ())
    [.ok (some (.combination (.text (.single ⟨⟨"{a".toList, 1, 2⟩, ⟨1⟩⟩)) .emptyList)),
     .ok (some (.text (.single ⟨⟨"}é".toList, 1, 3⟩, ⟨3⟩⟩))), .ok none] t) ∧
    ∃ t, ((streamEnv (noBindings _ Empty Unit CharPos Empty)).withStream
      (strishIterWrap 3 (textVec Unit posStrishOps))).WrapCalls 3 (St.init (.new ["{a".toList, "}b".toList]) ())
    [.ok (some (.combination (.text (.single ⟨⟨"{a".toList, 1, 2⟩, ⟨1⟩⟩)) .emptyList)),
     .ok (some (.text (.single ⟨⟨"}b".toList, 1, 2⟩, ⟨0⟩⟩))), .ok none] t :=
  ⟨runWrap_calls 12 3 (by decide +kernel) (by decide +kernel), runWrap_calls 12 3 (by decide +kernel) (by decide +kernel)⟩

/-- A nest depth that wraps around: in `{{a}`, where `usize` has 2 values, the second nest has the depth 0, and so its end is one
without a start. Without limits, the end of the outer nest is missing. (`C91_provided` asks for as many values as there are start
delimiters, and one more.) -/
example : (∃ t, (wrapChars (ε := Empty) (CE := Empty) 2 (fun _ => none) (boxAlloc _ _ Unit)).WrapCalls 2
      (St.init (.new "{{a}".toList) ()) [.err (.unbalancedEndChar ⟨1⟩)] t) ∧
    ∃ t, (charEnv (ε := Empty) (CE := Empty) (textVec Unit posStrishOps) defaultClassifier (boxAlloc _ _ Unit) fun _ => none).Calls
      (St.init (.new "{{a}".toList) ()) [.err .missingEndChar] t :=
  ⟨runWrap_calls 12 1 (by decide +kernel) (by decide +kernel), Env.calls_of 12 1 (by decide +kernel) (by decide +kernel)⟩

end Kul
