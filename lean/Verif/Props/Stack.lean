import Verif.Proof.StackLower
import Verif.Props.Provided

/-!
# The call stack and the counters

C56: how many frames of its recursive functions a call of the parser needs, and how far
its counters go. `E.CallK M k` is a call in a program whose stack has room for `k` such
frames and whose counters go up to `M` (`Model/Stack.lean`, `Spec/Depth.lean`); running
out of either is the outcome `.panic`. `deepest cc 0 r` is the largest number of nests
open at once in `r`.
-/

namespace Kul

variable {σ P τ ε α CE : Type} {E : Env σ P τ ε α CE} {RS : σ → Seq P → Prop} {X : TextSem P τ α}

/-- C56. The limits can only abort a call: one that is not aborted does what it does
without limits. Of every parser, in every state. -/
theorem C56_limits_only_abort {M k : Nat} {t o t'} (h : E.CallK M k t o t') : o = .panic ∨ E.Call t o t' :=
  h.same

/-- C56. If `r'` is still to come, and nests at most `n` deep, then `3 n + 2` frames and
counters up to `n` suffice, however long `r'` is: the call does what it does without
limits, and is not aborted. After any history of calls. -/
theorem C56_enough (C : Conf E RS X) (D : E.cc.Disjoint) {s : σ} {r : List (Item P)} (hs : RS s ⟨[], r⟩) {a : α}
    {os t} (h : E.Calls (St.init s a) os t) {r' : List (Item P)} (hr : ToCome E.strm t.strm r') {M k : Nat}
    (hM : deepest E.cc 0 r' ≤ M) (hk : 3 * deepest E.cc 0 r' + 2 ≤ k) :
    (∃ o t', E.CallK M k t o t' ∧ o ≠ .panic) ∧ ∀ o t', E.CallK M k t o t' ↔ E.Call t o t' := by
  obtain ⟨o, t₁, h1, h2⟩ := (C15_no_panic C hs h).2
  obtain ⟨s', a', r'', rfl, hi, _⟩ := C.calls h rfl (AtItems.fresh hs)
  obtain rfl := (hi.toCome C).unique hr
  have e := C.callK_iff D hi hM hk a'
  exact ⟨⟨o, t₁, (e _ _).2 h1, h2⟩, e⟩

theorem C56_enough_provided (D : E.cc.Disjoint) {s : σ} {r : List (Item P)} (pr : Provided E s r X) {a : α}
    {os t} (h : E.Calls (St.init s a) os t) {r' : List (Item P)} (hr : ToCome E.strm t.strm r') {M k : Nat}
    (hM : deepest E.cc 0 r' ≤ M) (hk : 3 * deepest E.cc 0 r' + 2 ≤ k) :
    (∃ o t', E.CallK M k t o t' ∧ o ≠ .panic) ∧ ∀ o t', E.CallK M k t o t' ↔ E.Call t o t' :=
  have ⟨_, C, hs⟩ := pr.conf
  C56_enough C D hs h hr hM hk

/-- C56. If frames and counters suffice for as many open nests as the source has start
delimiters, every history of calls is one of the program without limits: none is aborted. -/
theorem C56_whole_parse (C : Conf E RS X) (D : E.cc.Disjoint) {s : σ} {r : List (Item P)} (hs : RS s ⟨[], r⟩) {a : α}
    {M k : Nat} (hM : (r.countP fun it => E.cc.isNestStart it.ch) ≤ M)
    (hk : 3 * (r.countP fun it => E.cc.isNestStart it.ch) + 2 ≤ k) {os t}
    (h : E.CallsK M k (St.init s a) os t) : E.Calls (St.init s a) os t ∧ .panic ∉ os := by
  suffices H : E.Calls (St.init s a) os t from ⟨H, (C15_no_panic C hs H).1⟩
  have key : ∀ {t₀ os t}, E.CallsK M k t₀ os t → ∀ {s a r'}, t₀ = ⟨s, a, 0⟩ → AtItems RS s r' → r' <:+ r →
      E.Calls t₀ os t := by
    intro t₀ os t h
    induction h with
    | nil => intros; exact .nil
    | cons h1 _ ih =>
      rintro s a r' rfl hi hsuf
      have hc := hsuf.sublist.countP_le (p := fun it => E.cc.isNestStart it.ch)
      have hd := deepest_le_count E.cc 0 r'
      have h1' := (C.callK_iff D hi (by omega) (by omega) a _ _).1 h1
      obtain ⟨x, s', r₂, a', rfl, rfl, h3, h4⟩ := C.call_inv hi h1'
      exact .cons h1' (ih rfl h3 (h4.suffix.trans hsuf))
  exact key h rfl (AtItems.fresh hs) List.suffix_rfl

theorem C56_whole_parse_provided (D : E.cc.Disjoint) {s : σ} {r : List (Item P)} (pr : Provided E s r X) {a : α}
    {M k : Nat} (hM : (r.countP fun it => E.cc.isNestStart it.ch) ≤ M)
    (hk : 3 * (r.countP fun it => E.cc.isNestStart it.ch) + 2 ≤ k) {os t}
    (h : E.CallsK M k (St.init s a) os t) : E.Calls (St.init s a) os t ∧ .panic ∉ os :=
  have ⟨_, C, hs⟩ := pr.conf
  C56_whole_parse C D hs hM hk h

/-- C56, the limits matter: a source that begins with `L` start delimiters, whatever
follows, aborts the first call if only `2 L` frames fit on the stack, or if the counters do
not go up to `L`. So no fixed stack is enough for every source: there is no limit on the
nesting depth in the parser, and a source of `L` characters can need more than `2 L`
frames. Whatever the allocator and the bindings. -/
theorem C56_deep_sources_abort_provided (D : E.cc.Disjoint) {s : σ} {u v : List (Item P)} (pr : Provided E s (u ++ v) X)
    (hu : ∀ it ∈ u, E.cc.isNestStart it.ch = true) {M k : Nat} (h : k ≤ 2 * u.length ∨ M < u.length) (a : α) :
    (∃ t, E.CallK M k (St.init s a) .panic t) ∧ ∀ o t, E.CallK M k (St.init s a) o t → o = .panic := by
  obtain ⟨_, C, hs⟩ := pr.conf
  have e := starts_panic C D M u hu (3 * (u ++ v).length + 2) k .base v [] s a 0 (by simp) hs (Or.inl rfl)
    (Nat.zero_le _) (by omega) (Nat.le_refl _)
  have hp : E.CallK M k (St.init s a) .panic (E.doNextK M (3 * (u ++ v).length + 2) k (St.init s a)).2 :=
    ⟨_, Prod.ext e rfl, by simp⟩
  exact ⟨⟨_, hp⟩, fun o t h => (hp.unique h).1.symm⟩

/-- C56, the bound is exact: for every `L`, the source `{x {x {x … x` with `L` nests nests `L`
deep, and one frame less than `3 L + 2` aborts the first call. -/
theorem C56_bound_exact_provided (D : E.cc.Disjoint) (hb : ∀ d, E.lookup d = none) (hF : ¬ X.F) {b x w : Char}
    (hst : E.cc.isNestStart b = true) (hx : E.cc.Ordinary x) (hw : E.cc.isWhitespace w = true) {L : Nat}
    {s : σ} {r : List (Item P)} (pr : Provided E s r X) (hr : r.map Item.ch = nestedOperands b x w L) (M : Nat) (a : α) :
    deepest E.cc 0 r = L ∧
    ∀ k, k < 3 * L + 2 → ∀ o t, E.CallK M k (St.init s a) o t → o = .panic := by
  obtain ⟨_, C, hs⟩ := pr.conf
  refine ⟨(deepest_operands D hst hx hw L r 0 hr).trans (Nat.zero_add L), fun k hk o t h => ?_⟩
  have e := operands_panic C D hb hF M hst hx hw L (3 * r.length + 2) k r [] s a 0 hr hs (Or.inl rfl)
    (by omega) (Nat.le_refl _)
  have hp : E.CallK M k (St.init s a) .panic (E.doNextK M (3 * r.length + 2) k (St.init s a)).2 :=
    ⟨_, Prod.ext e rfl, by simp⟩
  exact (hp.unique h).1.symm

/-! ## Non-vacuity -/

theorem map_itemsFrom_ch {P : Type} (adv : P → Char → P) (p : P) (s : Str) : (itemsFrom adv p s).map Item.ch = s := by
  induction s generalizing p with
  | nil => rfl
  | cons c s ih => simp [itemsFrom, ih]

/-- `{a {b c}}{d}`: two nests open at once, so 8 frames suffice for the first call; 7 do not for
`{x {x x`. -/
example (M k : Nat) (hM : 2 ≤ M) (hk : 8 ≤ k) :
    ∃ o t, (inmemEnv (noBindings _ Unit Unit StrPos Unit)).CallK M k
      (St.init (inmemSource "{a {b c}}{d}".toList) ()) o t ∧ o ≠ .panic := by
  have key : ∀ {σ} (E : Env σ StrPos (TextVec PosStr) Unit Unit Unit) (s : σ) (r : List (Item StrPos)),
      Provided E s r (vecSem Unit) → E.cc.Disjoint → deepest E.cc 0 r = 2 →
      ∃ o t, E.CallK M k (St.init s ()) o t ∧ o ≠ .panic := fun E s r pr D hd =>
    (C56_enough_provided D pr .nil pr.toCome (M := M) (k := k) (by omega) (by omega)).1
  exact key _ _ _ (inmem_provided (noBindings _ Unit Unit StrPos Unit) "{a {b c}}{d}".toList)
    defaultClassifier_disjoint (by decide +kernel)

example (o t) (h : (inmemEnv (noBindings _ Unit Unit StrPos Unit)).CallK 1000 7
    (St.init (inmemSource "{x {x x".toList) ()) o t) : o = .panic :=
  (C56_bound_exact_provided (L := 2) (b := '{') (x := 'x') (w := ' ') defaultClassifier_disjoint (fun _ => rfl)
    (fun h => h) (by decide) ⟨by decide, by decide, by decide, by decide⟩ (by decide)
    (inmem_provided (noBindings _ Unit Unit StrPos Unit) "{x {x x".toList) (by decide +kernel) 1000 ()).2
    7 (by omega) o t h

/-- A thousand (or any number of) start delimiters, from an iterator of strings. -/
example (L : Nat) (o t) (h : (streamEnv (noBindings _ Unit Unit CharPos Unit)).CallK (2 ^ 64 - 1) (2 * L)
    (St.init (.new [List.replicate L '{']) ()) o t) : o = .panic := by
  have pr := stream_provided (noBindings _ Unit Unit CharPos Unit) [List.replicate L '{']
  have hch : (charItems [List.replicate L '{'].flatten).map Item.ch = List.replicate L '{' := by
    rw [charItems, map_itemsFrom_ch]; simp
  have hlen : (charItems [List.replicate L '{'].flatten).length = L := by
    have := congrArg List.length hch; simpa using this
  rw [← List.append_nil (charItems _)] at pr
  refine (C56_deep_sources_abort_provided defaultClassifier_disjoint pr (fun it hit => ?_) (Or.inl ?_) ()).2 o t h
  · have : it.ch ∈ List.replicate L '{' := hch ▸ List.mem_map_of_mem hit
    rw [(List.mem_replicate.1 this).2]; rfl
  · rw [hlen]; exact Nat.le_refl _

end Kul
