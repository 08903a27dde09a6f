import Verif.Proof.Size
import Verif.Props.Provided
import Verif.Props.Live

/-!
# The size of what is parsed

C70: the datums that a parser gives are linear in the source that they are parsed from. `Datum.nodes` counts the datums
that a datum consists of (`Spec/Size.lean`).
-/

namespace Kul

variable {σ P τ ε α CE : Type} {E : Env σ P τ ε α CE} {RS : σ → Seq P → Prop} {X : TextSem P τ α}

theorem Conf.size_call (C : Conf E RS X) (M : Modest E.lookup) {s : σ} {r : List (Item P)} (hs : AtItems RS s r) {a : α}
    {o t} (h : E.Call ⟨s, a, 0⟩ o t) : ∃ s' a' r', t = ⟨s', a', 0⟩ ∧ AtItems RS s' r' ∧ r' <:+ r ∧
      2 * nodesOf [o] + 3 * r'.length + owed E.cc r' ≤ 3 * r.length + owed E.cc r := by
  obtain ⟨x, s', r', a', rfl, rfl, h1, h2⟩ := C.call_inv hs h
  refine ⟨s', a', r', rfl, h1, h2.suffix, ?_⟩
  have h3 := h2.size M
  match x, h3, h2.le_one with
  | .ok [], h3, _ =>
    have := h3 [] rfl
    simpa [optOut, nodesOf, nodesAll] using this
  | .ok [d], h3, _ =>
    have := h3 [d] rfl
    simpa [optOut, nodesOf, nodesAll] using this
  | .ok (_ :: _ :: _), _, h => have := h _ rfl; simp at this
  | .error e, _, _ =>
    have hl := h2.suffix.length_le
    simp only [optOut, nodesOf, Nat.mul_zero, Nat.zero_add]
    rcases Nat.eq_or_lt_of_le hl with hl | hl
    · rw [h2.suffix.eq_of_length hl]
      exact Nat.le_refl _
    · have := owed_le (cc := E.cc) r'
      omega

theorem nodesOf_cons (o : Outcome (Err P CE) (Option (Datum τ ε))) (os) :
    nodesOf (o :: os) = nodesOf [o] + nodesOf os := by
  match o with
  | .ok (some d) => simp [nodesOf]
  | .ok none | .err _ | .panic | .fuel => simp [nodesOf]

theorem Conf.size_calls (C : Conf E RS X) (M : Modest E.lookup) {t os t'} (h : E.Calls t os t') :
    ∀ {s a r}, t = ⟨s, a, 0⟩ → AtItems RS s r → ∃ s' a' r', t' = ⟨s', a', 0⟩ ∧ AtItems RS s' r' ∧ r' <:+ r ∧
      2 * nodesOf os + 3 * r'.length + owed E.cc r' ≤ 3 * r.length + owed E.cc r := by
  induction h with
  | nil =>
    rintro s a r rfl hs
    exact ⟨s, a, r, rfl, hs, List.suffix_rfl, by simp [nodesOf]⟩
  | @cons t o t₁ os t₂ hc _ ih =>
    rintro s a r rfl hs
    obtain ⟨s', a', r', rfl, h1, h2, h3⟩ := C.size_call M hs hc
    obtain ⟨s₂, a₂, r₂, rfl, h4, h5, h6⟩ := ih rfl h1
    refine ⟨s₂, a₂, r₂, rfl, h4, h5.trans h2, ?_⟩
    rw [nodesOf_cons]
    omega

/-- C70. After any history of calls, errors included, a datum that the next call returns consists of fewer than one and
a half times as many datums as the call consumes characters; with any bindings whose combiners do not give more than they are given. -/
theorem C70_linear_size (C : Conf E RS X) (M : Modest E.lookup) {s : σ} {r : List (Item P)} (hs : RS s ⟨[], r⟩) {a : α}
    {os t} (h : E.Calls (St.init s a) os t) {d t'} (hc : E.Call t (.ok (some d)) t') :
    ∃ u v, ToCome E.strm t.strm (u ++ v) ∧ ToCome E.strm t'.strm v ∧ 2 * d.nodes < 3 * u.length := by
  obtain ⟨s₁, a₁, r₁, rfl, h1, _, _⟩ := C.size_calls M h rfl (AtItems.fresh hs)
  obtain ⟨s₂, a₂, v, rfl, h2, ⟨u, rfl⟩, h3⟩ := C.size_call M h1 hc
  obtain ⟨_, h1, _⟩ := h1
  obtain ⟨_, h2, _⟩ := h2
  refine ⟨u, v, C.toCome h1, C.toCome h2, ?_⟩
  simp only [nodesOf, List.length_append] at h3
  have := owed_le (cc := E.cc) (u ++ v)
  omega

/-- C70. All datums of a history together consist of at most one and a half times as many datums as the source has
characters, less one for each. -/
theorem C70_linear_total (C : Conf E RS X) (M : Modest E.lookup) {s : σ} {r : List (Item P)} (hs : RS s ⟨[], r⟩) {a : α}
    {os t} (h : E.Calls (St.init s a) os t) : 2 * nodesOf os ≤ 3 * r.length + 1 := by
  obtain ⟨_, _, _, _, _, _, h1⟩ := C.size_calls M h rfl (AtItems.fresh hs)
  have := owed_le (cc := E.cc) r
  omega

/-- C70, for the library's streams and text types. -/
theorem C70_linear_size_provided {s : σ} {r : List (Item P)} (pr : Provided E s r X) (M : Modest E.lookup) {a : α} {os t}
    (h : E.Calls (St.init s a) os t) {d t'} (hc : E.Call t (.ok (some d)) t') :
    ∃ u v, ToCome E.strm t.strm (u ++ v) ∧ ToCome E.strm t'.strm v ∧ 2 * d.nodes < 3 * u.length :=
  have ⟨_, C, hs⟩ := pr.conf
  C70_linear_size C M hs h hc

/-- C70, for the library's streams and text types. -/
theorem C70_linear_total_provided {s : σ} {r : List (Item P)} (pr : Provided E s r X) (M : Modest E.lookup) {a : α} {os t}
    (h : E.Calls (St.init s a) os t) : 2 * nodesOf os ≤ 3 * r.length + 1 :=
  have ⟨_, C, hs⟩ := pr.conf
  C70_linear_total C M hs h

/-- Without bindings the hypothesis is met. -/
theorem Modest.none {lookup : Datum τ ε → Option (Combiner τ ε α P CE)} (h : ∀ d, lookup d = .none) : Modest lookup where
  operative d f hd := by rw [h] at hd; cases hd
  applicative d f hd := by rw [h] at hd; cases hd

/-! ## Non-vacuity -/

/-- Bindings that meet the hypothesis: an operative that gives its operand, and an applicative that gives a combination
of its operands with its operator. -/
def modestBindings (d : Datum (TextVec PosStr) Unit) : Option (Combiner (TextVec PosStr) Unit Unit StrPos Unit) :=
  match d with
  | .emptyNest => some (.operative fun _ t a => (.ok (some (.text t)), a))
  | .combination _ _ => some (.applicative fun h l a => (.ok (some (.combination l h)), a))
  | _ => none

theorem modestBindings_modest : Modest modestBindings where
  operative d f hd t a x hx := by
    unfold modestBindings at hd
    split at hd <;> cases hd
    cases hx
    simp [Datum.nodes]
  applicative d f hd l a x hx := by
    unfold modestBindings at hd
    split at hd <;> cases hd
    cases hx
    simp only [Datum.nodes]
    omega

/-- The kind of a result. -/
private def kind : Outcome (Err P CE) (Option (Datum τ ε)) → Nat
  | .ok none => 0
  | .ok (some _) => 1
  | .err _ => 2
  | _ => 3

private theorem callsOf_nodes (n k : Nat) {s : St σ α} {v : List Nat} {w : Nat}
    (h : (fun r : _ × St σ α => (r.1.map kind, nodesOf r.1)) (E.callsOf n k s) = (v, w)) (hv : 3 ∉ v) :
    ∃ os t, E.Calls s os t ∧ os.map kind = v ∧ nodesOf os = w := by
  have h1 := congrArg Prod.fst h
  have h2 := congrArg Prod.snd h
  refine ⟨_, _, Env.callsOf_calls n k ?_, h1, h2⟩
  rintro o ho rfl
  have := List.mem_map_of_mem (f := kind) ho
  rw [show List.map kind _ = v from h1] at this
  exact hv this

/-- `{{}a{}}{{a}b}}`: a text, a combination, and an error. -/
example : ∃ os t, (inmemEnv modestBindings).Calls (St.init (inmemSource "{{}a{}}{{a}b}}".toList) ()) os t ∧
    os.map kind = [1, 1, 2, 0] ∧ nodesOf os = 10 :=
  callsOf_nodes (E := inmemEnv modestBindings) 40 4 (by decide +kernel) (by decide)

/-- The bound of such a history. -/
example (os t) (h : (inmemEnv modestBindings).Calls (St.init (inmemSource "{{}a{}}{{a}b}}".toList) ()) os t) :
    nodesOf os ≤ 21 := by
  have key : ∀ {σ} (E : Env σ StrPos (TextVec PosStr) Unit Unit Unit) (s : σ) (r : List (Item StrPos)),
      Provided E s r (vecSem Unit) → Modest E.lookup → r.length = 14 → ∀ os t, E.Calls (St.init s ()) os t →
      nodesOf os ≤ 21 := fun E s r pr M hr os t h => by
    have := C70_linear_total_provided pr M h
    omega
  exact key _ _ _ (inmem_provided modestBindings "{{}a{}}{{a}b}}".toList) modestBindings_modest (by decide +kernel) os t h

/-- Without the hypothesis it is not so: an applicative that doubles its operands. -/
def doubling (d : Datum (TextVec PosStr) Unit) : Option (Combiner (TextVec PosStr) Unit Unit StrPos Unit) :=
  match d with
  | .text _ => some (.applicative fun _ l a => (.ok (some (.combination l l)), a))
  | _ => none

/-- `{d{d{d}}}` gives 27 datums, of 9 characters. -/
example : ∃ os t, (inmemEnv doubling).Calls (St.init (inmemSource "{d{d{d}}}".toList) ()) os t ∧ os.map kind = [1] ∧
    nodesOf os = 28 :=
  callsOf_nodes (E := inmemEnv doubling) 40 1 (by decide +kernel) (by decide)

end Kul
