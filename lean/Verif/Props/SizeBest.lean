import Verif.Props.Size
import Verif.Props.Slots

/-!
# The bound on the size of what is parsed is the best one

C70: the strings `costly k` of `Props/Slots.lean`, `{a}`, `{a{a}x}`, `{a{a{a}x}x}` and so on.
-/

namespace Kul

variable {ε α CE : Type}

theorem nodes_refs {τ₁ τ₂ ε₁ ε₂ : Type} {RT : τ₁ → τ₂ → Prop} {RX : ε₁ → ε₂ → Prop} {d d'}
    (h : DatumRel RT RX d d') : d.nodes = d'.refs (fun _ => 0) + 1 := by
  induction h with
  | text _ | emptyNest | emptyList | extra _ => rfl
  | combination _ _ h1 h2 | list _ _ h1 h2 => simp only [Datum.nodes, Datum.refs, h1, h2]; omega

/-- C70. The bound cannot be lowered: there are strings of any length at which the in-memory parser, without bindings,
gives a single datum that consists of one and a half times as many datums as the string has characters, up to one and a
half datums. -/
theorem C70_optimal (N : Nat) (a : α) : ∃ s : Str, N ≤ s.length ∧
    (∃ l t, (inmemEnv (noBindings _ ε α StrPos CE)).Yields (St.init (inmemSource s) a) l t) ∧
    ∀ l t, (inmemEnv (noBindings _ ε α StrPos CE)).Yields (St.init (inmemSource s) a) l t →
      ∃ d, l = [.ok d] ∧ 2 * d.nodes + 3 = 3 * s.length := by
  refine ⟨costly N, by rw [costly_length]; omega, ?_⟩
  obtain ⟨d, h1, h2⟩ := costly_gram ε N 0
  have hr : StrResults (CE := CE) (costly N) [.ok d] := by
    have := Gram.form (top := true) (b := false) h1 (.nil (b := false))
    rw [List.append_nil] at this
    exact .all this
  have h3 := C52_inmem (costly N) a hr
  refine ⟨h3.1, fun l t hy => ?_⟩
  cases h3.2 l t hy with
  | cons h4 h5 =>
    cases h5
    cases h4 with
    | datum h4 =>
      refine ⟨_, rfl, ?_⟩
      rw [nodes_refs h4, h2, costly_length]
      omega

/-- `{a{a}x}`: seven characters, nine datums. -/
example : ∃ d : Datum (List (Item Nat)) Empty, Gram defaultClassifier .nest (numbered 0 "{a{a}x}".toList) [d] ∧
    d.nodes = 9 := by
  obtain ⟨d, h1, h2⟩ := costly_gram Empty 1 0
  refine ⟨d, h1, ?_⟩
  have : ∀ d : Datum (List (Item Nat)) Empty, d.nodes = d.refs (fun _ => 0) + 1 := by
    intro d
    induction d with
    | combination _ _ h1 h2 | list _ _ h1 h2 => simp only [Datum.nodes, Datum.refs, h1, h2]; omega
    | _ => rfl
  rw [this, h2]

end Kul
