import Verif.Spec.Seq

/-!
# The contract of sources and texts

What `SourceStream` (`core/src/lib.rs` 145-195) and `TextConcat`
(`core/src/text.rs` 286-307) promise in their documentation, stated against the
abstract sequence of `Spec/Seq.lean`. Specification only: every stream and text type
of the repository is proved to fulfil it (`Props/Streams.lean`).
-/

namespace Kul

/-- Meaning of a text type: `RT t c` says that text `t` consists of the items `c`;
`RA a a'` says that text operations may change the allocator from `a` to `a'`;
`F` says that they may run out of memory. -/
structure TextSem (P τ α : Type) where
  RT : τ → List (Item P) → Prop
  RA : α → α → Prop
  F : Prop

/-- The stream and text operations of `E` behave as a sequence of items. `RS s q`
says that stream state `s` stands for the sequence state `q`. Allocation may fail
only if something was accumulated; then the accumulation is lost and the source has
not moved. -/
structure Conf {σ P τ ε α CE : Type} (E : Env σ P τ ε α CE) (RS : σ → Seq P → Prop)
    (X : TextSem P τ α) : Prop where
  refl : ∀ a, X.RA a a
  trans : ∀ a b c, X.RA a b → X.RA b c → X.RA a c
  peek : ∀ s q, RS s q → ∃ s', E.strm.peek s = (.ok q.rest.head?, s') ∧ RS s' q
  next : ∀ s q, RS s q → ∃ s', E.strm.next s = (.ok q.rest.head?, s') ∧ RS s' ⟨[], q.rest.tail⟩
  nextAccum : ∀ s q a, RS s q → ∃ o s' a', E.strm.nextAccum s a = (o, s', a') ∧ X.RA a a' ∧
    ((o = .ok q.rest.head? ∧ RS s' ⟨q.pending ++ q.rest.head?.toList, q.rest.tail⟩) ∨
     (X.F ∧ q.pending ≠ [] ∧ (∃ e, o = .err e) ∧ RS s' ⟨[], q.rest⟩))
  accumDone : ∀ s q a, RS s q → ∃ o s' a', E.strm.accumDone s a = (o, s', a') ∧ X.RA a a' ∧
    RS s' ⟨[], q.rest⟩ ∧
    ((∃ t, o = .ok t ∧ X.RT t q.pending) ∨ (X.F ∧ q.pending ≠ [] ∧ ∃ e, o = .err e))
  empty : X.RT E.text.empty []
  concat : ∀ t u c e a, X.RT t c → X.RT u e → ∃ o a', E.text.concat t u a = (o, a') ∧ X.RA a a' ∧
    ((∃ v, o = .ok v ∧ X.RT v (c ++ e)) ∨ (X.F ∧ c ≠ [] ∧ e ≠ [] ∧ ∃ x, o = .err x))

/-- Nothing is pending, or the source is at its end. -/
def Clean {P : Type} (p r : List (Item P)) : Prop := p = [] ∨ r = []

/-- The stream stands for the items `r` yet to come, with nothing accumulated (or
at the end of the source). -/
def AtItems {σ P : Type} (RS : σ → Seq P → Prop) (s : σ) (r : List (Item P)) : Prop :=
  ∃ p, RS s ⟨p, r⟩ ∧ Clean p r

/-- Text `t` has the characters `cs` (at whatever positions). -/
def TextSem.HasChars {P τ α : Type} (X : TextSem P τ α) (t : τ) (cs : List Char) : Prop :=
  ∃ c, X.RT t c ∧ c.map Item.ch = cs

/-- Two texts have the same characters (at whatever positions). -/
def TextSem.SameChars {P τ α : Type} (X : TextSem P τ α) (t u : τ) : Prop :=
  ∃ cs, X.HasChars t cs ∧ X.HasChars u cs

/-- Texts of the abstract source are lists of items. -/
def seqSem (P α : Type) : TextSem P (List (Item P)) α where
  RT t c := t = c
  RA a a' := a = a'
  F := False

/-- The abstract source fulfils the contract. -/
theorem seqConf {P ε α CE : Type} (cc : Classifier) (al : AllocOps (List (Item P)) ε α)
    (lookup : Datum (List (Item P)) ε → Option (Combiner (List (Item P)) ε α P CE)) :
    Conf (seqEnv cc al lookup) Eq (seqSem P α) where
  refl _ := rfl
  trans _ _ _ h h' := Eq.trans h h'
  peek := by rintro s _ rfl; exact ⟨s, rfl, rfl⟩
  next := by rintro s _ rfl; exact ⟨_, rfl, rfl⟩
  nextAccum := by rintro s _ a rfl; exact ⟨_, _, _, rfl, rfl, Or.inl ⟨rfl, rfl⟩⟩
  accumDone := by rintro s _ a rfl; exact ⟨_, _, _, rfl, rfl, rfl, Or.inl ⟨_, rfl, rfl⟩⟩
  empty := rfl
  concat := by rintro t u _ _ a rfl rfl; exact ⟨_, _, rfl, rfl, Or.inl ⟨_, rfl, rfl⟩⟩

end Kul
