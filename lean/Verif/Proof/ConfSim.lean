import Verif.Spec.Agree
import Verif.Model.Api
import Verif.Proof.SimParser

/-!
# Two conforming sources run in lock step

If two environments conform to the contract and their streams stand for
corresponding items, then their parses correspond, call by call.
-/

namespace Kul

variable {σ₁ P₁ τ₁ ε₁ α₁ CE₁ σ₂ P₂ τ₂ ε₂ α₂ CE₂ : Type}

/-- Streams that stand for corresponding sequences. -/
def SameStrm (RS₁ : σ₁ → Seq P₁ → Prop) (RS₂ : σ₂ → Seq P₂ → Prop)
    (RI : Item P₁ → Item P₂ → Prop) (s : σ₁) (t : σ₂) : Prop :=
  ∃ q q', RS₁ s q ∧ RS₂ t q' ∧ List.Forall₂ RI q.pending q'.pending ∧ List.Forall₂ RI q.rest q'.rest

/-- The relations between two conforming parses. -/
def confRels (RS₁ : σ₁ → Seq P₁ → Prop) (X₁ : TextSem P₁ τ₁ α₁) (RS₂ : σ₂ → Seq P₂ → Prop)
    (X₂ : TextSem P₂ τ₂ α₂) (RC : Char → Char → Prop) (RP : P₁ → P₂ → Prop) (RX : ε₁ → ε₂ → Prop)
    (RA : α₁ → α₂ → Prop) (RE : CE₁ → CE₂ → Prop) (FailOk : Prop) :
    Rels σ₁ P₁ τ₁ ε₁ α₁ CE₁ σ₂ P₂ τ₂ ε₂ α₂ CE₂ where
  RC := RC
  RP := RP
  RS := SameStrm RS₁ RS₂ (ItemRel RC RP)
  RT := SameText X₁ X₂ (ItemRel RC RP)
  RX := RX
  RA := RA
  RE := RE
  FailOk := FailOk

theorem Forall₂.head? {A B : Type} {R : A → B → Prop} {l : List A} {m : List B}
    (h : List.Forall₂ R l m) : OptRel R l.head? m.head? := by
  cases h with
  | nil => trivial
  | cons h _ => exact h

theorem Forall₂.head?_toList {A B : Type} {R : A → B → Prop} {l : List A} {m : List B}
    (h : List.Forall₂ R l m) : List.Forall₂ R l.head?.toList m.head?.toList := by
  cases h with
  | nil => exact .nil
  | cons h _ => exact .cons h .nil

theorem Forall₂.tail {A B : Type} {R : A → B → Prop} {l : List A} {m : List B}
    (h : List.Forall₂ R l m) : List.Forall₂ R l.tail m.tail := by
  cases h with
  | nil => exact .nil
  | cons _ h => exact h

variable {E₁ : Env σ₁ P₁ τ₁ ε₁ α₁ CE₁} {E₂ : Env σ₂ P₂ τ₂ ε₂ α₂ CE₂}
  {RS₁ : σ₁ → Seq P₁ → Prop} {X₁ : TextSem P₁ τ₁ α₁} {RS₂ : σ₂ → Seq P₂ → Prop}
  {X₂ : TextSem P₂ τ₂ α₂} {RC : Char → Char → Prop} {RP : P₁ → P₂ → Prop} {RX : ε₁ → ε₂ → Prop}
  {RA : α₁ → α₂ → Prop} {RE : CE₁ → CE₂ → Prop} {FailOk : Prop}

theorem ClassifierSim.eq (cc : Classifier) : ClassifierSim Eq cc cc := by
  constructor <;> rintro c _ rfl <;> rfl

/-- Conforming environments with corresponding classifiers, allocators and bindings
are in lock step. -/
theorem Conf.sim (C₁ : Conf E₁ RS₁ X₁) (C₂ : Conf E₂ RS₂ X₂) (hcc : ClassifierSim RC E₁.cc E₂.cc)
    (hF₁ : X₁.F → FailOk) (hF₂ : ¬ X₂.F)
    (hRA : ∀ a a' b b', X₁.RA a a' → X₂.RA b b' → RA a b → RA a' b')
    (hal : AllocSim (SameText X₁ X₂ (ItemRel RC RP)) RX RA FailOk E₁.alloc E₂.alloc)
    (hl : ∀ d₁ d₂, DatumRel (SameText X₁ X₂ (ItemRel RC RP)) RX d₁ d₂ →
      OptRel (CombinerRel RP RE (SameText X₁ X₂ (ItemRel RC RP)) RX RA FailOk)
        (E₁.lookup d₁) (E₂.lookup d₂)) :
    Sim (confRels RS₁ X₁ RS₂ X₂ RC RP RX RA RE FailOk) E₁ E₂ where
  start := hcc.start
  fin := hcc.fin
  esc := hcc.esc
  ws := hcc.ws
  peek := by
    rintro s t ⟨q, q', h1, h2, h3, h4⟩
    obtain ⟨s', g1, g2⟩ := C₁.peek s q h1
    obtain ⟨t', g3, g4⟩ := C₂.peek t q' h2
    exact ⟨_, _, _, _, g1, g3, Forall₂.head? h4, q, q', g2, g4, h3, h4⟩
  next := by
    rintro s t ⟨q, q', h1, h2, h3, h4⟩
    obtain ⟨s', g1, g2⟩ := C₁.next s q h1
    obtain ⟨t', g3, g4⟩ := C₂.next t q' h2
    exact ⟨_, _, _, _, g1, g3, Forall₂.head? h4, _, _, g2, g4, .nil, Forall₂.tail h4⟩
  nextAccum := by
    rintro s t a b ⟨q, q', h1, h2, h3, h4⟩ hab
    obtain ⟨o, s', a', g1, g2, g3⟩ := C₁.nextAccum s q a h1
    obtain ⟨o', t', b', k1, k2, k3⟩ := C₂.nextAccum t q' b h2
    rw [g1, k1]
    rcases k3 with ⟨rfl, k4⟩ | ⟨hF, _⟩
    · rcases g3 with ⟨rfl, g4⟩ | ⟨hF, _, ⟨e, rfl⟩, g4⟩
      · exact Or.inl ⟨_, _, rfl, rfl, Forall₂.head? h4, ⟨_, _, g4, k4,
          List.rel_append h3 (Forall₂.head?_toList h4), Forall₂.tail h4⟩, hRA _ _ _ _ g2 k2 hab⟩
      · obtain ⟨_, t'', _, _, _, m, _⟩ := C₂.accumDone t q' b h2
        exact Or.inr (Or.inr ⟨hF₁ hF, ⟨e, rfl⟩, t'', b, ⟨_, _, g4, m, .nil, h4⟩,
          hRA _ _ _ _ g2 (C₂.refl b) hab⟩)
    · exact absurd hF hF₂
  accumDone := by
    rintro s t a b ⟨q, q', h1, h2, h3, h4⟩ hab
    obtain ⟨o, s', a', g1, g2, g3, g4⟩ := C₁.accumDone s q a h1
    obtain ⟨o', t', b', k1, k2, k3, k4⟩ := C₂.accumDone t q' b h2
    rw [g1, k1]
    rcases k4 with ⟨u, rfl, k4⟩ | ⟨hF, _⟩
    · rcases g4 with ⟨v, rfl, g4⟩ | ⟨hF, _, e, rfl⟩
      · exact Or.inl ⟨_, _, rfl, rfl, ⟨_, _, g4, k4, h3⟩, ⟨_, _, g3, k3, .nil, h4⟩,
          hRA _ _ _ _ g2 k2 hab⟩
      · exact Or.inr (Or.inr ⟨hF₁ hF, ⟨e, rfl⟩, t', b', ⟨_, _, g3, k3, .nil, h4⟩,
          hRA _ _ _ _ g2 k2 hab⟩)
    · exact absurd hF hF₂
  empty := ⟨[], [], C₁.empty, C₂.empty, .nil⟩
  concat := by
    rintro t₁ u₁ t₂ u₂ a b ⟨c, e, h1, h2, h3⟩ ⟨c', e', h4, h5, h6⟩ hab
    obtain ⟨o, a', g1, g2, g3⟩ := C₁.concat t₁ u₁ c c' a h1 h4
    obtain ⟨o', b', k1, k2, k3⟩ := C₂.concat t₂ u₂ e e' b h2 h5
    rw [g1, k1]
    rcases k3 with ⟨v, rfl, k3⟩ | ⟨hF, _⟩
    · rcases g3 with ⟨w, rfl, g3⟩ | ⟨hF, _, _, x, rfl⟩
      · exact Or.inl ⟨_, _, rfl, rfl, ⟨_, _, g3, k3, List.rel_append h3 h6⟩, hRA _ _ _ _ g2 k2 hab⟩
      · exact Or.inr (Or.inr ⟨hF₁ hF, ⟨x, rfl⟩, b', hRA _ _ _ _ g2 k2 hab⟩)
    · exact absurd hF hF₂
  newDatum := by
    intro d₁ d₂ a b hd hab
    rcases hal.newDatum d₁ d₂ a b hd hab with ⟨a', b', h1, h2, h3, _⟩ | ⟨e, a', b', h1, h2, h3⟩ |
      ⟨hF, e, a', b', h1, h3⟩
    · rw [h1, h2]
      exact Or.inl ⟨(), (), rfl, rfl, trivial, h3⟩
    · rw [h1, h2]
      exact Or.inr (Or.inl ⟨e, rfl, rfl, h3⟩)
    · rw [h1]
      exact Or.inr (Or.inr ⟨hF, ⟨e, rfl⟩, b', h3⟩)
  getMutFresh := by
    intro d₁ d₂ a b a' b' hd hab h1 h2
    rcases hal.newDatum d₁ d₂ a b hd hab with ⟨a'', b'', g1, g2, _, g3⟩ | ⟨e, a'', b'', g1, g2, h3⟩ |
      ⟨hF, e, a'', b'', g1, h3⟩
    · rw [g1] at h1; rw [g2] at h2; cases h1; cases h2; exact g3
    · rw [g1] at h1; cases h1
    · rw [g1] at h1; cases h1
  lookup := hl

section

variable {R : Rels σ₁ P₁ τ₁ ε₁ α₁ CE₁ σ₂ P₂ τ₂ ε₂ α₂ CE₂}

/-- A call in one parse corresponds to a call in the other, or ran out of memory. -/
theorem Sim.call (S : Sim R E₁ E₂) {s : St σ₁ α₁} {t : St σ₂ α₂} (hst : RelSt R s t)
    {o s'} (h : E₁.Call s o s') :
    (∃ o' t', E₂.Call t o' t' ∧ CallRel R.RP R.RE (DatumRel R.RT R.RX) o o' ∧
      (o ≠ .panic → RelSt R s' t')) ∨
    (R.FailOk ∧ (∃ e, o = .err (.failedAlloc e)) ∧ ∃ t, RelSt R s' t) := by
  obtain ⟨n, h1, h2⟩ := h
  have hr := (S.r_parse n).1 .base s t hst
  unfold Env.doNext at h1
  rw [h1] at hr
  rcases hy : E₂.parseNext n .base t with ⟨o', t'⟩
  rw [hy] at hr
  rcases hr with ⟨x, y, g1, g2, g3, g4⟩ | ⟨x, y, g1, g2, g3, g4⟩ | ⟨g1, g2⟩ | ⟨g1, g2⟩ | ⟨g1, g2, g3⟩
  · simp only at g1 g2 g4
    subst g1 g2
    refine Or.inl ⟨_, _, ⟨n, hy, by simp⟩, ?_, fun _ => g4⟩
    rcases g3.cases with ⟨rfl, rfl⟩ | ⟨i, j, rfl, rfl, hij⟩
    · exact .none
    · exact .datum hij
  · simp only at g1 g2 g4
    subst g1 g2
    exact Or.inl ⟨_, _, ⟨n, hy, by simp⟩, .error g3, fun _ => g4⟩
  · simp only at g1 g2
    subst g1 g2
    exact Or.inl ⟨_, _, ⟨n, hy, by simp⟩, .panic, fun h => absurd rfl h⟩
  · exact absurd g1 h2
  · exact Or.inr ⟨g1, g2, g3⟩

/-- The items of one parse correspond to those of the other, up to the first time
that memory runs out. -/
theorem Sim.yields (S : Sim R E₁ E₂) {s : St σ₁ α₁} {l s'} (h : E₁.Yields s l s') :
    ∀ {t : St σ₂ α₂}, RelSt R s t →
    (∃ l' t', E₂.Yields t l' t' ∧ List.Forall₂ (ResultRel R.RP R.RE (DatumRel R.RT R.RX)) l l' ∧
      RelSt R s' t') ∨
    (R.FailOk ∧ ∃ l₁ e l₂ l₁' , l = l₁ ++ .error (.failedAlloc e) :: l₂ ∧
      (∃ os t', E₂.Calls t os t' ∧ List.Forall₂ (fun x o => o = match x with
        | .ok d => .ok (some d) | .error e => .err e) l₁' os) ∧
      List.Forall₂ (ResultRel R.RP R.RE (DatumRel R.RT R.RX)) l₁ l₁') := by
  induction h with
  | done hc =>
    intro t hst
    rcases S.call hst hc with ⟨o', t', h1, h2, h3⟩ | ⟨_, ⟨e, h⟩, _⟩
    · cases h2
      exact Or.inl ⟨[], t', .done h1, .nil, h3 (by simp)⟩
    · cases h
  | @datum s d s' l s'' hc _ ih =>
    intro t hst
    rcases S.call hst hc with ⟨o', t', h1, h2, h3⟩ | ⟨_, ⟨e, h⟩, _⟩
    · cases h2 with
      | datum hd =>
        rcases ih (h3 (by simp)) with ⟨l', t'', g1, g2, g3⟩ | ⟨hF, l₁, e, l₂, l₁', g1, ⟨os, t'', g2, g3⟩, g4⟩
        · exact Or.inl ⟨_, t'', .datum h1 g1, .cons (.datum hd) g2, g3⟩
        · exact Or.inr ⟨hF, .ok d :: l₁, e, l₂, .ok _ :: l₁', by rw [g1]; rfl,
            ⟨_, t'', .cons h1 g2, .cons rfl g3⟩, .cons (.datum hd) g4⟩
    · cases h
  | @error s e s' l s'' hc _ ih =>
    intro t hst
    rcases S.call hst hc with ⟨o', t', h1, h2, h3⟩ | ⟨hF, ⟨e', h⟩, _⟩
    · cases h2 with
      | error he =>
        rcases ih (h3 (by simp)) with ⟨l', t'', g1, g2, g3⟩ | ⟨hF, l₁, e', l₂, l₁', g1, ⟨os, t'', g2, g3⟩, g4⟩
        · exact Or.inl ⟨_, t'', .error h1 g1, .cons (.error he) g2, g3⟩
        · exact Or.inr ⟨hF, .error e :: l₁, e', l₂, .error _ :: l₁', by rw [g1]; rfl,
            ⟨_, t'', .cons h1 g2, .cons rfl g3⟩, .cons (.error he) g4⟩
    · cases h
      exact Or.inr ⟨hF, [], e', l, [], rfl, ⟨[], t, .nil, .nil⟩, .nil⟩

end

end Kul
