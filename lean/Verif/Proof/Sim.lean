import Verif.Model.Parser
import Verif.Spec.Related

/-!
# Relational reasoning about the parser

A logical relation between two parses that run in lock step, with different
streams, texts, allocators, positions and even characters. Used to carry results
from the abstract sequence stream to the concrete streams.
-/

namespace Kul

/-- The relations of a lock-step comparison of two parses. -/
structure Rels (σ₁ P₁ τ₁ ε₁ α₁ CE₁ σ₂ P₂ τ₂ ε₂ α₂ CE₂ : Type) where
  RC : Char → Char → Prop
  RP : P₁ → P₂ → Prop
  RS : σ₁ → σ₂ → Prop
  RT : τ₁ → τ₂ → Prop
  RX : ε₁ → ε₂ → Prop
  RA : α₁ → α₂ → Prop
  RE : CE₁ → CE₂ → Prop
  FailOk : Prop

section

variable {σ₁ P₁ τ₁ ε₁ α₁ CE₁ σ₂ P₂ τ₂ ε₂ α₂ CE₂ : Type}

/-- Outcomes of accumulating stream operations. -/
def AccRel {A B : Type} (R : Rels σ₁ P₁ τ₁ ε₁ α₁ CE₁ σ₂ P₂ τ₂ ε₂ α₂ CE₂) (RV : A → B → Prop)
    (x : Outcome AllocErr A × σ₁ × α₁) (y : Outcome AllocErr B × σ₂ × α₂) : Prop :=
  (∃ a b, x.1 = .ok a ∧ y.1 = .ok b ∧ RV a b ∧ R.RS x.2.1 y.2.1 ∧ R.RA x.2.2 y.2.2) ∨
  (∃ e, x.1 = .err e ∧ y.1 = .err e ∧ R.RS x.2.1 y.2.1 ∧ R.RA x.2.2 y.2.2) ∨
  (R.FailOk ∧ (∃ e, x.1 = .err e) ∧ ∃ s a, R.RS x.2.1 s ∧ R.RA x.2.2 a)

/-- Outcomes of allocating operations. -/
def AlRel {A B : Type} (R : Rels σ₁ P₁ τ₁ ε₁ α₁ CE₁ σ₂ P₂ τ₂ ε₂ α₂ CE₂) (RV : A → B → Prop)
    (x : Outcome AllocErr A × α₁) (y : Outcome AllocErr B × α₂) : Prop :=
  (∃ a b, x.1 = .ok a ∧ y.1 = .ok b ∧ RV a b ∧ R.RA x.2 y.2) ∨
  (∃ e, x.1 = .err e ∧ y.1 = .err e ∧ R.RA x.2 y.2) ∨
  (R.FailOk ∧ (∃ e, x.1 = .err e) ∧ ∃ a, R.RA x.2 a)

/-- The operations of two environments respect the relations. -/
structure Sim (R : Rels σ₁ P₁ τ₁ ε₁ α₁ CE₁ σ₂ P₂ τ₂ ε₂ α₂ CE₂)
    (E₁ : Env σ₁ P₁ τ₁ ε₁ α₁ CE₁) (E₂ : Env σ₂ P₂ τ₂ ε₂ α₂ CE₂) : Prop where
  start : ∀ c d, R.RC c d → E₁.cc.isNestStart c = E₂.cc.isNestStart d
  fin : ∀ c d, R.RC c d → E₁.cc.isNestEnd c = E₂.cc.isNestEnd d
  esc : ∀ c d, R.RC c d → E₁.cc.isNestEscape c = E₂.cc.isNestEscape d
  ws : ∀ c d, R.RC c d → E₁.cc.isWhitespace c = E₂.cc.isWhitespace d
  peek : ∀ s t, R.RS s t → ∃ o₁ s' o₂ t', E₁.strm.peek s = (.ok o₁, s') ∧
    E₂.strm.peek t = (.ok o₂, t') ∧ OptRel (ItemRel R.RC R.RP) o₁ o₂ ∧ R.RS s' t'
  next : ∀ s t, R.RS s t → ∃ o₁ s' o₂ t', E₁.strm.next s = (.ok o₁, s') ∧
    E₂.strm.next t = (.ok o₂, t') ∧ OptRel (ItemRel R.RC R.RP) o₁ o₂ ∧ R.RS s' t'
  nextAccum : ∀ s t a b, R.RS s t → R.RA a b →
    AccRel R (OptRel (ItemRel R.RC R.RP)) (E₁.strm.nextAccum s a) (E₂.strm.nextAccum t b)
  accumDone : ∀ s t a b, R.RS s t → R.RA a b →
    AccRel R R.RT (E₁.strm.accumDone s a) (E₂.strm.accumDone t b)
  empty : R.RT E₁.text.empty E₂.text.empty
  concat : ∀ t₁ u₁ t₂ u₂ a b, R.RT t₁ t₂ → R.RT u₁ u₂ → R.RA a b →
    AlRel R R.RT (E₁.text.concat t₁ u₁ a) (E₂.text.concat t₂ u₂ b)
  newDatum : ∀ d₁ d₂ a b, DatumRel R.RT R.RX d₁ d₂ → R.RA a b →
    AlRel R (fun _ _ => True)
      (Outcome.ofExcept (E₁.alloc.newDatum d₁ a).1, (E₁.alloc.newDatum d₁ a).2)
      (Outcome.ofExcept (E₂.alloc.newDatum d₂ b).1, (E₂.alloc.newDatum d₂ b).2)
  getMutFresh : ∀ d₁ d₂ a b a' b', DatumRel R.RT R.RX d₁ d₂ → R.RA a b →
    E₁.alloc.newDatum d₁ a = (.ok (), a') → E₂.alloc.newDatum d₂ b = (.ok (), b') →
    E₁.alloc.getMutFresh a' = E₂.alloc.getMutFresh b'
  lookup : ∀ d₁ d₂, DatumRel R.RT R.RX d₁ d₂ →
    OptRel (CombinerRel R.RP R.RE R.RT R.RX R.RA R.FailOk) (E₁.lookup d₁) (E₂.lookup d₂)

/-- Related states: same depth, related streams and allocators. -/
def RelSt (R : Rels σ₁ P₁ τ₁ ε₁ α₁ CE₁ σ₂ P₂ τ₂ ε₂ α₂ CE₂) (s : St σ₁ α₁) (t : St σ₂ α₂) : Prop :=
  R.RS s.strm t.strm ∧ R.RA s.alloc t.alloc ∧ s.ndepth = t.ndepth

/-- Related outcomes of two actions. -/
def OutRel {A B : Type} (R : Rels σ₁ P₁ τ₁ ε₁ α₁ CE₁ σ₂ P₂ τ₂ ε₂ α₂ CE₂) (RV : A → B → Prop)
    (x : Outcome (Err P₁ CE₁) A × St σ₁ α₁) (y : Outcome (Err P₂ CE₂) B × St σ₂ α₂) : Prop :=
  (∃ a b, x.1 = .ok a ∧ y.1 = .ok b ∧ RV a b ∧ RelSt R x.2 y.2) ∨
  (∃ e f, x.1 = .err e ∧ y.1 = .err f ∧ ErrRel R.RP R.RE e f ∧ RelSt R x.2 y.2) ∨
  (x.1 = .panic ∧ y.1 = .panic) ∨
  (x.1 = .fuel ∧ y.1 = .fuel) ∨
  (R.FailOk ∧ (∃ e, x.1 = .err (.failedAlloc e)) ∧ ∃ t, RelSt R x.2 t)

/-- Two actions are related if they take related states to related outcomes. -/
def RelAct {A B : Type} (R : Rels σ₁ P₁ τ₁ ε₁ α₁ CE₁ σ₂ P₂ τ₂ ε₂ α₂ CE₂) (RV : A → B → Prop)
    (x : Act (St σ₁ α₁) (Err P₁ CE₁) A) (y : Act (St σ₂ α₂) (Err P₂ CE₂) B) : Prop :=
  ∀ s t, RelSt R s t → OutRel R RV (x s) (y t)

variable {R : Rels σ₁ P₁ τ₁ ε₁ α₁ CE₁ σ₂ P₂ τ₂ ε₂ α₂ CE₂}

theorem RelAct.pure {A B : Type} {RV : A → B → Prop} {a : A} {b : B} (h : RV a b) :
    RelAct R RV (Pure.pure a) (Pure.pure b) := by
  intro s t hs
  exact Or.inl ⟨a, b, rfl, rfl, h, hs⟩

theorem RelAct.throw {A B : Type} {RV : A → B → Prop} {e : Err P₁ CE₁} {f : Err P₂ CE₂}
    (h : ErrRel R.RP R.RE e f) : RelAct (A := A) (B := B) R RV (Act.throw e) (Act.throw f) := by
  intro s t hs
  exact Or.inr (Or.inl ⟨e, f, rfl, rfl, h, hs⟩)

theorem RelAct.panic {A B : Type} {RV : A → B → Prop} :
    RelAct (A := A) (B := B) R RV Act.panic Act.panic := by
  intro s t _
  exact Or.inr (Or.inr (Or.inl ⟨rfl, rfl⟩))

theorem RelAct.fuel {A B : Type} {RV : A → B → Prop} :
    RelAct (A := A) (B := B) R RV Act.fuel Act.fuel := by
  intro s t _
  exact Or.inr (Or.inr (Or.inr (Or.inl ⟨rfl, rfl⟩)))

theorem RelAct.bind {A B C D : Type} {RV : A → B → Prop} {RW : C → D → Prop}
    {x : Act (St σ₁ α₁) (Err P₁ CE₁) A} {y : Act (St σ₂ α₂) (Err P₂ CE₂) B}
    {f : A → Act (St σ₁ α₁) (Err P₁ CE₁) C} {g : B → Act (St σ₂ α₂) (Err P₂ CE₂) D}
    (hx : RelAct R RV x y) (hf : ∀ a b, RV a b → RelAct R RW (f a) (g b)) :
    RelAct R RW (x >>= f) (y >>= g) := by
  intro s t hs
  show OutRel R RW (Act.bind x f s) (Act.bind y g t)
  have h := hx s t hs
  unfold Act.bind
  rcases hxs : x s with ⟨ox, s'⟩
  rcases hyt : y t with ⟨oy, t'⟩
  rw [hxs, hyt] at h
  rcases h with ⟨a, b, h1, h2, h3, h4⟩ | ⟨e, e', h1, h2, h3, h4⟩ | ⟨h1, h2⟩ | ⟨h1, h2⟩ |
    ⟨h0, ⟨e, h1⟩, t'', h2⟩
  · simp only at h1 h2
    subst h1; subst h2
    exact hf a b h3 s' t' h4
  · simp only at h1 h2
    subst h1; subst h2
    exact Or.inr (Or.inl ⟨e, e', rfl, rfl, h3, h4⟩)
  · simp only at h1 h2
    subst h1; subst h2
    exact Or.inr (Or.inr (Or.inl ⟨rfl, rfl⟩))
  · simp only at h1 h2
    subst h1; subst h2
    exact Or.inr (Or.inr (Or.inr (Or.inl ⟨rfl, rfl⟩)))
  · simp only at h1
    subst h1
    exact Or.inr (Or.inr (Or.inr (Or.inr ⟨h0, ⟨e, rfl⟩, t'', h2⟩)))

theorem RelAct.ite {A B : Type} {RV : A → B → Prop} {p q : Prop} [Decidable p] [Decidable q]
    (hpq : p ↔ q)
    {x x' : Act (St σ₁ α₁) (Err P₁ CE₁) A} {y y' : Act (St σ₂ α₂) (Err P₂ CE₂) B}
    (h : p → RelAct R RV x y) (h' : ¬ p → RelAct R RV x' y') :
    RelAct R RV (if p then x else x') (if q then y else y') := by
  by_cases hp : p
  · rw [if_pos hp, if_pos (hpq.1 hp)]; exact h hp
  · rw [if_neg hp, if_neg (fun hq => hp (hpq.2 hq))]; exact h' hp

theorem RelAct.debugAssert {p q : Bool} (h : p = q) :
    RelAct R (fun _ _ => True) (Act.debugAssert p) (Act.debugAssert q) := by
  subst h
  unfold Act.debugAssert
  by_cases hp : p = true
  · rw [if_pos hp, if_pos hp]; exact RelAct.pure trivial
  · rw [if_neg hp, if_neg hp]; exact RelAct.panic

theorem RelAct.liftAccum {A B : Type} {RV : A → B → Prop}
    {f : σ₁ → α₁ → Outcome AllocErr A × σ₁ × α₁} {g : σ₂ → α₂ → Outcome AllocErr B × σ₂ × α₂}
    (h : ∀ s t a b, R.RS s t → R.RA a b → AccRel R RV (f s a) (g t b)) :
    RelAct R RV (Kul.liftAccum f) (Kul.liftAccum g) := by
  intro s t ⟨hS, hA, hD⟩
  have h := h s.strm t.strm s.alloc t.alloc hS hA
  unfold Kul.liftAccum
  rcases hf : f s.strm s.alloc with ⟨o₁, s', a'⟩
  rcases hg : g t.strm t.alloc with ⟨o₂, t', b'⟩
  rw [hf, hg] at h
  rcases h with ⟨a, b, h1, h2, h3, h4, h5⟩ | ⟨e, h1, h2, h3, h4⟩ | ⟨h0, ⟨e, h1⟩, s'', a'', h3, h4⟩
  · simp only at h1 h2
    subst h1; subst h2
    exact Or.inl ⟨a, b, rfl, rfl, h3, h4, h5, hD⟩
  · simp only at h1 h2
    subst h1; subst h2
    exact Or.inr (Or.inl ⟨_, _, rfl, rfl, ErrRel.failedAlloc e, h3, h4, hD⟩)
  · simp only at h1
    subst h1
    exact Or.inr (Or.inr (Or.inr (Or.inr ⟨h0, ⟨e, rfl⟩, ⟨s'', a'', s.ndepth⟩, h3, h4, rfl⟩)))

theorem RelAct.liftAlloc {A B : Type} {RV : A → B → Prop}
    {f : α₁ → Outcome AllocErr A × α₁} {g : α₂ → Outcome AllocErr B × α₂}
    (h : ∀ a b, R.RA a b → AlRel R RV (f a) (g b)) :
    RelAct R RV (Kul.liftAlloc f) (Kul.liftAlloc g) := by
  intro s t ⟨hS, hA, hD⟩
  have h := h s.alloc t.alloc hA
  unfold Kul.liftAlloc
  rcases hf : f s.alloc with ⟨o₁, a'⟩
  rcases hg : g t.alloc with ⟨o₂, b'⟩
  rw [hf, hg] at h
  rcases h with ⟨a, b, h1, h2, h3, h4⟩ | ⟨e, h1, h2, h3⟩ | ⟨h0, ⟨e, h1⟩, a'', h3⟩
  · simp only at h1 h2
    subst h1; subst h2
    exact Or.inl ⟨a, b, rfl, rfl, h3, hS, h4, hD⟩
  · simp only at h1 h2
    subst h1; subst h2
    exact Or.inr (Or.inl ⟨_, _, rfl, rfl, ErrRel.failedAlloc e, hS, h3, hD⟩)
  · simp only at h1
    subst h1
    exact Or.inr (Or.inr (Or.inr (Or.inr ⟨h0, ⟨e, rfl⟩, ⟨t.strm, a'', s.ndepth⟩, hS, h3, rfl⟩)))

theorem RelAct.liftCombiner {A B : Type} {RV : A → B → Prop}
    {f : α₁ → Except (Err P₁ CE₁) A × α₁} {g : α₂ → Except (Err P₂ CE₂) B × α₂}
    (h : ∀ a b, R.RA a b → ResRel R.RP R.RE R.RA R.FailOk RV (f a) (g b)) :
    RelAct R RV (Kul.liftCombiner f) (Kul.liftCombiner g) := by
  intro s t ⟨hS, hA, hD⟩
  have h := h s.alloc t.alloc hA
  unfold Kul.liftCombiner
  rcases hf : f s.alloc with ⟨o₁, a'⟩
  rcases hg : g t.alloc with ⟨o₂, b'⟩
  rw [hf, hg] at h
  rcases h with ⟨a, b, h1, h2, h3, h4⟩ | ⟨e, e', h1, h2, h3, h4⟩ | ⟨h0, ⟨e, h1⟩, a'', h3⟩
  · simp only at h1 h2
    subst h1; subst h2
    exact Or.inl ⟨a, b, rfl, rfl, h3, hS, h4, hD⟩
  · simp only at h1 h2
    subst h1; subst h2
    exact Or.inr (Or.inl ⟨_, _, rfl, rfl, h3, hS, h4, hD⟩)
  · simp only at h1
    subst h1
    exact Or.inr (Or.inr (Or.inr (Or.inr ⟨h0, ⟨e, rfl⟩, ⟨t.strm, a'', s.ndepth⟩, hS, h3, rfl⟩)))

theorem RelAct.liftEmpty {A B : Type} {RV : A → B → Prop}
    {f : σ₁ → Outcome Empty A × σ₁} {g : σ₂ → Outcome Empty B × σ₂}
    (h : ∀ s t, R.RS s t → ∃ o₁ s' o₂ t', f s = (.ok o₁, s') ∧ g t = (.ok o₂, t') ∧
      RV o₁ o₂ ∧ R.RS s' t') :
    RelAct R RV (Kul.liftEmpty f) (Kul.liftEmpty g) := by
  intro s t ⟨hS, hA, hD⟩
  obtain ⟨o₁, s', o₂, t', h1, h2, h3, h4⟩ := h s.strm t.strm hS
  unfold Kul.liftEmpty
  rw [h1, h2]
  exact Or.inl ⟨o₁, o₂, rfl, rfl, h3, h4, hA, hD⟩

end

end Kul
