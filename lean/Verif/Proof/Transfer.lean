import Verif.Proof.ConfSim
import Verif.Proof.Yields
import Verif.Spec.Alloc

/-! # From any conforming source to the abstract one -/

namespace Kul

variable {σ P τ ε α CE : Type}

theorem itemRel_eq {i j : Item P} : ItemRel Eq Eq i j ↔ i = j := by
  constructor
  · rintro ⟨h1, h2⟩; cases i; cases j; simp_all
  · rintro rfl; exact ⟨rfl, rfl⟩

theorem forall₂_itemRel_eq {l m : List (Item P)} : List.Forall₂ (ItemRel Eq Eq) l m ↔ l = m := by
  have : (ItemRel Eq Eq : Item P → Item P → Prop) = Eq := by
    funext i j; exact propext itemRel_eq
  rw [this]; exact List.forall₂_eq_eq_eq ▸ Iff.rfl

theorem sameText_seq {X : TextSem P τ α} {β : Type} :
    SameText X (seqSem P β) (ItemRel Eq Eq) = X.RT := by
  funext t u
  refine propext ⟨?_, fun h => ⟨u, u, h, rfl, forall₂_itemRel_eq.mpr rfl⟩⟩
  rintro ⟨c, e, h1, rfl, h2⟩
  cases forall₂_itemRel_eq.mp h2
  exact h1

theorem errRel_eq {e f : Err P CE} : ErrRel Eq Eq e f ↔ e = f := by
  constructor
  · intro h; cases h <;> simp_all
  · rintro rfl; cases e <;> constructor <;> rfl

theorem seqSem_func (P α : Type) : (seqSem P α).Func where
  rt := by rintro _ _ _ rfl rfl; rfl
  ra := by rintro _ _ rfl; rfl
  f := fun h => h

/-- Running the abstract source. -/
theorem Run.seqYields {cc : Classifier} {al : AllocOps (List (Item P)) ε α} {lookup} {r a l r' a'}
    (h : Run (CE := CE) cc (seqSem P α) al lookup r a l r' a') :
    ∃ p, (seqEnv cc al lookup).Yields ⟨⟨[], r⟩, a, 0⟩ l ⟨⟨p, []⟩, a', 0⟩ := by
  obtain ⟨l2, s', r2, a2, h1, ⟨p, rfl, _⟩, h3⟩ :=
    (seqConf cc al lookup).yields_run a (s := ⟨[], r⟩) (r := r) ⟨[], rfl, Or.inl rfl⟩
  obtain ⟨rfl, rfl, rfl⟩ := h3.det (seqSem_func P α) h
  have := h.rest
  subst this
  exact ⟨p, h1⟩

section
variable {E : Env σ P τ ε α CE} {RS : σ → Seq P → Prop} {X : TextSem P τ α}

theorem AllocOps.Reliable.sim {RT : τ → List (Item P) → Prop} {al : AllocOps τ ε α} (A : al.Reliable) :
    AllocSim RT (Eq : ε → ε → Prop) (fun _ _ => True) False al (freeAlloc (List (Item P)) ε Unit) where
  newDatum d₁ d₂ a b _ _ := by
    obtain ⟨a', h, h'⟩ := A.newDatum d₁ a
    exact Or.inl ⟨a', (), h, rfl, trivial, h'⟩

/-- Without bindings and with reliable memory, any conforming source is in lock step
with the abstract one. -/
theorem Conf.sim_plain (C : Conf E RS X) (hb : ∀ d, E.lookup d = none) (A : E.alloc.Reliable)
    (hF : ¬ X.F) :
    Sim (confRels RS X Eq (seqSem P Unit) Eq Eq Eq (fun _ _ => True) Eq False) E
      (seqEnv E.cc (freeAlloc (List (Item P)) ε Unit) (noBindings _ ε Unit P CE)) :=
  C.sim (seqConf _ _ _) (ClassifierSim.eq _) (fun h => absurd h hF) (fun h => h)
    (fun _ _ _ _ _ _ _ => trivial) A.sim (fun d₁ d₂ _ => by rw [hb]; trivial)

theorem sameStrm_seq {s : σ} {r : List (Item P)} (h : RS s ⟨[], r⟩) :
    SameStrm RS Eq (ItemRel Eq Eq) s (⟨[], r⟩ : Seq P) :=
  ⟨⟨[], r⟩, ⟨[], r⟩, h, rfl, .nil, forall₂_itemRel_eq.mpr rfl⟩

theorem Conf.yields_plain (C : Conf E RS X) (hb : ∀ d, E.lookup d = none) (A : E.alloc.Reliable)
    (hF : ¬ X.F) {s : σ} {r : List (Item P)} (hs : RS s ⟨[], r⟩) {a : α} {l t}
    (hy : E.Yields (St.init s a) l t) : ∃ l',
      Run E.cc (seqSem P Unit) (freeAlloc _ ε Unit) (noBindings _ ε Unit P CE) r () l' [] () ∧
      List.Forall₂ (ResultRel Eq Eq (DatumRel X.RT Eq)) l l' := by
  have S := C.sim_plain hb A hF
  rcases S.yields hy (t := ⟨⟨[], r⟩, (), 0⟩) ⟨sameStrm_seq hs, trivial, rfl⟩ with
    ⟨l', t', h1, h2, _⟩ | ⟨h, _⟩
  · obtain ⟨s', a', rfl, h3, h4⟩ := (seqConf _ _ _).yields_inv (AtItems.fresh rfl) h1
    refine ⟨l', h4, ?_⟩
    simpa only [confRels, sameText_seq] using h2
  · exact h.elim

/-- The converse: the abstract run determines the results. -/
theorem Conf.run_plain (C : Conf E RS X) (hb : ∀ d, E.lookup d = none) (A : E.alloc.Reliable)
    (hF : ¬ X.F) {s : σ} {r : List (Item P)} (hs : RS s ⟨[], r⟩) (a : α) {l'}
    (hr : Run E.cc (seqSem P Unit) (freeAlloc _ ε Unit) (noBindings _ ε Unit P CE) r () l' [] ()) :
    ∃ l t, E.Yields (St.init s a) l t ∧ List.Forall₂ (ResultRel Eq Eq (DatumRel X.RT Eq)) l l' := by
  obtain ⟨l, s', r', a', h1, _⟩ := C.yields_run a (AtItems.fresh hs)
  obtain ⟨l2, h2, h3⟩ := C.yields_plain hb A hF hs h1
  obtain ⟨rfl, _⟩ := hr.det (seqSem_func P Unit) h2
  exact ⟨l, _, h1, h3⟩

end

section
variable {σ₁ P₁ τ₁ α₁ CE₁ σ₂ P₂ τ₂ α₂ CE₂ : Type}
  {E₁ : Env σ₁ P₁ τ₁ ε α₁ CE₁} {E₂ : Env σ₂ P₂ τ₂ ε α₂ CE₂}
  {RS₁ : σ₁ → Seq P₁ → Prop} {X₁ : TextSem P₁ τ₁ α₁} {RS₂ : σ₂ → Seq P₂ → Prop}
  {X₂ : TextSem P₂ τ₂ α₂} {RC : Char → Char → Prop} {RP : P₁ → P₂ → Prop}
  {RE : CE₁ → CE₂ → Prop}

theorem AllocOps.Reliable.sim₂ {RT : τ₁ → τ₂ → Prop} {al₁ : AllocOps τ₁ ε α₁} {al₂ : AllocOps τ₂ ε α₂}
    (A₁ : al₁.Reliable) (A₂ : al₂.Reliable) :
    AllocSim RT (Eq : ε → ε → Prop) (fun _ _ => True) False al₁ al₂ where
  newDatum d₁ d₂ a b _ _ := by
    obtain ⟨a', h, g⟩ := A₁.newDatum d₁ a
    obtain ⟨b', h', g'⟩ := A₂.newDatum d₂ b
    exact Or.inl ⟨a', b', h, h', trivial, g.trans g'.symm⟩

/-- Parsers that agree run in lock step. -/
theorem Agree.sim {RX : ε → ε → Prop} {RA : α₁ → α₂ → Prop} {FailOk : Prop}
    (G : Agree RC RP RX RA RE FailOk E₁ X₁ E₂ X₂) (C₁ : Conf E₁ RS₁ X₁) (C₂ : Conf E₂ RS₂ X₂) :
    Sim (confRels RS₁ X₁ RS₂ X₂ RC RP RX RA RE FailOk) E₁ E₂ :=
  C₁.sim C₂ G.cc G.fail₁ G.fail₂ G.mem G.alloc G.lookup

/-- Parsers without bindings and with memory that does not run out agree. -/
theorem Agree.plain (hcc : ClassifierSim RC E₁.cc E₂.cc) (hb₁ : ∀ d, E₁.lookup d = none)
    (hb₂ : ∀ d, E₂.lookup d = none) (A₁ : E₁.alloc.Reliable) (A₂ : E₂.alloc.Reliable)
    (hF₁ : ¬ X₁.F) (hF₂ : ¬ X₂.F) : Agree RC RP Eq (fun _ _ => True) RE False E₁ X₁ E₂ X₂ where
  cc := hcc
  fail₁ := hF₁
  fail₂ := hF₂
  mem := fun _ _ _ _ _ _ _ => trivial
  alloc := A₁.sim₂ A₂
  lookup := fun d₁ d₂ _ => by rw [hb₁, hb₂]; trivial

/-- Two parses of corresponding items by parsers that agree. -/
theorem Conf.related {RX : ε → ε → Prop} {RA : α₁ → α₂ → Prop} (C₁ : Conf E₁ RS₁ X₁)
    (C₂ : Conf E₂ RS₂ X₂) (G : Agree RC RP RX RA RE False E₁ X₁ E₂ X₂)
    {s₁ r₁ s₂ r₂} (hs₁ : RS₁ s₁ ⟨[], r₁⟩) (hs₂ : RS₂ s₂ ⟨[], r₂⟩)
    (hr : List.Forall₂ (ItemRel RC RP) r₁ r₂) {a₁ a₂} (ha : RA a₁ a₂) {l₁ t₁}
    (hy : E₁.Yields (St.init s₁ a₁) l₁ t₁) :
    ∃ l₂ t₂, E₂.Yields (St.init s₂ a₂) l₂ t₂ ∧ RA t₁.alloc t₂.alloc ∧
      List.Forall₂ (ResultRel RP RE (DatumRel (SameText X₁ X₂ (ItemRel RC RP)) RX)) l₁ l₂ := by
  rcases (G.sim C₁ C₂).yields hy (t := ⟨s₂, a₂, 0⟩) ⟨⟨_, _, hs₁, hs₂, .nil, hr⟩, ha, rfl⟩ with
    ⟨l', t', h1, h2, h3⟩ | ⟨h, _⟩
  · exact ⟨l', t', h1, h3.2.1, h2⟩
  · exact h.elim

/-- Two parses without bindings of corresponding items. -/
theorem Conf.related_plain (C₁ : Conf E₁ RS₁ X₁) (C₂ : Conf E₂ RS₂ X₂)
    (hcc : ClassifierSim RC E₁.cc E₂.cc) (hb₁ : ∀ d, E₁.lookup d = none)
    (hb₂ : ∀ d, E₂.lookup d = none) (A₁ : E₁.alloc.Reliable) (A₂ : E₂.alloc.Reliable)
    (hF₁ : ¬ X₁.F) (hF₂ : ¬ X₂.F) {s₁ r₁ s₂ r₂} (hs₁ : RS₁ s₁ ⟨[], r₁⟩) (hs₂ : RS₂ s₂ ⟨[], r₂⟩)
    (hr : List.Forall₂ (ItemRel RC RP) r₁ r₂) {a₁ l₁ t₁} (a₂ : α₂)
    (hy : E₁.Yields (St.init s₁ a₁) l₁ t₁) :
    ∃ l₂ t₂, E₂.Yields (St.init s₂ a₂) l₂ t₂ ∧
      List.Forall₂ (ResultRel RP RE (DatumRel (SameText X₁ X₂ (ItemRel RC RP)) Eq)) l₁ l₂ := by
  obtain ⟨l₂, t₂, h1, _, h2⟩ := C₁.related C₂ (Agree.plain hcc hb₁ hb₂ A₁ A₂ hF₁ hF₂) hs₁ hs₂ hr
    (a₂ := a₂) trivial hy
  exact ⟨l₂, t₂, h1, h2⟩

end

/-! ## Composition -/

section
variable {P₁ P₂ P₃ τ₁ τ₂ τ₃ CE₁ CE₂ CE₃ A B D : Type}

theorem DatumRel.comp {R : τ₁ → τ₂ → Prop} {S : τ₂ → τ₃ → Prop} {T : τ₁ → τ₃ → Prop}
    (hT : ∀ t u v, R t u → S u v → T t v) {a : Datum τ₁ ε} {b : Datum τ₂ ε} {c : Datum τ₃ ε}
    (h : DatumRel R Eq a b) (h' : DatumRel S Eq b c) : DatumRel T Eq a c := by
  induction h generalizing c with
  | text h => cases h' with | text h' => exact .text (hT _ _ _ h h')
  | combination _ _ ih1 ih2 => cases h' with | combination h1 h2 => exact .combination (ih1 h1) (ih2 h2)
  | emptyNest => cases h'; exact .emptyNest
  | list _ _ ih1 ih2 => cases h' with | list h1 h2 => exact .list (ih1 h1) (ih2 h2)
  | emptyList => cases h'; exact .emptyList
  | extra h => cases h' with | extra h' => exact .extra (h.trans h')

theorem ResultRel.comp {RP : P₁ → P₂ → Prop} {RP' : P₂ → P₃ → Prop} {RP'' : P₁ → P₃ → Prop}
    {RE : CE₁ → CE₂ → Prop} {RE' : CE₂ → CE₃ → Prop} {RE'' : CE₁ → CE₃ → Prop}
    {R : A → B → Prop} {S : B → D → Prop} {T : A → D → Prop}
    (hP : ∀ t u v, RP t u → RP' u v → RP'' t v) (hE : ∀ t u v, RE t u → RE' u v → RE'' t v)
    (hT : ∀ t u v, R t u → S u v → T t v) {a b c}
    (h : ResultRel RP RE R a b) (h' : ResultRel RP' RE' S b c) : ResultRel RP'' RE'' T a c := by
  cases h with
  | datum h => cases h' with | datum h' => exact .datum (hT _ _ _ h h')
  | error h =>
    cases h' with
    | error h' =>
      refine .error ?_
      cases h with
      | unbalancedEndChar h => cases h' with | unbalancedEndChar h' => exact .unbalancedEndChar (hP _ _ _ h h')
      | missingEndChar => cases h'; exact .missingEndChar
      | failedAlloc => cases h'; exact .failedAlloc _
      | failedDerefTryMut => cases h'; exact .failedDerefTryMut
      | failedCombiner h => cases h' with | failedCombiner h' => exact .failedCombiner (hE _ _ _ h h')

theorem forall₂_comp {R : A → B → Prop} {S : B → D → Prop} {T : A → D → Prop}
    (hT : ∀ t u v, R t u → S u v → T t v) {l : List A} {m : List B} {n : List D}
    (h : List.Forall₂ R l m) (h' : List.Forall₂ S m n) : List.Forall₂ T l n := by
  induction h generalizing n with
  | nil => cases h'; exact .nil
  | cons h _ ih => cases h' with | cons h1 h2 => exact .cons (hT _ _ _ h h1) (ih h2)

end

end Kul
