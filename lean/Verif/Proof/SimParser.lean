import Verif.Proof.Sim
import Mathlib.Data.List.Forall2

/-! # The parser respects lock-step relations -/

namespace Kul

section

variable {σ₁ P₁ τ₁ ε₁ α₁ CE₁ σ₂ P₂ τ₂ ε₂ α₂ CE₂ : Type}
variable {R : Rels σ₁ P₁ τ₁ ε₁ α₁ CE₁ σ₂ P₂ τ₂ ε₂ α₂ CE₂}
variable {E₁ : Env σ₁ P₁ τ₁ ε₁ α₁ CE₁} {E₂ : Env σ₂ P₂ τ₂ ε₂ α₂ CE₂}

theorem OptRel.cases {A B : Type} {RV : A → B → Prop} {x : Option A} {y : Option B}
    (h : OptRel RV x y) : (x = none ∧ y = none) ∨ ∃ a b, x = some a ∧ y = some b ∧ RV a b := by
  cases x <;> cases y <;> simp_all [OptRel]

theorem DatumRel.mkList {RT : τ₁ → τ₂ → Prop} {RX : ε₁ → ε₂ → Prop} :
    ∀ {ds : List (Datum τ₁ ε₁)} {es : List (Datum τ₂ ε₂)}, List.Forall₂ (DatumRel RT RX) ds es →
      DatumRel RT RX (mkList ds) (mkList es)
  | _, _, .nil => DatumRel.emptyList
  | _, _, .cons h hs => DatumRel.list h (DatumRel.mkList hs)

theorem forall₂_append_one {A B : Type} {RV : A → B → Prop} {l : List A} {m : List B}
    (h : List.Forall₂ RV l m) {a : A} {b : B} (hab : RV a b) :
    List.Forall₂ RV (l ++ [a]) (m ++ [b]) := by
  induction h with
  | nil => exact .cons hab .nil
  | cons h _ ih => exact .cons h ih

variable (S : Sim R E₁ E₂)
include S

theorem Sim.r_peek : RelAct R (OptRel (ItemRel R.RC R.RP)) E₁.peek E₂.peek :=
  RelAct.liftEmpty S.peek

theorem Sim.r_next : RelAct R (OptRel (ItemRel R.RC R.RP)) E₁.next E₂.next :=
  RelAct.liftEmpty S.next

theorem Sim.r_nextAccum : RelAct R (OptRel (ItemRel R.RC R.RP)) E₁.nextAccum E₂.nextAccum :=
  RelAct.liftAccum S.nextAccum

theorem Sim.r_newDatum {d₁ : Datum τ₁ ε₁} {d₂ : Datum τ₂ ε₂} (h : DatumRel R.RT R.RX d₁ d₂) :
    RelAct R (fun _ _ => True) (E₁.newDatum d₁) (E₂.newDatum d₂) :=
  RelAct.liftAlloc fun a b hab => S.newDatum d₁ d₂ a b h hab

omit S in
/-- Allocating and then asking whether the reference can be written through, as one step. -/
def newGetMut {τ ε α : Type} (al : AllocOps τ ε α) (d : Datum τ ε) (a : α) : Outcome AllocErr Bool × α :=
  match al.newDatum d a with
  | (.ok _, a') => (.ok (al.getMutFresh a'), a')
  | (.error e, a') => (.err e, a')

omit S in
theorem Env.newDatum_getMut {σ P τ ε α CE A : Type} (E : Env σ P τ ε α CE) (d : Datum τ ε)
    (f : Bool → Act (St σ α) (Err P CE) A) :
    (E.newDatum d >>= fun _ => E.getMutFresh >>= f) = (liftAlloc (newGetMut E.alloc d) >>= f) := by
  funext s
  change Act.bind (E.newDatum d) (fun _ => Act.bind E.getMutFresh f) s = Act.bind _ f s
  rcases hn : E.alloc.newDatum d s.alloc with ⟨r, a'⟩
  have h1 : E.newDatum d s = (Outcome.mapErr .failedAlloc (Outcome.ofExcept r), { s with alloc := a' }) := by
    change (Outcome.mapErr _ (Outcome.ofExcept (E.alloc.newDatum d s.alloc).1),
      ({ s with alloc := (E.alloc.newDatum d s.alloc).2 } : St σ α)) = _
    rw [hn]
  have h2 : liftAlloc (P := P) (CE := CE) (newGetMut E.alloc d) s = (Outcome.mapErr .failedAlloc
      (newGetMut E.alloc d s.alloc).1, { s with alloc := (newGetMut E.alloc d s.alloc).2 }) := rfl
  simp only [Act.bind, h1, h2, newGetMut, hn]
  cases r <;> rfl

/-- Allocating and then asking whether the reference can be written through. -/
theorem Sim.r_newDatum_getMut {A B : Type} {RV : A → B → Prop} {d₁ : Datum τ₁ ε₁} {d₂ : Datum τ₂ ε₂}
    (h : DatumRel R.RT R.RX d₁ d₂) {f : Bool → Act (St σ₁ α₁) (Err P₁ CE₁) A}
    {g : Bool → Act (St σ₂ α₂) (Err P₂ CE₂) B} (hfg : ∀ b, RelAct R RV (f b) (g b)) :
    RelAct R RV (E₁.newDatum d₁ >>= fun _ => E₁.getMutFresh >>= f)
      (E₂.newDatum d₂ >>= fun _ => E₂.getMutFresh >>= g) := by
  rw [E₁.newDatum_getMut, E₂.newDatum_getMut]
  refine RelAct.bind (RV := fun a b => a = b) (RelAct.liftAlloc fun a b hab => ?_)
    (fun b _ h => h ▸ hfg b)
  have h1 := S.newDatum d₁ d₂ a b h hab
  simp only [newGetMut]
  rcases g1 : E₁.alloc.newDatum d₁ a with ⟨_ | _, a'⟩ <;>
    rcases g2 : E₂.alloc.newDatum d₂ b with ⟨_ | _, b'⟩ <;> rw [g1, g2] at h1 <;>
    rcases h1 with ⟨_, _, k1, k2, k3, k4⟩ | ⟨e, k1, k2, k3⟩ | ⟨k0, ⟨e, k1⟩, k⟩ <;> cases k1 <;>
    (try cases k2)
  · exact Or.inr (Or.inl ⟨_, rfl, rfl, k3⟩)
  · exact Or.inr (Or.inr ⟨k0, ⟨_, rfl⟩, k⟩)
  · exact Or.inr (Or.inr ⟨k0, ⟨_, rfl⟩, k⟩)
  · exact Or.inl ⟨_, _, rfl, rfl, S.getMutFresh d₁ d₂ a b _ _ h hab g1 g2, k4⟩

omit S in
theorem Sim.r_getDepth : RelAct R (fun a b => a = b)
    (Env.getDepth (σ := σ₁) (α := α₁) (P := P₁) (CE := CE₁))
    (Env.getDepth (σ := σ₂) (α := α₂) (P := P₂) (CE := CE₂)) := by
  intro s t hs
  exact Or.inl ⟨_, _, rfl, rfl, hs.2.2, hs⟩

theorem Sim.r_concatAccum {t : τ₁} {u : τ₂} (h : R.RT t u) :
    RelAct R R.RT (E₁.concatAccum t) (E₂.concatAccum u) := by
  refine RelAct.bind (RelAct.liftAccum S.accumDone) fun a b hab => ?_
  exact RelAct.liftAlloc fun x y hxy => S.concat t a u b x y h hab hxy

theorem Sim.r_skipWhitespace (n : Nat) :
    RelAct R (fun _ _ => True) (E₁.skipWhitespace n) (E₂.skipWhitespace n) := by
  induction n with
  | zero => exact RelAct.fuel
  | succ n ih =>
    refine RelAct.bind S.r_peek fun a b hab => ?_
    rcases hab.cases with ⟨rfl, rfl⟩ | ⟨i, j, rfl, rfl, hij⟩
    · exact RelAct.pure trivial
    · refine RelAct.ite (by rw [S.ws _ _ hij.1]) (fun _ => ?_) (fun _ => RelAct.pure trivial)
      exact RelAct.bind S.r_next fun _ _ _ => ih

theorem Sim.r_checkEndChar : RelAct R (fun _ _ => True) E₁.checkEndChar E₂.checkEndChar := by
  refine RelAct.bind S.r_peek fun a b hab => ?_
  refine RelAct.bind (RelAct.debugAssert ?_) fun _ _ _ => ?_
  · rcases hab.cases with ⟨rfl, rfl⟩ | ⟨i, j, rfl, rfl, hij⟩
    · rfl
    · simp [S.fin _ _ hij.1]
  · refine RelAct.bind Sim.r_getDepth fun d e hde => ?_
    subst hde
    refine RelAct.ite Iff.rfl (fun _ => RelAct.pure trivial) fun _ => ?_
    refine RelAct.bind S.r_next fun a b hab => ?_
    rcases hab.cases with ⟨rfl, rfl⟩ | ⟨i, j, rfl, rfl, hij⟩
    · exact RelAct.panic
    · exact RelAct.throw (ErrRel.unbalancedEndChar hij.2)

theorem Sim.r_finishText {t : τ₁} {u : τ₂} (h : R.RT t u) (l : Nat) :
    RelAct R R.RT (E₁.finishText t l) (E₂.finishText u l) := by
  refine RelAct.ite Iff.rfl (fun _ => S.r_concatAccum h) fun _ => ?_
  exact RelAct.throw ErrRel.missingEndChar

theorem Sim.isEndChar (mode : Mode) {c d : Char} (h : R.RC c d) :
    isEndChar E₁.cc mode c = isEndChar E₂.cc mode d := by
  cases mode <;> simp [Kul.isEndChar, S.start _ _ h, S.fin _ _ h, S.ws _ _ h]

theorem Sim.r_parseTextLoop (mode : Mode) (n : Nat) : ∀ {t : τ₁} {u : τ₂} (_ : R.RT t u) (l : Nat),
    RelAct R R.RT (E₁.parseTextLoop mode n t l) (E₂.parseTextLoop mode n u l) := by
  induction n with
  | zero => intro t u _ l; exact RelAct.fuel
  | succ n ih =>
    intro t u h l
    refine RelAct.bind S.r_peek fun a b hab => ?_
    rcases hab.cases with ⟨rfl, rfl⟩ | ⟨i, j, rfl, rfl, hij⟩
    · exact S.r_finishText h l
    refine RelAct.ite (by rw [S.isEndChar mode hij.1]) (fun _ => S.r_finishText h l) fun _ => ?_
    refine RelAct.ite (by rw [S.esc _ _ hij.1]) (fun _ => ?_) fun _ => ?_
    · refine RelAct.bind (S.r_concatAccum h) fun t' u' h' => ?_
      refine RelAct.bind S.r_next fun _ _ _ => ?_
      exact RelAct.bind S.r_nextAccum fun _ _ _ => ih h' l
    refine RelAct.ite (by rw [S.start _ _ hij.1]) (fun _ => ?_) fun _ => ?_
    · exact RelAct.bind S.r_nextAccum fun _ _ _ => ih h (l + 1)
    refine RelAct.ite (by rw [S.fin _ _ hij.1]) (fun _ => ?_) fun _ => ?_
    · refine RelAct.ite Iff.rfl (fun _ => ?_) fun _ => ?_
      · exact RelAct.bind S.r_nextAccum fun _ _ _ => ih h (l - 1)
      · exact RelAct.bind S.r_checkEndChar fun _ _ _ => S.r_finishText h l
    · exact RelAct.bind S.r_nextAccum fun _ _ _ => ih h l

theorem Sim.r_parseText (mode : Mode) (n : Nat) :
    RelAct R R.RT (E₁.parseText n mode) (E₂.parseText n mode) :=
  S.r_parseTextLoop mode n S.empty 0

theorem Sim.r_nestEnd : RelAct R (fun _ _ => True) E₁.nestEnd E₂.nestEnd := by
  refine RelAct.bind S.r_next fun a b hab => ?_
  rcases hab.cases with ⟨rfl, rfl⟩ | ⟨i, j, rfl, rfl, hij⟩
  · exact RelAct.throw ErrRel.missingEndChar
  · exact RelAct.debugAssert (S.fin _ _ hij.1)

theorem Sim.r_skipSeparator : RelAct R (fun _ _ => True) E₁.skipSeparator E₂.skipSeparator := by
  refine RelAct.bind S.r_peek fun a b hab => ?_
  rcases hab.cases with ⟨rfl, rfl⟩ | ⟨i, j, rfl, rfl, hij⟩
  · exact RelAct.pure trivial
  · refine RelAct.ite (by rw [S.ws _ _ hij.1]) (fun _ => ?_) (fun _ => RelAct.pure trivial)
    exact RelAct.bind S.r_next fun _ _ _ => RelAct.pure trivial

end

section Depth

variable {σ P τ ε α CE : Type}

/-- An action that leaves the nest depth as it was, whatever its outcome. -/
def KeepsDepth {A : Type} (x : Act (St σ α) (Err P CE) A) : Prop :=
  ∀ s, (x s).2.ndepth = s.ndepth

theorem KeepsDepth.bind {A B : Type} {x : Act (St σ α) (Err P CE) A}
    {f : A → Act (St σ α) (Err P CE) B} (hx : KeepsDepth x) (hf : ∀ a, KeepsDepth (f a)) :
    KeepsDepth (x >>= f) := by
  intro s
  show (Act.bind x f s).2.ndepth = s.ndepth
  have h := hx s
  unfold Act.bind
  rcases hxs : x s with ⟨o, s'⟩
  rw [hxs] at h
  cases o with
  | ok a => exact (hf a s').trans h
  | _ => exact h

theorem KeepsDepth.pure {A : Type} (a : A) :
    KeepsDepth (Pure.pure a : Act (St σ α) (Err P CE) A) := fun _ => rfl

theorem KeepsDepth.throw {A : Type} (e) :
    KeepsDepth (Act.throw e : Act (St σ α) (Err P CE) A) := fun _ => rfl

theorem KeepsDepth.panic {A : Type} :
    KeepsDepth (Act.panic : Act (St σ α) (Err P CE) A) := fun _ => rfl

theorem KeepsDepth.fuel {A : Type} :
    KeepsDepth (Act.fuel : Act (St σ α) (Err P CE) A) := fun _ => rfl

theorem KeepsDepth.ite {A : Type} {p : Prop} [Decidable p] {x y : Act (St σ α) (Err P CE) A}
    (hx : KeepsDepth x) (hy : KeepsDepth y) : KeepsDepth (if p then x else y) := by
  split <;> assumption

theorem KeepsDepth.debugAssert (b : Bool) :
    KeepsDepth (Act.debugAssert b : Act (St σ α) (Err P CE) Unit) :=
  KeepsDepth.ite (KeepsDepth.pure _) KeepsDepth.panic

variable (E : Env σ P τ ε α CE)

theorem Env.keeps_peek : KeepsDepth E.peek := fun _ => rfl
theorem Env.keeps_next : KeepsDepth E.next := fun _ => rfl
theorem Env.keeps_nextAccum : KeepsDepth E.nextAccum := fun _ => rfl
theorem Env.keeps_newDatum (d) : KeepsDepth (E.newDatum d) := fun _ => rfl
theorem Env.keeps_getMutFresh : KeepsDepth E.getMutFresh := fun _ => rfl
theorem Env.keeps_concatAccum (t) : KeepsDepth (E.concatAccum t) :=
  KeepsDepth.bind (fun _ => rfl) fun _ _ => rfl

theorem Env.keeps_skipWhitespace (n : Nat) : KeepsDepth (E.skipWhitespace n) := by
  induction n with
  | zero => exact KeepsDepth.fuel
  | succ n ih =>
    refine KeepsDepth.bind E.keeps_peek fun a => ?_
    cases a with
    | none => exact KeepsDepth.pure _
    | some it => exact KeepsDepth.ite (KeepsDepth.bind E.keeps_next fun _ => ih) (KeepsDepth.pure _)

theorem Env.keeps_checkEndChar : KeepsDepth E.checkEndChar := by
  refine KeepsDepth.bind E.keeps_peek fun a => ?_
  refine KeepsDepth.bind (KeepsDepth.debugAssert _) fun _ => ?_
  refine KeepsDepth.bind (fun _ => rfl) fun _ => ?_
  refine KeepsDepth.ite (KeepsDepth.pure _) (KeepsDepth.bind E.keeps_next fun o => ?_)
  cases o with
  | none => exact KeepsDepth.panic
  | some _ => exact KeepsDepth.throw _

theorem Env.keeps_finishText (t l) : KeepsDepth (E.finishText t l) :=
  KeepsDepth.ite (E.keeps_concatAccum t) (KeepsDepth.throw _)

theorem Env.keeps_parseTextLoop (mode : Mode) (n : Nat) :
    ∀ t l, KeepsDepth (E.parseTextLoop mode n t l) := by
  induction n with
  | zero => intro _ _; exact KeepsDepth.fuel
  | succ n ih =>
    intro t l
    refine KeepsDepth.bind E.keeps_peek fun a => ?_
    cases a with
    | none => exact E.keeps_finishText _ _
    | some it =>
      refine KeepsDepth.ite (E.keeps_finishText _ _) (KeepsDepth.ite ?_ (KeepsDepth.ite ?_
        (KeepsDepth.ite (KeepsDepth.ite ?_ ?_) ?_)))
      · exact KeepsDepth.bind (E.keeps_concatAccum _) fun _ => KeepsDepth.bind E.keeps_next
          fun _ => KeepsDepth.bind E.keeps_nextAccum fun _ => ih _ _
      · exact KeepsDepth.bind E.keeps_nextAccum fun _ => ih _ _
      · exact KeepsDepth.bind E.keeps_nextAccum fun _ => ih _ _
      · exact KeepsDepth.bind E.keeps_checkEndChar fun _ => E.keeps_finishText _ _
      · exact KeepsDepth.bind E.keeps_nextAccum fun _ => ih _ _

theorem Env.keeps_parseText (n mode) : KeepsDepth (E.parseText n mode) :=
  E.keeps_parseTextLoop mode n _ _

theorem Env.keeps_nestEnd : KeepsDepth E.nestEnd := by
  refine KeepsDepth.bind E.keeps_next fun a => ?_
  cases a with
  | none => exact KeepsDepth.throw _
  | some _ => exact KeepsDepth.debugAssert _

theorem Env.keeps_skipSeparator : KeepsDepth E.skipSeparator := by
  refine KeepsDepth.bind E.keeps_peek fun a => ?_
  cases a with
  | none => exact KeepsDepth.pure _
  | some _ =>
    exact KeepsDepth.ite (KeepsDepth.bind E.keeps_next fun _ => KeepsDepth.pure _)
      (KeepsDepth.pure _)

theorem Env.nestedInDepth_eq {A : Type} {x : Act (St σ α) (Err P CE) A}
    (hx : KeepsDepth x) (s : St σ α) :
    Env.nestedInDepth x s =
      ((x { s with ndepth := s.ndepth + 1 }).1,
       { (x { s with ndepth := s.ndepth + 1 }).2 with ndepth := s.ndepth }) := by
  have h := hx { s with ndepth := s.ndepth + 1 }
  unfold Env.nestedInDepth
  rcases hxs : x { s with ndepth := s.ndepth + 1 } with ⟨o, s'⟩
  rw [hxs] at h
  simp only at h
  simp [h]

theorem Env.keeps_nestedInDepth {x : Act (St σ α) (Err P CE) (Option (Datum τ ε))}
    (hx : KeepsDepth x) : KeepsDepth (Env.nestedInDepth x) := by
  intro s
  rw [Env.nestedInDepth_eq hx]

theorem Env.keeps_parse (n : Nat) :
    (∀ mode, KeepsDepth (E.parseNext n mode)) ∧ KeepsDepth (E.parseNested n) ∧
    (∀ mode acc, KeepsDepth (E.parseAll n mode acc)) := by
  induction n with
  | zero =>
    refine ⟨fun mode => ?_, ?_, fun mode acc => ?_⟩
    · unfold Env.parseNext; exact KeepsDepth.fuel
    · unfold Env.parseNested; exact KeepsDepth.fuel
    · unfold Env.parseAll; exact KeepsDepth.fuel
  | succ n ih =>
    obtain ⟨ihn, ihd, iha⟩ := ih
    refine ⟨fun mode => ?_, ?_, fun mode acc => ?_⟩
    · unfold Env.parseNext
      refine KeepsDepth.bind (KeepsDepth.ite (E.keeps_skipWhitespace n) (KeepsDepth.pure _)) fun _ => ?_
      refine KeepsDepth.bind E.keeps_peek fun a => ?_
      cases a with
      | none =>
        exact KeepsDepth.bind (fun _ => rfl) fun _ => KeepsDepth.ite (KeepsDepth.pure _)
          (KeepsDepth.throw _)
      | some it =>
        refine KeepsDepth.ite (KeepsDepth.bind (Env.keeps_nestedInDepth ihd) fun o => ?_)
          (KeepsDepth.ite (KeepsDepth.bind E.keeps_checkEndChar fun _ => KeepsDepth.pure _)
            (KeepsDepth.bind (E.keeps_parseText _ _) fun _ => KeepsDepth.pure _))
        cases o with
        | none => exact ihn mode
        | some d => exact KeepsDepth.pure _
    · unfold Env.parseNested
      refine KeepsDepth.bind E.keeps_next fun _ => ?_
      refine KeepsDepth.bind (KeepsDepth.debugAssert _) fun _ => ?_
      refine KeepsDepth.bind (ihn _) fun o => ?_
      refine KeepsDepth.bind E.keeps_skipSeparator fun _ => ?_
      cases o with
      | none => exact KeepsDepth.bind E.keeps_nestEnd fun _ => KeepsDepth.pure _
      | some d =>
        dsimp only
        rcases E.lookup d with _ | (f | f)
        · exact KeepsDepth.bind (iha _ _) fun _ => KeepsDepth.bind E.keeps_nestEnd fun _ =>
            KeepsDepth.bind (E.keeps_newDatum _) fun _ =>
            KeepsDepth.bind (E.keeps_newDatum _) fun _ => KeepsDepth.pure _
        · exact KeepsDepth.bind (E.keeps_parseText _ _) fun _ => KeepsDepth.bind E.keeps_nestEnd
            fun _ _ => rfl
        · exact KeepsDepth.bind (iha _ _) fun _ => KeepsDepth.bind E.keeps_nestEnd
            fun _ _ => rfl
    · unfold Env.parseAll
      refine KeepsDepth.bind (ihn _) fun o => ?_
      cases o with
      | none => exact KeepsDepth.pure _
      | some d =>
        exact KeepsDepth.bind (E.keeps_newDatum _) fun _ =>
          KeepsDepth.bind (E.keeps_newDatum _) fun _ =>
          KeepsDepth.bind E.keeps_getMutFresh fun _ =>
          KeepsDepth.ite (iha _ _) (KeepsDepth.throw _)

end Depth

section

variable {σ₁ P₁ τ₁ ε₁ α₁ CE₁ σ₂ P₂ τ₂ ε₂ α₂ CE₂ : Type}
variable {R : Rels σ₁ P₁ τ₁ ε₁ α₁ CE₁ σ₂ P₂ τ₂ ε₂ α₂ CE₂}
variable {E₁ : Env σ₁ P₁ τ₁ ε₁ α₁ CE₁} {E₂ : Env σ₂ P₂ τ₂ ε₂ α₂ CE₂}

theorem RelAct.nestedInDepth {x : Act (St σ₁ α₁) (Err P₁ CE₁) (Option (Datum τ₁ ε₁))}
    {y : Act (St σ₂ α₂) (Err P₂ CE₂) (Option (Datum τ₂ ε₂))}
    {RV : Option (Datum τ₁ ε₁) → Option (Datum τ₂ ε₂) → Prop}
    (kx : KeepsDepth x) (ky : KeepsDepth y) (h : RelAct R RV x y) :
    RelAct R RV (Env.nestedInDepth x) (Env.nestedInDepth y) := by
  intro s t ⟨hS, hA, hD⟩
  rw [Env.nestedInDepth_eq kx, Env.nestedInDepth_eq ky]
  have h := h { s with ndepth := s.ndepth + 1 } { t with ndepth := t.ndepth + 1 }
    ⟨hS, hA, by simp [hD]⟩
  rcases h with ⟨a, b, h1, h2, h3, h4⟩ | ⟨e, e', h1, h2, h3, h4⟩ | ⟨h1, h2⟩ | ⟨h1, h2⟩ |
    ⟨h0, h1, t'', h2⟩
  · exact Or.inl ⟨a, b, h1, h2, h3, h4.1, h4.2.1, hD⟩
  · exact Or.inr (Or.inl ⟨e, e', h1, h2, h3, h4.1, h4.2.1, hD⟩)
  · exact Or.inr (Or.inr (Or.inl ⟨h1, h2⟩))
  · exact Or.inr (Or.inr (Or.inr (Or.inl ⟨h1, h2⟩)))
  · exact Or.inr (Or.inr (Or.inr (Or.inr ⟨h0, h1, { t'' with ndepth := s.ndepth }, h2.1, h2.2.1, rfl⟩)))

/-- **Lock-step theorem**: related environments give related parses, step budget by
step budget. -/
theorem Sim.r_parse (S : Sim R E₁ E₂) (n : Nat) :
    (∀ mode, RelAct R (OptRel (DatumRel R.RT R.RX)) (E₁.parseNext n mode) (E₂.parseNext n mode)) ∧
    RelAct R (OptRel (DatumRel R.RT R.RX)) (E₁.parseNested n) (E₂.parseNested n) ∧
    (∀ mode acc₁ acc₂, List.Forall₂ (DatumRel R.RT R.RX) acc₁ acc₂ →
      RelAct R (DatumRel R.RT R.RX) (E₁.parseAll n mode acc₁) (E₂.parseAll n mode acc₂)) := by
  induction n with
  | zero =>
    refine ⟨fun mode => ?_, ?_, fun mode acc₁ acc₂ _ => ?_⟩
    · unfold Env.parseNext; exact RelAct.fuel
    · unfold Env.parseNested; exact RelAct.fuel
    · unfold Env.parseAll; exact RelAct.fuel
  | succ n ih =>
    obtain ⟨ihn, ihd, iha⟩ := ih
    refine ⟨fun mode => ?_, ?_, fun mode acc₁ acc₂ hacc => ?_⟩
    · unfold Env.parseNext
      refine RelAct.bind (RelAct.ite Iff.rfl (fun _ => S.r_skipWhitespace n)
        (fun _ => RelAct.pure trivial)) fun _ _ _ => ?_
      refine RelAct.bind S.r_peek fun a b hab => ?_
      rcases hab.cases with ⟨rfl, rfl⟩ | ⟨i, j, rfl, rfl, hij⟩
      · refine RelAct.bind Sim.r_getDepth fun d e hde => ?_
        subst hde
        exact RelAct.ite Iff.rfl (fun _ => RelAct.pure trivial)
          fun _ => RelAct.throw ErrRel.missingEndChar
      refine RelAct.ite (by rw [S.start _ _ hij.1]) (fun _ => ?_) fun _ => ?_
      · refine RelAct.bind (RelAct.nestedInDepth (E₁.keeps_parse n).2.1 (E₂.keeps_parse n).2.1 ihd)
          fun a b hab => ?_
        rcases hab.cases with ⟨rfl, rfl⟩ | ⟨d, e, rfl, rfl, hde⟩
        · exact ihn mode
        · exact RelAct.pure hde
      refine RelAct.ite (by rw [S.fin _ _ hij.1]) (fun _ => ?_) fun _ => ?_
      · exact RelAct.bind S.r_checkEndChar fun _ _ _ => RelAct.pure trivial
      · exact RelAct.bind (S.r_parseText mode n) fun t u h => RelAct.pure (DatumRel.text h)
    · unfold Env.parseNested
      refine RelAct.bind S.r_next fun a b hab => ?_
      refine RelAct.bind (RelAct.debugAssert ?_) fun _ _ _ => ?_
      · rcases hab.cases with ⟨rfl, rfl⟩ | ⟨i, j, rfl, rfl, hij⟩
        · rfl
        · simp [S.start _ _ hij.1]
      refine RelAct.bind (ihn _) fun o₁ o₂ ho => ?_
      refine RelAct.bind S.r_skipSeparator fun _ _ _ => ?_
      rcases ho.cases with ⟨rfl, rfl⟩ | ⟨d, e, rfl, rfl, hde⟩
      · exact RelAct.bind S.r_nestEnd fun _ _ _ => RelAct.pure DatumRel.emptyNest
      · dsimp only
        rcases (S.lookup d e hde).cases with ⟨h1, h2⟩ | ⟨c₁, c₂, h1, h2, hc⟩
        · rw [h1, h2]
          refine RelAct.bind (iha _ _ _ .nil) fun l₁ l₂ hl => ?_
          refine RelAct.bind S.r_nestEnd fun _ _ _ => ?_
          refine RelAct.bind (S.r_newDatum hde) fun _ _ _ => ?_
          refine RelAct.bind (S.r_newDatum hl) fun _ _ _ => ?_
          exact RelAct.pure (DatumRel.combination hde hl)
        · rw [h1, h2]
          cases hc with
          | operative hf =>
            refine RelAct.bind (S.r_parseText _ n) fun t u htu => ?_
            refine RelAct.bind S.r_nestEnd fun _ _ _ => ?_
            exact RelAct.liftCombiner fun a b hab => hf d e t u a b hde htu hab
          | applicative hf =>
            refine RelAct.bind (iha _ _ _ .nil) fun l₁ l₂ hl => ?_
            refine RelAct.bind S.r_nestEnd fun _ _ _ => ?_
            exact RelAct.liftCombiner fun a b hab => hf d e l₁ l₂ a b hde hl hab
    · unfold Env.parseAll
      refine RelAct.bind (ihn _) fun o₁ o₂ ho => ?_
      rcases ho.cases with ⟨rfl, rfl⟩ | ⟨d, e, rfl, rfl, hde⟩
      · exact RelAct.pure (DatumRel.mkList hacc)
      · refine RelAct.bind (S.r_newDatum hde) fun _ _ _ => ?_
        refine S.r_newDatum_getMut DatumRel.emptyList fun m => ?_
        exact RelAct.ite Iff.rfl (fun _ => iha _ _ _ (forall₂_append_one hacc hde))
          fun _ => RelAct.throw ErrRel.failedDerefTryMut

end

end Kul
