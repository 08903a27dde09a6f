import Verif.Proof.Transfer

/-! # The grammar without bindings -/

namespace Kul

variable {P τ ε α CE : Type} {cc : Classifier} {lookup : Datum τ ε → Option (Combiner τ ε α P CE)}

theorem DatumRel.listOf {τ₁ τ₂ ε₁ ε₂ : Type} {RT : τ₁ → τ₂ → Prop} {RX : ε₁ → ε₂ → Prop} {l m}
    (h : List.Forall₂ (DatumRel RT RX) l m) : DatumRel RT RX (listOf l) (listOf m) := by
  induction h with
  | nil => exact .emptyList
  | cons h _ ih => exact .list h ih

theorem Gram.nest_one {s : List (Item P)} {ds : List (Datum (List (Item P)) ε)} {c : Cat}
    (h : Gram cc c s ds) (hc : c = .nest) : ∃ d, ds = [d] := by
  cases h <;> first | exact ⟨_, rfl⟩ | cases hc

/-- Reading without bindings is the plain grammar. -/
theorem Reads.gram {RT : τ → List (Item P) → Prop} {Mem : α → α → Prop}
    (hb : ∀ d, lookup d = none) {c s a ds a'} (h : Reads cc RT Mem lookup c s a ds a') :
    ∃ ds', List.Forall₂ (DatumRel RT Eq) ds ds' ∧ Gram cc c s ds' := by
  induction h with
  | nil => exact ⟨[], .nil, .nil⟩
  | text h1 h2 h3 _ _ ih =>
    obtain ⟨ds', h5, h6⟩ := ih
    exact ⟨_, .cons (.text h3) h5, .text h1 h2 h6⟩
  | form _ _ _ ih1 ih2 =>
    obtain ⟨ds1, h1, h2⟩ := ih1
    obtain ⟨ds2, h3, h4⟩ := ih2
    cases h1 with
    | cons h1 h1' =>
      cases h1'
      exact ⟨_, .cons h1 h3, .form h2 h4⟩
  | removed _ _ ih1 _ =>
    obtain ⟨ds1, h1, h2⟩ := ih1
    cases h1
    obtain ⟨d, h⟩ := h2.nest_one rfl
    cases h
  | dangling h1 h2 h3 _ => exact ⟨_, .cons (.text h3) .nil, .dangling h1 h2⟩
  | noHead h => exact ⟨_, .nil, .noHead h⟩
  | textHead h1 h2 h3 h4 _ => exact ⟨_, .cons (.text h4) .nil, .textHead h1 h2 h3⟩
  | nestHead h1 _ ih =>
    obtain ⟨ds1, h2, h3⟩ := ih
    cases h2 with
    | cons h2 h2' => cases h2'; exact ⟨_, .cons h2 .nil, .nestHead h1 h3⟩
  | removedHead _ _ _ ih1 _ =>
    obtain ⟨ds1, h1, h2⟩ := ih1
    cases h1
    obtain ⟨d, h⟩ := h2.nest_one rfl
    cases h
  | emptyNest h1 h2 _ ih =>
    obtain ⟨ds1, h3, h4⟩ := ih
    cases h3
    exact ⟨_, .cons .emptyNest .nil, .emptyNest h1 h2 h4⟩
  | combination h1 h2 _ h3 _ _ _ ih1 ih2 =>
    obtain ⟨ds1, h4, h5⟩ := ih1
    obtain ⟨ds2, h6, h7⟩ := ih2
    cases h4 with
    | cons h4 h4' =>
      cases h4'
      exact ⟨_, .cons (.combination h4 (DatumRel.listOf h6)) .nil, .combination h1 h2 h5 h3 h7⟩
  | applicative _ _ _ _ h => rw [hb] at h; cases h
  | operative _ _ _ _ h => rw [hb] at h; cases h

/-- The plain grammar is reading without bindings. -/
theorem Gram.reads {lookup : Datum (List (Item P)) ε → Option (Combiner (List (Item P)) ε α P CE)}
    (hb : ∀ d, lookup d = none) (a : α) {c} {s : List (Item P)} {ds} (h : Gram cc c s ds) :
    Reads cc (fun t c => t = c) Eq lookup c s a ds a := by
  induction h with
  | nil => exact .nil
  | text h1 h2 _ ih => exact .text h1 h2 rfl rfl ih
  | form _ _ ih1 ih2 => exact .form ih1 rfl ih2
  | dangling h1 h2 => exact .dangling h1 h2 rfl rfl
  | noHead h => exact .noHead h
  | textHead h1 h2 h3 => exact .textHead h1 h2 h3 rfl rfl
  | nestHead h1 _ ih => exact .nestHead h1 ih
  | emptyNest h1 h2 _ ih => exact .emptyNest h1 h2 ih
  | combination h1 h2 _ h3 _ ih1 ih2 => exact .combination h1 h2 ih1 h3 (hb _) ih2 rfl

/-- Well-formed sources run without error, with their meaning. -/
theorem Written.run (D : cc.Disjoint) {s : List (Item P)} {ds : List (Datum (List (Item P)) ε)}
    (h : Written cc s ds) :
    Run cc (seqSem P Unit) (freeAlloc _ ε Unit) (noBindings _ ε Unit P CE) s () (ds.map .ok) [] () :=
  ((Gram.reads (fun _ => rfl) () h).complete D (X := seqSem P Unit) (fun _ => rfl)
    freeAlloc_free : TopEval _ _ _ _ _ _ _ _ _).run

theorem MemOk.true (X : TextSem P τ α) (al : AllocOps τ ε α) : MemOk X al (fun _ _ => True) :=
  ⟨fun _ => trivial, fun _ _ _ _ _ => trivial, fun _ _ _ => trivial, fun _ _ => trivial⟩

theorem datumRel_eq_refl (d : Datum τ ε) : DatumRel Eq Eq d d := by
  induction d with
  | text t => exact .text rfl
  | combination _ _ h1 h2 => exact .combination h1 h2
  | emptyNest => exact .emptyNest
  | list _ _ h1 h2 => exact .list h1 h2
  | emptyList => exact .emptyList
  | extra e => exact .extra rfl

theorem datumRel_eq {d d' : Datum τ ε} : DatumRel Eq Eq d d' ↔ d = d' := by
  constructor
  · intro h
    induction h with
    | text h => rw [h]
    | combination _ _ h1 h2 => rw [h1, h2]
    | emptyNest => rfl
    | list _ _ h1 h2 => rw [h1, h2]
    | emptyList => rfl
    | extra h => rw [h]
  · rintro rfl; exact datumRel_eq_refl d

theorem forall₂_datumRel_eq {l m : List (Datum τ ε)} : List.Forall₂ (DatumRel Eq Eq) l m ↔ l = m := by
  have : (DatumRel Eq Eq : Datum τ ε → Datum τ ε → Prop) = Eq := by
    funext i j; exact propext datumRel_eq
  rw [this]; exact List.forall₂_eq_eq_eq ▸ Iff.rfl

theorem forall₂_resultRel_ok {P₁ P₂ CE₁ CE₂ A B : Type} {RP : P₁ → P₂ → Prop} {RE : CE₁ → CE₂ → Prop}
    {RD : A → B → Prop} {l : List (Except (Err P₁ CE₁) A)} {ds : List B}
    (h : List.Forall₂ (ResultRel RP RE RD) l (ds.map .ok)) :
    ∃ ds', l = ds'.map .ok ∧ List.Forall₂ RD ds' ds := by
  induction ds generalizing l with
  | nil => cases h; exact ⟨[], rfl, .nil⟩
  | cons d ds ih =>
    cases h with
    | cons h1 h2 =>
      obtain ⟨ds', rfl, h3⟩ := ih h2
      cases h1 with
      | datum h1 => exact ⟨_ :: ds', rfl, .cons h1 h3⟩

end Kul
