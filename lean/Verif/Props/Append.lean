import Verif.Proof.Append
import Verif.Proof.Provided
import Verif.Props.Concrete
import Verif.Props.Datums
import Verif.Props.Provided

/-!
# One source after another (C60)
-/

namespace Kul

variable {σ P τ ε α CE : Type}

/-! ## The reference parser -/

theorem Results.means {cc : Classifier} {RT : τ → List (Item P) → Prop} {Mem : α → α → Prop} {MF : Err P CE → Prop}
    {lookup : Datum τ ε → Option (Combiner τ ε α P CE)} {s a ds a'}
    (h : Results cc RT Mem MF lookup s a (ds.map .ok) a') : Means cc RT Mem lookup s a ds a' := by
  generalize hl : ds.map Except.ok = l at h
  cases h with
  | @all s a ds' a' h =>
    have : ds = ds' := (List.map_injective_iff.2 fun _ _ h => by cases h; rfl) hl
    rwa [this]
  | @fails s rest a ds' e a₁ l a' h1 h2 =>
    exfalso
    have : Except.error e ∈ ds.map (Except.ok (ε := Err P CE)) := by rw [hl]; simp
    obtain ⟨d, _, hd⟩ := List.mem_map.1 this
    cases hd

/-- C60. For the reference parser, with any bindings and whatever the combiners do to the state: if the
source `s` yields the datums `ds`, without an error, and leaves the state `a₁`, and the source `t`, in this
state, yields `l` and leaves the state `a₂`, then the source `s` followed by `t` yields `ds` followed by `l` and
leaves the state `a₂`; provided that no text at the end of `s` runs into one at the start of `t`. -/
theorem C60_reference (cc : Classifier) (D : cc.Disjoint)
    (lookup : Datum (List (Item P)) ε → Option (Combiner (List (Item P)) ε α P CE))
    {s t : List (Item P)} (hA : Apart cc s t) {a : α} {ds : List (Datum (List (Item P)) ε)} {t₁}
    (hs : (seqEnv cc (freeAlloc _ ε α) lookup).Yields (St.init ⟨[], s⟩ a) (ds.map .ok) t₁) {l t₂}
    (ht : (seqEnv cc (freeAlloc _ ε α) lookup).Yields (St.init ⟨[], t⟩ t₁.alloc) l t₂) :
    ∃ t₃, (seqEnv cc (freeAlloc _ ε α) lookup).Yields (St.init ⟨[], s ++ t⟩ a) (ds.map .ok ++ l) t₃ ∧
      t₃.alloc = t₂.alloc :=
  (C52_exact cc D lookup (s ++ t) a _ _).2 (Means.append D ((C52_exact cc D lookup s a _ _).1 ⟨_, hs, rfl⟩).means hA
    ((C52_exact cc D lookup t t₁.alloc l _).1 ⟨_, ht, rfl⟩))

/-! ## Any parser -/

theorem Apart.of_same {RP RP' : P → P → Prop} {cc : Classifier} {s s' t t' : List (Item P)} (h : Apart cc s t)
    (hs : List.Forall₂ (ItemRel Eq RP) s s') (ht : List.Forall₂ (ItemRel Eq RP') t t') : Apart cc s' t' := by
  have h1 : ∀ n (s s' : List (Item P)), s.length ≤ n → List.Forall₂ (ItemRel Eq RP) s s' →
      endsWithNest cc s' = endsWithNest cc s ∧ danglingEscape cc s' = danglingEscape cc s := by
    intro n
    induction n with
    | zero =>
      intro s s' hn hs
      cases hs with
      | nil => exact ⟨rfl, rfl⟩
      | cons => simp at hn
    | succ n ih =>
      intro s s' hn hs
      cases hs with
      | nil => exact ⟨rfl, rfl⟩
      | cons hx hs =>
        cases hs with
        | nil => simp only [endsWithNest, danglingEscape, hx.1, and_self]
        | cons hy hs =>
          simp only [List.length_cons] at hn
          have h1 := ih _ _ (by omega) hs
          have h2 := ih _ _ (by simp only [List.length_cons]; omega) (List.Forall₂.cons hy hs)
          simp only [endsWithNest, danglingEscape, hx.1, h1.1, h1.2, h2.1, h2.2, and_self]
  obtain ⟨h2, h3⟩ := h1 _ _ _ (Nat.le_refl _) hs
  rcases h with rfl | h | ⟨h, h'⟩
  · cases hs; exact Or.inl rfl
  · exact Or.inr (Or.inl (h2.trans h))
  · refine Or.inr (Or.inr ⟨h3.trans h, ?_⟩)
    rcases h' with rfl | ⟨x, t, rfl, hx⟩
    · cases ht; exact Or.inl rfl
    · cases ht with
      | @cons _ y _ t' hy _ => exact Or.inr ⟨y, t', rfl, by rw [← hy.1]; exact hx⟩

theorem ResultRel.flip {P₁ P₂ CE₁ CE₂ A B : Type} {RP : P₁ → P₂ → Prop} {RE : CE₁ → CE₂ → Prop} {R : A → B → Prop}
    {RP' : P₂ → P₁ → Prop} {RE' : CE₂ → CE₁ → Prop} {R' : B → A → Prop} (hP : ∀ a b, RP a b → RP' b a)
    (hE : ∀ a b, RE a b → RE' b a) (hR : ∀ a b, R a b → R' b a) {x y} (h : ResultRel RP RE R x y) :
    ResultRel RP' RE' R' y x := by
  cases h with
  | datum h => exact .datum (hR _ _ h)
  | error h =>
    refine .error ?_
    cases h with
    | unbalancedEndChar h => exact .unbalancedEndChar (hP _ _ h)
    | missingEndChar => exact .missingEndChar
    | failedAlloc e => exact .failedAlloc e
    | failedDerefTryMut => exact .failedDerefTryMut
    | failedCombiner h => exact .failedCombiner (hE _ _ h)

section
variable {E : Env σ P τ ε α CE} {X : TextSem P τ α} {RP₁ RP₂ : P → P → Prop}

theorem SameResults.of_same {RP : P → P → Prop} {l m : List (Except (Err P CE) (Datum τ ε))} {L}
    (h : List.Forall₂ (ResultRel RP Eq (DatumRel (SameText X (seqSem P Unit) (ItemRel Eq RP)) Eq)) l L)
    (h' : List.Forall₂ (ResultRel Eq Eq (DatumRel (SameText X (seqSem P Unit) (ItemRel Eq Eq)) Eq)) m L) :
    SameResults X RP l m := by
  refine forall₂_comp (S := ResultRel Eq Eq (DatumRel (fun c t => X.RT t c) Eq)) (fun x y z h h' => ?_) h ?_
  · refine h.comp ?_ (fun _ _ _ h h' => h.trans h') (fun _ _ _ h h' => h.comp ?_ h') h'
    · rintro p q _ h rfl; exact h
    · rintro t c u ⟨c₁, _, h1, rfl, h2⟩ h3
      exact ⟨_, _, h1, h3, h2⟩
  · rw [sameText_seq] at h'
    refine (h'.flip).imp fun x y h => h.flip (fun _ _ h => h.symm) (fun _ _ h => h.symm) fun _ _ h =>
      h.flip (fun _ _ h => h) (fun _ _ h => h.symm)

/-- C60. A parser made of what the library provides, without bindings and with memory that does not run
out. Three sources: `r₁`, `r₂`, and the one after the other, where the positions may have changed as `RP₁` and
`RP₂` say. If the first yields no error for a missing end delimiter, and no text at the end of it runs into
one at the start of the second, then the third yields what the first does followed by what the second does, with
positions changed accordingly. -/
theorem C60_append_provided {s₁ s₂ s₃ r₁ r₂ r₁' r₂'} (p₁ : Provided E s₁ r₁ X) (p₂ : Provided E s₂ r₂ X)
    (p₃ : Provided E s₃ (r₁' ++ r₂') X) (D : E.cc.Disjoint) (hb : ∀ d, E.lookup d = none) (A : E.alloc.Reliable)
    (hF : ¬ X.F) (hr₁ : List.Forall₂ (ItemRel Eq RP₁) r₁ r₁') (hr₂ : List.Forall₂ (ItemRel Eq RP₂) r₂ r₂')
    (hA : Apart E.cc r₁ r₂) {a₁ a₂ a₃ l₁ l₂ l₃ t₁ t₂ t₃} (h₁ : E.Yields (St.init s₁ a₁) l₁ t₁)
    (hm : .error .missingEndChar ∉ l₁) (h₂ : E.Yields (St.init s₂ a₂) l₂ t₂)
    (h₃ : E.Yields (St.init s₃ a₃) l₃ t₃) :
    ∃ m₁ m₂, l₃ = m₁ ++ m₂ ∧ SameResults X RP₁ l₁ m₁ ∧ SameResults X RP₂ l₂ m₂ := by
  let R := seqEnv E.cc (freeAlloc (List (Item P)) ε Unit) (noBindings _ ε Unit P CE)
  have C : Conf R Eq (seqSem P Unit) := seqConf _ _ _
  have key : ∀ {RP : P → P → Prop} {s r r' a l t}, Provided E s r X → List.Forall₂ (ItemRel Eq RP) r r' →
      E.Yields (St.init s a) l t → ∃ L, PlainResults E.cc r' L ∧
        List.Forall₂ (ResultRel RP Eq (DatumRel (SameText X (seqSem P Unit) (ItemRel Eq RP)) Eq)) l L := by
    intro RP s r r' a l t p hr hy
    obtain ⟨RS, C₁, hs⟩ := p.conf
    obtain ⟨L, t', h1, h2⟩ := C₁.related_plain (RE := Eq) C (ClassifierSim.eq _) hb (fun _ => rfl) A
      (freeAlloc_reliable _ _ _) hF (fun h => h) hs (s₂ := ⟨[], r'⟩) rfl hr () hy
    exact ⟨L, ((C52_exact E.cc D _ _ _ _ _).1 ⟨_, h1, rfl⟩).plain D, h2⟩
  obtain ⟨L₁, g1, g1'⟩ := key p₁ hr₁ h₁
  obtain ⟨L₂, g2, g2'⟩ := key p₂ hr₂ h₂
  obtain ⟨L₃, g3, g3'⟩ := key (RP := Eq) p₃ (forall₂_itemRel_eq.2 rfl) h₃
  have hm' : .error .missingEndChar ∉ L₁ := by
    intro h
    apply hm
    clear g1 h₁ hm
    induction g1' with
    | nil => cases h
    | @cons x y l L hx _ ih =>
      rcases List.mem_cons.1 h with rfl | h
      · cases hx with | error hx => cases hx; exact List.mem_cons_self
      · exact List.mem_cons_of_mem _ (ih h)
  have g := g1.append D g2 (hA.of_same hr₁ hr₂) hm'
  obtain ⟨L, _, hu⟩ := C52_plain_total_unique (ε := ε) (CE := CE) D (r₁' ++ r₂')
  rw [hu _ g3, ← hu _ g] at g3'
  obtain ⟨m₁, m₂, h1, h2, rfl⟩ : ∃ m₁ m₂, List.Forall₂ _ m₁ L₁ ∧ List.Forall₂ _ m₂ L₂ ∧ l₃ = m₁ ++ m₂ :=
    ⟨_, _, List.forall₂_take_append _ _ _ g3', List.forall₂_drop_append _ _ _ g3', (List.take_append_drop _ _).symm⟩
  exact ⟨m₁, m₂, rfl, .of_same g1' h1, .of_same g2' h2⟩

/-- C60. The same with bindings, when the combiners treat alike texts that differ only in their positions, as
`RP₁` and `RP₂` say, and in their division into chunks: that is to say, the parser agrees, in these respects,
with a reference parser. The first source yields no error; the second is read in the state that the first
leaves. The third yields the same as the first followed by the second: these are the same lists `L₁` and `L₂` of
results of the reference parser. -/
theorem C60_bindings_provided {β CE' : Type} {RX : ε → ε → Prop} {RA : α → β → Prop} {RE : CE → CE' → Prop}
    {lookup : Datum (List (Item P)) ε → Option (Combiner (List (Item P)) ε β P CE')}
    {s₁ s₂ s₃ r₁ r₂ r₁' r₂'} (p₁ : Provided E s₁ r₁ X) (p₂ : Provided E s₂ r₂ X)
    (p₃ : Provided E s₃ (r₁' ++ r₂') X) (D : E.cc.Disjoint)
    (G₁ : Agree Eq RP₁ RX RA RE False E X (seqEnv E.cc (freeAlloc _ ε β) lookup) (seqSem P β))
    (G₂ : Agree Eq RP₂ RX RA RE False E X (seqEnv E.cc (freeAlloc _ ε β) lookup) (seqSem P β))
    (G₃ : Agree Eq Eq RX RA RE False E X (seqEnv E.cc (freeAlloc _ ε β) lookup) (seqSem P β))
    (hr₁ : List.Forall₂ (ItemRel Eq RP₁) r₁ r₁') (hr₂ : List.Forall₂ (ItemRel Eq RP₂) r₂ r₂')
    (hA : Apart E.cc r₁ r₂) {a : α} {b : β} (hab : RA a b) {ds : List (Datum τ ε)} {l₂ l₃ t₁ t₂ t₃}
    (h₁ : E.Yields (St.init s₁ a) (ds.map .ok) t₁) (h₂ : E.Yields (St.init s₂ t₁.alloc) l₂ t₂)
    (h₃ : E.Yields (St.init s₃ a) l₃ t₃) :
    ∃ L₁ L₂ b', RA t₂.alloc b' ∧ RA t₃.alloc b' ∧
      List.Forall₂ (ResultRel RP₁ RE (DatumRel (SameText X (seqSem P β) (ItemRel Eq RP₁)) RX)) (ds.map .ok) L₁ ∧
      List.Forall₂ (ResultRel RP₂ RE (DatumRel (SameText X (seqSem P β) (ItemRel Eq RP₂)) RX)) l₂ L₂ ∧
      List.Forall₂ (ResultRel Eq RE (DatumRel X.RT RX)) l₃ (L₁ ++ L₂) := by
  have C := seqConf E.cc (freeAlloc (List (Item P)) ε β) lookup
  obtain ⟨RS₁, C₁, hs₁⟩ := p₁.conf
  obtain ⟨RS₂, C₂, hs₂⟩ := p₂.conf
  obtain ⟨RS₃, C₃, hs₃⟩ := p₃.conf
  obtain ⟨L₁, u₁, g1, ha1, g1'⟩ := C₁.related C G₁ hs₁ (s₂ := ⟨[], r₁'⟩) rfl hr₁ hab h₁
  obtain ⟨L₂, u₂, g2, ha2, g2'⟩ := C₂.related C G₂ hs₂ (s₂ := ⟨[], r₂'⟩) rfl hr₂ ha1 h₂
  obtain ⟨L₃, u₃, g3, ha3, g3'⟩ := C₃.related C G₃ hs₃ (s₂ := ⟨[], r₁' ++ r₂'⟩) rfl (forall₂_itemRel_eq.2 rfl) hab h₃
  obtain ⟨ds', rfl⟩ : ∃ ds' : List (Datum (List (Item P)) ε), L₁ = ds'.map .ok := by
    clear g1 h₁
    generalize hl : ds.map Except.ok = l at g1'
    induction g1' generalizing ds with
    | nil => exact ⟨[], rfl⟩
    | cons hx _ ih =>
      cases ds with
      | nil => cases hl
      | cons d ds =>
        simp only [List.map_cons, List.cons.injEq] at hl
        obtain ⟨ds', rfl⟩ := ih hl.2
        rw [← hl.1] at hx
        cases hx with
        | datum _ => exact ⟨_ :: ds', rfl⟩
  obtain ⟨u₄, g4, h4⟩ := C60_reference E.cc D lookup (hA.of_same hr₁ hr₂) g1 g2
  obtain ⟨h5, h6⟩ := g3.unique g4
  refine ⟨_, _, _, ha2, ?_, g1', g2', ?_⟩
  · rw [← h4, ← h6]; exact ha3
  · rw [← h5]; rw [sameText_seq] at g3'; exact g3'

end

/-! ## Strings -/

theorem itemsFrom_rel {adv : P → Char → P} {RP : P → P → Prop} (h : ∀ p q c, RP p q → RP (adv p c) (adv q c)) :
    ∀ (s : Str) (p q : P), RP p q → List.Forall₂ (ItemRel Eq RP) (itemsFrom adv p s) (itemsFrom adv q s)
  | [], _, _, _ => .nil
  | c :: s, p, q, hpq => .cons ⟨rfl, hpq⟩ (itemsFrom_rel h s _ _ (h p q c hpq))

theorem StrPos.After.adv {u : Str} (p q : StrPos) (c : Char) (h : StrPos.After u p q) :
    StrPos.After u (p.adv c) (q.adv c) := by
  obtain ⟨h1, h2⟩ := h
  simp only [StrPos.After, StrPos.adv] at *
  omega

theorem CharPos.After.adv {u : Str} (p q : CharPos) (c : Char) (h : CharPos.After u p q) :
    CharPos.After u (p.adv c) (q.adv c) := by
  simp only [CharPos.After, CharPos.adv] at *
  omega

theorem strItems_append (s t : Str) : ∃ r₁ r₂, strItems (s ++ t) = r₁ ++ r₂ ∧
    List.Forall₂ (ItemRel Eq (StrPos.After [])) (strItems s) r₁ ∧
    List.Forall₂ (ItemRel Eq (StrPos.After s)) (strItems t) r₂ := by
  refine ⟨_, _, itemsFrom_append _ _ _ _, itemsFrom_rel StrPos.After.adv _ _ _ ⟨rfl, rfl⟩,
    itemsFrom_rel StrPos.After.adv _ _ _ ?_⟩
  rw [advs_strPos]
  exact ⟨rfl, by rw [utf8_length]⟩

theorem charItems_append (s t : Str) : ∃ r₁ r₂, charItems (s ++ t) = r₁ ++ r₂ ∧
    List.Forall₂ (ItemRel Eq (CharPos.After [])) (charItems s) r₁ ∧
    List.Forall₂ (ItemRel Eq (CharPos.After s)) (charItems t) r₂ := by
  refine ⟨_, _, itemsFrom_append _ _ _ _, itemsFrom_rel CharPos.After.adv _ _ _ rfl,
    itemsFrom_rel CharPos.After.adv _ _ _ ?_⟩
  rw [advs_charPos]
  exact rfl

/-- C60. Strings in memory, read by the common parser without bindings: `s` followed by `t` yields what `s`
does, followed by what `t` does with the positions moved by the length of `s`, in characters and in bytes. -/
theorem C60_str (s t : Str) (hA : Apart defaultClassifier (strItems s) (strItems t)) {a₁ a₂ a₃ : α} {l₁ l₂ l₃ t₁ t₂ t₃}
    (h₁ : (inmemEnv (noBindings _ ε α StrPos CE)).Yields (St.init (inmemSource s) a₁) l₁ t₁)
    (hm : .error .missingEndChar ∉ l₁)
    (h₂ : (inmemEnv (noBindings _ ε α StrPos CE)).Yields (St.init (inmemSource t) a₂) l₂ t₂)
    (h₃ : (inmemEnv (noBindings _ ε α StrPos CE)).Yields (St.init (inmemSource (s ++ t)) a₃) l₃ t₃) :
    ∃ m₁ m₂, l₃ = m₁ ++ m₂ ∧ SameResults (vecSem α) (StrPos.After []) l₁ m₁ ∧
      SameResults (vecSem α) (StrPos.After s) l₂ m₂ := by
  obtain ⟨r₁, r₂, h4, h5, h6⟩ := strItems_append s t
  have p₃ := inmem_provided (noBindings _ ε α StrPos CE) (s ++ t)
  rw [h4] at p₃
  exact C60_append_provided (inmem_provided _ s) (inmem_provided _ t) p₃ defaultClassifier_disjoint (fun _ => rfl)
    (boxAlloc_reliable _ _ _) (fun h => h) h5 h6 hA h₁ hm h₂ h₃

/-- C60. The same for streams of pieces, however they are divided. -/
theorem C60_stream (ss tt uu : List Str) (hu : uu.flatten = ss.flatten ++ tt.flatten)
    (hA : Apart defaultClassifier (charItems ss.flatten) (charItems tt.flatten)) {a₁ a₂ a₃ : α} {l₁ l₂ l₃ t₁ t₂ t₃}
    (h₁ : (streamEnv (noBindings _ ε α CharPos CE)).Yields (St.init (.new ss) a₁) l₁ t₁)
    (hm : .error .missingEndChar ∉ l₁)
    (h₂ : (streamEnv (noBindings _ ε α CharPos CE)).Yields (St.init (.new tt) a₂) l₂ t₂)
    (h₃ : (streamEnv (noBindings _ ε α CharPos CE)).Yields (St.init (.new uu) a₃) l₃ t₃) :
    ∃ m₁ m₂, l₃ = m₁ ++ m₂ ∧ SameResults (vecishSem α) (CharPos.After []) l₁ m₁ ∧
      SameResults (vecishSem α) (CharPos.After ss.flatten) l₂ m₂ := by
  obtain ⟨r₁, r₂, h4, h5, h6⟩ := charItems_append ss.flatten tt.flatten
  have p₃ := stream_provided (noBindings _ ε α CharPos CE) uu
  rw [hu, h4] at p₃
  exact C60_append_provided (stream_provided _ ss) (stream_provided _ tt) p₃ defaultClassifier_disjoint (fun _ => rfl)
    (boxAlloc_reliable _ _ _) (fun h => h) h5 h6 hA h₁ hm h₂ h₃

theorem UpToFirstError.append {E A : Type} {l₂ v₂ : List (Except E A)} (h : UpToFirstError l₂ v₂) :
    ∀ l₁ : List (Except E A), (∀ x ∈ l₁, ∃ d, x = .ok d) → UpToFirstError (l₁ ++ l₂) (l₁ ++ v₂)
  | [], _ => h
  | x :: l₁, hx => by
    obtain ⟨d, rfl⟩ := hx x (by simp)
    exact upToFirstError_ok.2 ⟨_, rfl, h.append l₁ fun y hy => hx y (by simp [hy])⟩

theorem UpToFirstError.eq_of_ok {E A : Type} {l v : List (Except E A)} (h : UpToFirstError l v)
    (hv : ∀ x ∈ v, ∃ d, x = .ok d) : v = l := by
  induction v generalizing l with
  | nil =>
    rcases h.complete with h | ⟨v', e, h⟩
    · exact h
    · simp at h
  | cons x v ih =>
    obtain ⟨d, rfl⟩ := hv x (by simp)
    cases l with
    | nil => rw [upToFirstError_nil] at h; exact h
    | cons y l =>
      have : y = .ok d := (List.cons_prefix_cons.1 h.isPrefix).1.symm
      subst this
      obtain ⟨w, h1, h2⟩ := upToFirstError_ok.1 h
      cases h1
      rw [ih h2 fun x hx => hv x (by simp [hx])]

/-- C60. `parse_str`: if it returns datums for `s`, and no error, then for `s` followed by `t` it returns
what it does for `s` followed by what it does for `t`. -/
theorem C60_parse_str (s t : Str) (hA : Apart defaultClassifier (strItems s) (strItems t)) {a₁ a₂ a₃ : α} {n₁ n₂ n₃ k₁ k₂ k₃}
    {ds : List (Datum (TextVec PosStr) ε)} {v₂ v₃ t₁ t₂ t₃}
    (h₁ : parseStrWith n₁ k₁ (noBindings _ ε α StrPos CE) s a₁ = (.ok (ds.map .ok), t₁))
    (h₂ : parseStrWith n₂ k₂ (noBindings _ ε α StrPos CE) t a₂ = (.ok v₂, t₂))
    (h₃ : parseStrWith n₃ k₃ (noBindings _ ε α StrPos CE) (s ++ t) a₃ = (.ok v₃, t₃)) :
    ∃ m₁ m₂, v₃ = m₁ ++ m₂ ∧ SameResults (vecSem α) (StrPos.After []) (ds.map .ok) m₁ ∧
      SameResults (vecSem α) (StrPos.After s) v₂ m₂ := by
  have tot : ∀ (s : Str) (a : α), ∃ l t, (inmemEnv (noBindings _ ε α StrPos CE)).Yields (St.init (inmemSource s) a) l t := by
    intro s a
    obtain ⟨l, _, _, _, h, _⟩ := (inmem_conf (noBindings _ ε α StrPos CE)).yields_run a
      (AtItems.fresh (strSource_means _ s))
    exact ⟨l, _, h⟩
  obtain ⟨l₁, u₁, g1⟩ := tot s a₁
  obtain ⟨l₂, u₂, g2⟩ := tot t a₂
  obtain ⟨l₃, u₃, g3⟩ := tot (s ++ t) a₃
  have e1 := (C46_parse_str _ s a₁ g1).2 _ _ _ _ h₁
  have e2 := (C46_parse_str _ t a₂ g2).2 _ _ _ _ h₂
  have e3 := (C46_parse_str _ (s ++ t) a₃ g3).2 _ _ _ _ h₃
  have ok1 : ∀ x ∈ ds.map (Except.ok (ε := Err StrPos CE)), ∃ d, x = .ok d := by
    intro x hx
    obtain ⟨d, _, rfl⟩ := List.mem_map.1 hx
    exact ⟨d, rfl⟩
  have e4 := e1.eq_of_ok ok1
  subst e4
  obtain ⟨m₁, m₂, rfl, h4, h5⟩ := C60_str s t hA g1 (fun h => by obtain ⟨_, h⟩ := ok1 _ h; cases h) g2 g3
  have ok2 : ∀ x ∈ m₁, ∃ d, x = .ok d := by
    clear g1 h₁ e1 g3 e3
    unfold SameResults at h4
    generalize ds.map Except.ok = l at *
    induction h4 with
    | nil => intro x hx; cases hx
    | cons hx _ ih =>
      intro y hy
      rcases List.mem_cons.1 hy with rfl | hy
      · obtain ⟨d, rfl⟩ := ok1 _ List.mem_cons_self
        cases hx with | datum _ => exact ⟨_, rfl⟩
      · exact ih (fun x hx => ok1 x (by simp [hx])) y hy
  obtain ⟨w₂, h6, _⟩ := upToFirstError_total_unique m₂
  obtain ⟨w, _, h7⟩ := upToFirstError_total_unique (m₁ ++ m₂)
  rw [h7 _ e3, ← h7 _ (h6.append m₁ ok2)]
  exact ⟨m₁, w₂, rfl, h4, UpToFirstError.rel h5 e2 h6⟩

/-! ## The hypotheses are met, and are needed -/

/-- `é{b}` and `c{d}}` are apart, since the first ends with a nest. -/
example : Apart defaultClassifier (strItems "é{b}".toList) (strItems "c{d}}".toList) :=
  Or.inr (Or.inl (by decide +kernel))

/-- `a{b}c` and `{d}` are apart, since the second starts with a nest. -/
example : Apart defaultClassifier (strItems "a{b}c".toList) (strItems "{d}".toList) :=
  Or.inr (Or.inr ⟨by decide +kernel, Or.inr ⟨_, _, rfl, by decide +kernel⟩⟩)

/-- `a\\` and `{d}` are apart, `a\` and `{d}` are not, and neither are `a` and `b`. -/
example : Apart defaultClassifier (strItems "a\\\\".toList) (strItems "{d}".toList) ∧
    ¬ Apart defaultClassifier (strItems "a\\".toList) (strItems "{d}".toList) ∧
    ¬ Apart defaultClassifier (strItems "a".toList) (strItems "b".toList) := by
  refine ⟨Or.inr (Or.inr ⟨by decide +kernel, Or.inr ⟨_, _, rfl, by decide +kernel⟩⟩), ?_, ?_⟩
  · rintro (h | h | ⟨h, _⟩)
    · cases h
    · exact absurd h (by decide +kernel)
    · exact absurd h (by decide +kernel)
  · rintro (h | h | ⟨_, h | ⟨x, t, h, hx⟩⟩)
    · cases h
    · exact absurd h (by decide +kernel)
    · cases h
    · cases h; exact absurd hx (by decide +kernel)

/-- What the three strings yield: the positions after the first are moved by four characters and
five bytes. -/
example :
    (∃ t, (inmemEnv (noBindings _ Empty Unit StrPos Empty)).Yields (St.init (inmemSource "é{b}".toList) ())
      [.ok (.text (.single ⟨['é'], ⟨"é{b}".toList, 0, 0⟩⟩)),
       .ok (.combination (.text (.single ⟨['b'], ⟨"é{b}".toList, 3, 2⟩⟩)) .emptyList)] t) ∧
    (∃ t, (inmemEnv (noBindings _ Empty Unit StrPos Empty)).Yields (St.init (inmemSource "c{}}".toList) ())
      [.ok (.text (.single ⟨['c'], ⟨"c{}}".toList, 0, 0⟩⟩)), .ok .emptyNest,
       .error (.unbalancedEndChar ⟨"c{}}".toList, 3, 3⟩)] t) ∧
    ∃ t, (inmemEnv (noBindings _ Empty Unit StrPos Empty)).Yields (St.init (inmemSource "é{b}c{}}".toList) ())
      [.ok (.text (.single ⟨['é'], ⟨"é{b}c{}}".toList, 0, 0⟩⟩)),
       .ok (.combination (.text (.single ⟨['b'], ⟨"é{b}c{}}".toList, 3, 2⟩⟩)) .emptyList),
       .ok (.text (.single ⟨['c'], ⟨"é{b}c{}}".toList, 5, 4⟩⟩)), .ok .emptyNest,
       .error (.unbalancedEndChar ⟨"é{b}c{}}".toList, 8, 7⟩)] t :=
  ⟨Env.yields_of' 80 9 (by decide +kernel), Env.yields_of' 80 9 (by decide +kernel),
   Env.yields_of' 80 9 (by decide +kernel)⟩

/-- Without `Apart` it is false: `a` and `b` yield a text each, `ab` yields one. -/
example :
    (∃ t, (inmemEnv (noBindings _ Empty Unit StrPos Empty)).Yields (St.init (inmemSource "a".toList) ())
      [.ok (.text (.single ⟨['a'], ⟨"a".toList, 0, 0⟩⟩))] t) ∧
    (∃ t, (inmemEnv (noBindings _ Empty Unit StrPos Empty)).Yields (St.init (inmemSource "b".toList) ())
      [.ok (.text (.single ⟨['b'], ⟨"b".toList, 0, 0⟩⟩))] t) ∧
    ∃ t, (inmemEnv (noBindings _ Empty Unit StrPos Empty)).Yields (St.init (inmemSource "ab".toList) ())
      [.ok (.text (.single ⟨['a', 'b'], ⟨"ab".toList, 0, 0⟩⟩))] t :=
  ⟨Env.yields_of' 80 9 (by decide +kernel), Env.yields_of' 80 9 (by decide +kernel),
   Env.yields_of' 80 9 (by decide +kernel)⟩

/-- With an open nest at the end of the first it is false: `a{` yields an error, but `a{` followed by `b}` does
not. -/
example :
    (∃ t, (inmemEnv (noBindings _ Empty Unit StrPos Empty)).Yields (St.init (inmemSource "a{".toList) ())
      [.ok (.text (.single ⟨['a'], ⟨"a{".toList, 0, 0⟩⟩)), .error .missingEndChar] t) ∧
    ∃ t, (inmemEnv (noBindings _ Empty Unit StrPos Empty)).Yields (St.init (inmemSource "a{b}".toList) ())
      [.ok (.text (.single ⟨['a'], ⟨"a{b}".toList, 0, 0⟩⟩)),
       .ok (.combination (.text (.single ⟨['b'], ⟨"a{b}".toList, 2, 2⟩⟩)) .emptyList)] t :=
  ⟨Env.yields_of' 80 9 (by decide +kernel), Env.yields_of' 80 9 (by decide +kernel)⟩

/-- With bindings: the parser whose combiner counts its calls and removes its nests agrees with the reference
parser, wherever the positions are. -/
example (RP : StrPos → StrPos → Prop) : Agree Eq RP Eq Eq Eq False (inmemEnv (countingLookup _ _)) (vecSem Nat)
    (seqEnv defaultClassifier (freeAlloc _ Unit Nat) (countingLookup _ _)) (seqSem StrPos Nat) :=
  countingLookup_agree (ClassifierSim.eq _) rfl rfl rfl rfl rfl rfl (fun h => h) (fun h => h)

/-- It counts on through the second source. -/
example : ∃ ds t₁ l₂ t₂, (inmemEnv (countingLookup _ _)).Yields (St.init (inmemSource "x{{} a}".toList) 0)
      (List.map .ok ds) t₁ ∧ t₁.alloc = 1 ∧
    (inmemEnv (countingLookup _ _)).Yields (St.init (inmemSource "{{} b}y{{}}".toList) t₁.alloc) l₂ t₂ ∧
    t₂.alloc = 3 ∧ ds.length = 1 ∧ l₂.length = 1 := by
  obtain ⟨l₁, t₁, h₁, e₁⟩ := Env.yields_of_view (fun p => (p.2.alloc, p.1.length, p.1.all Except.isOk)) (n := 80) (k := 9)
    (E := inmemEnv (countingLookup _ _)) (v := (1, 1, true))
    (s := St.init (inmemSource "x{{} a}".toList) 0) (by decide +kernel)
  obtain ⟨l₂, t₂, h₂, e₂⟩ := Env.yields_of_view (fun p => (p.2.alloc, p.1.length)) (n := 80) (k := 9)
    (E := inmemEnv (countingLookup _ _)) (v := (3, 1))
    (s := St.init (inmemSource "{{} b}y{{}}".toList) 1) (by decide +kernel)
  simp only [Prod.mk.injEq] at e₁ e₂
  obtain ⟨ha, hl, hok⟩ := e₁
  match l₁, hl, hok, h₁ with
  | [.ok d], _, _, h₁ => exact ⟨[d], t₁, l₂, t₂, h₁, ha, ha ▸ h₂, e₂.1, rfl, e₂.2⟩
  | [.error e], _, hok, _ => simp [Except.isOk, Except.toBool] at hok

end Kul
