import Verif.Spec.Replace
import Verif.Proof.Replace
import Verif.Props.Append

/-!
# One nest in place of another (C73)
-/

namespace Kul

variable {σ P τ ε α CE : Type}

/-! ## Without bindings -/

theorem Eval.missing {cc : Classifier} {X : TextSem P τ α} {al : AllocOps τ ε α}
    {lookup : Datum τ ε → Option (Combiner τ ε α P CE)} (hb : ∀ d, lookup d = none) (hX : ¬ X.F) (A : al.Free)
    {j r a o r' a'} (h : Eval cc X al lookup j r a o r' a') :
    (match j with | .next m d => m ≠ .operands ∧ d ≠ 0 | .nested d => d ≠ 0 | .all d => d ≠ 0) →
      ∀ e, o = .error e → e = .missingEndChar := by
  induction h with
  | next_eof _ h2 =>
    rintro ⟨_, hd⟩ e rfl
    simp only [eofForm, hd, if_false] at h2
    cases h2; rfl
  | next_nest _ _ _ _ ih => exact fun _ => ih (by simp)
  | next_removed _ _ _ _ _ ih => exact ih
  | next_end _ _ _ h4 =>
    rintro ⟨_, hd⟩ e rfl
    simp [endForm, hd] at h4
  | next_text _ _ _ h4 =>
    rintro ⟨hm, hd⟩ e rfl
    rcases h4 with ⟨_, _, h⟩ | ⟨e', h, h'⟩
    · cases h
    · cases h'
      rcases h.2 with ⟨_, _, h, _⟩ | ⟨h, _⟩ | ⟨p, _, h⟩ | ⟨h, _⟩
      · cases h
      · cases h; rfl
      · obtain ⟨h, _⟩ := scanText_unbalanced hm h
        simp [hd] at h
      · exact absurd h hX
  | nested_head_err _ ih => exact fun hd => ih ⟨by simp, hd⟩
  | nested_empty _ h2 =>
    rintro hd e rfl
    unfold finishEmpty at h2
    split at h2 <;> cases h2
    rfl
  | nested_operative _ h => rw [hb] at h; cases h
  | nested_args_err _ _ _ _ ih => exact ih
  | nested_args _ hc _ h4 =>
    rintro hd e rfl
    cases hc with
    | applicative h => rw [hb] at h; cases h
    | unbound h =>
      unfold finishNest at h4
      split at h4
      · cases h4; rfl
      · simp only [allocComb, A.newDatum] at h4
        cases h4
  | all_err _ ih => exact fun hd => ih ⟨by simp, hd⟩
  | all_nil => rintro _ e ⟨⟩
  | all_alloc_err _ h => rw [A.cell] at h; cases h
  | all_cons_err _ _ _ _ ih => exact ih
  | all_cons => rintro _ e ⟨⟩

theorem ReplacedAt.mkList {Same SameN : Datum τ ε → Datum τ ε → Prop} (hS : ∀ x, Same x x) {d d' : Datum τ ε}
    {ds ds' : List (Datum τ ε)} (h : ListR (ReplacedAt Same SameN d d') ds ds') :
    ReplacedAt Same SameN d d' (mkList ds) (mkList ds') := by
  obtain ⟨p, x, y, q, rfl, rfl, h⟩ := h
  induction p with
  | nil => exact .element h (hS _)
  | cons z p ih => exact .rest (hS _) ih

/-- The two nests of a source without bindings. -/
theorem Swap.plain {cc : Classifier} (D : cc.Disjoint) {n n' : List (Item P)} {e e' : Datum (List (Item P)) ε}
    (h : Gram cc .nest n [e]) (h' : Gram cc .nest n' [e']) :
    Swap cc (seqSem P Unit) (freeAlloc _ ε Unit) (noBindings _ ε Unit P CE) (fun o => o = .error .missingEndChar)
      (ReplacedAt Eq Eq e e') n n' where
  start := by cases h <;> exact ⟨_, _, rfl, by assumption⟩
  start' := by cases h' <;> exact ⟨_, _, rfl, by assumption⟩
  read a := ⟨[e], [e'], a,
    Reads.complete (X := seqSem P Unit) (c := .nest) D (fun _ => rfl) freeAlloc_free (Gram.reads (fun _ => rfl) a h),
    Reads.complete (X := seqSem P Unit) (c := .nest) D (fun _ => rfl) freeAlloc_free (Gram.reads (fun _ => rfl) a h'),
    Or.inr ⟨_, _, rfl, rfl, .here _ (.here rfl rfl)⟩⟩
  all_of_ok l h := by cases h
  err d r a e r' a' hd h := by
    rw [h.missing (fun _ => rfl) (fun h => h) freeAlloc_free hd e rfl]
  no_operative _ _ h := by cases h
  head h h' c ds e r a o r' a' hR hc hf := by
    cases hc with
    | applicative h => cases h
    | unbound _ =>
      refine ⟨none, .ok [.combination h' (mkList ds)], .unbound rfl, ?_, ?_⟩ <;> cases hf
      · rfl
      · exact Or.inr ⟨_, _, rfl, rfl, .here _ (.operator hR rfl)⟩
  args h c ds ds' e r a o r' a' hR hc hf := by
    cases hc with
    | applicative h => cases h
    | unbound _ =>
      refine ⟨.ok [.combination h (mkList ds')], ?_, ?_⟩ <;> cases hf
      · rfl
      · exact Or.inr ⟨_, _, rfl, rfl, .here _ (.operands rfl (.mkList (fun _ => rfl) hR))⟩

/-- One nest, and nothing else, is what a source that yields one datum, not a text, consists of. -/
theorem PlainResults.nest {cc : Classifier} {n : List (Item P)} {e : Datum (List (Item P)) ε}
    (h : PlainResults (CE := CE) cc n [.ok e]) (he : ∀ t, e ≠ .text t) : Gram cc .nest n [e] := by
  generalize hl : [Except.ok e] = l at h
  cases h with
  | @all s ds h =>
    cases ds with
    | nil => cases hl
    | cons d ds =>
      simp only [List.map_cons, List.cons.injEq, Except.ok.injEq] at hl
      obtain ⟨rfl, hl⟩ := hl
      cases ds with
      | cons => cases hl
      | nil =>
        cases h with
        | text => exact absurd rfl (he _)
        | dangling => exact absurd rfl (he _)
        | @form _ _ s _ r _ h1 h2 =>
          have : r = [] := by cases h2; rfl
          rw [this, List.append_nil]; exact h1
  | @stray s t c x rest ds l =>
    have : Except.error (Err.unbalancedEndChar (CE := CE) x.pos) ∈ [Except.ok e] := by rw [hl]; simp
    simp at this
  | @unclosed s x rest k ds =>
    have : Except.error (Err.missingEndChar (P := P) (CE := CE)) ∈ [Except.ok e] := by rw [hl]; simp
    simp at this

/-- What a source without bindings yields when one nest in it is replaced. -/
theorem PlainResults.swap {cc : Classifier} (D : cc.Disjoint) {pre n n' post : List (Item P)}
    {e e' : Datum (List (Item P)) ε} (hn : Gram cc .nest n [e]) (hn' : Gram cc .nest n' [e'])
    (hp : danglingEscape cc pre = false) {L L' : List (Except (Err P CE) (Datum (List (Item P)) ε))}
    (h : PlainResults cc (pre ++ (n ++ post)) L) (h' : PlainResults cc (pre ++ (n' ++ post)) L') :
    (.error .missingEndChar ∈ L ∧ L = L') ∨ ReplacedIn Eq Eq Eq e e' L L' := by
  have toRun : ∀ {r L}, PlainResults cc r L → Run cc (seqSem P Unit) (freeAlloc _ ε Unit)
      (noBindings _ ε Unit P CE) r () L [] () := fun h =>
    (h.results D).run (X := seqSem P Unit) (al := freeAlloc _ ε Unit) D (fun _ => rfl) (fun c => ⟨c, rfl⟩)
      freeAlloc_free
  obtain ⟨l', h1, h2⟩ := (toRun h).swap D (seqSem_func P Unit) freeAlloc_free (Swap.plain D hn hn') pre rfl hp
  obtain ⟨rfl, _⟩ := h1.det (seqSem_func P Unit) (toRun h')
  rcases h2 with ⟨rfl, ⟨e, h3, h4⟩ | h3⟩ | ⟨p, x, y, q, rfl, rfl, h2⟩
  · cases h4; exact Or.inl ⟨h3, rfl⟩
  · cases h3
  · exact Or.inr ⟨p, p, x, y, q, q, rfl, rfl, List.forall₂_same.2 fun _ _ => rfl, h2,
      List.forall₂_same.2 fun _ _ => rfl⟩

/-! ## Any parser -/

section
variable {E : Env σ P τ ε α CE} {X : TextSem P τ α} {RP : P → P → Prop}

theorem ReplacedAt.lift {d d' : Datum τ ε} {e e' x y : Datum (List (Item P)) ε} {x₁ y₂ : Datum τ ε}
    (h : ReplacedAt Eq Eq e e' x y)
    {T U : τ → List (Item P) → Prop} {Same SameN : Datum τ ε → Datum τ ε → Prop}
    (hS : ∀ u a b, DatumRel T Eq a u → DatumRel U Eq b u → Same a b)
    (hN : ∀ a, DatumRel T Eq a e → SameN d a) (hN' : ∀ a, DatumRel U Eq a e' → SameN d' a)
    (hx : DatumRel T Eq x₁ x) (hy : DatumRel U Eq y₂ y) : ReplacedAt Same SameN d d' x₁ y₂ := by
  induction h generalizing x₁ y₂ with
  | here h1 h2 => subst h1 h2; exact .here (hN _ hx) (hN' _ hy)
  | operator _ h ih =>
    subst h
    cases hx with | combination a b => cases hy with | combination c d => exact .operator (ih a c) (hS _ _ _ b d)
  | operands h _ ih =>
    subst h
    cases hx with | combination a b => cases hy with | combination c d => exact .operands (hS _ _ _ a c) (ih b d)
  | element _ h ih =>
    subst h
    cases hx with | list a b => cases hy with | list c d => exact .element (ih a c) (hS _ _ _ b d)
  | rest h _ ih =>
    subst h
    cases hx with | list a b => cases hy with | list c d => exact .rest (hS _ _ _ a c) (ih b d)

/-- C73. A parser made of what the library provides, without bindings and with memory that does not run out. Two
sources that alone yield one datum each, `d` and `d'`, which are not texts; and two sources where the characters
of the first, and of the second, stand between the same characters `pre` and `post`, where `pre` does not end with an
active escape character. Then what these two yield differs in one place, where one has `d` and the other has `d'`; unless
that place is in a nest that is not closed, which yields an error: then both yield the same. `RP` is how the
positions have changed. -/
theorem C73_replace_provided {s₁ s₂ s₃ s₄} {pre n post pre' n' post' m m' : List (Item P)}
    (p₁ : Provided E s₁ (pre ++ n ++ post) X) (p₂ : Provided E s₂ (pre' ++ n' ++ post') X)
    (p₃ : Provided E s₃ m X) (p₄ : Provided E s₄ m' X)
    (D : E.cc.Disjoint) (hb : ∀ d, E.lookup d = none) (A : E.alloc.Reliable) (hF : ¬ X.F)
    (hpre : List.Forall₂ (ItemRel Eq RP) pre pre') (hpost : List.Forall₂ (ItemRel Eq RP) post post')
    (hRP : ∀ p, RP p p)
    (hn : m.map Item.ch = n.map Item.ch) (hn' : m'.map Item.ch = n'.map Item.ch)
    (he : danglingEscape E.cc pre = false) {a₁ a₂ a₃ a₄ l₁ l₂ d d' t₁ t₂ t₃ t₄}
    (h₃ : E.Yields (St.init s₃ a₃) [.ok d] t₃) (hd : ∀ t, d ≠ .text t)
    (h₄ : E.Yields (St.init s₄ a₄) [.ok d'] t₄) (hd' : ∀ t, d' ≠ .text t)
    (h₁ : E.Yields (St.init s₁ a₁) l₁ t₁) (h₂ : E.Yields (St.init s₂ a₂) l₂ t₂) :
    (.error .missingEndChar ∈ l₁ ∧ SameResults X RP l₁ l₂) ∨
    ReplacedIn (ResultRel RP Eq (DatumRel (SameText X X (ItemRel Eq RP)) Eq))
      (DatumRel (SameText X X (ItemRel Eq RP)) Eq) (SameChars X) d d' l₁ l₂ := by
  let R := seqEnv E.cc (freeAlloc (List (Item P)) ε Unit) (noBindings _ ε Unit P CE)
  have C : Conf R Eq (seqSem P Unit) := seqConf _ _ _
  have key : ∀ {RP : P → P → Prop} {s r r' a l t}, Provided E s r X → List.Forall₂ (ItemRel Eq RP) r r' →
      E.Yields (St.init s a) l t → ∃ L, PlainResults E.cc r' L ∧
        List.Forall₂ (ResultRel RP Eq (DatumRel (SameText X (seqSem P Unit) (ItemRel Eq RP)) Eq)) l L := by
    intro RP s r r' a l t p hr hy
    obtain ⟨RS, C₁, hs⟩ := p.conf
    obtain ⟨L, t', h1, h2⟩ := C₁.related_plain (RE := Eq) C (ClassifierSim.eq _) hb (fun _ => rfl) A
      (freeAlloc_reliable _ _ _) hF (fun h => h) hs (s₂ := ⟨[], r'⟩) rfl hr () hy
    exact ⟨L, ((C52_exact E.cc D _ _ _ _ _).1 ⟨_, h1, rfl⟩).plain D, h2⟩
  have chars : ∀ {m n : List (Item P)}, m.map Item.ch = n.map Item.ch →
      List.Forall₂ (ItemRel Eq fun _ _ => True) m n := by
    intro m
    induction m with
    | nil => intro n h; cases n with | nil => exact .nil | cons => cases h
    | cons x m ih =>
      intro n h
      cases n with
      | nil => cases h
      | cons y n =>
        simp only [List.map_cons, List.cons.injEq] at h
        exact .cons ⟨h.1, trivial⟩ (ih h.2)
  have nest : ∀ {s m n a d t}, Provided E s m X → m.map Item.ch = n.map Item.ch →
      E.Yields (St.init s a) [.ok d] t → (∀ t, d ≠ .text t) →
      ∃ e, Gram E.cc .nest n [e] ∧ DatumRel (SameText X (seqSem P Unit) (ItemRel Eq fun _ _ => True)) Eq d e := by
    intro s m n a d t p h hy hd
    obtain ⟨L, g1, g2⟩ := key p (chars h) hy
    cases g2 with
    | cons hx hl =>
      cases hl
      cases hx with
      | datum hx =>
        refine ⟨_, g1.nest ?_, hx⟩
        rintro t rfl
        cases hx
        exact hd _ rfl
  obtain ⟨e, k1, k2⟩ := nest p₃ hn h₃ hd
  obtain ⟨e', k3, k4⟩ := nest p₄ hn' h₄ hd'
  obtain ⟨L₁, g1, g1'⟩ := key (RP := Eq) p₁ (forall₂_itemRel_eq.2 rfl) h₁
  obtain ⟨L₂, g2, g2'⟩ := key (RP := fun p q => RP q p) (r' := pre ++ (n' ++ post)) p₂ (by
    have flip : ∀ {u v : List (Item P)}, List.Forall₂ (ItemRel Eq RP) u v →
        List.Forall₂ (ItemRel Eq fun p q => RP q p) v u := by
      intro u v h
      exact h.flip.imp fun _ _ h => ⟨h.1.symm, h.2⟩
    rw [List.append_assoc]
    exact List.rel_append (flip hpre) (List.rel_append (List.forall₂_same.2 fun _ _ => ⟨rfl, hRP _⟩) (flip hpost))) h₂
  rw [List.append_assoc] at g1
  have same : ∀ (u : Datum (List (Item P)) ε) (a b : Datum τ ε),
      DatumRel (SameText X (seqSem P Unit) (ItemRel Eq Eq)) Eq a u →
      DatumRel (SameText X (seqSem P Unit) (ItemRel Eq fun p q => RP q p)) Eq b u →
      DatumRel (SameText X X (ItemRel Eq RP)) Eq a b := by
    intro u a b h1 h2
    refine h1.comp (S := fun u b => ∃ c, X.RT b c ∧ List.Forall₂ (ItemRel Eq RP) u c) ?_ (h2.flip ?_ (fun _ _ h => h.symm))
    · rintro t c v h ⟨e, h3, h4⟩
      rw [sameText_seq] at h
      exact ⟨c, e, h, h3, h4⟩
    · rintro t c ⟨c', _, h3, rfl, h4⟩
      exact ⟨c', h3, h4.flip.imp fun _ _ h => ⟨h.1.symm, h.2⟩⟩
  have sameR : ∀ {a b : Except (Err P CE) (Datum τ ε)} {u : Except (Err P CE) (Datum (List (Item P)) ε)},
       ResultRel Eq Eq (DatumRel (SameText X (seqSem P Unit) (ItemRel Eq Eq)) Eq) a u →
      ResultRel (fun p q => RP q p) Eq (DatumRel (SameText X (seqSem P Unit) (ItemRel Eq fun p q => RP q p)) Eq) b u →
      ResultRel RP Eq (DatumRel (SameText X X (ItemRel Eq RP)) Eq) a b := by
    intro a b u h1 h2
    cases h1 with
    | datum h1 => cases h2 with | datum h2 => exact .datum (same _ _ _ h1 h2)
    | error h1 =>
      cases h2 with
      | error h2 =>
        refine .error ?_
        cases h1 with
        | unbalancedEndChar h1 => cases h2 with | unbalancedEndChar h2 => subst h1; exact .unbalancedEndChar h2
        | missingEndChar => cases h2; exact .missingEndChar
        | failedAlloc e => cases h2; exact .failedAlloc e
        | failedDerefTryMut => cases h2; exact .failedDerefTryMut
        | failedCombiner h1 => cases h2 with | failedCombiner h2 => exact .failedCombiner (h1.trans h2.symm)
  have sameL : ∀ {l l' : List (Except (Err P CE) (Datum τ ε))} {L : List (Except (Err P CE) (Datum (List (Item P)) ε))},
       List.Forall₂ (ResultRel Eq Eq (DatumRel (SameText X (seqSem P Unit) (ItemRel Eq Eq)) Eq)) l L →
      List.Forall₂ (ResultRel (fun p q => RP q p) Eq
        (DatumRel (SameText X (seqSem P Unit) (ItemRel Eq fun p q => RP q p)) Eq)) l' L →
      List.Forall₂ (ResultRel RP Eq (DatumRel (SameText X X (ItemRel Eq RP)) Eq)) l l' := by
    intro l l' L h h'
    induction h generalizing l' with
    | nil => cases h'; exact .nil
    | cons h1 _ ih => cases h' with | cons h2 h3 => exact .cons (sameR h1 h2) (ih h3)
  rcases g1.swap D k1 k3 he g2 with ⟨hm, rfl⟩ | ⟨b, b', x, y, c, c', rfl, rfl, hb', hR, hc'⟩
  · refine Or.inl ⟨?_, sameL g1' g2'⟩
    clear g1 h₁ g2' g2
    induction g1' with
    | nil => cases hm
    | @cons x y l L hx _ ih =>
      rcases List.mem_cons.1 hm with rfl | hm
      · cases hx with | error hx => cases hx; exact List.mem_cons_self
      · exact List.mem_cons_of_mem _ (ih hm)
  · rw [List.forall₂_eq_eq_eq] at hb' hc'
    subst hb' hc'
    have cut : ∀ {A B : Type} {T : A → B → Prop} {l : List A} {b : List B} {x : B} {c : List B},
        List.Forall₂ T l (b ++ x :: c) →
        ∃ b₁ x₁ c₁, l = b₁ ++ x₁ :: c₁ ∧ List.Forall₂ T b₁ b ∧ T x₁ x ∧ List.Forall₂ T c₁ c := by
      intro A B T l b x c h
      have h1 := List.forall₂_take_append _ _ _ h
      have h2 := List.forall₂_drop_append _ _ _ h
      have h3 := (List.take_append_drop b.length l).symm
      revert h2 h3
      generalize l.drop b.length = v
      intro h2 h3
      cases h2 with
      | cons hx hc => exact ⟨_, _, _, h3, h1, hx, hc⟩
    obtain ⟨b₁, x₁, c₁, rfl, e1, e2, e3⟩ := cut g1'
    obtain ⟨b₂, y₂, c₂, rfl, f1, f2, f3⟩ := cut g2'
    cases e2 with
    | datum e2 =>
      cases f2 with
      | datum f2 =>
        refine Or.inr ⟨_, _, _, _, _, _, rfl, rfl, sameL e1 f1, ?_, sameL e3 f3⟩
        have look : ∀ {RP : P → P → Prop} {d a : Datum τ ε} {e},
            DatumRel (SameText X (seqSem P Unit) (ItemRel Eq fun _ _ => True)) Eq d e →
            DatumRel (SameText X (seqSem P Unit) (ItemRel Eq RP)) Eq a e → SameChars X d a := by
          intro RP d a e h1 h2
          refine h1.comp (S := fun u b => ∃ c, X.RT b c ∧ List.Forall₂ (ItemRel Eq fun _ _ => True) u c) ?_
            (h2.flip ?_ (fun _ _ h => h.symm))
          · rintro t c v ⟨c', _, h, rfl, h5⟩ ⟨e, h3, h4⟩
            exact ⟨c', e, h, h3, forall₂_comp (fun _ _ _ h h' => ⟨h.1.trans h'.1, trivial⟩) h5 h4⟩
          · rintro t c ⟨c', _, h3, rfl, h4⟩
            exact ⟨c', h3, h4.flip.imp fun _ _ h => ⟨h.1.symm, trivial⟩⟩
        exact hR.lift same (fun _ h => look k2 h) (fun _ h => look k4 h) e2 f2

/-! ## With bindings -/

theorem ListR.eq {A : Type} {l l' : List A} (h : ListR Eq l l') : l = l' := by
  obtain ⟨p, x, y, q, rfl, rfl, rfl⟩ := h
  rfl

theorem Reads.starts {cc : Classifier} {RT : τ → List (Item P) → Prop} {Mem : α → α → Prop}
    {lookup : Datum τ ε → Option (Combiner τ ε α P CE)} {n a ds a'} (h : Reads cc RT Mem lookup .nest n a ds a') :
    ∃ x t, n = x :: t ∧ cc.isNestStart x.ch = true := by
  cases h <;> exact ⟨_, _, rfl, by assumption⟩

/-- Two nests with the same meaning. -/
theorem Swap.bound {cc : Classifier} (D : cc.Disjoint)
    {lookup : Datum (List (Item P)) ε → Option (Combiner (List (Item P)) ε α P CE)}
    (hno : ∀ h f, lookup h ≠ some (.operative f)) {n n' : List (Item P)} (a₀ : α)
    (h : ∀ a, ∃ ds a', Reads cc Eq Eq lookup .nest n a ds a' ∧ Reads cc Eq Eq lookup .nest n' a ds a') :
    Swap cc (seqSem P α) (freeAlloc _ ε α) lookup (fun _ => True) Eq n n' where
  start := by obtain ⟨_, _, h, _⟩ := h a₀; exact h.starts
  start' := by obtain ⟨_, _, _, h⟩ := h a₀; exact h.starts
  read a := by
    obtain ⟨ds, a', h1, h2⟩ := h a
    exact ⟨ds, ds, a', Reads.complete (X := seqSem P α) (c := .nest) D (fun _ => rfl) freeAlloc_free h1,
      Reads.complete (X := seqSem P α) (c := .nest) D (fun _ => rfl) freeAlloc_free h2, Or.inl ⟨rfl, trivial⟩⟩
  all_of_ok _ _ _ := trivial
  err _ _ _ _ _ _ _ _ := trivial
  no_operative := hno
  head h h' c ds e r a o r' a' hR hc hf := by subst hR; exact ⟨c, o, hc, hf, Or.inl ⟨rfl, trivial⟩⟩
  args h c ds ds' e r a o r' a' hR hc hf := by cases hR.eq; exact ⟨o, hf, Or.inl ⟨rfl, trivial⟩⟩

/-- C73. For the reference parser, with any bindings to applicatives, whatever they do to the state: if two nests
have the same meaning, in every state, then one can stand for the other anywhere: exactly the same is yielded, and the
same state is left. -/
theorem C73_reference (cc : Classifier) (D : cc.Disjoint)
    (lookup : Datum (List (Item P)) ε → Option (Combiner (List (Item P)) ε α P CE))
    (hno : ∀ h f, lookup h ≠ some (.operative f)) {pre n n' post : List (Item P)}
    (h : ∀ a, ∃ ds a', Reads cc Eq Eq lookup .nest n a ds a' ∧ Reads cc Eq Eq lookup .nest n' a ds a')
    (he : danglingEscape cc pre = false) {a : α} {l t}
    (hy : (seqEnv cc (freeAlloc _ ε α) lookup).Yields (St.init ⟨[], pre ++ n ++ post⟩ a) l t) :
    ∃ t', (seqEnv cc (freeAlloc _ ε α) lookup).Yields (St.init ⟨[], pre ++ n' ++ post⟩ a) l t' ∧
      t'.alloc = t.alloc := by
  have toRun : ∀ {r l t}, (seqEnv cc (freeAlloc _ ε α) lookup).Yields (St.init ⟨[], r⟩ a) l t →
      Run cc (seqSem P α) (freeAlloc _ ε α) lookup r a l [] t.alloc := fun h =>
    ((C52_exact cc D lookup _ a _ _).1 ⟨_, h, rfl⟩).run (X := seqSem P α) (al := freeAlloc _ ε α) D (fun _ => rfl)
      (fun c => ⟨c, rfl⟩) freeAlloc_free
  obtain ⟨l', s', r', a', hy', _⟩ := (seqConf cc (freeAlloc _ ε α) lookup).yields_run a
    (AtItems.fresh (s := (⟨[], pre ++ n' ++ post⟩ : Seq P)) rfl)
  have h1 := toRun hy'
  have h2 := toRun hy
  rw [List.append_assoc] at h1 h2
  obtain ⟨l₂, h3, h4⟩ := h2.swap D (seqSem_func P α) freeAlloc_free (Swap.bound D hno a h) pre rfl he
  obtain ⟨rfl, _, h5⟩ := h3.det (seqSem_func P α) h1
  have : l = l₂ := by
    rcases h4 with ⟨h4, _⟩ | ⟨p, x, y, q, rfl, rfl, rfl⟩
    · exact h4
    · rfl
  subst this
  exact ⟨_, hy', h5.symm⟩

/-- C73. The same for a parser made of what the library provides, whose combiners agree with those of a reference parser
up to positions, as `RP` says, and up to the division of texts into chunks. The two sources are, to the reference parser,
`pre` followed by a nest, which is `n` in one and `n'` in the other, followed by `post`. Both yield the same: there is
one list of results of the reference parser that is what each of them yields. -/
theorem C73_bindings_provided {Q β CE' : Type} {RP : P → Q → Prop} {RX : ε → ε → Prop} {RA : α → β → Prop}
    {RE : CE → CE' → Prop} {lookup : Datum (List (Item Q)) ε → Option (Combiner (List (Item Q)) ε β Q CE')}
    {s₁ s₂ r₁ r₂} (p₁ : Provided E s₁ r₁ X) (p₂ : Provided E s₂ r₂ X) (D : E.cc.Disjoint)
    (G : Agree Eq RP RX RA RE False E X (seqEnv E.cc (freeAlloc _ ε β) lookup) (seqSem Q β))
    (hno : ∀ h f, lookup h ≠ some (.operative f)) {pre n n' post : List (Item Q)}
    (hr₁ : List.Forall₂ (ItemRel Eq RP) r₁ (pre ++ n ++ post))
    (hr₂ : List.Forall₂ (ItemRel Eq RP) r₂ (pre ++ n' ++ post))
    (h : ∀ b, ∃ ds b', Reads E.cc Eq Eq lookup .nest n b ds b' ∧ Reads E.cc Eq Eq lookup .nest n' b ds b')
    (he : danglingEscape E.cc pre = false) {a₁ a₂ : α} {b : β} (ha₁ : RA a₁ b) (ha₂ : RA a₂ b) {l₁ l₂ t₁ t₂}
    (h₁ : E.Yields (St.init s₁ a₁) l₁ t₁) (h₂ : E.Yields (St.init s₂ a₂) l₂ t₂) :
    ∃ L b', RA t₁.alloc b' ∧ RA t₂.alloc b' ∧
      List.Forall₂ (ResultRel RP RE (DatumRel (SameText X (seqSem Q β) (ItemRel Eq RP)) RX)) l₁ L ∧
      List.Forall₂ (ResultRel RP RE (DatumRel (SameText X (seqSem Q β) (ItemRel Eq RP)) RX)) l₂ L := by
  have C := seqConf E.cc (freeAlloc (List (Item Q)) ε β) lookup
  obtain ⟨RS₁, C₁, hs₁⟩ := p₁.conf
  obtain ⟨RS₂, C₂, hs₂⟩ := p₂.conf
  obtain ⟨L₁, u₁, g1, ha1, g1'⟩ := C₁.related C G hs₁ (s₂ := ⟨[], pre ++ n ++ post⟩) rfl hr₁ ha₁ h₁
  obtain ⟨L₂, u₂, g2, ha2, g2'⟩ := C₂.related C G hs₂ (s₂ := ⟨[], pre ++ n' ++ post⟩) rfl hr₂ ha₂ h₂
  obtain ⟨u₃, g3, h3⟩ := C73_reference E.cc D lookup hno h he g1
  obtain ⟨rfl, rfl⟩ := g2.unique g3
  exact ⟨L₂, u₁.alloc, ha1, h3 ▸ ha2, g1', g2'⟩

end

/-! ## Strings -/

theorem StrPos.Moved.adv {n n' : Str} (p q : StrPos) (c : Char) (h : StrPos.Moved n n' p q) :
    StrPos.Moved n n' (p.adv c) (q.adv c) := by
  simp only [StrPos.Moved, StrPos.adv] at *
  omega

theorem CharPos.Moved.adv {n n' : Str} (p q : CharPos) (c : Char) (h : CharPos.Moved n n' p q) :
    CharPos.Moved n n' (p.adv c) (q.adv c) := by
  simp only [CharPos.Moved, CharPos.adv] at *
  omega

theorem danglingEscape_same {cc : Classifier} {R : P → P → Prop} : ∀ {s s' : List (Item P)},
    List.Forall₂ (ItemRel Eq R) s s' → danglingEscape cc s = danglingEscape cc s' := by
  intro s
  induction hn : s.length using Nat.strongRecOn generalizing s with
  | ind n ih =>
    subst hn
    intro s' h
    match h with
    | .nil => rfl
    | .cons hx .nil => simp [danglingEscape, hx.1]
    | .cons hx (.cons hy h) =>
      have h1 := ih _ (by simp; omega) rfl h
      have h2 := ih _ (by simp) rfl (.cons hy h)
      simp only [danglingEscape, hx.1, h1, h2]

/-- C73. Strings in memory, read by the common parser without bindings: the nests `n` and `n'`, which alone yield the
datums `d` and `d'`, between `pre` and `post`. -/
theorem C73_str (pre n n' post : Str) (he : danglingEscape defaultClassifier (strItems pre) = false)
    {a₁ a₂ a₃ a₄ : α} {l₁ l₂ d d' t₁ t₂ t₃ t₄}
    (h₃ : (inmemEnv (noBindings _ ε α StrPos CE)).Yields (St.init (inmemSource n) a₃) [.ok d] t₃)
    (hd : ∀ t, d ≠ .text t)
    (h₄ : (inmemEnv (noBindings _ ε α StrPos CE)).Yields (St.init (inmemSource n') a₄) [.ok d'] t₄)
    (hd' : ∀ t, d' ≠ .text t)
    (h₁ : (inmemEnv (noBindings _ ε α StrPos CE)).Yields (St.init (inmemSource (pre ++ n ++ post)) a₁) l₁ t₁)
    (h₂ : (inmemEnv (noBindings _ ε α StrPos CE)).Yields (St.init (inmemSource (pre ++ n' ++ post)) a₂) l₂ t₂) :
    (.error .missingEndChar ∈ l₁ ∧ SameResults (vecSem α) (StrPos.Moved n n') l₁ l₂) ∨
    ReplacedIn (ResultRel (StrPos.Moved n n') Eq
        (DatumRel (SameText (vecSem α) (vecSem α) (ItemRel Eq (StrPos.Moved n n'))) Eq))
      (DatumRel (SameText (vecSem α) (vecSem α) (ItemRel Eq (StrPos.Moved n n'))) Eq) (SameChars (vecSem α)) d d' l₁ l₂ := by
  have p₁ := inmem_provided (noBindings _ ε α StrPos CE) (pre ++ n ++ post)
  have p₂ := inmem_provided (noBindings _ ε α StrPos CE) (pre ++ n' ++ post)
  have split : ∀ m : Str, strItems (pre ++ m ++ post) = itemsFrom StrPos.adv ⟨pre ++ m ++ post, 0, 0⟩ pre ++
      itemsFrom StrPos.adv (advs StrPos.adv ⟨pre ++ m ++ post, 0, 0⟩ pre) m ++
      itemsFrom StrPos.adv (advs StrPos.adv ⟨pre ++ m ++ post, 0, 0⟩ (pre ++ m)) post := by
    intro m
    rw [strItems, itemsFrom_append, itemsFrom_append]
  rw [split] at p₁ p₂
  refine C73_replace_provided p₁ p₂ (inmem_provided _ n) (inmem_provided _ n') defaultClassifier_disjoint
    (fun _ => rfl) (boxAlloc_reliable _ _ _) (fun h => h) (itemsFrom_rel StrPos.Moved.adv _ _ _ (Or.inl ⟨rfl, rfl⟩))
    (itemsFrom_rel StrPos.Moved.adv _ _ _ ?_) (fun _ => Or.inl ⟨rfl, rfl⟩) ?_ ?_ ?_ h₃ hd h₄ hd' h₁ h₂
  · rw [advs_strPos, advs_strPos]
    refine Or.inr ⟨?_, ?_⟩
    · simp only [List.length_append]; omega
    · simp only [utf8_length, Str.len_append]; omega
  · rw [strItems, itemsFrom_ch, itemsFrom_ch]
  · rw [strItems, itemsFrom_ch, itemsFrom_ch]
  · have : List.Forall₂ (ItemRel Eq fun _ _ => True) (strItems pre) (itemsFrom StrPos.adv ⟨pre ++ n ++ post, 0, 0⟩ pre) :=
      itemsFrom_rel (adv := StrPos.adv) (fun _ _ _ _ => trivial) _ _ _ trivial
    rw [← danglingEscape_same this]
    exact he

/-- C73. `parse_str`: if it returns one datum for `n` and one for `n'`, which are not texts, and for `pre`, `n` and `post`
one after the other it returns datums, and no error, then for `pre`, `n'` and `post` it returns the same but for the one
datum in the place of the other. -/
theorem C73_parse_str (pre n n' post : Str) (he : danglingEscape defaultClassifier (strItems pre) = false)
    {a₁ a₂ a₃ a₄ : α} {n₁ n₂ n₃ n₄ k₁ k₂ k₃ k₄} {ds : List (Datum (TextVec PosStr) ε)} {v₂ d d' t₁ t₂ t₃ t₄}
    (h₃ : parseStrWith n₃ k₃ (noBindings _ ε α StrPos CE) n a₃ = (.ok [.ok d], t₃)) (hd : ∀ t, d ≠ .text t)
    (h₄ : parseStrWith n₄ k₄ (noBindings _ ε α StrPos CE) n' a₄ = (.ok [.ok d'], t₄)) (hd' : ∀ t, d' ≠ .text t)
    (h₁ : parseStrWith n₁ k₁ (noBindings _ ε α StrPos CE) (pre ++ n ++ post) a₁ = (.ok (ds.map .ok), t₁))
    (h₂ : parseStrWith n₂ k₂ (noBindings _ ε α StrPos CE) (pre ++ n' ++ post) a₂ = (.ok v₂, t₂)) :
    ReplacedIn (ResultRel (StrPos.Moved n n') Eq
        (DatumRel (SameText (vecSem α) (vecSem α) (ItemRel Eq (StrPos.Moved n n'))) Eq))
      (DatumRel (SameText (vecSem α) (vecSem α) (ItemRel Eq (StrPos.Moved n n'))) Eq) (SameChars (vecSem α)) d d'
      (ds.map .ok) v₂ := by
  have tot : ∀ (s : Str) (a : α), ∃ l t, (inmemEnv (noBindings _ ε α StrPos CE)).Yields (St.init (inmemSource s) a) l t := by
    intro s a
    obtain ⟨l, _, _, _, h, _⟩ := (inmem_conf (noBindings _ ε α StrPos CE)).yields_run a
      (AtItems.fresh (strSource_means _ s))
    exact ⟨l, _, h⟩
  have oks : ∀ ds : List (Datum (TextVec PosStr) ε), ∀ x ∈ ds.map (Except.ok (ε := Err StrPos CE)), ∃ d, x = .ok d := by
    intro ds x hx
    obtain ⟨d, _, rfl⟩ := List.mem_map.1 hx
    exact ⟨d, rfl⟩
  obtain ⟨l₁, u₁, g1⟩ := tot (pre ++ n ++ post) a₁
  obtain ⟨l₂, u₂, g2⟩ := tot (pre ++ n' ++ post) a₂
  obtain ⟨l₃, u₃, g3⟩ := tot n a₃
  obtain ⟨l₄, u₄, g4⟩ := tot n' a₄
  have e1 := ((C46_parse_str _ _ a₁ g1).2 _ _ _ _ h₁).eq_of_ok (oks ds)
  have e2 := (C46_parse_str _ _ a₂ g2).2 _ _ _ _ h₂
  have e3 := ((C46_parse_str _ _ a₃ g3).2 _ _ _ _ h₃).eq_of_ok (oks [d])
  have e4 := ((C46_parse_str _ _ a₄ g4).2 _ _ _ _ h₄).eq_of_ok (oks [d'])
  subst e1 e3 e4
  rcases C73_str pre n n' post he g3 hd g4 hd' g1 g2 with ⟨h, _⟩ | h
  · obtain ⟨_, h⟩ := oks ds _ h; cases h
  · have ok₂ : ∀ x ∈ l₂, ∃ d, x = .ok d := by
      obtain ⟨b, b', x, y, c, c', h1, rfl, hb, _, hc⟩ := h
      have hl : ∀ {b b' : List (Except (Err StrPos CE) (Datum (TextVec PosStr) ε))}, List.Forall₂ (ResultRel
          (StrPos.Moved n n') Eq (DatumRel (SameText (vecSem α) (vecSem α) (ItemRel Eq (StrPos.Moved n n'))) Eq)) b b' →
          (∀ x ∈ b, ∃ d, x = .ok d) → ∀ x ∈ b', ∃ d, x = .ok d := by
        intro b b' h
        induction h with
        | nil => exact fun h => h
        | cons h1 _ ih =>
          intro h x hx
          rcases List.mem_cons.1 hx with rfl | hx
          · obtain ⟨d, rfl⟩ := h _ List.mem_cons_self
            cases h1; exact ⟨_, rfl⟩
          · exact ih (fun y hy => h y (List.mem_cons_of_mem _ hy)) x hx
      intro z hz
      simp only [List.mem_append, List.mem_cons] at hz
      rcases hz with hz | rfl | hz
      · exact hl hb (fun x hx => oks ds x (by rw [h1]; simp [hx])) z hz
      · exact ⟨_, rfl⟩
      · exact hl hc (fun x hx => oks ds x (by rw [h1]; simp [hx])) z hz
    have : v₂ = l₂ := by
      obtain ⟨w, _, hu⟩ := upToFirstError_total_unique l₂
      have h3 : UpToFirstError l₂ l₂ := by
        have := UpToFirstError.append (l₂ := []) (v₂ := []) (upToFirstError_nil.2 rfl) l₂ ok₂
        simpa using this
      rw [hu _ e2, hu _ h3]
    rw [this]; exact h

/-- C73. The same for streams of pieces, however they are divided. -/
theorem C73_stream (pre n n' post : Str) (ns ns' ss tt : List Str) (hns : ns.flatten = n) (hns' : ns'.flatten = n')
    (hss : ss.flatten = pre ++ n ++ post) (htt : tt.flatten = pre ++ n' ++ post)
    (he : danglingEscape defaultClassifier (charItems pre) = false)
    {a₁ a₂ a₃ a₄ : α} {l₁ l₂ d d' t₁ t₂ t₃ t₄}
    (h₃ : (streamEnv (noBindings _ ε α CharPos CE)).Yields (St.init (.new ns) a₃) [.ok d] t₃)
    (hd : ∀ t, d ≠ .text t)
    (h₄ : (streamEnv (noBindings _ ε α CharPos CE)).Yields (St.init (.new ns') a₄) [.ok d'] t₄)
    (hd' : ∀ t, d' ≠ .text t)
    (h₁ : (streamEnv (noBindings _ ε α CharPos CE)).Yields (St.init (.new ss) a₁) l₁ t₁)
    (h₂ : (streamEnv (noBindings _ ε α CharPos CE)).Yields (St.init (.new tt) a₂) l₂ t₂) :
    (.error .missingEndChar ∈ l₁ ∧ SameResults (vecishSem α) (CharPos.Moved n n') l₁ l₂) ∨
    ReplacedIn (ResultRel (CharPos.Moved n n') Eq
        (DatumRel (SameText (vecishSem α) (vecishSem α) (ItemRel Eq (CharPos.Moved n n'))) Eq))
      (DatumRel (SameText (vecishSem α) (vecishSem α) (ItemRel Eq (CharPos.Moved n n'))) Eq) (SameChars (vecishSem α))
      d d' l₁ l₂ := by
  have p₁ := stream_provided (noBindings _ ε α CharPos CE) ss
  have p₂ := stream_provided (noBindings _ ε α CharPos CE) tt
  have split : ∀ m : Str, charItems (pre ++ m ++ post) = itemsFrom CharPos.adv ⟨0⟩ pre ++
      itemsFrom CharPos.adv (advs CharPos.adv ⟨0⟩ pre) m ++
      itemsFrom CharPos.adv (advs CharPos.adv ⟨0⟩ (pre ++ m)) post := by
    intro m
    rw [charItems, itemsFrom_append, itemsFrom_append]
  rw [hss, split] at p₁
  rw [htt, split] at p₂
  refine C73_replace_provided p₁ p₂ (stream_provided _ ns) (stream_provided _ ns') defaultClassifier_disjoint
    (fun _ => rfl) (boxAlloc_reliable _ _ _) (fun h => h) (itemsFrom_rel CharPos.Moved.adv _ _ _ (Or.inl rfl))
    (itemsFrom_rel CharPos.Moved.adv _ _ _ ?_) (fun _ => Or.inl rfl) ?_ ?_ he h₃ hd h₄ hd' h₁ h₂
  · rw [advs_charPos, advs_charPos]
    refine Or.inr ?_
    simp only [List.length_append]; omega
  · rw [hns, charItems, itemsFrom_ch, itemsFrom_ch]
  · rw [hns', charItems, itemsFrom_ch, itemsFrom_ch]

/-! ## The hypotheses are met, and are needed -/

/-- The nests `{a}` and `{}`, alone and as the first operand in `x{f .. c}`: what comes after is one character, and one byte,
earlier. `x{f ` does not end with an active escape character. -/
example :
    (∃ t, (inmemEnv (noBindings _ Empty Unit StrPos Empty)).Yields (St.init (inmemSource "{a}".toList) ())
      [.ok (.combination (.text (.single ⟨['a'], ⟨"{a}".toList, 1, 1⟩⟩)) .emptyList)] t) ∧
    (∃ t, (inmemEnv (noBindings _ Empty Unit StrPos Empty)).Yields (St.init (inmemSource "{}".toList) ())
      [.ok .emptyNest] t) ∧
    danglingEscape defaultClassifier (strItems "x{f ".toList) = false ∧
    (∃ t, (inmemEnv (noBindings _ Empty Unit StrPos Empty)).Yields
      (St.init (inmemSource ("x{f ".toList ++ "{a}".toList ++ "c}".toList)) ())
      [.ok (.text (.single ⟨['x'], ⟨"x{f {a}c}".toList, 0, 0⟩⟩)),
       .ok (.combination (.text (.single ⟨['f'], ⟨"x{f {a}c}".toList, 2, 2⟩⟩))
        (.list (.combination (.text (.single ⟨['a'], ⟨"x{f {a}c}".toList, 5, 5⟩⟩)) .emptyList)
          (.list (.text (.single ⟨['c'], ⟨"x{f {a}c}".toList, 7, 7⟩⟩)) .emptyList)))] t) ∧
    ∃ t, (inmemEnv (noBindings _ Empty Unit StrPos Empty)).Yields
      (St.init (inmemSource ("x{f ".toList ++ "{}".toList ++ "c}".toList)) ())
      [.ok (.text (.single ⟨['x'], ⟨"x{f {}c}".toList, 0, 0⟩⟩)),
       .ok (.combination (.text (.single ⟨['f'], ⟨"x{f {}c}".toList, 2, 2⟩⟩))
        (.list .emptyNest (.list (.text (.single ⟨['c'], ⟨"x{f {}c}".toList, 6, 6⟩⟩)) .emptyList)))] t :=
  ⟨Env.yields_of' 80 9 (by decide +kernel), Env.yields_of' 80 9 (by decide +kernel), by decide +kernel,
   Env.yields_of' 80 9 (by decide +kernel), Env.yields_of' 80 9 (by decide +kernel)⟩

/-- In a nest that is not closed, both yield the error and nothing of the nests. -/
example :
    (∃ t, (inmemEnv (noBindings _ Empty Unit StrPos Empty)).Yields
      (St.init (inmemSource ("{f ".toList ++ "{a}".toList ++ "c".toList)) ()) [.error .missingEndChar] t) ∧
    ∃ t, (inmemEnv (noBindings _ Empty Unit StrPos Empty)).Yields
      (St.init (inmemSource ("{f ".toList ++ "{}".toList ++ "c".toList)) ()) [.error .missingEndChar] t :=
  ⟨Env.yields_of' 80 9 (by decide +kernel), Env.yields_of' 80 9 (by decide +kernel)⟩

/-- After an active escape character it is false: `\{a}{b` yields two errors, and `\{{}}{b` two datums before these. -/
example :
    danglingEscape defaultClassifier (strItems "\\".toList) = true ∧
    (∃ t, (inmemEnv (noBindings _ Empty Unit StrPos Empty)).Yields
      (St.init (inmemSource ("\\".toList ++ "{a}{b".toList)) ())
      [.error (.unbalancedEndChar ⟨"\\{a}{b".toList, 3, 3⟩), .error .missingEndChar] t) ∧
    ∃ t, (inmemEnv (noBindings _ Empty Unit StrPos Empty)).Yields
      (St.init (inmemSource ("\\".toList ++ "{{}}{b".toList)) ())
      [.ok (.text (.single ⟨['{'], ⟨"\\{{}}{b".toList, 1, 1⟩⟩)), .ok .emptyNest,
       .error (.unbalancedEndChar ⟨"\\{{}}{b".toList, 4, 4⟩), .error .missingEndChar] t :=
  ⟨by decide +kernel, Env.yields_of' 80 9 (by decide +kernel), Env.yields_of' 80 9 (by decide +kernel)⟩

/-- With bindings: in every state the nests `{{}}` and `{ {}}` are removed by the combiner that counts its calls. -/
example (b : Nat) : ∃ ds b',
    Reads defaultClassifier Eq Eq (countingLookup _ Unit) .nest ("{{}}".toList.map (⟨·, ()⟩)) b ds b' ∧
    Reads defaultClassifier Eq Eq (countingLookup _ Unit) .nest ("{ {}}".toList.map (⟨·, ()⟩)) b ds b' ∧ b' = b + 1 := by
  have h : Reads (P := Unit) defaultClassifier Eq Eq (countingLookup _ Unit) .nest ("{}".toList.map (⟨·, ()⟩)) b
      [.emptyNest] b :=
    .emptyNest (b := ⟨'{', ()⟩) (e := ⟨'}', ()⟩) (h := []) (by decide +kernel) (by decide +kernel)
      (.noHead fun _ h => by cases h)
  refine ⟨[], b + 1, ?_, ?_, rfl⟩
  · exact .applicative (b := ⟨'{', ()⟩) (e := ⟨'}', ()⟩) (h := "{}".toList.map (⟨·, ()⟩)) (sep := []) (r := []) (k := false)
      (o := none) (by decide +kernel) (by decide +kernel) (.nestHead (ws := []) (fun _ h => by cases h) h) .empty rfl
      .nil rfl
  · exact .applicative (b := ⟨'{', ()⟩) (e := ⟨'}', ()⟩) (h := " {}".toList.map (⟨·, ()⟩)) (sep := []) (r := []) (k := false)
      (o := none) (by decide +kernel) (by decide +kernel)
      (.nestHead (ws := [⟨' ', ()⟩]) (fun _ h => by
        rw [List.mem_singleton] at h; subst h; decide +kernel) h) .empty rfl .nil rfl

/-- That combiner is no operative, and the common parser with it agrees with the reference parser wherever the texts are. -/
example : (∀ h f, countingLookup (List (Item Unit)) Unit h ≠ some (.operative f)) ∧
    Agree Eq (fun _ _ => True) Eq Eq Eq False (inmemEnv (countingLookup _ _)) (vecSem Nat)
      (seqEnv defaultClassifier (freeAlloc _ Unit Nat) (countingLookup _ Unit)) (seqSem Unit Nat) := by
  refine ⟨fun h f hf => ?_, countingLookup_agree (ClassifierSim.eq _) rfl rfl rfl rfl rfl rfl (fun h => h) (fun h => h)⟩
  unfold countingLookup at hf
  split at hf <;> cases hf

end Kul
