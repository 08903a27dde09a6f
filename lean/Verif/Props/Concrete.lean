import Verif.Spec.Concrete
import Verif.Props.Results
import Verif.Props.Common
import Verif.Props.Texts
import Verif.Props.Memory
import Verif.Props.Forms
import Verif.Props.Grammar

/-!
# C52 for the parsers the library provides

From a string to the results, end to end: the stream, the chunks and texts, the parser and, for
the convenience functions, the collecting. The specification is `StrResults` of
`Spec/Concrete.lean`, which gives every string exactly one list of results.
-/

namespace Kul

variable {C CS P τ ε α CE : Type}

/-! ## Positions -/

theorem numbered_items {P : Type} {adv : P → Char → P} {RP : P → Nat → Prop} :
    ∀ (w : Str) (pre : Str) (p : P), (∀ u v, w = u ++ v → v ≠ [] → RP (advs adv p u) (pre.length + u.length)) →
      List.Forall₂ (ItemRel Eq RP) (itemsFrom adv p w) (numbered pre.length w)
  | [], _, _, _ => .nil
  | c :: w, pre, p, h => by
    refine .cons ⟨rfl, h [] (c :: w) rfl (by simp)⟩ ?_
    have := numbered_items w (pre ++ [c]) (adv p c) (fun u v hu hv => by
      have := h (c :: u) v (by rw [hu]; rfl) hv
      simp only [advs, List.length_cons, List.length_append, List.length_nil] at this ⊢
      rwa [show pre.length + (0 + 1) + u.length = pre.length + (u.length + 1) by omega])
    simpa using this

theorem numbered_str (s : Str) : List.Forall₂ (ItemRel Eq (StrPos.IsAt s)) (strItems s) (numbered 0 s) := by
  refine numbered_items (RP := StrPos.IsAt s) s [] ⟨s, 0, 0⟩ fun u v hu _ => ?_
  subst hu
  have h : ∀ (u : Str) (p : StrPos), advs StrPos.adv p u =
      ⟨p.src, p.bytePos + (utf8 u).length, p.charPos + u.length⟩ := by
    intro u
    induction u with
    | nil => intro p; rfl
    | cons c u ih =>
      intro p
      simp only [advs] at ih ⊢
      rw [ih]
      simp only [StrPos.adv, utf8, List.flatMap_cons, List.length_append, lenUtf8_eq, List.length_cons]
      congr 1 <;> omega
  rw [h]
  refine ⟨rfl, by simp, ?_⟩
  simp

theorem numbered_char (s : Str) : List.Forall₂ (ItemRel Eq CharPos.IsAt) (charItems s) (numbered 0 s) := by
  refine numbered_items (RP := CharPos.IsAt) s [] ⟨0⟩ fun u v _ _ => ?_
  have h : ∀ (u : Str) (p : CharPos), advs CharPos.adv p u = ⟨p.n + u.length⟩ := by
    intro u
    induction u with
    | nil => intro p; rfl
    | cons c u ih =>
      intro p
      simp only [advs] at ih ⊢
      rw [ih]
      simp only [CharPos.adv, List.length_cons]
      congr 1; omega
  rw [h]
  simp [CharPos.IsAt]

/-! ## Results up to the first error -/

section
variable {E A : Type}

theorem upToFirstError_nil {v : List (Except E A)} : UpToFirstError [] v ↔ v = [] :=
  ⟨fun h => List.prefix_nil.mp h.isPrefix,
   fun h => by subst h; exact ⟨List.prefix_rfl, fun v' x h => by simp at h, .inl rfl⟩⟩

theorem upToFirstError_error {e : E} {l v : List (Except E A)} :
    UpToFirstError (.error e :: l) v ↔ v = [.error e] := by
  constructor
  · rintro ⟨h1, h2, h3⟩
    cases v with
    | nil => rcases h3 with h | ⟨v', e, h⟩ <;> simp at h
    | cons x v =>
      obtain ⟨rfl, h1⟩ := List.cons_prefix_cons.mp h1
      rcases List.eq_nil_or_concat v with rfl | ⟨w, y, rfl⟩
      · rfl
      · obtain ⟨a, ha⟩ := h2 (.error e :: w) y (by simp) (.error e) (by simp)
        cases ha
  · rintro rfl
    refine ⟨by simp, ?_, .inr ⟨[], e, rfl⟩⟩
    rintro v' x hv y hy
    cases v' with
    | nil => simp at hy
    | cons z v' => simp at hv

theorem upToFirstError_ok {a : A} {l v : List (Except E A)} :
    UpToFirstError (.ok a :: l) v ↔ ∃ w, v = .ok a :: w ∧ UpToFirstError l w := by
  constructor
  · rintro ⟨h1, h2, h3⟩
    cases v with
    | nil => rcases h3 with h | ⟨v', e, h⟩ <;> simp at h
    | cons x v =>
      obtain ⟨rfl, h4⟩ := List.cons_prefix_cons.mp h1
      refine ⟨v, rfl, h4, fun v' x hv y hy => h2 (.ok a :: v') x (by rw [hv]; rfl) y (by simp [hy]), ?_⟩
      rcases h3 with h | ⟨v', e, h⟩
      · exact .inl (by simpa using h)
      · cases v' with
        | nil => simp at h
        | cons z v' => exact .inr ⟨v', e, by simpa using (List.cons.inj h).2⟩
  · rintro ⟨w, rfl, h1, h2, h3⟩
    refine ⟨by simpa using h1, ?_, ?_⟩
    · rintro v' x hv y hy
      cases v' with
      | nil => simp at hy
      | cons z v' =>
        simp only [List.cons_append, List.cons.injEq] at hv
        rcases List.mem_cons.mp hy with rfl | hy
        · exact ⟨a, hv.1.symm⟩
        · exact h2 v' x hv.2 y hy
    · rcases h3 with rfl | ⟨v', e, rfl⟩
      · exact .inl rfl
      · exact .inr ⟨_ :: v', e, rfl⟩

/-- Every list of results has one part up to and including its first error. -/
theorem upToFirstError_total_unique : ∀ l : List (Except E A), ∃ v, UpToFirstError l v ∧
    ∀ v', UpToFirstError l v' → v' = v
  | [] => ⟨[], upToFirstError_nil.2 rfl, fun _ h => upToFirstError_nil.1 h⟩
  | .error e :: l => ⟨[.error e], upToFirstError_error.2 rfl, fun _ h => upToFirstError_error.1 h⟩
  | .ok a :: l => by
    obtain ⟨v, h1, h2⟩ := upToFirstError_total_unique l
    refine ⟨.ok a :: v, upToFirstError_ok.2 ⟨v, rfl, h1⟩, fun v' h => ?_⟩
    obtain ⟨w, rfl, h3⟩ := upToFirstError_ok.1 h
    rw [h2 w h3]

theorem UpToFirstError.rel {P₁ P₂ CE₁ CE₂ A B : Type} {RP : P₁ → P₂ → Prop} {RE : CE₁ → CE₂ → Prop}
    {RD : A → B → Prop} {l : List (Except (Err P₁ CE₁) A)} {l' : List (Except (Err P₂ CE₂) B)}
    (h : List.Forall₂ (ResultRel RP RE RD) l l') : ∀ {v v'}, UpToFirstError l v → UpToFirstError l' v' →
      List.Forall₂ (ResultRel RP RE RD) v v' := by
  induction h with
  | nil =>
    intro v v' h h'
    rw [upToFirstError_nil.1 h, upToFirstError_nil.1 h']
    exact .nil
  | cons hx _ ih =>
    intro v v' h h'
    cases hx with
    | datum hd =>
      obtain ⟨w, rfl, h1⟩ := upToFirstError_ok.1 h
      obtain ⟨w', rfl, h2⟩ := upToFirstError_ok.1 h'
      exact .cons (.datum hd) (ih h1 h2)
    | error he =>
      rw [upToFirstError_error.1 h, upToFirstError_error.1 h']
      exact .cons (.error he) .nil

end

/-! ## The parsers -/

theorem DatumRel.mono {τ₁ τ₂ ε₁ ε₂ : Type} {RT RT' : τ₁ → τ₂ → Prop} {RX : ε₁ → ε₂ → Prop} {d : Datum τ₁ ε₁}
    {e : Datum τ₂ ε₂} (h : DatumRel RT RX d e) (hT : ∀ t u, RT t u → RT' t u) : DatumRel RT' RX d e := by
  induction h with
  | text h => exact .text (hT _ _ h)
  | combination _ _ i j => exact .combination i j
  | emptyNest => exact .emptyNest
  | list _ _ i j => exact .list i j
  | emptyList => exact .emptyList
  | extra h => exact .extra h

section
variable {σ : Type} {O : ChunkOps C CS P} {RC : C → List (Item P) → Prop} {RCS : CS → Seq P → Prop}
  {T : TextType C τ α} {RA : α → α → Prop} {F : Prop} {RP : P → Nat → Prop}

/-- Texts as the abstract source has them. -/
theorem TextType.shows_of_same (K : ChunkConf O RC RCS) {β : Type} {t : τ} {c : List (Item Nat)}
    (h : SameText (T.sem RC RA F) (seqSem Nat β) (ItemRel Eq RP) t c) : T.Shows O RP t c := by
  obtain ⟨l, e, h1, rfl, h2⟩ := h
  exact ⟨l, h1.reads K, h2⟩

theorem TextType.specified_of_same (K : ChunkConf O RC RCS) {β : Type}
    {x : Except (Err P CE) (Datum τ ε)} {y : Except (Err Nat CE) (Datum (List (Item Nat)) ε)}
    (h : ResultRel RP Eq (DatumRel (SameText (T.sem RC RA F) (seqSem Nat β) (ItemRel Eq RP)) Eq) x y) :
    T.AsSpecified O RP x y := by
  cases h with
  | datum h => exact .datum (h.mono fun _ _ => T.shows_of_same K)
  | error h => exact .error h

/-- What the abstract source yields is what is specified. -/
theorem StrResults.of_yields {s : Str} {l : List (Except (Err Nat CE) (Datum (List (Item Nat)) ε))} {t}
    (h : (seqEnv defaultClassifier (freeAlloc _ ε Unit) (noBindings _ ε Unit Nat CE)).Yields
      (St.init ⟨[], numbered 0 s⟩ ()) l t) {l'} (h' : StrResults s l') : l = l' := by
  obtain ⟨l₁, h1, h2⟩ := C52_plain_total_unique (ε := ε) (CE := CE) defaultClassifier_disjoint (numbered 0 s)
  rw [h2 l' h', h2 l ((C52_exact _ defaultClassifier_disjoint _ _ _ _ _).1 ⟨t, h, rfl⟩ |>.plain
    defaultClassifier_disjoint)]

/-- Every string has exactly one specified list of results. -/
theorem C52_str_results (s : Str) : ∃ l : List (Except (Err Nat CE) (Datum (List (Item Nat)) ε)),
    StrResults s l ∧ ∀ l', StrResults s l' → l' = l :=
  C52_plain_total_unique defaultClassifier_disjoint _

variable {E : Env σ P τ ε α CE} {RS : σ → Seq P → Prop}

theorem Conf.as_specified (C : Conf E RS (T.sem RC RA F)) (K : ChunkConf O RC RCS)
    (hcc : E.cc = defaultClassifier) (hb : ∀ d, E.lookup d = none) (A : E.alloc.Reliable) (hF : ¬ F)
    {src : σ} {r : List (Item P)} (hs : RS src ⟨[], r⟩) {s : Str}
    (hr : List.Forall₂ (ItemRel Eq RP) r (numbered 0 s)) (a : α) {l'} (h : StrResults s l') :
    (∃ l t, E.Yields (St.init src a) l t) ∧
    ∀ l t, E.Yields (St.init src a) l t → List.Forall₂ (T.AsSpecified O RP) l l' := by
  refine ⟨?_, fun l t hy => ?_⟩
  · obtain ⟨l, s', r', a', h1, _⟩ := C.yields_run a (AtItems.fresh hs)
    exact ⟨l, _, h1⟩
  · obtain ⟨l₂, t₂, h1, h2⟩ := C.related_plain (RC := Eq) (RP := RP) (RE := Eq)
      (seqConf defaultClassifier (freeAlloc _ ε Unit) (noBindings _ ε Unit Nat CE))
      (by rw [hcc]; exact ClassifierSim.eq _) hb (fun _ => rfl) A ⟨fun _ a => ⟨a, rfl, rfl⟩⟩ hF (fun h => h) hs
      (s₂ := ⟨[], numbered 0 s⟩) rfl hr () hy
    cases StrResults.of_yields h1 h
    exact h2.imp fun _ _ => T.specified_of_same K

end

/-- C52. A string in memory, read by the common parser without bindings: it always yields, and what
it yields is what is specified for the string, texts and positions included. -/
theorem C52_inmem (s : Str) (a : α) {l' : List (Except (Err Nat CE) (Datum (List (Item Nat)) ε))}
    (h : StrResults s l') :
    (∃ l t, (inmemEnv (noBindings _ ε α StrPos CE)).Yields (St.init (inmemSource s) a) l t) ∧
    ∀ l t, (inmemEnv (noBindings _ ε α StrPos CE)).Yields (St.init (inmemSource s) a) l t →
      List.Forall₂ ((textVec α posStrOps).AsSpecified posStrOps (StrPos.IsAt s)) l l' :=
  (inmem_conf _).as_specified posStr_conf rfl (fun _ => rfl) (boxAlloc_reliable _ _ _) (fun h => h)
    (strSource_means _ s) (numbered_str s) a h

/-- C52. A stream of pieces, read by the common parser without bindings: the same, for the
concatenation of the pieces. -/
theorem C52_stream (ss : List Str) (a : α) {l' : List (Except (Err Nat CE) (Datum (List (Item Nat)) ε))}
    (h : StrResults ss.flatten l') :
    (∃ l t, (streamEnv (noBindings _ ε α CharPos CE)).Yields (St.init (.new ss) a) l t) ∧
    ∀ l t, (streamEnv (noBindings _ ε α CharPos CE)).Yields (St.init (.new ss) a) l t →
      List.Forall₂ ((textVec α posStrishOps).AsSpecified posStrishOps CharPos.IsAt) l l' :=
  (stream_conf _).as_specified posStrish_conf rfl (fun _ => rfl) (boxAlloc_reliable _ _ _) (fun h => h)
    (StrishIter.new_means _ ss) (numbered_char _) a h

/-- C52. An iterator of characters: the same. -/
theorem C52_char_iter (s : Str) (a : α) {l' : List (Except (Err Nat CE) (Datum (List (Item Nat)) ε))}
    (h : StrResults s l') :
    let E := charEnv (textVec α posStrishOps) defaultClassifier (boxAlloc _ ε _) (noBindings _ ε α CharPos CE)
    (∃ l t, E.Yields (St.init (.new s) a) l t) ∧
    ∀ l t, E.Yields (St.init (.new s) a) l t →
      List.Forall₂ ((textVec α posStrishOps).AsSpecified posStrishOps CharPos.IsAt) l l' :=
  (charEnv_conf (textVec_conf posStrish_conf)).as_specified posStrish_conf rfl (fun _ => rfl)
    (boxAlloc_reliable _ _ _) (fun h => h) (CharIter.new_means s) (numbered_char _) a h

/-- C52. `kul_core`'s parser on a slice of datums of any size: it always yields, and what it yields
is what is specified for the string, unless the slice is used up; then, what comes before the first
`FailedAlloc` is as specified. -/
theorem C52_core (s : Str) (a : CoreMem ε) {l' : List (Except (Err Nat CE) (Datum (List (Item Nat)) ε))}
    (h : StrResults s l') :
    (∃ l t, (coreEnv (noBindings _ ε _ StrPos CE)).Yields (St.init (coreSource s) a) l t) ∧
    ∀ l t, (coreEnv (noBindings _ ε _ StrPos CE)).Yields (St.init (coreSource s) a) l t →
      List.Forall₂ ((textDatumList posStrOps (sliceAlloc _ ε)).AsSpecified posStrOps (StrPos.IsAt s)) l l' ∨
      ∃ before e after before' after', l = before ++ .error (.failedAlloc e) :: after ∧
        l' = before' ++ after' ∧ List.Forall₂
          ((textDatumList posStrOps (sliceAlloc _ ε)).AsSpecified posStrOps (StrPos.IsAt s)) before before' := by
  have C := core_conf (noBindings _ ε (CoreMem ε) StrPos CE)
  have hs := strSource_means (textDatumList posStrOps (sliceAlloc _ ε)) s
  obtain ⟨l₂, s₂, r₂, a₂, h1, _⟩ := (seqConf defaultClassifier (freeAlloc _ ε Unit)
    (noBindings _ ε Unit Nat CE)).yields_run () (AtItems.fresh (s := ⟨[], numbered 0 s⟩) rfl)
  refine ⟨?_, fun l t hy => ?_⟩
  · obtain ⟨l, s', r', a', h1, _⟩ := C.yields_run a (AtItems.fresh hs)
    exact ⟨l, _, h1⟩
  · have := C28_prefix (RC := Eq) (RP := StrPos.IsAt s) (RE := Eq) C (seqConf defaultClassifier
      (freeAlloc _ ε Unit) (noBindings _ ε Unit Nat CE))
      (Agree.failing (ClassifierSim.eq _) (fun _ => rfl) (fun _ => rfl) (sliceAlloc_writable _ _)
        ⟨fun _ a => ⟨a, rfl, rfl⟩⟩ (fun h => h)) hs rfl (numbered_str s) trivial hy h1
    cases StrResults.of_yields h1 h
    rcases this with h | ⟨b, e, af, b', af', h2, h3, h4⟩
    · exact .inl (h.imp fun _ _ => TextType.specified_of_same posStr_conf)
    · exact .inr ⟨b, e, af, b', af', h2, h3, h4.imp fun _ _ => TextType.specified_of_same posStr_conf⟩

/-- C52, C46. `parse_str` always returns, and what it returns are the results specified for the
string, up to and including the first error. -/
theorem C52_parse_str (s : Str) (a : α) {l' v' : List (Except (Err Nat CE) (Datum (List (Item Nat)) ε))}
    (h : StrResults s l') (hv : UpToFirstError l' v') :
    (∃ n k v t, parseStrWith n k (noBindings _ ε α StrPos CE) s a = (.ok v, t)) ∧
    ∀ n k v t, parseStrWith n k (noBindings _ ε α StrPos CE) s a = (.ok v, t) →
      List.Forall₂ ((textVec α posStrOps).AsSpecified posStrOps (StrPos.IsAt s)) v v' := by
  obtain ⟨⟨l, t, h1⟩, h2⟩ := C52_inmem s a h
  obtain ⟨h3, h4⟩ := C46_parse_str _ s a h1
  exact ⟨h3, fun n k v t' h5 => (h4 n k v t' h5).rel (h2 l t h1) hv⟩

/-- C52, C46. `parse_stream`, the same. -/
theorem C52_parse_stream (ss : List Str) (a : α)
    {l' v' : List (Except (Err Nat CE) (Datum (List (Item Nat)) ε))}
    (h : StrResults ss.flatten l') (hv : UpToFirstError l' v') :
    (∃ n k v t, parseStreamWith n k (noBindings _ ε α CharPos CE) ss a = (.ok v, t)) ∧
    ∀ n k v t, parseStreamWith n k (noBindings _ ε α CharPos CE) ss a = (.ok v, t) →
      List.Forall₂ ((textVec α posStrishOps).AsSpecified posStrishOps CharPos.IsAt) v v' := by
  obtain ⟨⟨l, t, h1⟩, h2⟩ := C52_stream ss a h
  obtain ⟨h3, h4⟩ := C46_parse_stream _ ss a h1
  exact ⟨h3, fun n k v t' h5 => (h4 n k v t' h5).rel (h2 l t h1) hv⟩

/-- C52. A string in memory, read by the common parser with any bindings: it always yields, and
what it yields, and the state it leaves, are what the specification with bindings says. -/
theorem C52_inmem_bound (lookup : Datum (TextVec PosStr) ε → Option (Combiner (TextVec PosStr) ε α StrPos CE))
    (s : Str) (a : α) :
    (∃ l t, (inmemEnv lookup).Yields (St.init (inmemSource s) a) l t) ∧
    ∀ l t, (inmemEnv lookup).Yields (St.init (inmemSource s) a) l t →
      Results defaultClassifier (vecSem α).RT Eq (fun _ => False) lookup (strItems s) a l t.alloc := by
  have C := inmem_conf lookup
  refine ⟨?_, fun l t hy => ?_⟩
  · obtain ⟨l, s', r', a', h1, _⟩ := C.yields_run a (AtItems.fresh (strSource_means _ s))
    exact ⟨l, _, h1⟩
  · have hm : MemoryError (P := StrPos) (CE := CE) (vecSem α).F (boxAlloc (TextVec PosStr) ε α) =
        fun _ => False := by
      funext e
      exact eq_false ((boxAlloc_reliable _ ε α).no_memoryError (fun h => h) e)
    rw [← hm]
    exact C52_results C defaultClassifier_disjoint
      ⟨fun _ => rfl, fun _ _ _ h1 h2 => h1.trans h2, fun _ _ h => h, fun _ _ => rfl⟩ (strSource_means _ s) hy

/-- C52. A stream of pieces, read by the common parser with any bindings: the same. -/
theorem C52_stream_bound
    (lookup : Datum (TextVec PosStrish) ε → Option (Combiner (TextVec PosStrish) ε α CharPos CE))
    (ss : List Str) (a : α) :
    (∃ l t, (streamEnv lookup).Yields (St.init (.new ss) a) l t) ∧
    ∀ l t, (streamEnv lookup).Yields (St.init (.new ss) a) l t →
      Results defaultClassifier (vecishSem α).RT Eq (fun _ => False) lookup (charItems ss.flatten) a l t.alloc := by
  have C := stream_conf lookup
  refine ⟨?_, fun l t hy => ?_⟩
  · obtain ⟨l, s', r', a', h1, _⟩ := C.yields_run a (AtItems.fresh (StrishIter.new_means _ ss))
    exact ⟨l, _, h1⟩
  · have hm : MemoryError (P := CharPos) (CE := CE) (vecishSem α).F (boxAlloc (TextVec PosStrish) ε α) =
        fun _ => False := by
      funext e
      exact eq_false ((boxAlloc_reliable _ ε α).no_memoryError (fun h => h) e)
    rw [← hm]
    exact C52_results C defaultClassifier_disjoint
      ⟨fun _ => rfl, fun _ _ _ h1 h2 => h1.trans h2, fun _ _ h => h, fun _ _ => rfl⟩
      (StrishIter.new_means _ ss) hy

/-! ## C01, C04 and C05 of the convenience functions -/

theorem UpToFirstError.all_ok {E A : Type} {l v : List (Except E A)} (h : UpToFirstError l v) :
    (∀ x ∈ v, ∃ d, x = .ok d) ↔ ∀ x ∈ l, ∃ d, x = .ok d := by
  constructor
  · intro hv
    rcases h.complete with rfl | ⟨v', e, rfl⟩
    · exact hv
    · obtain ⟨d, hd⟩ := hv (.error e) (by simp)
      cases hd
  · exact fun hl x hx => hl x (h.isPrefix.subset hx)

theorem UpToFirstError.of_ok {E A : Type} {ds : List A} {v : List (Except E A)}
    (h : UpToFirstError (ds.map .ok) v) : v = ds.map .ok := by
  rcases h.complete with h | ⟨v', e, rfl⟩
  · exact h
  · have := h.isPrefix.subset (show .error e ∈ v' ++ [.error e] by simp)
    simp at this

theorem not_combinerError {e : Err P CE} : ¬ CombinerError (noBindings τ ε α P CE) e := by
  rintro (⟨d, c, t, a, a', h, _⟩ | ⟨d, c, t, a, a', h, _⟩) <;> cases h

theorem balanced_rel {P Q : Type} {cc : Classifier} {RP : P → Q → Prop} {r : List (Item P)} {r' : List (Item Q)}
    (h : List.Forall₂ (ItemRel Eq RP) r r') : Balanced cc r ↔ Balanced cc r' := by
  suffices ∀ (n : Nat) (r : List (Item P)) (r' : List (Item Q)) (d : Nat), r.length ≤ n →
      List.Forall₂ (ItemRel Eq RP) r r' → (balance cc d r = .opened 0 ↔ balance cc d r' = .opened 0) from
    this _ r r' 0 (Nat.le_refl _) h
  intro n
  induction n with
  | zero =>
    intro r r' d hn h
    cases h with
    | nil => simp [balance]
    | cons => simp at hn
  | succ n ih =>
    intro r r' d hn h
    cases h with
    | nil => simp [balance]
    | @cons x y r r' hx hr =>
      have hx := hx.1
      simp only [List.length_cons] at hn
      rw [balance.eq_def, balance.eq_def cc d (y :: r')]
      simp only [hx]
      split
      · cases hr with
        | nil => simp
        | cons _ hr => exact ih _ _ _ (by simp only [List.length_cons] at hn; omega) hr
      · split
        · exact ih _ _ _ (by omega) hr
        · split
          · cases d with
            | zero => simp
            | succ d => exact ih _ _ _ (by omega) hr
          · exact ih _ _ _ (by omega) hr

/-- C05. `parse_str` returns no error exactly when the unescaped delimiters of the string balance. -/
theorem C05_parse_str (s : Str) (a : α) {n k v t}
    (h : parseStrWith n k (noBindings _ ε α StrPos CE) s a = (.ok v, t)) :
    (∀ x ∈ v, ∃ d, x = .ok d) ↔ Balanced defaultClassifier (numbered 0 s) := by
  obtain ⟨⟨l, u, hl⟩, _⟩ := C52_inmem_bound (noBindings _ ε α StrPos CE) s a
  rw [((C46_parse_str _ s a hl).2 n k v t h).all_ok]
  rw [C05_no_error_iff_balanced (inmem_conf _) defaultClassifier_disjoint (boxAlloc_reliable _ _ _) (fun h => h)
    (fun _ => not_combinerError) (strSource_means _ s) hl]
  exact balanced_rel (numbered_str s)

/-- C05. `parse_stream`, the same. -/
theorem C05_parse_stream (ss : List Str) (a : α) {n k v t}
    (h : parseStreamWith n k (noBindings _ ε α CharPos CE) ss a = (.ok v, t)) :
    (∀ x ∈ v, ∃ d, x = .ok d) ↔ Balanced defaultClassifier (numbered 0 ss.flatten) := by
  obtain ⟨⟨l, u, hl⟩, _⟩ := C52_stream_bound (noBindings _ ε α CharPos CE) ss a
  rw [((C46_parse_stream _ ss a hl).2 n k v t h).all_ok]
  rw [C05_no_error_iff_balanced (stream_conf _) defaultClassifier_disjoint (boxAlloc_reliable _ _ _) (fun h => h)
    (fun _ => not_combinerError) (StrishIter.new_means _ ss) hl]
  exact balanced_rel (numbered_char _)

/-- C04. What is written out reads back with `parse_str`. -/
theorem C04_parse_str (w : Pens defaultClassifier) {ds : List (Datum (List Char) ε)} (hd : TopShaped ds) (a : α)
    {n k v t} (h : parseStrWith n k (noBindings _ ε α StrPos CE) (writeSource w ds) a = (.ok v, t)) :
    ∃ ds', v = ds'.map .ok ∧
      List.Forall₂ (DatumRel (TextType.Chars posStrOps (textVec α posStrOps)) Eq) ds' ds := by
  obtain ⟨ds', u, h1, h2⟩ := C04_write_then_parse (inmem_conf (noBindings _ ε α StrPos CE))
    defaultClassifier_disjoint (fun _ => rfl) (boxAlloc_reliable _ _ _) (fun h => h) w hd
    (strSource_means _ (writeSource w ds)) a (itemsFrom_ch _ _ _)
  refine ⟨ds', ((C46_parse_str _ _ a h1).2 n k v t h).of_ok, h2.imp fun _ _ h => h.mono ?_⟩
  rintro x c ⟨l, h3, rfl⟩
  exact h3.chars posStr_conf

/-- C04. What is written out, to pieces cut anywhere, reads back with `parse_stream`. -/
theorem C04_parse_stream (w : Pens defaultClassifier) {ds : List (Datum (List Char) ε)} (hd : TopShaped ds)
    {ss : List Str} (hs : ss.flatten = writeSource w ds) (a : α)
    {n k v t} (h : parseStreamWith n k (noBindings _ ε α CharPos CE) ss a = (.ok v, t)) :
    ∃ ds', v = ds'.map .ok ∧
      List.Forall₂ (DatumRel (TextType.Chars posStrishOps (textVec α posStrishOps)) Eq) ds' ds := by
  obtain ⟨ds', u, h1, h2⟩ := C04_write_then_parse (stream_conf (noBindings _ ε α CharPos CE))
    defaultClassifier_disjoint (fun _ => rfl) (boxAlloc_reliable _ _ _) (fun h => h) w hd
    (StrishIter.new_means _ ss) a ((itemsFrom_ch _ _ _).trans hs)
  refine ⟨ds', ((C46_parse_stream _ _ a h1).2 n k v t h).of_ok, h2.imp fun _ _ h => h.mono ?_⟩
  rintro x c ⟨l, h3, rfl⟩
  exact h3.chars posStrish_conf

/-- C01. `parse_str` of a string that is not empty and has no delimiters or escape characters
returns that string, as one text. -/
theorem C01_parse_str (s : Str) (hs : s ≠ [])
    (hc : ∀ c ∈ s, defaultClassifier.isNestStart c = false ∧ defaultClassifier.isNestEnd c = false ∧
      defaultClassifier.isNestEscape c = false) (a : α)
    {n k v t} (h : parseStrWith n k (noBindings _ ε α StrPos CE) s a = (.ok v, t)) :
    ∃ x, v = [.ok (.text x)] ∧ x.charsOf = s := by
  obtain ⟨_, h1⟩ := C01_plain_text_preserved (inmem_conf (noBindings _ ε α StrPos CE)) (fun h => h)
    (strSource_means _ s) a (fun it h => hc _ (by
      have := List.mem_map_of_mem (f := fun x : Item StrPos => x.ch) h
      rwa [strItems, itemsFrom_ch] at this))
  obtain ⟨x, u, h2, h3⟩ := h1 (by cases s with
    | nil => exact absurd rfl hs
    | cons => simp [strItems, itemsFrom])
  refine ⟨x, UpToFirstError.of_ok (ds := [Datum.text x]) ((C46_parse_str _ s a h3).2 n k v t h), ?_⟩
  have h4 := (x.chars_posStr (α := α)).det (h2.chars posStr_conf)
  rw [h4]
  exact itemsFrom_ch _ _ _

/-! ## Non-vacuity -/

/-- What `a{bé}c}d{e` yields: `a`, the nest, an error for the stray `}` (which takes the text `c`
with it), `d`, and an error for the nest that is never closed. -/
theorem strResults_example : StrResults (CE := Empty) (ε := Empty) "a{bé}c}d{e".toList
    [.ok (.text [⟨'a', 0⟩]), .ok (.combination (.text [⟨'b', 2⟩, ⟨'é', 3⟩]) .emptyList),
      .error (.unbalancedEndChar 6), .ok (.text [⟨'d', 7⟩]), .error .missingEndChar] :=
  .stray (s := [⟨'a', 0⟩, ⟨'{', 1⟩, ⟨'b', 2⟩, ⟨'é', 3⟩, ⟨'}', 4⟩]) (t := [⟨'c', 5⟩]) (x := ⟨'}', 6⟩)
    (rest := [⟨'d', 7⟩, ⟨'{', 8⟩, ⟨'e', 9⟩])
    (ds := [.text [⟨'a', 0⟩], .combination (.text [⟨'b', 2⟩, ⟨'é', 3⟩]) .emptyList])
    (.text (s := [⟨'a', 0⟩]) (by simp) (.plain (by decide) (by decide) .nil)
      (.form (s := [⟨'{', 1⟩, ⟨'b', 2⟩, ⟨'é', 3⟩, ⟨'}', 4⟩]) (r := [])
        (.combination (h := [⟨'b', 2⟩, ⟨'é', 3⟩]) (sep := []) (r := []) (ds := []) (by decide) (by decide)
          (.textHead (ws := []) (fun _ h => by cases h) (by simp)
            (.plain (by decide) (by decide) (.plain (by decide) (by decide) .nil))) .empty .nil)
        .nil))
    (by simp) (.plain (by decide) (by decide) .nil) (by decide)
    (.unclosed (s := [⟨'d', 7⟩]) (ds := [.text [⟨'d', 7⟩]]) (k := 0)
      (.text (s := [⟨'d', 7⟩]) (r := []) (by simp) (.plain (by decide) (by decide) .nil) .nil)
      (by decide) (by decide +kernel))

/-- C52: that string in memory; the stray end delimiter is at byte 7, being after an `é`. -/
example : ∃ t, (inmemEnv (noBindings _ Empty Unit StrPos Empty)).Yields
    (St.init (inmemSource "a{bé}c}d{e".toList) ())
    [.ok (.text (.single ⟨"a".toList, ⟨"a{bé}c}d{e".toList, 0, 0⟩⟩)),
      .ok (.combination (.text (.single ⟨"bé".toList, ⟨"a{bé}c}d{e".toList, 2, 2⟩⟩)) .emptyList),
      .error (.unbalancedEndChar ⟨"a{bé}c}d{e".toList, 7, 6⟩),
      .ok (.text (.single ⟨"d".toList, ⟨"a{bé}c}d{e".toList, 8, 7⟩⟩)), .error .missingEndChar] t := by
  obtain ⟨l, t, h, ht⟩ := Env.yields_of_view (E := inmemEnv (noBindings _ Empty Unit StrPos Empty))
    (n := 200) (k := 7) (s := St.init (inmemSource "a{bé}c}d{e".toList) ())
    (v := [.ok (.text (.single ⟨"a".toList, ⟨"a{bé}c}d{e".toList, 0, 0⟩⟩)),
      .ok (.combination (.text (.single ⟨"bé".toList, ⟨"a{bé}c}d{e".toList, 2, 2⟩⟩)) .emptyList),
      .error (.unbalancedEndChar ⟨"a{bé}c}d{e".toList, 7, 6⟩),
      .ok (.text (.single ⟨"d".toList, ⟨"a{bé}c}d{e".toList, 8, 7⟩⟩)), .error .missingEndChar])
    (fun x => x.1) (by decide +kernel)
  exact ⟨t, ht ▸ h⟩

/-- C52: `parse_stream` of it, in three pieces: what is returned ends with the first error. -/
example : ∃ n k v t, parseStreamWith n k (noBindings _ Empty Unit CharPos Empty)
      ["a{b".toList, [], "é}c}d{e".toList] () = (.ok v, t) ∧
    List.Forall₂ ((textVec Unit posStrishOps).AsSpecified posStrishOps CharPos.IsAt) v
      [.ok (.text [⟨'a', 0⟩]), .ok (.combination (.text [⟨'b', 2⟩, ⟨'é', 3⟩]) .emptyList),
        .error (.unbalancedEndChar 6)] := by
  obtain ⟨⟨n, k, v, t, h1⟩, h2⟩ := C52_parse_stream (α := Unit) ["a{b".toList, [], "é}c}d{e".toList] ()
    strResults_example (upToFirstError_ok.2 ⟨_, rfl, upToFirstError_ok.2 ⟨_, rfl, upToFirstError_error.2 rfl⟩⟩)
  exact ⟨n, k, v, t, h1, h2 n k v t h1⟩

/-- C04: forms that need escapes, written out and read back with `parse_str`. -/
example : ∃ n k ds' t, parseStrWith n k (noBindings _ Empty Unit StrPos Empty)
      (writeSource defaultPens sampleForms) () = (.ok (ds'.map .ok), t) ∧
    List.Forall₂ (DatumRel (TextType.Chars posStrOps (textVec Unit posStrOps)) Eq) ds' sampleForms := by
  obtain ⟨l', h1, _⟩ := C52_str_results (CE := Empty) (ε := Empty) (writeSource defaultPens sampleForms)
  obtain ⟨v', h2, _⟩ := upToFirstError_total_unique l'
  obtain ⟨⟨n, k, v, t, h3⟩, _⟩ := C52_parse_str (α := Unit) _ () h1 h2
  obtain ⟨ds', rfl, h4⟩ := C04_parse_str defaultPens sampleForms_shaped () h3
  exact ⟨n, k, ds', t, h3, h4⟩

/-- C05: a string that balances because of an escape, and one that does not. -/
example : Balanced defaultClassifier (numbered 0 "a{b\\}c}".toList) ∧
    ¬ Balanced defaultClassifier (numbered 0 "a{b}c}".toList) := by
  unfold Balanced
  decide +kernel

end Kul
