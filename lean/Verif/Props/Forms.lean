import Verif.Proof.Shape
import Verif.Proof.Balance
import Verif.Proof.Local
import Verif.Proof.Invariant
import Verif.Proof.Sample

/-!
# C04, C08, C20, C21: what parsed datums look like and contain

Without bindings. `E` is any conforming parser, as in `Props/Grammar.lean`.
-/

namespace Kul

variable {σ P τ ε α CE : Type} {E : Env σ P τ ε α CE} {RS : σ → Seq P → Prop} {X : TextSem P τ α}

/-! ## C08 -/

/-- C08. The texts of the result, put together, are the source without escape characters,
unescaped delimiters, and some unescaped whitespace; in particular a subsequence of the source,
with positions. -/
theorem C08_no_character_lost (C : Conf E RS X) (D : E.cc.Disjoint) (hb : ∀ d, E.lookup d = none)
    {s : σ} {r : List (Item P)} (hs : RS s ⟨[], r⟩) {a : α} {ds : List (Datum τ ε)} {t}
    (hy : E.Yields (St.init s a) (ds.map .ok) t) :
    ∃ ds', List.Forall₂ (DatumRel X.RT Eq) ds ds' ∧
      Kept E.cc r (ds'.flatMap Datum.texts) ∧ (ds'.flatMap Datum.texts).Sublist r := by
  obtain ⟨s', a', rfl, _, hr⟩ := C.yields_inv (AtItems.fresh hs) hy
  have := (hr.top ds rfl).sound D (MemOk.true _ _) false (fun h => by cases h)
  obtain ⟨ds', h1, h2⟩ := this.gram hb
  have hk := h2.kept [] [] .nil (fun _ => ⟨rfl, rfl⟩)
  rw [List.append_nil, List.append_nil] at hk
  exact ⟨ds', h1, hk, hk.sublist⟩

/-! ## C21, C20 -/

/-- C21. An error-free parse yields forms of the shape `TopShaped`. -/
theorem C21_shape (C : Conf E RS X) (D : E.cc.Disjoint) (hb : ∀ d, E.lookup d = none)
    {s : σ} {r : List (Item P)} (hs : RS s ⟨[], r⟩) {a : α} {ds : List (Datum τ ε)} {t}
    (hy : E.Yields (St.init s a) (ds.map .ok) t) :
    ∃ ds', List.Forall₂ (DatumRel X.RT Eq) ds ds' ∧ TopShaped ds' := by
  obtain ⟨s', a', rfl, _, hr⟩ := C.yields_inv (AtItems.fresh hs) hy
  have := (hr.top ds rfl).sound D (MemOk.true _ _) false (fun h => by cases h)
  obtain ⟨ds', h1, h2⟩ := this.gram hb
  exact ⟨ds', h1, Written.topShaped h2⟩

/-- Every item of a parse comes from one evaluation. -/
theorem Run.mem {cc : Classifier} {al : AllocOps τ ε α}
    {lookup : Datum τ ε → Option (Combiner τ ε α P CE)} {r a l r' a'}
    (h : Run cc X al lookup r a l r' a') : ∀ x ∈ l, ∃ r₁ a₁ o r₂ a₂ u, r = u ++ r₁ ∧
      Eval cc X al lookup (.next .base 0) r₁ a₁ o r₂ a₂ ∧ (∀ d, x = .ok d → o = .ok [d]) ∧
      (∀ e, x = .error e → o = .error e) := by
  induction h with
  | done h => intro x hx; cases hx
  | @datum r a d r₁ a₁ l r' a' hE _ ih =>
    intro x hx
    rcases List.mem_cons.mp hx with rfl | hx
    · exact ⟨r, a, _, _, _, [], rfl, hE, (by rintro _ ⟨⟩; rfl), (by rintro _ ⟨⟩)⟩
    · obtain ⟨r₂, a₂, o, r₃, a₃, u, rfl, h⟩ := ih x hx
      obtain ⟨v, hv⟩ := hE.suffix
      exact ⟨r₂, a₂, o, r₃, a₃, v ++ u, by simp [hv], h⟩
  | @error r a d r₁ a₁ l r' a' hE _ ih =>
    intro x hx
    rcases List.mem_cons.mp hx with rfl | hx
    · exact ⟨r, a, _, _, _, [], rfl, hE, (by rintro _ ⟨⟩), (by rintro _ ⟨⟩; rfl)⟩
    · obtain ⟨r₂, a₂, o, r₃, a₃, u, rfl, h⟩ := ih x hx
      obtain ⟨v, hv⟩ := hE.suffix
      exact ⟨r₂, a₂, o, r₃, a₃, v ++ u, by simp [hv], h⟩

/-- Every datum of a parse, also of one with errors, is written in a part of the source. -/
theorem Eval.written {cc : Classifier} {al : AllocOps τ ε α}
    {lookup : Datum τ ε → Option (Combiner τ ε α P CE)} (D : cc.Disjoint) (hb : ∀ d, lookup d = none)
    {r a d r' a'} (h : Eval cc X al lookup (.next .base 0) r a (.ok [d]) r' a') :
    ∃ s d', r = s ++ r' ∧ DatumRel X.RT Eq d d' ∧ Written cc s [d'] := by
  have one : ∀ {s : List (Item P)} {a a'}, Reads cc X.RT (fun _ _ => True) lookup (.forms true false) s a [d] a' →
      ∃ d', DatumRel X.RT Eq d d' ∧ Written cc s [d'] := by
    intro s a a' h
    obtain ⟨ds', h1, h2⟩ := h.gram hb
    cases h1 with
    | cons h1 h3 => cases h3; exact ⟨_, h1, h2⟩
  rcases (h.sound D (MemOk.true X al) [d] rfl (fun h => absurd rfl h)).2 d rfl with
    ⟨s, k, h1, _, h3⟩ | ⟨_, h1, h3⟩
  · have := h3 false (fun h => by cases h) [] a' [] a' trivial .nil
    rw [List.append_nil] at this
    obtain ⟨d', h4, h5⟩ := one this
    exact ⟨s, d', h1, h4, h5⟩
  · obtain ⟨d', h4, h5⟩ := one (h3 false (fun h => by cases h) a' trivial)
    exact ⟨r, d', by rw [h1, List.append_nil], h4, h5⟩

/-- C21, for parses with errors too: every datum is a form of the shape `Shaped`, or an
empty text. -/
theorem C21_shape_of_each (C : Conf E RS X) (D : E.cc.Disjoint) (hb : ∀ d, E.lookup d = none)
    {s : σ} {r : List (Item P)} (hs : RS s ⟨[], r⟩) {a : α} {l t}
    (hy : E.Yields (St.init s a) l t) {d : Datum τ ε} (hd : .ok d ∈ l) :
    ∃ d', DatumRel X.RT Eq d d' ∧ (Shaped d' ∨ d' = .text []) := by
  obtain ⟨s', a', rfl, _, hr⟩ := C.yields_inv (AtItems.fresh hs) hy
  obtain ⟨r₁, a₁, o, r₂, a₂, u, _, he, h, _⟩ := hr.mem _ hd
  rw [h d rfl] at he
  obtain ⟨s₁, d', _, h1, h2⟩ := he.written D hb
  refine ⟨d', h1, ?_⟩
  obtain ⟨_, ds₀, last, h3, h4, rfl | rfl⟩ := h2.topShaped
  · rw [List.append_nil] at h3
    subst h3
    exact Or.inl (h4 d' (by simp))
  · cases ds₀ with
    | nil => cases h3; exact Or.inr rfl
    | cons x ds₀ =>
      simp only [List.cons_append, List.cons.injEq] at h3
      have := congrArg List.length h3.2
      simp at this

theorem DatumRel.noExtra {τ₁ τ₂ : Type} {RT : τ₁ → τ₂ → Prop} {d : Datum τ₁ ε} {d' : Datum τ₂ ε}
    (h : DatumRel RT Eq d d') : d.NoExtra ↔ d'.NoExtra := by
  induction h with
  | text => exact Iff.rfl
  | combination _ _ h1 h2 => exact and_congr h1 h2
  | emptyNest => exact Iff.rfl
  | list _ _ h1 h2 => exact and_congr h1 h2
  | emptyList => exact Iff.rfl
  | extra => exact Iff.rfl

theorem Datum.All.noExtra {QT : τ → Prop} {d : Datum τ ε} (h : d.All QT fun _ => False) : d.NoExtra := by
  induction h with
  | text => trivial
  | combination _ _ h1 h2 => exact ⟨h1, h2⟩
  | emptyNest => trivial
  | list _ _ h1 h2 => exact ⟨h1, h2⟩
  | emptyList => trivial
  | extra h => exact h

/-- C20. Without bindings, whatever the source, the classifier and the memory: no `Extra` in any result, no
`FailedCombiner`, and no `FailedDerefTryMut` when references just made can be written through. With
memory that does not run out, the only errors are those of delimiters. -/
theorem C20_nothing_interpreted (C : Conf E RS X) (hb : ∀ d, E.lookup d = none)
    {s : σ} {r : List (Item P)} (hs : RS s ⟨[], r⟩) {a : α} {l t}
    (hy : E.Yields (St.init s a) l t) :
    (∀ d, .ok d ∈ l → d.NoExtra) ∧
    (∀ e, .error e ∈ l → (∀ x, e ≠ .failedCombiner x) ∧
      ((∀ d a a', E.alloc.newDatum d a = (.ok (), a') → E.alloc.getMutFresh a' = true) → e ≠ .failedDerefTryMut) ∧
      (E.alloc.Reliable → ¬ X.F → e = .missingEndChar ∨ ∃ it ∈ r, e = .unbalancedEndChar it.pos)) := by
  obtain ⟨h1, h2⟩ := C.plain hb hs hy
  refine ⟨fun d hd => (h1 d hd).noExtra, fun e he => ?_⟩
  rcases h2 e he with rfl | ⟨it, hi, _, rfl⟩ | ⟨⟨x, rfl⟩, h2⟩ | ⟨rfl, d, a, a', h2, h3⟩
  · exact ⟨by simp, by simp, fun _ _ => Or.inl rfl⟩
  · exact ⟨by simp, by simp, fun _ _ => Or.inr ⟨it, hi, rfl⟩⟩
  · refine ⟨by simp, by simp, fun A hF => ?_⟩
    rcases h2 with h2 | ⟨d, a, x, a', h2⟩
    · exact absurd h2 hF
    · obtain ⟨a2, h3, _⟩ := A.newDatum d a
      rw [h3] at h2; cases h2
  · exact ⟨by simp, fun h => by (rw [h d a a' h2] at h3; cases h3), fun A _ => by
      obtain ⟨a2, h4, h5⟩ := A.newDatum d a
      rw [h4] at h2; cases h2
      rw [h5] at h3; cases h3⟩

/-! ## C04 -/

theorem itemRel_map_ch {r₁ : List (Item P)} : List.Forall₂ (ItemRel Eq (fun _ _ => True)) r₁
    (unitItems (r₁.map Item.ch)) := by
  induction r₁ with
  | nil => exact .nil
  | cons it r ih => exact .cons ⟨rfl, trivial⟩ ih

theorem itemRel_chars {Q : Type} {c : List (Item P)} {e : List (Item Q)}
    (h : List.Forall₂ (ItemRel Eq (fun _ _ => True)) c e) : c.map Item.ch = e.map Item.ch := by
  induction h with
  | nil => rfl
  | cons h _ ih => simp only [List.map_cons, ih]; rw [h.1]

theorem map_ch_unitItems (cs : List Char) : (unitItems cs).map Item.ch = cs := by
  simp [unitItems, Function.comp_def]

theorem DatumRel.of_mapText {X : TextSem P τ α} {d : Datum τ ε} {d' : Datum (List Char) ε}
    (h : DatumRel (SameText X (seqSem Unit Unit) (ItemRel Eq (fun _ _ => True))) Eq d
      (d'.mapText unitItems)) : DatumRel X.HasChars Eq d d' := by
  induction d' generalizing d with
  | text t =>
    cases h with
    | text h =>
      obtain ⟨c, e, h1, h2, h3⟩ := h
      cases h2
      refine .text ⟨c, h1, ?_⟩
      rw [itemRel_chars h3, map_ch_unitItems]
  | combination _ _ ih1 ih2 => cases h with | combination h1 h2 => exact .combination (ih1 h1) (ih2 h2)
  | emptyNest => cases h; exact .emptyNest
  | list _ _ ih1 ih2 => cases h with | list h1 h2 => exact .list (ih1 h1) (ih2 h2)
  | emptyList => cases h; exact .emptyList
  | extra => cases h with | extra h => exact .extra h

/-- C04. Forms of the shape the parser produces, written out and parsed, come back character
for character, without error. -/
theorem C04_write_then_parse (C : Conf E RS X) (D : E.cc.Disjoint) (hb : ∀ d, E.lookup d = none)
    (A : E.alloc.Reliable) (hF : ¬ X.F) (w : Pens E.cc) {ds : List (Datum (List Char) ε)}
    (hd : TopShaped ds) {s : σ} {r : List (Item P)} (hs : RS s ⟨[], r⟩) (a : α)
    (hr : r.map Item.ch = writeSource w ds) :
    ∃ ds' t, E.Yields (St.init s a) (ds'.map .ok) t ∧
      List.Forall₂ (DatumRel X.HasChars Eq) ds' ds := by
  obtain ⟨l, s', r', a', hy, _⟩ := C.yields_run a (AtItems.fresh hs)
  obtain ⟨l₂, t₂, hy₂, hl⟩ := C.related_plain
    (E₂ := seqEnv E.cc (freeAlloc (List (Item Unit)) ε Unit) (noBindings _ ε Unit Unit Empty))
    (RC := Eq) (RP := fun _ _ => True) (RE := fun _ _ => False)
    (seqConf _ _ _) (ClassifierSim.eq _) hb (fun _ => rfl) A
    ⟨fun _ _ => ⟨_, rfl, rfl⟩⟩ hF (fun h => h) hs rfl
    (itemRel_map_ch (r₁ := r)) () hy
  obtain ⟨p, hy₃⟩ := ((hd.written w).run D (CE := Empty)).seqYields
  rw [hr] at hy₂
  obtain ⟨rfl, _⟩ := hy₂.unique hy₃
  obtain ⟨ds', rfl, h⟩ := forall₂_resultRel_ok hl
  refine ⟨ds', _, hy, ?_⟩
  rw [List.forall₂_map_right_iff] at h
  exact h.imp fun _ _ h => h.of_mapText

theorem listOf_injective {τ : Type} {ds ds' : List (Datum τ ε)} (h : listOf ds = listOf ds') :
    ds = ds' := by
  induction ds generalizing ds' with
  | nil => cases ds' with
    | nil => rfl
    | cons => cases h
  | cons d ds ih => cases ds' with
    | nil => cases h
    | cons d' ds' =>
      simp only [listOf, Datum.list.injEq] at h
      rw [h.1, ih h.2]

theorem NoAdjacentTexts.map {τ τ' : Type} {f : τ → τ'} {ds : List (Datum τ ε)} (h : NoAdjacentTexts ds) :
    NoAdjacentTexts (ds.map (Datum.mapText f)) := by
  induction ds with
  | nil => exact noAdjacentTexts_nil
  | cons d ds ih =>
    obtain ⟨h1, h2⟩ := noAdjacentTexts_cons.mp h
    refine noAdjacentTexts_cons.mpr ⟨ih h1, ?_⟩
    rintro ⟨t, ht⟩ ⟨u, hu⟩
    cases d <;> simp only [Datum.mapText] at ht <;> try cases ht
    refine h2 ⟨_, rfl⟩ ?_
    cases ds with
    | nil => cases hu
    | cons d ds =>
      cases d <;> simp only [Datum.mapText, List.map_cons, List.head?_cons, Option.some.injEq] at hu <;>
        first | exact ⟨_, rfl⟩ | cases hu

theorem Shaped.map {A B : Type} {f : A → B} {d : Datum (List A) ε} (h : Shaped d) :
    Shaped (d.mapText (List.map f)) := by
  induction h with
  | text h => exact .text (by simpa using h)
  | emptyNest => exact .emptyNest
  | combination _ _ h3 ih1 ih2 =>
    simp only [Datum.mapText, mapText_listOf]
    refine .combination ih1 ?_ h3.map
    intro d hd
    obtain ⟨d', h, rfl⟩ := List.mem_map.mp hd
    exact ih2 d' h

theorem TopShaped.map {A B : Type} {f : A → B} {ds : List (Datum (List A) ε)} (h : TopShaped ds) :
    TopShaped (ds.map (Datum.mapText (List.map f))) := by
  obtain ⟨h1, ds₀, last, rfl, h2, h3⟩ := h
  refine ⟨h1.map, _, _, List.map_append, ?_, ?_⟩
  · intro d hd
    obtain ⟨d', h, rfl⟩ := List.mem_map.mp hd
    exact (h2 d' h).map
  · rcases h3 with rfl | rfl
    · exact Or.inl rfl
    · exact Or.inr rfl

theorem DatumRel.chars {d : Datum τ ε} {d' : Datum (List (Item P)) ε} (h : DatumRel X.RT Eq d d') :
    DatumRel X.HasChars Eq d (d'.mapText (List.map Item.ch)) := by
  induction h with
  | text h => exact .text ⟨_, h, rfl⟩
  | combination _ _ h1 h2 => exact .combination h1 h2
  | emptyNest => exact .emptyNest
  | list _ _ h1 h2 => exact .list h1 h2
  | emptyList => exact .emptyList
  | extra h => exact .extra h

/-- C04, second part: what a parse yields can be written out; so (with the first part)
writing and parsing again gives the same characters. -/
theorem C04_parsed_can_be_written (C : Conf E RS X) (D : E.cc.Disjoint)
    (hb : ∀ d, E.lookup d = none) {s : σ} {r : List (Item P)} (hs : RS s ⟨[], r⟩) {a : α}
    {ds : List (Datum τ ε)} {t} (hy : E.Yields (St.init s a) (ds.map .ok) t) :
    ∃ ds' : List (Datum (List Char) ε), List.Forall₂ (DatumRel X.HasChars Eq) ds ds' ∧
      TopShaped ds' := by
  obtain ⟨ds', h1, h2⟩ := C21_shape C D hb hs hy
  refine ⟨_, ?_, h2.map (f := Item.ch)⟩
  rw [List.forall₂_map_right_iff]
  exact h1.imp fun _ _ h => h.chars

/-! ## Non-vacuity -/

def defaultPens : Pens defaultClassifier :=
  ⟨'{', '}', '\\', ' ', by decide, by decide, by decide, by decide⟩

/-- C08 and C21: the hypotheses are met by `x{ a {b\}}  {}}\`. -/
example : ∃ (ds : List (Datum (List (Item Unit)) Empty)) (t : _), ds.length = 3 ∧ sampleEnv.Yields
    (St.init ⟨[], charsOf "x{ a {b\\}}  {}}\\"⟩ ()) (ds.map .ok) t := by
  obtain ⟨t, h⟩ := Env.yields_of' (E := sampleEnv) 80 9 (s := St.init ⟨[], charsOf "x{ a {b\\}}  {}}\\"⟩ ())
    (l := [.text (charsOf "x"), .combination (.text (charsOf "a")) (listOf
      [.combination (.text (charsOf "b}")) .emptyList, .text (charsOf "  "), .emptyNest]),
      .text []].map .ok) (by decide +kernel)
  exact ⟨_, t, rfl, h⟩

/-- C20 and C21: a parse with datums and errors. -/
example : ∃ (d : Datum (List (Item Unit)) Empty) (l : _) (t : _), .ok d ∈ l ∧ .error .missingEndChar ∈ l ∧
    sampleEnv.Yields (St.init ⟨[], charsOf "}{a b}{"⟩ ()) l t := by
  obtain ⟨t, h⟩ := Env.yields_of' (E := sampleEnv) 80 9 (s := St.init ⟨[], charsOf "}{a b}{"⟩ ())
    (l := [.error (.unbalancedEndChar ()),
      .ok (.combination (.text (charsOf "a")) (.list (.text (charsOf "b")) .emptyList)),
      .error .missingEndChar]) (by decide +kernel)
  exact ⟨_, _, t, .tail _ (.head _), by simp, h⟩

/-- C04: a datum with a head that needs escapes, a nested head, and an empty text at the
end. -/
def sampleForms : List (Datum (List Char) Empty) :=
  [.combination (.combination (.text ['{', ' ', 'x']) (listOf []))
    (listOf [.text [' ', '}'], .emptyNest, .text ['\\']]), .text []]

theorem sampleForms_shaped : TopShaped sampleForms := by
  have key : ∀ {τ : Type} {a b c : Datum τ Empty}, (¬ ∃ u, b = .text u) → NoAdjacentTexts [a, b, c] := by
    intro τ a b c hb
    refine noAdjacentTexts_cons.mpr ⟨noAdjacentTexts_cons.mpr
      ⟨noAdjacentTexts_cons.mpr ⟨noAdjacentTexts_nil, fun _ => by simp⟩, fun h => absurd h hb⟩, ?_⟩
    rintro _ ⟨u, hu⟩
    cases hu
    exact hb ⟨u, rfl⟩
  refine ⟨noAdjacentTexts_cons.mpr ⟨noAdjacentTexts_cons.mpr ⟨noAdjacentTexts_nil, fun _ => by simp⟩,
    by rintro ⟨t, h⟩; cases h⟩, sampleForms.take 1, [.text []], rfl, ?_, Or.inr rfl⟩
  intro d hd
  rw [List.mem_singleton.mp hd]
  refine .combination (.combination (.text (by simp)) (by simp) noAdjacentTexts_nil) ?_ (key (by simp))
  intro d hd
  simp only [List.mem_cons, List.not_mem_nil, or_false] at hd
  rcases hd with rfl | rfl | rfl
  · exact .text (by simp)
  · exact .emptyNest
  · exact .text (by simp)

example : ∃ ds' t, sampleEnv.Yields (St.init ⟨[], unitItems (writeSource defaultPens sampleForms)⟩ ())
    (ds'.map .ok) t ∧ List.Forall₂ (DatumRel (seqSem Unit Unit).HasChars Eq) ds' sampleForms :=
  C04_write_then_parse (E := sampleEnv) (seqConf _ _ _) defaultClassifier_disjoint (fun _ => rfl)
    ⟨fun _ _ => ⟨_, rfl, rfl⟩⟩ (fun h => h) defaultPens sampleForms_shaped rfl ()
    (map_ch_unitItems _)

example : String.ofList (writeSource defaultPens sampleForms) = "{{\\{\\ x }  \\}{}\\\\}\\" := by decide +kernel

end Kul
