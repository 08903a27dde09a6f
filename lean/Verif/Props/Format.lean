import Verif.Proof.Format
import Verif.Props.Provided

/-!
# C88: a source written anew

What was parsed is written out (`Spec/Shape.lean` `writeSource`) and parsed again: the same is parsed, writing it out again changes
nothing, and it is a normal form. About the parsers made of what the library provides, without bindings.
-/

namespace Kul

variable {σ P τ ε α CE σ₁ σ₂ P₁ P₂ τ₁ τ₂ α₁ α₂ CE₁ CE₂ : Type} {E : Env σ P τ ε α CE} {X : TextSem P τ α}
  {E₁ : Env σ₁ P₁ τ₁ ε α₁ CE₁} {X₁ : TextSem P₁ τ₁ α₁} {E₂ : Env σ₂ P₂ τ₂ ε α₂ CE₂} {X₂ : TextSem P₂ τ₂ α₂} {cc : Classifier}

/-- **C88** (one result). What a parse without error gave is written out in exactly one way. -/
theorem C88_one_result (D : E.cc.Disjoint) (hb : ∀ d, E.lookup d = none) {s : σ} {r : List (Item P)} (pr : Provided E s r X)
    (w : Pens cc) {a : α} {ds : List (Datum τ ε)} {t} (hy : E.Yields (St.init s a) (ds.map .ok) t) :
    ∃ out, PrintsAs X w ds out ∧ ∀ out', PrintsAs X w ds out' → out' = out := by
  obtain ⟨ds', h1, _⟩ := C04_parsed_can_be_written_provided D hb pr hy
  refine ⟨_, ⟨ds', h1, rfl⟩, ?_⟩
  rintro _ ⟨ds'', h2, rfl⟩
  rw [pr.readings h1 h2]

/-- **C88** (the same is parsed). What a parse without error gave is written out and this is parsed, by any parser with the same
classifier and from any stream: there is no error, and the datums are the same, character for character. -/
theorem C88_same_parsed (D : cc.Disjoint) (w : Pens cc) (c₁ : E₁.cc = cc) (c₂ : E₂.cc = cc) (b₁ : ∀ d, E₁.lookup d = none)
    (b₂ : ∀ d, E₂.lookup d = none) (A : E₂.alloc.Reliable) (hF : ¬ X₂.F) {s₁ : σ₁} {r₁ : List (Item P₁)} {s₂ : σ₂}
    {r₂ : List (Item P₂)} (p₁ : Provided E₁ s₁ r₁ X₁) (p₂ : Provided E₂ s₂ r₂ X₂) {a₁ : α₁} {ds₁ : List (Datum τ₁ ε)} {t₁}
    (hy : E₁.Yields (St.init s₁ a₁) (ds₁.map .ok) t₁) (hr : PrintsAs X₁ w ds₁ (r₂.map Item.ch)) (a₂ : α₂) :
    ∃ ds₂ t₂, E₂.Yields (St.init s₂ a₂) (ds₂.map .ok) t₂ ∧ SameForms X₁ X₂ ds₁ ds₂ := by
  subst c₁
  obtain ⟨ds', h1, h2⟩ := C04_parsed_can_be_written_provided D b₁ p₁ hy
  obtain ⟨ds'', h3, h4⟩ := hr
  have := p₁.readings h1 h3
  subst this
  have D₂ := D
  rw [← c₂] at D₂
  have hw : ∃ w' : Pens E₂.cc, writeSource w' ds' = writeSource w ds' := by
    rw [c₂]
    exact ⟨w, rfl⟩
  obtain ⟨w', hw⟩ := hw
  obtain ⟨ds₂, t₂, h5, h6⟩ := C04_write_then_parse_provided D₂ b₂ A hF w' h2 p₂ a₂ (h4.trans hw.symm)
  exact ⟨ds₂, t₂, h5, ds', h1, h6⟩

/-- **C88** (a normal form). Two sources that are parsed without error, by whatever parsers with the same classifier and from
whatever streams, are written out the same if and only if their datums are the same, character for character. -/
theorem C88_normal_form (D : cc.Disjoint) (w : Pens cc) (c₁ : E₁.cc = cc) (c₂ : E₂.cc = cc) (b₁ : ∀ d, E₁.lookup d = none)
    (b₂ : ∀ d, E₂.lookup d = none) {s₁ : σ₁} {r₁ : List (Item P₁)} {s₂ : σ₂} {r₂ : List (Item P₂)}
    (p₁ : Provided E₁ s₁ r₁ X₁) (p₂ : Provided E₂ s₂ r₂ X₂) {a₁ : α₁} {ds₁ : List (Datum τ₁ ε)} {t₁}
    (y₁ : E₁.Yields (St.init s₁ a₁) (ds₁.map .ok) t₁) {a₂ : α₂} {ds₂ : List (Datum τ₂ ε)} {t₂}
    (y₂ : E₂.Yields (St.init s₂ a₂) (ds₂.map .ok) t₂) {out₁ out₂ : List Char} (h₁ : PrintsAs X₁ w ds₁ out₁)
    (h₂ : PrintsAs X₂ w ds₂ out₂) : out₁ = out₂ ↔ SameForms X₁ X₂ ds₁ ds₂ := by
  have D₁ := D
  have D₂ := D
  rw [← c₁] at D₁
  rw [← c₂] at D₂
  obtain ⟨ds', f1, rfl⟩ := h₁
  obtain ⟨ds'', f2, rfl⟩ := h₂
  obtain ⟨_, g1, S1⟩ := C04_parsed_can_be_written_provided D₁ b₁ p₁ y₁
  obtain ⟨_, g2, S2⟩ := C04_parsed_can_be_written_provided D₂ b₂ p₂ y₂
  have e1 := p₁.readings f1 g1
  subst e1
  have e2 := p₂.readings f2 g2
  subst e2
  constructor
  · intro h
    have e := writeSource_inj D w S1 S2 h
    subst e
    exact ⟨_, f1, f2⟩
  · rintro ⟨l, h1, h2⟩
    rw [p₁.readings f1 h1, p₂.readings f2 h2]

/-- **C88** (idempotence). If a source is written anew as `out`, then any source with the characters `out` is written anew as `out`
and as nothing else. -/
theorem C88_idempotent (D : cc.Disjoint) (w : Pens cc) (c₁ : E₁.cc = cc) (c₂ : E₂.cc = cc) (b₁ : ∀ d, E₁.lookup d = none)
    (b₂ : ∀ d, E₂.lookup d = none) (A : E₂.alloc.Reliable) (hF : ¬ X₂.F) [Nonempty α₂] {s₁ : σ₁} {r₁ : List (Item P₁)} {s₂ : σ₂}
    {r₂ : List (Item P₂)} (p₁ : Provided E₁ s₁ r₁ X₁) (p₂ : Provided E₂ s₂ r₂ X₂) (h : Formats E₁ X₁ w s₁ (r₂.map Item.ch))
    (out : List Char) : Formats E₂ X₂ w s₂ out ↔ out = r₂.map Item.ch := by
  obtain ⟨a₁, ds₁, t₁, y₁, h₁⟩ := h
  constructor
  · rintro ⟨a₂, ds₂, t₂, y₂, h₂⟩
    obtain ⟨ds₂', t₂', y₂', S⟩ := C88_same_parsed D w c₁ c₂ b₁ b₂ A hF p₁ p₂ y₁ h₁ a₂
    obtain ⟨e, _⟩ := y₂.unique y₂'
    have e := List.map_injective_iff.2 (fun _ _ h => by cases h; rfl) e
    subst e
    exact ((C88_normal_form D w c₁ c₂ b₁ b₂ p₁ p₂ y₁ y₂ h₁ h₂).2 S).symm
  · rintro rfl
    obtain ⟨a₂⟩ := ‹Nonempty α₂›
    obtain ⟨ds₂, t₂, y₂, ds', S₁, S₂⟩ := C88_same_parsed D w c₁ c₂ b₁ b₂ A hF p₁ p₂ y₁ h₁ a₂
    obtain ⟨ds'', h3, h4⟩ := h₁
    have e := p₁.readings h3 S₁
    subst e
    exact ⟨a₂, ds₂, t₂, y₂, ds'', S₂, h4⟩

/-- **C88** (length). A source that is written anew grows by a half at most. -/
theorem C88_length (D : E.cc.Disjoint) (hb : ∀ d, E.lookup d = none) {s : σ} {r : List (Item P)} (pr : Provided E s r X)
    (w : Pens E.cc) {out : List Char} (h : Formats E X w s out) : 2 * out.length ≤ 3 * r.length := by
  obtain ⟨a, ds, t, hy, ds', h1, rfl⟩ := h
  obtain ⟨ds'', h3, h2⟩ := C02_accepted_is_written_provided D hb pr hy
  have h4 : List.Forall₂ (DatumRel X.HasChars Eq) ds (ds''.map Datum.chars) := by
    rw [List.forall₂_map_right_iff]
    exact h2.imp fun _ _ h => h.chars
  rw [pr.readings h1 h4]
  exact Gram.bound w h3

/-! ## Examples -/

theorem formats_of_written (D : E.cc.Disjoint) (hb : ∀ d, E.lookup d = none) (A : E.alloc.Reliable) (hF : ¬ X.F) {s : σ}
    {r : List (Item P)} (pr : Provided E s r X) (a : α) (w : Pens cc) {ds : List (Datum (List (Item P)) ε)} (h : Written E.cc r ds) :
    Formats E X w s (writeSource w (ds.map Datum.chars)) := by
  obtain ⟨ds', t, hy, h2⟩ := C03_written_is_accepted_provided D hb A hF pr a h
  refine ⟨a, ds', t, hy, _, ?_, rfl⟩
  rw [List.forall₂_map_right_iff]
  exact h2.imp fun _ _ h => h.chars

/-- The string `{  a}\bx` in memory is written anew as `{a }bx`. -/
theorem formats_sample : Formats (inmemEnv (noBindings _ Unit Unit StrPos Unit)) (vecSem Unit) defaultPens
    (inmemSource "{  a}\\bx".toList) "{a }bx".toList :=
  formats_of_written (E := inmemEnv (noBindings _ Unit Unit StrPos Unit)) (cc := defaultClassifier) defaultClassifier_disjoint
    (fun _ => rfl) (boxAlloc_reliable _ _ _) (fun h => h) (inmem_provided (noBindings _ Unit Unit StrPos Unit) "{  a}\\bx".toList) ()
    defaultPens
    (ds := [.combination (.text ((strItems "{  a}\\bx".toList).drop 3 |>.take 1)) .emptyList,
      .text ((strItems "{  a}\\bx".toList).drop 6)])
    (Gram.form (s := (strItems "{  a}\\bx".toList).take 5)
      (Gram.combination (h := (strItems "{  a}\\bx".toList).drop 1 |>.take 3) (sep := []) (r := []) (ds := []) (k := true)
        (by decide) (by decide)
        (.textHead (ws := (strItems "{  a}\\bx".toList).drop 1 |>.take 2) (by unfold AllWs; decide) nofun
          (.plain (by decide) (by decide) .nil)) .empty .nil)
      (.text (s := (strItems "{  a}\\bx".toList).drop 5) nofun
        (.escaped (by decide) (.plain (by decide) (by decide) .nil)) .nil))

/-- And that, as a stream of strings, is written anew as itself only. -/
example (out : List Char) : Formats (streamEnv (noBindings _ Unit Unit CharPos Unit)) (vecishSem Unit) defaultPens
    (.new ["{a ".toList, "}bx".toList]) out ↔ out = "{a }bx".toList :=
  C88_idempotent (E₁ := inmemEnv (noBindings _ Unit Unit StrPos Unit)) (X₁ := vecSem Unit) defaultClassifier_disjoint defaultPens rfl
    rfl (fun _ => rfl) (fun _ => rfl) (boxAlloc_reliable _ _ _) (fun h => h)
    (inmem_provided (noBindings _ Unit Unit StrPos Unit) "{  a}\\bx".toList)
    (stream_provided (noBindings _ Unit Unit CharPos Unit) ["{a ".toList, "}bx".toList]) formats_sample out

end Kul
