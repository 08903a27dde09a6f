import Verif.Spec.Shape
import Verif.Proof.GramPlain

/-! # Shape and content of what is written in the grammar -/

namespace Kul

variable {P A ε τ : Type} {cc : Classifier}

/-! ## Content -/

theorem texts_listOf (ds : List (Datum (List A) ε)) : (listOf ds).texts = ds.flatMap Datum.texts := by
  induction ds with
  | nil => rfl
  | cons d ds ih => simp [listOf, Datum.texts, ih]

theorem TextOf.kept {stop : Char → Bool} (hs : ∀ c, stop c = false → cc.delim c = false)
    {s c r y : List (Item P)} (h : TextOf cc stop s c) (hr : Kept cc r y) :
    Kept cc (s ++ r) (c ++ y) := by
  induction h with
  | nil => exact hr
  | plain h1 h2 _ ih => exact .plain (hs _ h1) h2 ih
  | escaped h _ ih => exact .escaped h ih

theorem AllWs.kept {ws r y : List (Item P)} (h : AllWs cc ws) (hr : Kept cc r y) :
    Kept cc (ws ++ r) y := by
  induction ws with
  | nil => exact hr
  | cons w ws ih => exact .space (h w (by simp)) (ih (fun i hi => h i (by simp [hi])))

theorem headDelim_delim (c : Char) (h : cc.headDelim c = false) : cc.delim c = false := by
  simp only [Classifier.headDelim, Bool.or_eq_false_iff] at h; exact h.2

theorem delim_start {c : Char} (h : cc.isNestStart c = true) : cc.delim c = true := by
  simp [Classifier.delim, h]

theorem delim_end {c : Char} (h : cc.isNestEnd c = true) : cc.delim c = true := by
  simp [Classifier.delim, h]

theorem Sep.kept {k : Bool} {sep r s y : List (Item P)} (h : Sep cc k sep r) (hr : Kept cc s y) :
    Kept cc (sep ++ s) y := by
  cases h with
  | one h => exact .space h hr
  | empty => exact hr
  | none => exact hr

theorem Gram.kept {c : Cat} {s : List (Item P)} {ds : List (Datum (List (Item P)) ε)}
    (h : Gram cc c s ds) : ∀ r y, Kept cc r y → ((∃ b, c = .forms true b) → r = [] ∧ y = []) →
    Kept cc (s ++ r) (ds.flatMap Datum.texts ++ y) := by
  induction h with
  | nil => exact fun r y h _ => h
  | @text top s c r ds h1 h2 _ ih =>
    intro r' y hy ht
    simp only [List.append_assoc, List.flatMap_cons, Datum.texts]
    exact h2.kept (fun _ h => h) (ih _ _ hy (fun ⟨b, h⟩ => ht ⟨_, by cases h; rfl⟩))
  | @form top b s d r ds _ _ ih1 ih2 =>
    intro r' y hy ht
    have := ih1 (r ++ r') (ds.flatMap Datum.texts ++ y) (ih2 _ _ hy (fun ⟨b, h⟩ => ht ⟨_, by cases h; rfl⟩))
      (fun ⟨b, h⟩ => by cases h)
    simpa using this
  | @dangling s c e h1 h2 =>
    intro r' y hy ht
    obtain ⟨rfl, rfl⟩ := ht ⟨_, rfl⟩
    have := h1.kept (fun _ h => h) (Kept.dangling h2)
    simpa [Datum.texts] using this
  | noHead h => exact fun r y hy _ => h.kept hy
  | textHead h1 h2 h3 =>
    intro r y hy _
    have := h1.kept (h3.kept headDelim_delim hy)
    simpa [Datum.texts] using this
  | nestHead h1 _ ih =>
    intro r y hy _
    have := h1.kept (ih r y hy (fun ⟨b, h⟩ => by cases h))
    simpa using this
  | @emptyNest b e h h1 h2 _ ih =>
    intro r y hy _
    have := ih (e :: r) y (.delim (delim_end h2) hy) (fun ⟨b, h⟩ => by cases h)
    have := Kept.delim (delim_start h1) this
    simpa [Datum.texts] using this
  | @combination b e h k d sep r ds h1 h2 _ h3 _ ih1 ih2 =>
    intro r' y hy _
    have := ih2 (e :: r') y (.delim (delim_end h2) hy) (fun ⟨b, h⟩ => by cases h)
    have := ih1 _ _ (h3.kept this) (fun ⟨b, h⟩ => by cases h)
    have := Kept.delim (delim_start h1) this
    simpa [Datum.texts, texts_listOf] using this

theorem Kept.sublist {s c : List (Item P)} (h : Kept cc s c) : c.Sublist s := by
  induction h with
  | nil => exact .slnil
  | escaped _ _ ih => exact (ih.cons_cons _).cons _
  | dangling => exact List.nil_sublist _
  | delim _ _ ih => exact ih.cons _
  | space _ _ ih => exact ih.cons _
  | plain _ _ _ ih => exact ih.cons_cons _

/-! ## Shape -/

theorem noAdjacentTexts_nil : NoAdjacentTexts ([] : List (Datum τ ε)) := by
  intro l₁ t u l₂ h
  cases l₁ <;> cases h

theorem noAdjacentTexts_cons {d : Datum τ ε} {ds : List (Datum τ ε)} :
    NoAdjacentTexts (d :: ds) ↔
      NoAdjacentTexts ds ∧ ((∃ t, d = .text t) → ¬ ∃ u, ds.head? = some (.text u)) := by
  constructor
  · intro h
    refine ⟨fun l₁ t u l₂ he => h (d :: l₁) t u l₂ (by rw [he]; rfl), ?_⟩
    rintro ⟨t, rfl⟩ ⟨u, hu⟩
    cases ds with
    | nil => cases hu
    | cons d' ds =>
      cases hu
      exact h [] t u ds rfl
  · rintro ⟨h1, h2⟩ l₁ t u l₂ he
    cases l₁ with
    | nil =>
      simp only [List.nil_append, List.cons.injEq] at he
      obtain ⟨rfl, rfl⟩ := he
      exact h2 ⟨t, rfl⟩ ⟨u, rfl⟩
    | cons x l₁ =>
      simp only [List.cons_append, List.cons.injEq] at he
      exact h1 l₁ t u l₂ he.2

theorem TextOf.ne_nil {stop : Char → Bool} {s c : List (Item P)} (h : TextOf cc stop s c)
    (hs : s ≠ []) : c ≠ [] := by
  cases h with
  | nil => exact absurd rfl hs
  | plain => simp
  | escaped => simp

/-- What `Gram.shaped` says for each category. -/
def GramShape (c : Cat) (ds : List (Datum (List A) ε)) : Prop :=
  match c with
  | .nest => ∀ d ∈ ds, Shaped d ∧ ¬ ∃ t, d = .text t
  | .head _ => ∀ d ∈ ds, Shaped d
  | .forms top b => NoAdjacentTexts ds ∧ (b = true → ¬ ∃ u, ds.head? = some (.text u)) ∧
      ∃ ds₀ last, ds = ds₀ ++ last ∧ (∀ d ∈ ds₀, Shaped d) ∧
        (last = [] ∨ (top = true ∧ last = [.text []]))

theorem Gram.shaped {c : Cat} {s : List (Item P)} {ds : List (Datum (List (Item P)) ε)}
    (h : Gram cc c s ds) : GramShape c ds := by
  induction h with
  | nil => exact ⟨noAdjacentTexts_nil, fun _ => by simp, [], [], rfl, by simp, Or.inl rfl⟩
  | @text top s c r ds h1 h2 _ ih =>
    obtain ⟨h3, h4, ds₀, last, rfl, h6, h7⟩ := ih
    refine ⟨noAdjacentTexts_cons.mpr ⟨h3, fun _ => h4 rfl⟩, fun h => by (cases h), .text c :: ds₀, last, rfl, ?_, h7⟩
    intro d hd
    rcases List.mem_cons.mp hd with rfl | hd
    · exact .text (h2.ne_nil h1)
    · exact h6 d hd
  | @form top b s d r ds _ _ ih1 ih2 =>
    obtain ⟨h3, h4, ds₀, last, rfl, h6, h7⟩ := ih2
    obtain ⟨h8, h9⟩ := ih1 d (by simp)
    refine ⟨noAdjacentTexts_cons.mpr ⟨h3, fun h => absurd h h9⟩, ?_, d :: ds₀, last, rfl, ?_, h7⟩
    · rintro _ ⟨u, hu⟩
      cases hu
      exact h9 ⟨u, rfl⟩
    · intro d hd
      rcases List.mem_cons.mp hd with rfl | hd
      · exact h8
      · exact h6 d hd
  | @dangling s c e h1 h2 =>
    refine ⟨noAdjacentTexts_cons.mpr ⟨noAdjacentTexts_nil, fun _ => by simp⟩, fun h => by (cases h), ?_⟩
    by_cases hc : c = []
    · subst hc
      exact ⟨[], _, rfl, by simp, Or.inr ⟨rfl, rfl⟩⟩
    · exact ⟨[.text c], [], rfl, by simpa using Shaped.text hc, Or.inl rfl⟩
  | noHead h => intro d hd; cases hd
  | textHead h1 h2 h3 =>
    intro d hd
    rw [List.mem_singleton.mp hd]
    exact .text (h3.ne_nil h2)
  | nestHead h1 _ ih => exact fun d hd => (ih d hd).1
  | emptyNest =>
    intro d hd
    rw [List.mem_singleton.mp hd]
    exact ⟨.emptyNest, by simp⟩
  | combination h1 h2 _ h3 _ ih1 ih2 =>
    intro d hd
    rw [List.mem_singleton.mp hd]
    obtain ⟨h4, _, ds₀, last, rfl, h6, h7⟩ := ih2
    rcases h7 with rfl | ⟨h, _⟩
    · rw [List.append_nil] at h4 ⊢
      exact ⟨.combination (ih1 _ (by simp)) h6 h4, by simp⟩
    · cases h

theorem Written.topShaped {s : List (Item P)} {ds : List (Datum (List (Item P)) ε)}
    (h : Written cc s ds) : TopShaped ds := by
  obtain ⟨h1, _, ds₀, last, h2, h3, h4⟩ := Gram.shaped h
  exact ⟨h1, ds₀, last, h2, h3, h4.imp id And.right⟩

theorem Shaped.noExtra {d : Datum (List A) ε} (h : Shaped d) : d.NoExtra := by
  induction h with
  | text => trivial
  | emptyNest => trivial
  | @combination h ds h1 h2 h3 ih1 ih2 =>
    refine ⟨ih1, ?_⟩
    clear h2 h3
    induction ds with
    | nil => trivial
    | cons d ds ih =>
      exact ⟨ih2 d (by simp), ih (fun d hd => ih2 d (by simp [hd]))⟩

/-! ## Writing -/

theorem unitItems_append (a b : List Char) : unitItems (a ++ b) = unitItems a ++ unitItems b := by
  simp [unitItems]

theorem writeText_textOf (w : Pens cc) (stop : Char → Bool) (t : List Char) :
    TextOf cc stop (unitItems (writeText w stop t)) (unitItems t) := by
  induction t with
  | nil => exact .nil
  | cons c t ih =>
    simp only [writeText, List.flatMap_cons, unitItems_append]
    by_cases h : (stop c || cc.isNestEscape c) = true
    · rw [if_pos h]
      exact .escaped w.hesc ih
    · rw [if_neg h]
      simp only [Bool.or_eq_true, not_or, Bool.not_eq_true] at h
      exact .plain h.1 h.2 ih

theorem writeText_ne_nil (w : Pens cc) (stop : Char → Bool) {t : List Char} (ht : t ≠ []) :
    unitItems (writeText w stop t) ≠ [] := by
  cases t with
  | nil => exact absurd rfl ht
  | cons c t =>
    simp only [writeText, List.flatMap_cons, unitItems_append]
    split <;> simp [unitItems]

theorem mapText_listOf {τ τ' : Type} (f : τ → τ') (ds : List (Datum τ ε)) :
    (listOf ds).mapText f = listOf (ds.map (Datum.mapText f)) := by
  induction ds with
  | nil => rfl
  | cons d ds ih => simp [listOf, Datum.mapText, ih]

theorem write_listOf (w : Pens cc) (ds : List (Datum (List Char) ε)) :
    write w false (listOf ds) = ds.flatMap (write w false) := by
  induction ds with
  | nil => rfl
  | cons d ds ih => simp [listOf, write, ih]

theorem writeSource_cons (w : Pens cc) {d : Datum (List Char) ε} (h : Shaped d)
    (ds : List (Datum (List Char) ε)) : writeSource w (d :: ds) = write w false d ++ writeSource w ds := by
  simp only [writeSource, List.flatMap_cons]
  cases h with
  | @text t ht => cases t with
    | nil => exact absurd rfl ht
    | cons => rfl
  | emptyNest => rfl
  | combination => rfl

theorem writeSource_shaped (w : Pens cc) {ds : List (Datum (List Char) ε)} (h : ∀ d ∈ ds, Shaped d) :
    writeSource w ds = write w false (listOf ds) := by
  induction ds with
  | nil => rfl
  | cons d ds ih =>
    rw [writeSource_cons w (h d (by simp)), ih (fun d hd => h d (by simp [hd]))]
    rfl

/-- Forms from the readings of each. -/
theorem write_forms (w : Pens cc) (top : Bool) {ds₀ last : List (Datum (List Char) ε)}
    (hd : ∀ d ∈ ds₀, Shaped d)
    (ih : ∀ d ∈ ds₀, (¬ ∃ t, d = .text t) →
      Gram cc .nest (unitItems (write w false d)) [d.mapText unitItems])
    (hl : last = [] ∨ (top = true ∧ last = [.text []])) (hn : NoAdjacentTexts (ds₀ ++ last)) :
    ∀ b, (b = true → ¬ ∃ u, (ds₀ ++ last).head? = some (.text u)) →
      Gram cc (.forms top b) (unitItems (writeSource w (ds₀ ++ last)))
        ((ds₀ ++ last).map (Datum.mapText unitItems)) := by
  induction ds₀ with
  | nil =>
    rintro b hb
    rcases hl with rfl | ⟨rfl, rfl⟩
    · exact .nil
    · cases b with
      | true => exact absurd ⟨[], rfl⟩ (hb rfl)
      | false => exact Gram.dangling (s := []) (e := ⟨w.esc, ()⟩) .nil w.hesc
  | cons d ds ih2 =>
    intro b hb
    rw [List.cons_append] at hn hb ⊢
    obtain ⟨hn1, hn2⟩ := noAdjacentTexts_cons.mp hn
    have ih3 := ih2 (fun d h => hd d (by simp [h])) (fun d h => ih d (by simp [h])) hn1
    rw [writeSource_cons w (hd d (by simp)), unitItems_append, List.map_cons]
    by_cases ht : ∃ t, d = .text t
    · obtain ⟨t, rfl⟩ := ht
      cases b with
      | true => exact absurd ⟨t, rfl⟩ (hb rfl)
      | false =>
        have hs := hd (.text t) (by simp)
        cases hs with
        | text hs => exact .text (writeText_ne_nil w _ hs) (writeText_textOf w _ t) (ih3 true (fun _ => hn2 ⟨t, rfl⟩))
    · exact .form (ih d (by simp) ht) (ih3 false (fun h => by cases h))

theorem write_nest (w : Pens cc) {d : Datum (List Char) ε} (h : Shaped d) :
    (¬ ∃ t, d = .text t) → ∀ b, Gram cc .nest (unitItems (write w b d)) [d.mapText unitItems] := by
  induction h with
  | text => exact fun h => absurd ⟨_, rfl⟩ h
  | emptyNest =>
    intro _ b
    exact Gram.emptyNest (b := ⟨w.start, ()⟩) (e := ⟨w.fin, ()⟩) (h := []) w.hstart w.hfin
      (.noHead (by intro _ h; cases h))
  | @combination h ds h1 h2 h3 ih1 ih2 =>
    intro _ b
    have hops : Gram cc (.forms false false) (unitItems (write w false (listOf ds)))
        (ds.map (Datum.mapText unitItems)) := by
      rw [← writeSource_shaped w h2]
      have := write_forms w false (last := []) h2 (fun d hd ht => ih2 d hd ht false) (Or.inl rfl)
        (by rwa [List.append_nil]) false (fun h => by cases h)
      simpa using this
    have hhead : ∃ k, Gram cc (.head k) (unitItems (write w true h)) [h.mapText unitItems] := by
      by_cases ht : ∃ t, h = .text t
      · obtain ⟨t, rfl⟩ := ht
        cases h1 with
        | text hne => exact ⟨true, .textHead (ws := []) (by intro _ h; cases h)
            (writeText_ne_nil w _ hne) (writeText_textOf w _ t)⟩
      · exact ⟨false, .nestHead (ws := []) (by intro _ h; cases h) (ih1 ht true)⟩
    obtain ⟨k, hk⟩ := hhead
    have := Gram.combination (b := ⟨w.start, ()⟩) (e := ⟨w.fin, ()⟩) (sep := [⟨w.space, ()⟩])
      w.hstart w.hfin hk (.one w.hspace) hops
    simp only [Datum.mapText, mapText_listOf]
    simpa [write, unitItems] using this

/-- What is written out is in the grammar. -/
theorem TopShaped.written (w : Pens cc) {ds : List (Datum (List Char) ε)} (h : TopShaped ds) :
    Written cc (unitItems (writeSource w ds)) (ds.map (Datum.mapText unitItems)) := by
  obtain ⟨h1, ds₀, last, rfl, h2, h3⟩ := h
  exact write_forms w true h2 (fun d hd ht => write_nest w (h2 d hd) ht false)
    (h3.imp id fun h => ⟨rfl, h⟩) h1 false (fun h => by cases h)

end Kul
