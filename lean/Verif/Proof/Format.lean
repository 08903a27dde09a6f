import Verif.Spec.Format
import Verif.Proof.Provided
import Verif.Proof.Shape
import Verif.Props.Grammar
import Verif.Props.Forms

/-! # Formatting: texts have one reading, writing is injective, and how long the result is -/

namespace Kul

variable {σ P τ ε α CE C CS R : Type}

/-! ## One reading -/

theorem Str.split_unique {pre a pre' a' : Str} (h : pre ++ a = pre' ++ a') (hl : Str.len pre = Str.len pre') :
    pre = pre' ∧ a = a' := by
  have h1 := Str.splitAt_append pre a
  rw [h, hl, Str.splitAt_append] at h1
  cases h1
  exact ⟨rfl, rfl⟩

theorem Str.part_unique {pre v post pre' v' post' : Str} (h : pre ++ v ++ post = pre' ++ v' ++ post')
    (hl : Str.len pre = Str.len pre') (hv : Str.len pre + Str.len v = Str.len pre' + Str.len v') : v = v' := by
  rw [List.append_assoc, List.append_assoc] at h
  exact (Str.split_unique (Str.split_unique h hl).2 (by omega)).1

/-- A chunk of the library stands for one list of items. -/
theorem LibChunk.func {O : ChunkOps C CS P} {RC : C → List (Item P) → Prop} (h : LibChunk O RC) {c : C}
    {l l' : List (Item P)} (h1 : RC c l) (h2 : RC c l') : l = l' := by
  cases h with
  | posStr => exact h1.1.trans h2.1.symm
  | posStrish =>
    obtain ⟨pre, v, post, e1, e2, e3, rfl⟩ := h1
    obtain ⟨pre', v', post', f1, f2, f3, rfl⟩ := h2
    rw [Str.part_unique (e1.symm.trans f1) (e2.symm.trans f2) (e3.symm.trans f3)]
  | shared hA O =>
    obtain ⟨pre, v, post, ⟨e1, e2, e3⟩, rfl, _⟩ := h1
    obtain ⟨pre', v', post', ⟨f1, f2, f3⟩, rfl, _⟩ := h2
    rw [Str.part_unique (e1.symm.trans f1) (e2.symm.trans f2) (e3.symm.trans f3)]

theorem forall₂_func {A B : Type} {R : A → B → Prop} (hR : ∀ a b b', R a b → R a b' → b = b') {l : List A} {m m' : List B}
    (h : List.Forall₂ R l m) (h' : List.Forall₂ R l m') : m = m' := by
  induction h generalizing m' with
  | nil => cases h'; rfl
  | cons h _ ih => cases h' with | cons h1 h2 => rw [hR _ _ _ h h1, ih h2]

theorem LibText.func {O : ChunkOps C CS P} {RC : C → List (Item P) → Prop} (hC : LibChunk O RC) {T : TextType C τ α}
    {X : TextSem P τ α} (h : LibText O RC T X) {t : τ} {l l' : List (Item P)} (h1 : X.RT t l) (h2 : X.RT t l') : l = l' := by
  rw [h.sem] at h1 h2
  obtain ⟨cs, ls, e, f, rfl⟩ := h1
  obtain ⟨cs', ls', e', f', rfl⟩ := h2
  rw [e] at e'
  cases e'
  rw [forall₂_func (R := RC) (fun _ _ _ h h' => hC.func h h') f f']

/-- A text of the library's parsers stands for one list of items. -/
theorem Provided.func {E : Env σ P τ ε α CE} {s : σ} {r : List (Item P)} {X : TextSem P τ α} (p : Provided E s r X) {t : τ}
    {l l' : List (Item P)} (h1 : X.RT t l) (h2 : X.RT t l') : l = l' := by
  cases p with
  | str hT => exact hT.func .posStr h1 h2
  | text hT => exact hT.func .posStr h1 h2
  | textish hT => exact hT.func .posStrish h1 h2
  | strs hT => exact hT.func .posStrish h1 h2
  | chars hT => exact hT.func .posStrish h1 h2
  | sharedText hA O hT => exact hT.func (.shared hA O) h1 h2
  | shared hA rs hT => exact hT.func (.shared hA _) h1 h2
  | byStates hC hT => exact hT.func hC h1 h2

theorem DatumRel.func {τ' ε' : Type} {RT : τ → τ' → Prop} {RX : ε → ε' → Prop} (hT : ∀ a b b', RT a b → RT a b' → b = b')
    (hX : ∀ a b b', RX a b → RX a b' → b = b') {d : Datum τ ε} {e e' : Datum τ' ε'} (h : DatumRel RT RX d e)
    (h' : DatumRel RT RX d e') : e = e' := by
  induction h generalizing e' with
  | text h => cases h' with | text h1 => rw [hT _ _ _ h h1]
  | combination _ _ ih1 ih2 => cases h' with | combination h1 h2 => rw [ih1 h1, ih2 h2]
  | emptyNest => cases h'; rfl
  | list _ _ ih1 ih2 => cases h' with | list h1 h2 => rw [ih1 h1, ih2 h2]
  | emptyList => cases h'; rfl
  | extra h => cases h' with | extra h1 => rw [hX _ _ _ h h1]

theorem Provided.readings {E : Env σ P τ ε α CE} {s : σ} {r : List (Item P)} {X : TextSem P τ α} (p : Provided E s r X)
    {ds : List (Datum τ ε)} {l l' : List (Datum (List Char) ε)} (h1 : List.Forall₂ (DatumRel X.HasChars Eq) ds l)
    (h2 : List.Forall₂ (DatumRel X.HasChars Eq) ds l') : l = l' := by
  have hT : ∀ t c c', X.HasChars t c → X.HasChars t c' → c = c' := by
    rintro t _ _ ⟨c, h, rfl⟩ ⟨c', h', rfl⟩
    rw [p.func h h']
  exact forall₂_func (R := DatumRel X.HasChars Eq)
    (fun _ _ _ h h' => DatumRel.func hT (fun _ _ _ h h' => h.symm.trans h') h h') h1 h2

/-! ## Injectivity -/

theorem unitItems_inj {a b : List Char} (h : unitItems a = unitItems b) : a = b := by
  rw [← map_ch_unitItems a, h, map_ch_unitItems]

theorem mapText_inj {τ' : Type} {f : τ → τ'} (hf : ∀ a b, f a = f b → a = b) {d e : Datum τ ε} (h : d.mapText f = e.mapText f) :
    d = e := by
  induction d generalizing e with
  | text t => cases e <;> simp only [Datum.mapText, reduceCtorEq, Datum.text.injEq] at h ⊢; exact hf _ _ h
  | combination a b ih1 ih2 =>
    cases e <;> simp only [Datum.mapText, reduceCtorEq, Datum.combination.injEq] at h ⊢; exact ⟨ih1 h.1, ih2 h.2⟩
  | emptyNest => cases e <;> simp only [Datum.mapText, reduceCtorEq] at h ⊢
  | list a b ih1 ih2 =>
    cases e <;> simp only [Datum.mapText, reduceCtorEq, Datum.list.injEq] at h ⊢; exact ⟨ih1 h.1, ih2 h.2⟩
  | emptyList => cases e <;> simp only [Datum.mapText, reduceCtorEq] at h ⊢
  | extra x => cases e <;> simp only [Datum.mapText, reduceCtorEq, Datum.extra.injEq] at h ⊢; exact h

/-- Different forms are written differently. -/
theorem writeSource_inj {cc : Classifier} (D : cc.Disjoint) (w : Pens cc) {ds ds' : List (Datum (List Char) ε)} (h : TopShaped ds)
    (h' : TopShaped ds') (e : writeSource w ds = writeSource w ds') : ds = ds' := by
  have h1 := h.written w
  rw [e] at h1
  have h2 := C03_grammar_unambiguous D h1 (h'.written w)
  exact List.map_injective_iff.2 (fun _ _ => mapText_inj fun _ _ => unitItems_inj) h2

/-! ## Length -/

theorem writeText_length {cc : Classifier} (w : Pens cc) {stop : Char → Bool} {s c : List (Item P)} (h : TextOf cc stop s c) :
    (writeText w stop (c.map Item.ch)).length ≤ s.length := by
  induction h with
  | nil => exact Nat.le_refl _
  | plain h1 h2 _ ih =>
    simp only [List.map_cons, writeText, List.flatMap_cons, h1, h2, Bool.or_self, Bool.false_eq_true, if_false,
      List.length_append, List.length_cons, List.length_nil] at ih ⊢
    omega
  | escaped _ _ ih =>
    simp only [List.map_cons, writeText, List.flatMap_cons, List.length_append, List.length_cons] at ih ⊢
    split <;> simp only [List.length_cons, List.length_nil] <;> omega

theorem writeSource_cons' {cc : Classifier} (w : Pens cc) (d : Datum (List Char) ε) (ds : List (Datum (List Char) ε)) :
    writeSource w (d :: ds) = writeSource w [d] ++ writeSource w ds := by
  simp [writeSource]

theorem write_le_writeSource {cc : Classifier} (w : Pens cc) (d : Datum (List Char) ε) :
    (write w false d).length ≤ (writeSource w [d]).length := by
  unfold writeSource
  simp only [List.flatMap_cons, List.flatMap_nil, List.append_nil]
  split
  · exact Nat.zero_le _
  · exact Nat.le_refl _

theorem write_listOf_length {cc : Classifier} (w : Pens cc) (ds : List (Datum (List Char) ε)) :
    (write w false (listOf ds)).length ≤ (writeSource w ds).length := by
  induction ds with
  | nil => exact Nat.zero_le _
  | cons d ds ih =>
    rw [writeSource_cons']
    simp only [listOf, write, List.length_append]
    have := write_le_writeSource w d
    omega

/-- The characters of the texts of a datum. -/
def Datum.chars (d : Datum (List (Item P)) ε) : Datum (List Char) ε := d.mapText (List.map Item.ch)

/-- How long what was read is when it is written out. -/
def CatBound {cc : Classifier} (w : Pens cc) : Cat → Nat → List (Datum (List (Item P)) ε) → Prop
  | .nest, n, ds => ∀ d, ds = [d] → (¬ ∃ t, d = .text t) ∧ ∀ b, 2 * (write w b d.chars).length ≤ 3 * n
  | .head _, n, ds => ∀ d, ds = [d] → 2 * (write w true d.chars).length ≤ 3 * n
  | .forms _ _, n, ds => 2 * (writeSource w (ds.map Datum.chars)).length ≤ 3 * n

theorem writeSource_nest {cc : Classifier} (w : Pens cc) {d : Datum (List (Item P)) ε} (h : ¬ ∃ t, d = .text t) :
    writeSource w [d.chars] = write w false d.chars := by
  cases d with
  | text t => exact absurd ⟨t, rfl⟩ h
  | _ => simp [writeSource, Datum.chars, Datum.mapText]

theorem Gram.bound {cc : Classifier} (w : Pens cc) {cat : Cat} {s : List (Item P)} {ds : List (Datum (List (Item P)) ε)}
    (h : Gram cc cat s ds) : CatBound w cat s.length ds := by
  induction h with
  | nil => exact Nat.zero_le _
  | @text top s c r ds hs ht _ ih =>
    simp only [CatBound, List.map_cons, List.length_append] at ih ⊢
    rw [writeSource_cons', List.length_append]
    have h1 := writeText_length w ht
    have h2 : writeSource w [Datum.chars (.text c : Datum (List (Item P)) ε)] = writeText w cc.delim (c.map Item.ch) := by
      have := ht.ne_nil hs
      cases c with
      | nil => exact absurd rfl this
      | cons x c => simp [writeSource, Datum.chars, Datum.mapText, write]
    rw [h2]
    omega
  | @form top b s d r ds _ _ ih1 ih2 =>
    obtain ⟨h1, h2⟩ := ih1 d rfl
    have h2 := h2 false
    simp only [CatBound, List.map_cons, List.length_append] at ih2 ⊢
    rw [writeSource_cons', List.length_append, writeSource_nest w h1]
    omega
  | @dangling s c e ht _ =>
    have h1 := writeText_length w ht
    simp only [CatBound, List.map_cons, List.map_nil, List.length_append, List.length_cons, List.length_nil]
    cases c with
    | nil => simp [writeSource, Datum.chars, Datum.mapText]; omega
    | cons x c =>
      have h2 : writeSource w [Datum.chars (.text (x :: c) : Datum (List (Item P)) ε)] = writeText w cc.delim ((x :: c).map Item.ch) := by
        simp [writeSource, Datum.chars, Datum.mapText, write]
      rw [h2]
      omega
  | noHead => exact nofun
  | @textHead ws s c _ _ ht =>
    intro d e
    cases e
    have h1 := writeText_length w ht
    simp only [Datum.chars, Datum.mapText, write, if_true, List.length_append] at h1 ⊢
    omega
  | nestHead _ _ ih =>
    intro d e
    have := (ih d e).2 true
    rw [List.length_append]
    omega
  | emptyNest =>
    intro d e
    cases e
    refine ⟨nofun, fun b => ?_⟩
    simp only [Datum.chars, Datum.mapText, write, List.length_cons, List.length_append, List.length_nil]
    omega
  | @combination b e h k d sep r ds _ _ _ _ _ ih1 ih2 =>
    intro d' e
    cases e
    have h1 := ih1 d rfl
    simp only [CatBound] at ih2
    have h2 := write_listOf_length w (ds.map Datum.chars)
    refine ⟨nofun, fun b => ?_⟩
    have h3 : (Datum.combination d (listOf ds)).chars = .combination d.chars (listOf (ds.map Datum.chars)) := by
      simp only [Datum.chars, Datum.mapText, mapText_listOf]
      rfl
    rw [h3]
    simp only [write, List.length_cons, List.length_append, List.length_nil] at h1 h2 ⊢
    omega

end Kul
