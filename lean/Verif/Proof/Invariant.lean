import Verif.Spec.Invariant
import Verif.Proof.Local
import Verif.Proof.Mono

/-! # What the parser passes on has every property that texts of the source have and combiners keep -/

namespace Kul

variable {σ P τ ε α CE : Type} {cc : Classifier} {X : TextSem P τ α} {al : AllocOps τ ε α}
  {lookup : Datum τ ε → Option (Combiner τ ε α P CE)}

/-- What a text is made of. -/
def TextRes.From (cc : Classifier) (r : List (Item P)) : TextRes P → Prop
  | .ok c r' => ∃ u, r = u ++ r' ∧ c.Sublist u
  | .missing => True
  | .unbalanced p r' => ∃ u it, r = u ++ it :: r' ∧ cc.isNestEnd it.ch = true ∧ it.pos = p

theorem TextRes.From.cons {r : List (Item P)} {t : TextRes P} (h : t.From cc r) (it : Item P) :
    (t.cons it).From cc (it :: r) := by
  cases t with
  | ok c r' => obtain ⟨u, rfl, h⟩ := h; exact ⟨it :: u, rfl, h.cons_cons it⟩
  | missing => trivial
  | unbalanced p r' => obtain ⟨u, x, rfl, h⟩ := h; exact ⟨it :: u, x, rfl, h⟩

theorem TextRes.From.skip {r : List (Item P)} {t : TextRes P} (h : t.From cc r) (it : Item P) :
    t.From cc (it :: r) := by
  cases t with
  | ok c r' => obtain ⟨u, rfl, h⟩ := h; exact ⟨it :: u, rfl, h.cons it⟩
  | missing => trivial
  | unbalanced p r' => obtain ⟨u, x, rfl, h⟩ := h; exact ⟨it :: u, x, rfl, h⟩

theorem scanText_from (m : Mode) (top : Bool) (r : List (Item P)) :
    ∀ nl, (scanText cc m top nl r).From cc r := by
  induction h : r.length using Nat.strongRecOn generalizing r with
  | ind n ih =>
    intro nl
    subst h
    match r with
    | [] =>
      unfold scanText
      split
      · exact ⟨[], rfl, .slnil⟩
      · trivial
    | it :: r =>
      rw [scanText_cons]
      split
      · exact ⟨[], rfl, .slnil⟩
      · split
        · match r with
          | [] =>
            simp only
            split
            · exact ⟨[it], rfl, List.nil_sublist _⟩
            · trivial
          | x :: r' =>
            simp only
            exact ((ih r'.length (by simp; omega) r' rfl nl).cons x).skip it
        · split
          · exact (ih r.length (by simp) r rfl _).cons it
          · split
            · rename_i hend
              split
              · exact (ih r.length (by simp) r rfl _).cons it
              · split
                · exact ⟨[], it, rfl, hend, rfl⟩
                · exact ⟨[], rfl, .slnil⟩
            · exact (ih r.length (by simp) r rfl _).cons it

/-- What is consumed between `r` and `r'` is part of `u`. -/
def Consumes (u r r' : List (Item P)) : Prop := ∃ v, r = v ++ r' ∧ v.Sublist u

theorem Consumes.sub {u r r' r₁ r₂ : List (Item P)} (h : Consumes u r r') (h₁ : r₁ <:+ r) (h₂ : r₂ <:+ r₁)
    (h₃ : r' <:+ r₂) : Consumes u r₁ r₂ := by
  obtain ⟨v, rfl, hv⟩ := h
  obtain ⟨x, hx⟩ := h₁
  obtain ⟨y, rfl⟩ := h₂
  obtain ⟨z, rfl⟩ := h₃
  refine ⟨y, rfl, ?_⟩
  have : v = x ++ y ++ z := by
    rw [← List.append_assoc, ← List.append_assoc] at hx
    exact (List.append_cancel_right hx).symm
  rw [this] at hv
  exact ((List.sublist_append_right x y).trans (List.sublist_append_left _ z)).trans hv

section

variable {QT : τ → Prop} {QX : ε → Prop} {QE : Err P CE → Prop} {I : α → Prop}

theorem Datum.All.mkList {ds : List (Datum τ ε)} (h : ∀ d ∈ ds, d.All QT QX) : (mkList ds).All QT QX := by
  induction ds with
  | nil => exact .emptyList
  | cons d ds ih => exact .list (h d (by simp)) (ih fun x hx => h x (by simp [hx]))

/-- The outcome of a job is in order. -/
def Fine (cc : Classifier) (X : TextSem P τ α) (al : AllocOps τ ε α) (QT : τ → Prop) (QX : ε → Prop)
    (QE : Err P CE → Prop) (I : α → Prop) (u : List (Item P)) (o : Except (Err P CE) (List (Datum τ ε))) (a' : α) :
    Prop :=
  I a' ∧ (∀ ds, o = .ok ds → ∀ d ∈ ds, d.All QT QX) ∧ ∀ e, o = .error e → ParserError cc X.F al u e ∨ QE e

theorem Fine.missing {u : List (Item P)} {a' : α} (h : I a') :
    Fine (CE := CE) cc X al QT QX QE I u (.error .missingEndChar) a' :=
  ⟨h, by rintro _ ⟨⟩, by rintro _ ⟨⟩; exact .inl (.inl rfl)⟩

theorem Fine.nil {u : List (Item P)} {a' : α} (h : I a') : Fine (CE := CE) cc X al QT QX QE I u (.ok []) a' :=
  ⟨h, (by rintro _ ⟨⟩ d hd; cases hd), by rintro _ ⟨⟩⟩

theorem Fine.one {u : List (Item P)} {a' : α} (h : I a') {d : Datum τ ε} (hd : d.All QT QX) :
    Fine (CE := CE) cc X al QT QX QE I u (.ok [d]) a' :=
  ⟨h, (by rintro _ ⟨⟩ x hx; rw [List.mem_singleton.mp hx]; exact hd), by rintro _ ⟨⟩⟩

theorem Fine.unbalanced {u r r' : List (Item P)} {a' : α} (h : I a') {it : Item P} (hw : Consumes u r r')
    {v : List (Item P)} (hr : r = v ++ it :: r') (hit : cc.isNestEnd it.ch = true) :
    Fine (CE := CE) cc X al QT QX QE I u (.error (.unbalancedEndChar it.pos)) a' := by
  refine ⟨h, by rintro _ ⟨⟩, ?_⟩
  rintro _ ⟨⟩
  obtain ⟨w, rfl, hw⟩ := hw
  have : w = v ++ [it] := by
    apply List.append_cancel_right (bs := r')
    rw [hr]; simp
  exact .inl (.inr (.inl ⟨it, hw.subset (by rw [this]; simp), hit, rfl⟩))

theorem InOrder.fine {u : List (Item P)} {x : Except (Err P CE) (Option (Datum τ ε)) × α}
    (h : InOrder (Datum.All QT QX) QE I x) : Fine cc X al QT QX QE I u (optRes x.1) x.2 := by
  obtain ⟨h1, h2, h3⟩ := h
  match hx : x.1 with
  | .ok none => exact .nil h3
  | .ok (some d) => exact .one h3 (h1 d hx)
  | .error e => exact ⟨h3, (by rintro _ ⟨⟩), by rintro _ ⟨⟩; exact .inr (h2 e hx)⟩

theorem Keeps.cell (K : Keeps X al lookup QT QX QE I) {d : Datum τ ε} (hd : d.All QT QX) {a : α} (ha : I a) {o a'}
    (h : allocCell (P := P) (CE := CE) al d a = (o, a')) : I a' ∧ ∀ e, o = .error e → MemoryError X.F al e := by
  unfold allocCell at h
  have h1 := K.alloc d a hd ha
  rcases h3 : al.newDatum d a with ⟨e | v, b⟩ <;> rw [h3] at h1 h <;> simp only at h1 h
  · cases h
    exact ⟨h1, by rintro _ ⟨⟩; exact .inl ⟨⟨_, rfl⟩, .inr ⟨_, _, _, _, h3⟩⟩⟩
  have h2 := K.alloc .emptyList b .emptyList h1
  rcases h4 : al.newDatum .emptyList b with ⟨e | v, c⟩ <;> rw [h4] at h2 h <;> simp only at h2 h
  · cases h
    exact ⟨h2, by rintro _ ⟨⟩; exact .inl ⟨⟨_, rfl⟩, .inr ⟨_, _, _, _, h4⟩⟩⟩
  · split at h <;> cases h
    · exact ⟨h2, by rintro _ ⟨⟩⟩
    · rename_i hm
      exact ⟨h2, by rintro _ ⟨⟩; exact .inr ⟨rfl, _, _, _, h4, by simpa using hm⟩⟩

theorem Keeps.comb (K : Keeps X al lookup QT QX QE I) {d l : Datum τ ε} (hd : d.All QT QX) (hl : l.All QT QX) {a : α}
    (ha : I a) {o a'} (h : allocComb (P := P) (CE := CE) al d l a = (o, a')) (u : List (Item P)) :
    Fine cc X al QT QX QE I u o a' := by
  unfold allocComb at h
  have h1 := K.alloc d a hd ha
  rcases h3 : al.newDatum d a with ⟨e | v, b⟩ <;> rw [h3] at h1 h <;> simp only at h1 h
  · cases h
    exact ⟨h1, (by rintro _ ⟨⟩), by rintro _ ⟨⟩; exact .inl (.inr (.inr (.inl ⟨⟨_, rfl⟩, .inr ⟨_, _, _, _, h3⟩⟩)))⟩
  have h2 := K.alloc l b hl h1
  rcases h4 : al.newDatum l b with ⟨e | v, c⟩ <;> rw [h4] at h2 h <;> simp only at h2 h
  · cases h
    exact ⟨h2, (by rintro _ ⟨⟩), by rintro _ ⟨⟩; exact .inl (.inr (.inr (.inl ⟨⟨_, rfl⟩, .inr ⟨_, _, _, _, h4⟩⟩)))⟩
  · cases h
    exact .one h2 (.combination hd hl)

theorem TextEv.fine (K : Keeps X al lookup QT QX QE I) {u : List (Item P)}
    (hT : ∀ t c, X.RT t c → c.Sublist u → QT t) {m : Mode} {top : Bool} {r r' : List (Item P)} {a a' : α}
    {o : Except (Err P CE) τ} (h : TextEv cc X m top r a o r' a') (hw : Consumes u r r') (ha : I a) :
    I a' ∧ (∀ t, o = .ok t → QT t) ∧
      ∀ e, o = .error e → ParserError cc X.F al u e ∨ QE e := by
  refine ⟨K.text _ _ h.1 ha, ?_⟩
  have hf := scanText_from (cc := cc) m top r 0
  rcases h.2 with ⟨t, c, rfl, h2, h3⟩ | ⟨rfl, h2, rfl⟩ | ⟨p, rfl, h2⟩ | ⟨hF, ⟨e, rfl⟩, h2, _⟩
  · rw [h2] at hf
    obtain ⟨v, rfl, hv⟩ := hf
    obtain ⟨w, hw1, hw2⟩ := hw
    cases List.append_cancel_right hw1
    exact ⟨by rintro _ ⟨⟩; exact hT t c h3 (hv.trans hw2), by rintro _ ⟨⟩⟩
  · exact ⟨by rintro _ ⟨⟩, by rintro _ ⟨⟩; exact .inl (.inl rfl)⟩
  · rw [h2] at hf
    obtain ⟨v, it, hv, hit, rfl⟩ := hf
    exact ⟨by rintro _ ⟨⟩, by
      rintro _ ⟨⟩
      exact (Fine.unbalanced (QT := QT) (QX := QX) (al := al) (X := X) (QE := QE) (K.text _ _ h.1 ha) hw hv hit).2.2 _ rfl⟩
  · exact ⟨by rintro _ ⟨⟩, by rintro _ ⟨⟩; exact .inl (.inr (.inr (.inl ⟨⟨_, rfl⟩, .inl hF⟩)))⟩

theorem Eval.fine (K : Keeps X al lookup QT QX QE I) {u : List (Item P)}
    (hT : ∀ t c, X.RT t c → c.Sublist u → QT t) {j r a o r' a'} (h : Eval cc X al lookup j r a o r' a') :
    Consumes u r r' → I a → Fine cc X al QT QX QE I u o a' := by
  induction h with
  | next_eof h1 ho =>
    intro _ ha
    rcases eofForm_cases ho with ⟨_, rfl⟩ | ⟨_, rfl⟩
    · exact .nil ha
    · exact .missing ha
  | next_nest h1 _ h3 _ ih =>
    intro hw ha
    exact ih (hw.sub (h1 ▸ lead_suffix _ _) h3.suffix List.suffix_rfl) ha
  | next_removed h1 _ h3 h4 ih1 ih2 =>
    intro hw ha
    have hl : _ <:+ _ := h1 ▸ lead_suffix (cc := cc) _ _
    have h5 := ih1 (hw.sub hl h3.suffix h4.suffix) ha
    exact ih2 (hw.sub (h3.suffix.trans hl) h4.suffix List.suffix_rfl) h5.1
  | @next_end m d r a it r1 o r' h1 _ h3 ho =>
    intro hw ha
    rcases endForm_cases ho with ⟨_, rfl, rfl⟩ | ⟨_, rfl, rfl⟩
    · exact Fine.unbalanced ha (hw.sub (h1 ▸ lead_suffix _ _) (List.suffix_cons it r') List.suffix_rfl) (v := []) rfl h3
    · exact .nil ha
  | next_text h1 _ _ ho =>
    intro hw ha
    obtain ⟨o', ho'⟩ := ho.ev
    have hw' := hw.sub (h1 ▸ lead_suffix (cc := cc) _ _) ho'.suffix List.suffix_rfl
    rcases ho with ⟨t, ht, rfl⟩ | ⟨e, ht, rfl⟩
    · obtain ⟨h4, h5, _⟩ := ht.fine K hT hw' ha
      exact .one h4 (.text (h5 t rfl))
    · obtain ⟨h4, _, h5⟩ := ht.fine K hT hw' ha
      exact ⟨h4, (by rintro _ ⟨⟩), by rintro _ ⟨⟩; exact h5 _ rfl⟩
  | nested_head_err h1 ih =>
    intro hw ha
    exact ih (hw.sub (List.suffix_cons _ _) h1.suffix List.suffix_rfl) ha
  | @nested_empty d it r a r1 a1 o r' h1 ho ih =>
    intro hw ha
    have hs : r' <:+ dropSep cc r1 := by
      rcases finishEmpty_cases ho with ⟨_, _, rfl⟩ | ⟨e, he, _⟩
      · exact List.nil_suffix
      · exact he ▸ List.suffix_cons _ _
    have h2 := ih (hw.sub (List.suffix_cons _ _) h1.suffix (hs.trans (dropSep_suffix _))) ha
    rcases finishEmpty_cases ho with ⟨_, rfl, _⟩ | ⟨_, _, rfl⟩
    · exact .missing h2.1
    · exact .one h2.1 .emptyNest
  | @nested_operative d it r a h r1 a1 f o r' a' h1 h2 ho ih =>
    intro hw ha
    have hs := ho.suffix
    have h3 := ih (hw.sub (List.suffix_cons _ _) h1.suffix (hs.trans (dropSep_suffix _))) ha
    have hh := h3.2.1 _ rfl h (by simp)
    have hr : dropSep cc r1 <:+ it :: r := ((dropSep_suffix r1).trans h1.suffix).trans (List.suffix_cons _ _)
    rcases ho with ⟨t, e, a2, ht, rfl, rfl⟩ | ⟨t, ht, rfl, rfl⟩ | ⟨e, ht, rfl⟩
    · obtain ⟨h4, h5, _⟩ := ht.fine K hT (hw.sub hr ht.suffix (List.suffix_cons _ _)) h3.1
      exact (K.operative h f t a2 h2 hh (h5 t rfl) h4).fine
    · exact .missing (K.text _ _ ht.1 h3.1)
    · obtain ⟨h4, _, h5⟩ := ht.fine K hT (hw.sub hr ht.suffix List.suffix_rfl) h3.1
      exact ⟨h4, (by rintro _ ⟨⟩), by rintro _ ⟨⟩; exact h5 _ rfl⟩
  | @nested_args_err d it r a h r1 a1 c e r' a' h1 h2 h3 ih1 ih2 =>
    intro hw ha
    have h4 := ih1 (hw.sub (List.suffix_cons _ _) h1.suffix (h3.suffix.trans (dropSep_suffix _))) ha
    exact ih2 (hw.sub (((dropSep_suffix r1).trans h1.suffix).trans (List.suffix_cons _ _)) h3.suffix List.suffix_rfl) h4.1
  | @nested_args d it r a h r1 a1 c ds r2 a2 o r' a' h1 h2 h3 ho ih1 ih2 =>
    intro hw ha
    have hs := finishNest_suffix ho
    have h4 := ih1 (hw.sub (List.suffix_cons _ _) h1.suffix (hs.trans (h3.suffix.trans (dropSep_suffix _)))) ha
    have h5 := ih2 (hw.sub (((dropSep_suffix r1).trans h1.suffix).trans (List.suffix_cons _ _)) h3.suffix hs) h4.1
    have hh := h4.2.1 _ rfl h (by simp)
    have hl := Datum.All.mkList (h5.2.1 _ rfl)
    rcases finishNest_cases ho with ⟨rfl, rfl, rfl, rfl⟩ | ⟨x, f, rfl, rfl, rfl, rfl⟩ | ⟨x, rfl, rfl, ho', ho''⟩
    · exact .missing h5.1
    · cases h2 with
      | applicative h2 => exact (K.applicative h f _ a2 h2 hh hl h5.1).fine
    · exact K.comb hh hl h5.1 (Prod.ext ho'.symm ho''.symm) u
  | all_err h1 ih => exact ih
  | all_nil h1 ih => exact ih
  | @all_alloc_err d r a x r1 a1 e a2 h1 h2 ih =>
    intro hw ha
    have h3 := ih hw ha
    have h4 := K.cell (h3.2.1 _ rfl x (by simp)) h3.1 h2
    exact ⟨h4.1, (by rintro _ ⟨⟩), by rintro _ ⟨⟩; exact .inl (.inr (.inr (h4.2 _ rfl)))⟩
  | @all_cons_err d r a x r1 a1 v a2 e r' a' h1 h2 h3 ih1 ih2 =>
    intro hw ha
    have h4 := ih1 (hw.sub List.suffix_rfl h1.suffix h3.suffix) ha
    have h5 := K.cell (h4.2.1 _ rfl x (by simp)) h4.1 h2
    exact ih2 (hw.sub h1.suffix h3.suffix List.suffix_rfl) h5.1
  | @all_cons d r a x r1 a1 v a2 ds r' a' h1 h2 h3 ih1 ih2 =>
    intro hw ha
    have h4 := ih1 (hw.sub List.suffix_rfl h1.suffix h3.suffix) ha
    have h5 := K.cell (h4.2.1 _ rfl x (by simp)) h4.1 h2
    have h6 := ih2 (hw.sub h1.suffix h3.suffix List.suffix_rfl) h5.1
    refine ⟨h6.1, ?_, by rintro _ ⟨⟩⟩
    rintro _ ⟨⟩ y hy
    rcases List.mem_cons.mp hy with rfl | hy
    · exact h4.2.1 _ rfl y (by simp)
    · exact h6.2.1 _ rfl y hy

end

/-! ## Calls and histories of calls -/

variable {E : Env σ P τ ε α CE} {RS : σ → Seq P → Prop} {J : List (Item P) → List (Item P) → Prop}

/-- What a call gives is in order. -/
theorem Eval.call_fine {QT : τ → Prop} {QX : ε → Prop} {QE : Err P CE → Prop} {I : α → Prop}
    (K : Keeps X E.alloc E.lookup QT QX QE I) {u r' : List (Item P)} (hT : ∀ t c, X.RT t c → c.Sublist u → QT t)
    {v : List (Item P)} (hv : v.Sublist u) {a o a'}
    (h : Eval E.cc X E.alloc E.lookup (.next .base 0) (v ++ r') a o r' a') (ha : I a) :
    I a' ∧ (∀ d, optOut o = .ok (some d) → d.All QT QX) ∧
      ∀ e, optOut o = .err e → ParserError E.cc X.F E.alloc u e ∨ QE e := by
  obtain ⟨h1, h2, h3⟩ := h.fine K hT ⟨v, rfl, hv⟩ ha
  refine ⟨h1, ?_, ?_⟩
  · intro d hd
    match o, hd with
    | .ok (x :: l), hd => cases hd; exact h2 _ rfl d (by simp)
  · intro e he
    match o, he with
    | .error e', he => cases he; exact h3 _ rfl

/-- Any history of calls keeps what combiners keep. -/
theorem ConfJ.history {QT : τ → Prop} {QX : ε → Prop} {QE : Err P CE → Prop} {I : α → Prop} (C : ConfJ E RS X J)
    (K : Keeps X E.alloc E.lookup QT QX QE I) {s : σ} {r : List (Item P)} (hs : RS s ⟨[], r⟩)
    (hT : ∀ t c, X.RT t c → c.Sublist r → QT t) {a : α} (ha : I a) {os t} (h : E.Calls (St.init s a) os t) :
    I t.alloc ∧ (∀ d, .ok (some d) ∈ os → d.All QT QX) ∧
      ∀ e, .err e ∈ os → ParserError E.cc X.F E.alloc r e ∨ QE e := by
  suffices H : ∀ {t os t'}, E.Calls t os t' → ∀ {s a r'}, t = ⟨s, a, 0⟩ → AtItems RS s r' → r' <:+ r → I a →
      I t'.alloc ∧ (∀ d, .ok (some d) ∈ os → d.All QT QX) ∧
        ∀ e, .err e ∈ os → ParserError E.cc X.F E.alloc r e ∨ QE e from
    H h rfl (AtItems.fresh hs) List.suffix_rfl ha
  intro t os t' h
  induction h with
  | nil => rintro s a r' rfl _ _ ha; exact ⟨ha, by simp, by simp⟩
  | cons hc _ ih =>
    rintro s a r' rfl hs hr ha
    obtain ⟨x, s₂, r₂, a₂, rfl, rfl, h4, h5⟩ := C.call_inv hs hc
    have hs5 := h5.suffix
    obtain ⟨v, rfl⟩ := hs5
    obtain ⟨h6, h7, h8⟩ := h5.call_fine K hT ((List.sublist_append_left v r₂).trans hr.sublist) ha
    obtain ⟨h9, h10, h11⟩ := ih rfl h4 ((List.suffix_append v r₂).trans hr) h6
    refine ⟨h9, ?_, ?_⟩
    · intro d hd
      rcases List.mem_cons.mp hd with hd | hd
      · exact h7 d hd.symm
      · exact h10 d hd
    · intro e he
      rcases List.mem_cons.mp he with he | he
      · exact h8 e he.symm
      · exact h11 e he

/-- The items of a parse are results of calls. -/
theorem Env.Yields.calls {s : St σ α} {l t} (h : E.Yields s l t) : ∃ os, E.Calls s os t ∧
    (∀ d, .ok d ∈ l → .ok (some d) ∈ os) ∧ ∀ e, .error e ∈ l → .err e ∈ os := by
  induction h with
  | done h => exact ⟨[_], .cons h .nil, by simp, by simp⟩
  | datum h _ ih =>
    obtain ⟨os, h1, h2, h3⟩ := ih
    refine ⟨_ :: os, .cons h h1, ?_, ?_⟩
    · intro d hd
      rcases List.mem_cons.mp hd with hd | hd
      · cases hd; exact .head _
      · exact .tail _ (h2 d hd)
    · intro e he
      rcases List.mem_cons.mp he with he | he
      · cases he
      · exact .tail _ (h3 e he)
  | error h _ ih =>
    obtain ⟨os, h1, h2, h3⟩ := ih
    refine ⟨_ :: os, .cons h h1, ?_, ?_⟩
    · intro d hd
      rcases List.mem_cons.mp hd with hd | hd
      · cases hd
      · exact .tail _ (h2 d hd)
    · intro e he
      rcases List.mem_cons.mp he with he | he
      · cases he; exact .head _
      · exact .tail _ (h3 e he)

/-- A parse without bindings: texts are of items of the source, there are no extras, and errors are of the parser itself. -/
theorem Conf.plain (C : Conf E RS X) (hb : ∀ d, E.lookup d = none) {s : σ} {r : List (Item P)} (hs : RS s ⟨[], r⟩) {a : α}
    {l t} (h : E.Yields (St.init s a) l t) :
    (∀ d, .ok d ∈ l → d.All (fun u => ∃ c, X.RT u c ∧ c.Sublist r) fun _ => False) ∧
      ∀ e, .error e ∈ l → ParserError E.cc X.F E.alloc r e := by
  obtain ⟨os, h1, h2, h3⟩ := h.calls
  have K : Keeps X E.alloc E.lookup (fun u => ∃ c, X.RT u c ∧ c.Sublist r) (fun _ => False) (fun _ => False)
      (fun _ => True) :=
    ⟨fun d f t a h => (by rw [hb] at h; cases h), fun d f t a h => (by rw [hb] at h; cases h), fun _ _ _ _ => trivial,
      fun _ _ _ _ => trivial⟩
  obtain ⟨-, h5, h6⟩ := C.toJ.history K hs (fun t c h1 h2 => ⟨c, h1, h2⟩) trivial h1
  exact ⟨fun d hd => h5 d (h2 d hd), fun e he => (h6 e (h3 e he)).resolve_right id⟩

end Kul
