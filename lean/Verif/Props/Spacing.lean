import Verif.Proof.Spacing
import Verif.Props.Grammar
import Verif.Props.Forms

/-!
# C22, C23: whitespace around heads, and escapes

`E` is any conforming parser, as in `Props/Grammar.lean`.
-/

namespace Kul

variable {σ P τ ε α CE : Type} {E : Env σ P τ ε α CE} {RS : σ → Seq P → Prop} {X : TextSem P τ α}

/-! ## C22 -/

theorem itemRel_map_ch' {r₁ : List (Item P)} : List.Forall₂ (ItemRel Eq (fun _ _ => True))
    (unitItems (r₁.map Item.ch)) r₁ := by
  induction r₁ with
  | nil => exact .nil
  | cons it r ih => exact .cons ⟨rfl, trivial⟩ ih

/-- C22, before the head. Two sources that differ only in the amount of whitespace directly
after unescaped start delimiters give the same results and the same errors, except for
positions. -/
theorem C22_whitespace_before_head (C : Conf E RS X) (D : E.cc.Disjoint)
    (hb : ∀ d, E.lookup d = none) (A : E.alloc.Reliable) (hF : ¬ X.F)
    {s₁ s₂ : σ} {r₁ r₂ : List (Item P)} (hs₁ : RS s₁ ⟨[], r₁⟩) (hs₂ : RS s₂ ⟨[], r₂⟩)
    (h : HeadSpaced E.cc (unitItems (r₁.map Item.ch)) (unitItems (r₂.map Item.ch)))
    {a₁ : α} {l₁ t₁} (hy : E.Yields (St.init s₁ a₁) l₁ t₁) (a₂ : α) :
    ∃ l₂ t₂, E.Yields (St.init s₂ a₂) l₂ t₂ ∧
      List.Forall₂ (ResultRel (fun _ _ => True) Eq (DatumRel X.SameChars Eq)) l₁ l₂ := by
  obtain ⟨l, t, hy₁, h1⟩ := C.related_plain
    (E₂ := seqEnv E.cc (freeAlloc (List (Item Unit)) ε Unit) (noBindings _ ε Unit Unit Empty))
    (RC := Eq) (RP := fun _ _ => True) (RE := fun _ _ => False)
    (seqConf _ _ _) (ClassifierSim.eq _) hb (fun _ => rfl) A
    ⟨fun _ _ => ⟨_, rfl, rfl⟩⟩ hF (fun h => h) hs₁ rfl
    (itemRel_map_ch (r₁ := r₁)) () hy
  obtain ⟨s', a', rfl, _, hrun⟩ := (seqConf _ _ _).yields_inv (AtItems.fresh rfl) hy₁
  obtain ⟨r', hrun⟩ := hrun.spaced D (fun h => h) (by intro _ _ h; cases h) h
  obtain ⟨p, hy₂⟩ := hrun.seqYields
  obtain ⟨l₂, t₂, hy₃, h2⟩ := (seqConf _ _ _).related_plain
    (E₁ := seqEnv E.cc (freeAlloc (List (Item Unit)) ε Unit) (noBindings _ ε Unit Unit Empty))
    (RC := Eq) (RP := fun _ _ => True) (RE := fun _ _ => False)
    C (ClassifierSim.eq _) (fun _ => rfl) hb
    ⟨fun _ _ => ⟨_, rfl, rfl⟩⟩ A (fun h => h) hF rfl hs₂
    (itemRel_map_ch' (r₁ := r₂)) a₂ hy₂
  refine ⟨l₂, t₂, hy₃, forall₂_comp (fun _ _ _ h h' => h.comp ?_ ?_ ?_ h') h1 h2⟩
  · exact fun _ _ _ _ _ => trivial
  · exact fun _ _ _ h => h.elim
  · refine fun _ _ _ h h' => h.comp ?_ h'
    rintro t u v ⟨c, e, hc, he, hce⟩ ⟨c', e', hc', he', hce'⟩
    cases he
    cases hc'
    exact ⟨_, ⟨c, hc, rfl⟩, ⟨e', he', by rw [← itemRel_chars hce', ← itemRel_chars hce]⟩⟩

/-- C22, after the head. After a head exactly one whitespace character is dropped: if
`rest` is written as operands that mean `ds`, then the nest with any whitespace, head
text, one whitespace character and `rest` is the combination of the head with `ds`. -/
theorem C22_one_whitespace_after_head (C : Conf E RS X) (D : E.cc.Disjoint)
    (hb : ∀ d, E.lookup d = none) (A : E.alloc.Reliable) (hF : ¬ X.F) {b w e : Item P}
    {ws h c rest : List (Item P)} {ds : List (Datum (List (Item P)) ε)}
    (hstart : E.cc.isNestStart b.ch = true) (hend : E.cc.isNestEnd e.ch = true)
    (hws : AllWs E.cc ws) (hh : h ≠ []) (hc : TextOf E.cc E.cc.headDelim h c)
    (hw : E.cc.isWhitespace w.ch = true) (hds : Gram E.cc (.forms false false) rest ds)
    {s : σ} (hs : RS s ⟨[], b :: (ws ++ h ++ w :: rest ++ [e])⟩) (a : α) :
    ∃ d t, E.Yields (St.init s a) [.ok d] t ∧
      DatumRel X.RT Eq d (.combination (.text c) (listOf ds)) := by
  have hg : Written E.cc (b :: (ws ++ h ++ w :: rest ++ [e])) [.combination (.text c) (listOf ds)] := by
    have h1 := Gram.combination hstart hend (Gram.textHead hws hh hc) (Sep.one (r := rest) hw) hds
    have h2 := Gram.form (top := true) (b := false) h1 .nil
    simpa [Written, listOf] using h2
  obtain ⟨ds', t, h1, h2⟩ := C03_written_is_accepted C D hb A hF hs a hg
  cases h2 with
  | cons h2 h3 => cases h3; exact ⟨_, t, h1, h2⟩

/-- C22, after the head, for a text: all whitespace but the first character is part of
the operands text. -/
theorem C22_further_whitespace_kept (C : Conf E RS X) (D : E.cc.Disjoint)
    (hb : ∀ d, E.lookup d = none) (A : E.alloc.Reliable) (hF : ¬ X.F) {b w e : Item P}
    {h ws : List (Item P)} (hstart : E.cc.isNestStart b.ch = true)
    (hend : E.cc.isNestEnd e.ch = true) (hh : h ≠ [])
    (hc : ∀ it ∈ h, E.cc.headDelim it.ch = false ∧ E.cc.isNestEscape it.ch = false)
    (hw : E.cc.isWhitespace w.ch = true) (hne : ws ≠ []) (hws : AllWs E.cc ws)
    {s : σ} (hs : RS s ⟨[], b :: (h ++ w :: ws ++ [e])⟩) (a : α) :
    ∃ d t, E.Yields (St.init s a) [.ok d] t ∧
      DatumRel X.RT Eq d (.combination (.text h) (listOf [.text ws])) := by
  have key : ∀ (stop : Char → Bool) (l : List (Item P)),
      (∀ it ∈ l, stop it.ch = false ∧ E.cc.isNestEscape it.ch = false) → TextOf E.cc stop l l := by
    intro stop l hl
    induction l with
    | nil => exact .nil
    | cons it l ih =>
      obtain ⟨h1, h2⟩ := hl it (by simp)
      exact .plain h1 h2 (ih fun i hi => hl i (by simp [hi]))
  have hwsText : TextOf E.cc E.cc.delim ws ws := by
    refine key _ _ fun it hit => ?_
    have h1 := hws it hit
    have h2 : ∀ p : Char → Bool, (p it.ch = true → E.cc.isWhitespace it.ch = false) → p it.ch = false := by
      intro p hp
      cases h : p it.ch with
      | false => rfl
      | true => rw [hp h] at h1; cases h1
    exact ⟨by simp [Classifier.delim, h2 _ (D.start_ws _), h2 _ (D.end_ws _)], h2 _ (D.esc_ws _)⟩
  have hg : Gram (ε := ε) E.cc (.forms false false) ws [.text ws] := by
    have := Gram.text (ε := ε) (top := false) hne hwsText (.nil)
    rwa [List.append_nil] at this
  exact C22_one_whitespace_after_head C D hb A hF (ws := []) hstart hend (by intro _ h; cases h) hh
    (key _ _ hc) hw hg hs a

/-! ## C23 -/

theorem TextOf.head_plain {cc : Classifier} (D : cc.Disjoint) {it : Item P} {r c : List (Item P)}
    (h : TextOf cc cc.delim (it :: r) c) : cc.isNestStart it.ch = false ∧ cc.isNestEnd it.ch = false := by
  have hd : cc.delim it.ch = false := by
    cases h with
    | plain h => exact h
    | escaped h1 => exact stop_not_esc D h1 (m := .base)
  simpa [Classifier.delim] using hd

/-- C23, text outside head position: whatever is written with escapes is read back, items
and all; whatever the bindings and the datum allocator. `TextOf` lets any character be escaped,
and requires it only for delimiters and escape characters. -/
theorem C23_escaped_text (C : Conf E RS X) (D : E.cc.Disjoint) (hF : ¬ X.F) {r c : List (Item P)}
    (hne : r ≠ []) (hr : TextOf E.cc E.cc.delim r c) {s : σ} (hs : RS s ⟨[], r⟩) (a : α) :
    ∃ txt t, E.Yields (St.init s a) [.ok (.text txt)] t ∧ X.RT txt c := by
  cases r with
  | nil => exact absurd rfl hne
  | cons it r =>
    have hsc := scanText_of_textOf D (m := .base) (top := true) (by simp) hr (rest := []) (fun _ h => by cases h)
    rw [List.append_nil] at hsc
    obtain ⟨txt, t, h1, h2⟩ := one_text_yields C hF hs a (hr.head_plain D).1 (hr.head_plain D).2 hsc
    exact ⟨txt, t, h2, h1⟩

/-- C23, text in head position, where whitespace must be escaped too. -/
theorem C23_escaped_head (C : Conf E RS X) (D : E.cc.Disjoint)
    (hb : ∀ d, E.lookup d = none) (A : E.alloc.Reliable) (hF : ¬ X.F) {b e : Item P}
    {r c : List (Item P)} (hstart : E.cc.isNestStart b.ch = true)
    (hend : E.cc.isNestEnd e.ch = true) (hne : r ≠ []) (hr : TextOf E.cc E.cc.headDelim r c)
    {s : σ} (hs : RS s ⟨[], b :: (r ++ [e])⟩) (a : α) :
    ∃ txt t, E.Yields (St.init s a) [.ok (.combination (.text txt) .emptyList)] t ∧ X.RT txt c := by
  have hg : Written (ε := ε) E.cc (b :: (r ++ [e])) [.combination (.text c) .emptyList] := by
    have h1 := Gram.combination (ε := ε) hstart hend
      (Gram.textHead (ws := []) (by intro _ h; cases h) hne hr) Sep.empty .nil
    have h2 := Gram.form (top := true) (b := false) h1 .nil
    simpa [Written, listOf] using h2
  obtain ⟨ds', t, h1, h2⟩ := C03_written_is_accepted C D hb A hF hs a hg
  cases h2 with
  | cons h2 h3 =>
    cases h3
    cases h2 with
    | combination h2 h3 => cases h2 with | text h2 => cases h3; exact ⟨_, t, h1, h2⟩

theorem TextOf.of_chars {cc : Classifier} {stop : Char → Bool} {u v : List (Item Unit)} (h : TextOf cc stop u v) :
    ∀ (r : List (Item P)) (cs : List Char), u = unitItems (r.map Item.ch) → v = unitItems cs →
      ∃ c, TextOf cc stop r c ∧ c.map Item.ch = cs := by
  induction h with
  | nil =>
    rintro r cs h1 h2
    cases r with
    | cons => cases h1
    | nil =>
      cases cs with
      | cons => cases h2
      | nil => exact ⟨[], .nil, rfl⟩
  | plain h h' _ ih =>
    rintro r cs h1 h2
    cases r with
    | nil => cases h1
    | cons it r =>
      cases cs with
      | nil => cases h2
      | cons ch cs =>
        simp only [unitItems, List.map_cons, List.cons.injEq] at h1 h2
        obtain ⟨c, h3, h4⟩ := ih r cs h1.2 h2.2
        have e1 := h1.1
        have e2 := h2.1
        subst e1
        cases e2
        exact ⟨it :: c, .plain h h' h3, by simp [h4]⟩
  | escaped h _ ih =>
    rintro r cs h1 h2
    match r, h1 with
    | it :: it' :: r, h1 =>
      cases cs with
      | nil => cases h2
      | cons ch cs =>
        simp only [unitItems, List.map_cons, List.cons.injEq] at h1 h2
        obtain ⟨e1, e2, h1⟩ := h1
        obtain ⟨c, h3, h4⟩ := ih r cs h1 h2.2
        have e3 := h2.1
        subst e1 e2
        cases e3
        exact ⟨it' :: c, .escaped h h3, by simp [h4]⟩

/-- C23 in terms of characters: any characters at all, escaped by `writeText`, come back. -/
theorem C23_any_text (C : Conf E RS X) (D : E.cc.Disjoint) (hF : ¬ X.F) (w : Pens E.cc)
    {cs : List Char} (hne : cs ≠ []) {r : List (Item P)}
    (hr : r.map Item.ch = writeText w E.cc.delim cs) {s : σ} (hs : RS s ⟨[], r⟩) (a : α) :
    ∃ txt t, E.Yields (St.init s a) [.ok (.text txt)] t ∧ X.HasChars txt cs := by
  obtain ⟨c, h1, h2⟩ := (writeText_textOf w E.cc.delim cs).of_chars r cs (by rw [hr]) rfl
  have hne' : r ≠ [] := by
    rintro rfl
    exact writeText_ne_nil w E.cc.delim hne (by rw [← hr]; rfl)
  obtain ⟨txt, t, h3, h4⟩ := C23_escaped_text C D hF hne' h1 hs a
  exact ⟨txt, t, h3, c, h4, h2⟩

/-- C23, last part: an escape character at the very end of the source is dropped. The text
before it is yielded as without it; if there is none, an empty text is yielded. -/
theorem C23_dangling_escape (C : Conf E RS X) (D : E.cc.Disjoint) (hF : ¬ X.F) {e : Item P}
    {r c : List (Item P)} (he : E.cc.isNestEscape e.ch = true) (hr : TextOf E.cc E.cc.delim r c)
    {s : σ} (hs : RS s ⟨[], r ++ [e]⟩) (a : α) :
    ∃ txt t, E.Yields (St.init s a) [.ok (.text txt)] t ∧ X.RT txt c := by
  have hsc := scanText_of_dangling D (m := .base) (top := true) (by simp) hr he
  have key : ∀ {r' : List (Item P)}, r' = r ++ [e] → RS s ⟨[], r'⟩ →
      scanText E.cc .base true 0 r' = .ok c [] → ∃ txt t, E.Yields (St.init s a) [.ok (.text txt)] t ∧ X.RT txt c := by
    intro r' hr' hs hsc
    cases r' with
    | nil => simp at hr'
    | cons it r' =>
      have hit : E.cc.isNestStart it.ch = false ∧ E.cc.isNestEnd it.ch = false := by
        cases r with
        | nil => cases hr'; exact delim_false (stop_not_esc D he (m := .base))
        | cons it' r => cases hr'; exact hr.head_plain D
      obtain ⟨txt, t, h1, h2⟩ := one_text_yields C hF hs a hit.1 hit.2 hsc
      exact ⟨txt, t, h2, h1⟩
  exact key rfl hs hsc

/-! ## Non-vacuity -/

/-- C22: `x{a b{c}}\{ d}` and `x{  a b{ c}}\{ d}`, with an unbalanced end and an escaped
start. -/
example : HeadSpaced defaultClassifier (unitItems "x{a b{c}}\\{ d}".toList)
    (unitItems "x{  a b{ c}}\\{ d}".toList) := by
  have ws : ∀ n, AllWs defaultClassifier (unitItems (List.replicate n ' ')) := by
    intro n it hit
    simp only [unitItems, List.map_replicate, List.mem_replicate] at hit
    rw [hit.2]; decide
  refine .plain (by decide) (.start (ws := unitItems (List.replicate 0 ' '))
    (ws₂ := unitItems (List.replicate 2 ' ')) (by decide) (ws 0) (ws 2) ?_)
  refine .plain (by decide) (.plain (by decide) (.plain (by decide) (.start
    (ws := unitItems (List.replicate 0 ' ')) (ws₂ := unitItems (List.replicate 1 ' '))
    (by decide) (ws 0) (ws 1) ?_)))
  refine .plain (by decide) (.plain (by decide) (.plain (by decide) (.escaped (by decide) ?_)))
  exact .plain (by decide) (.plain (by decide) (.plain (by decide) .nil))

/-- C23: the content of `a\{\\b` is `a{\b`. -/
example : TextOf defaultClassifier defaultClassifier.delim (unitItems "a\\{\\\\b".toList)
    (unitItems "a{\\b".toList) :=
  .plain (by decide) (by decide) (.escaped (by decide) (.escaped (by decide)
    (.plain (by decide) (by decide) .nil)))

end Kul
