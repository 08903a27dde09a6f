import Verif.Spec.Positions
import Verif.Props.Streams
import Verif.Spec.Occurs

/-!
# C24, and C25 for parsed texts: positions and slices

What texts found in the results of a parse are made of.
-/

namespace Kul

variable {σ C CS P τ ε α CE : Type}

theorem Datum.Occurs.rel {τ₁ τ₂ : Type} {RT : τ₁ → τ₂ → Prop} {d : Datum τ₁ ε} {d' : Datum τ₂ ε}
    {t : τ₁} (h : d.Occurs t) (hd : DatumRel RT Eq d d') : ∃ u, RT t u ∧ d'.Occurs u := by
  induction h generalizing d' with
  | text => cases hd with | text h => exact ⟨_, h, .text⟩
  | operator _ ih => cases hd with | combination h1 h2 => obtain ⟨u, h3, h4⟩ := ih h1; exact ⟨u, h3, .operator h4⟩
  | operands _ ih => cases hd with | combination h1 h2 => obtain ⟨u, h3, h4⟩ := ih h2; exact ⟨u, h3, .operands h4⟩
  | elem _ ih => cases hd with | list h1 h2 => obtain ⟨u, h3, h4⟩ := ih h1; exact ⟨u, h3, .elem h4⟩
  | next _ ih => cases hd with | list h1 h2 => obtain ⟨u, h3, h4⟩ := ih h2; exact ⟨u, h3, .next h4⟩

theorem Datum.Occurs.sublist {A : Type} {c : List A} {d : Datum (List A) ε} (h : d.Occurs c) :
    c.Sublist d.texts := by
  induction h with
  | text => exact List.Sublist.refl _
  | operator _ ih => exact ih.trans (List.sublist_append_left _ _)
  | operands _ ih => exact ih.trans (List.sublist_append_right _ _)
  | elem _ ih => exact ih.trans (List.sublist_append_left _ _)
  | next _ ih => exact ih.trans (List.sublist_append_right _ _)

/-- Every text in the results of a parse without bindings consists of items of the source,
in order. -/
theorem Conf.text_items {E : Env σ P τ ε α CE} {RS : σ → Seq P → Prop} {X : TextSem P τ α}
    (K : Conf E RS X) (hb : ∀ d, E.lookup d = none) {s : σ}
    {r : List (Item P)} (hs : RS s ⟨[], r⟩) {a : α} {l t} (hy : E.Yields (St.init s a) l t)
    {d : Datum τ ε} (hd : .ok d ∈ l) {u : τ} (hu : d.Occurs u) :
    ∃ c, X.RT u c ∧ c.Sublist r := by
  have h := (K.plain hb hs hy).1 d hd
  clear hd
  induction hu with
  | text => cases h with | text h => exact h
  | operator _ ih => cases h with | combination h1 h2 => exact ih h1
  | operands _ ih => cases h with | combination h1 h2 => exact ih h2
  | elem _ ih => cases h with | list h1 h2 => exact ih h1
  | next _ ih => cases h with | list h1 h2 => exact ih h2

/-! ## C25 -/

/-- C25. Every text in the result of a parse without bindings can be iterated, and (with
`C25_texts_can_be_parsed`) parsing it is parsing the items `c` it consists of, which are items of
the source. -/
theorem C25_parsed_texts {O : ChunkOps C CS P} {RC : C → List (Item P) → Prop} {RCS : CS → Seq P → Prop}
    {T : TextType C τ α} {RA : α → α → Prop} {F : Prop} (H : ChunkConf O RC RCS) (K : TextConf T RC RA F)
    {cc al lookup} (hb : ∀ d, lookup d = none) {cs : List C}
    {ls : List (List (Item P))} (hc : List.Forall₂ RC cs ls) {a : α} {l t}
    (hy : (textEnv (ε := ε) (CE := CE) O T cc al lookup).Yields (St.init (.ofChunks O cs) a) l t)
    {d : Datum τ ε} (hd : .ok d ∈ l) {u : τ} (hu : d.Occurs u) :
    ∃ c cs', T.chunks u = .ok cs' ∧ T.Means RC u c ∧ c.Sublist ls.flatten ∧
      TextIter.Means T RC RCS (.ofChunks O cs') ⟨[], c⟩ := by
  obtain ⟨c, h1, h2⟩ := (textEnv_conf H K).text_items hb (TextIter.ofChunks_means H hc) hy hd hu
  obtain ⟨cs', ls', h3, h4, rfl⟩ := h1
  exact ⟨_, cs', h3, ⟨cs', ls', h3, h4, rfl⟩, h2, TextIter.ofChunks_means H h4⟩

/-! ## C24 -/

theorem mem_itemsFrom {P : Type} {adv : P → Char → P} {it : Item P} {s : Str} {p : P}
    (h : it ∈ itemsFrom adv p s) : ∃ pre post, s = pre ++ it.ch :: post ∧ it.pos = advs adv p pre := by
  induction s generalizing p with
  | nil => cases h
  | cons c s ih =>
    rcases List.mem_cons.mp h with rfl | h
    · exact ⟨[], s, rfl, rfl⟩
    · obtain ⟨pre, post, rfl, h2⟩ := ih h
      exact ⟨c :: pre, post, rfl, h2⟩

theorem mem_strItems {it : Item StrPos} {s : Str} (h : it ∈ strItems s) : StandsIn it s := by
  obtain ⟨pre, post, h1, h2⟩ := mem_itemsFrom h
  refine ⟨pre, post, h1, ?_⟩
  rw [h2, advs_strPos]
  simp

theorem PosStr.Means.isSliceOf {c : PosStr} {l : List (Item StrPos)} {s : Str} (h : PosStr.Means c l)
    (hl : ∀ it ∈ l, StandsIn it s) (hne : c.val ≠ []) : IsSliceOf c s := by
  obtain ⟨rfl, pre, post, h1, h2⟩ := h
  cases hv : c.val with
  | nil => exact absurd hv hne
  | cons x v =>
    obtain ⟨pre', post', h3, h4⟩ := hl ⟨x, c.pos⟩ (by rw [hv]; exact .head _)
    simp only at h3 h4
    have hsrc : c.pos.src = s := by rw [h4]
    rw [hsrc] at h1
    have hp : pre = pre' := by
      have e1 : Str.splitAt s (Str.len pre) = some (pre, c.val ++ post) := by
        rw [h1, List.append_assoc]; exact Str.splitAt_append _ _
      have e2 : Str.splitAt s (Str.len pre') = some (pre', x :: post') := by
        rw [h3]; exact Str.splitAt_append _ _
      have : Str.len pre = Str.len pre' := by rw [← h2, h4]
      rw [this, e2] at e1
      simp only [Option.some.injEq, Prod.mk.injEq] at e1
      exact e1.1.symm
    subst hp
    refine ⟨hsrc, ?_, pre, post, h1, h4⟩
    have := Str.slice_mid pre c.val post h2 (j := c.pos.bytePos + Str.len c.val) (by rw [h2])
    rw [h1]; exact this

/-- C24. In the results of parsing the string `s` held in memory (any text type over `PosStr`
that fulfils its contract, any allocator, any classifier, no bindings):
every character of every text carries the character index and byte offset at which it stands in
`s`; every non-empty chunk is exactly the sub-slice of `s` at its position; and
`UnbalancedEndChar` carries the exact position of an end delimiter. -/
theorem C24_positions_exact {T : TextType PosStr τ α} {RA : α → α → Prop} {F : Prop}
    (K : TextConf T PosStr.Means RA F) {cc al lookup} (hb : ∀ d, lookup d = none)
    (s : Str) {a : α} {l t} (hy : (textEnv (ε := ε) (CE := CE) posStrOps T cc al lookup).Yields
      (St.init (.ofChunks posStrOps [.ofStr s]) a) l t) :
    (∀ d, .ok d ∈ l → ∀ u, d.Occurs u → ∃ cs ls, T.chunks u = .ok cs ∧
      List.Forall₂ PosStr.Means cs ls ∧ (∀ it ∈ ls.flatten, StandsIn it s) ∧
      ∀ c ∈ cs, c.val ≠ [] → IsSliceOf c s) ∧
    (∀ p, .error (.unbalancedEndChar p) ∈ l → ∃ ch, cc.isNestEnd ch = true ∧ StandsIn ⟨ch, p⟩ s) := by
  have C := textEnv_conf (cc := cc) (al := al) (lookup := lookup) posStr_conf K
  have hs := strSource_means T s
  constructor
  · intro d hd u hu
    obtain ⟨c, ⟨cs, ls, h1, h2, rfl⟩, h3⟩ := C.text_items hb hs hy hd hu
    have hst : ∀ it ∈ ls.flatten, StandsIn it s := fun it hi => mem_strItems (h3.subset hi)
    refine ⟨cs, ls, h1, h2, hst, ?_⟩
    have : ∀ {cs ls}, List.Forall₂ PosStr.Means cs ls → (∀ it ∈ ls.flatten, StandsIn it s) →
        ∀ c ∈ cs, c.val ≠ [] → IsSliceOf c s := by
      intro cs ls h
      induction h with
      | nil => intro _ c hc; cases hc
      | @cons c l cs ls h _ ih =>
        intro hl c' hc hne
        rcases List.mem_cons.mp hc with rfl | hc
        · exact h.isSliceOf (fun it hi => hl it (by simp [hi])) hne
        · exact ih (fun it hi => hl it (by simp at hi ⊢; exact Or.inr hi)) c' hc hne
    exact this h2 hst
  · intro p hp
    rcases (C.plain hb hs hy).2 _ hp with h | ⟨it, hi, h7, h⟩ | ⟨⟨_, h⟩, _⟩ | ⟨h, _⟩
    · cases h
    · cases h
      exact ⟨it.ch, h7, mem_strItems hi⟩
    · cases h
    · cases h

/-! ## Non-vacuity -/

/-- C24: `λ{é\\}}}`: the text `é}` is in two chunks, and the last `}` is unmatched. -/
example : ∃ t, (inmemEnv (noBindings _ Empty Unit StrPos Empty)).Yields
    (St.init (inmemSource "λ{é\\}}}".toList) ())
    [.ok (.text (.single ⟨['λ'], ⟨"λ{é\\}}}".toList, 0, 0⟩⟩)),
     .ok (.combination (.text (.multi [⟨['é'], ⟨"λ{é\\}}}".toList, 3, 2⟩⟩,
        ⟨['}'], ⟨"λ{é\\}}}".toList, 6, 4⟩⟩])) .emptyList),
     .error (.unbalancedEndChar ⟨"λ{é\\}}}".toList, 8, 6⟩)] t :=
  Env.yields_of' 80 9 (by decide +kernel)

end Kul
