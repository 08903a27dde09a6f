import Verif.Proof.Invariant
import Verif.Props.Bound
import Verif.Props.Iteration
import Verif.Props.Provided

/-!
# C59: invariants of parses with bindings

`QT` is any property that texts made of characters of the source have, whatever subsequence of them;
`QX`, `QE` and `I` are any properties of extras, of errors and of the state that combiners work on. If
combiners keep these properties (`Keeps`: they may rely on being given only what has them), then so does
the parser: everything it returns has them. A combiner that is given anything without `QT` and `QX` may
do anything, also break `I`, so the theorems say as well that combiners are never given such a thing. Nothing
is assumed of the classifier, and the allocator may fail.
-/

namespace Kul

variable {σ P τ ε α CE : Type} {E : Env σ P τ ε α CE} {RS : σ → Seq P → Prop} {X : TextSem P τ α}

/-- C59. One call, after any history: what it consumes is the part `used` of the source, and every property
that texts made of characters of `used` have and that combiners keep is kept by the call. -/
theorem C59_call (C : Conf E RS X) {s : σ} {r : List (Item P)} (hs : RS s ⟨[], r⟩) {a : α} {os t o t'}
    (h : E.Calls (St.init s a) os t) (hd : E.Call t o t') :
    ∃ before used rest, r = before ++ used ++ rest ∧ AtItems RS t.strm (used ++ rest) ∧ AtItems RS t'.strm rest ∧
      ∀ (QT : τ → Prop) (QX : ε → Prop) (QE : Err P CE → Prop) (I : α → Prop),
        Keeps X E.alloc E.lookup QT QX QE I → (∀ t c, X.RT t c → c.Sublist used → QT t) → I t.alloc →
        I t'.alloc ∧ (∀ d, o = .ok (some d) → d.All QT QX) ∧
          ∀ e, o = .err e → ParserError E.cc X.F E.alloc used e ∨ QE e := by
  obtain ⟨s₁, a₁, r₁, rfl, h1, ⟨u, h2⟩, _⟩ := C.calls h rfl (AtItems.fresh hs)
  obtain ⟨x, s₂, r₂, a₂, rfl, rfl, h4, h5⟩ := C.call_inv h1 hd
  obtain ⟨v, rfl⟩ := h5.suffix
  refine ⟨u, v, r₂, by rw [← h2, List.append_assoc], h1, h4, ?_⟩
  intro QT QX QE I K hT ha
  exact h5.call_fine K hT (List.Sublist.refl v) ha

/-- C59. Any history of calls. -/
theorem C59_history {QT : τ → Prop} {QX : ε → Prop} {QE : Err P CE → Prop} {I : α → Prop} (C : Conf E RS X)
    (K : Keeps X E.alloc E.lookup QT QX QE I) {s : σ} {r : List (Item P)} (hs : RS s ⟨[], r⟩)
    (hT : ∀ t c, X.RT t c → c.Sublist r → QT t) {a : α} (ha : I a) {os t} (h : E.Calls (St.init s a) os t) :
    I t.alloc ∧ (∀ d, .ok (some d) ∈ os → d.All QT QX) ∧
      ∀ e, .err e ∈ os → ParserError E.cc X.F E.alloc r e ∨ QE e :=
  C.toJ.history K hs hT ha h

/-- C59. A whole parse. -/
theorem C59_parse {QT : τ → Prop} {QX : ε → Prop} {QE : Err P CE → Prop} {I : α → Prop} (C : Conf E RS X)
    (K : Keeps X E.alloc E.lookup QT QX QE I) {s : σ} {r : List (Item P)} (hs : RS s ⟨[], r⟩)
    (hT : ∀ t c, X.RT t c → c.Sublist r → QT t) {a : α} (ha : I a) {l t} (h : E.Yields (St.init s a) l t) :
    I t.alloc ∧ (∀ d, .ok d ∈ l → d.All QT QX) ∧
      ∀ e, .error e ∈ l → ParserError E.cc X.F E.alloc r e ∨ QE e := by
  obtain ⟨os, h1, h2, h3⟩ := h.calls
  obtain ⟨h4, h5, h6⟩ := C59_history C K hs hT ha h1
  exact ⟨h4, fun d hd => h5 d (h2 d hd), fun e he => h6 e (h3 e he)⟩

/-- C59. One call. (Of the library's parsers.) -/
theorem C59_call_provided {s : σ} {r : List (Item P)} (pr : Provided E s r X) {a : α} {os t o t'}
    (h : E.Calls (St.init s a) os t) (hd : E.Call t o t') :
    ∃ before used rest, r = before ++ used ++ rest ∧ ToCome E.strm t.strm (used ++ rest) ∧
      ToCome E.strm t'.strm rest ∧
      ∀ (QT : τ → Prop) (QX : ε → Prop) (QE : Err P CE → Prop) (I : α → Prop),
        Keeps X E.alloc E.lookup QT QX QE I → (∀ t c, X.RT t c → c.Sublist used → QT t) → I t.alloc →
        I t'.alloc ∧ (∀ d, o = .ok (some d) → d.All QT QX) ∧
          ∀ e, o = .err e → ParserError E.cc X.F E.alloc used e ∨ QE e := by
  obtain ⟨RS, C, hs⟩ := pr.conf
  obtain ⟨before, used, rest, h1, h2, h3, h4⟩ := C59_call C hs h hd
  exact ⟨before, used, rest, h1, h2.toCome C, h3.toCome C, h4⟩

/-- C26, for any classifier, also one whose classes overlap: each text of a datum is made of items that the call which returned it
has consumed, in their order. -/
theorem C26_any_classifier (C : Conf E RS X) (hb : ∀ d, E.lookup d = none) {s : σ} {r : List (Item P)} (hs : RS s ⟨[], r⟩)
    {a : α} {os t d t'} (h : E.Calls (St.init s a) os t) (hd : E.Call t (.ok (some d)) t') :
    ∃ before used rest, r = before ++ used ++ rest ∧ AtItems RS t.strm (used ++ rest) ∧ AtItems RS t'.strm rest ∧
      d.All (fun u => ∃ c, X.RT u c ∧ c.Sublist used) fun _ => False := by
  obtain ⟨before, used, rest, h1, h2, h3, h4⟩ := C59_call C hs h hd
  have K : Keeps X E.alloc E.lookup (fun u => ∃ c, X.RT u c ∧ c.Sublist used) (fun _ => False) (fun _ => False)
      (fun _ => True) :=
    ⟨fun d f t a h => (by rw [hb] at h; cases h), fun d f t a h => (by rw [hb] at h; cases h), fun _ _ _ _ => trivial,
      fun _ _ _ _ => trivial⟩
  exact ⟨before, used, rest, h1, h2, h3, (h4 _ _ _ _ K (fun t c h h' => ⟨c, h, h'⟩) trivial).2.1 d rfl⟩

/-- C26, for any classifier. (Of the library's parsers.) -/
theorem C26_any_classifier_provided (hb : ∀ d, E.lookup d = none) {s : σ} {r : List (Item P)} (pr : Provided E s r X)
    {a : α} {os t d t'} (h : E.Calls (St.init s a) os t) (hd : E.Call t (.ok (some d)) t') :
    ∃ before used rest, r = before ++ used ++ rest ∧ ToCome E.strm t.strm (used ++ rest) ∧ ToCome E.strm t'.strm rest ∧
      d.All (fun u => ∃ c, X.RT u c ∧ c.Sublist used) fun _ => False := by
  obtain ⟨RS, C, hs⟩ := pr.conf
  obtain ⟨before, used, rest, h1, h2, h3, h4⟩ := C26_any_classifier C hb hs h hd
  exact ⟨before, used, rest, h1, h2.toCome C, h3.toCome C, h4⟩

/-- C59. Any history of calls. (Of the library's parsers.) -/
theorem C59_history_provided {QT : τ → Prop} {QX : ε → Prop} {QE : Err P CE → Prop} {I : α → Prop}
    (K : Keeps X E.alloc E.lookup QT QX QE I) {s : σ} {r : List (Item P)} (pr : Provided E s r X)
    (hT : ∀ t c, X.RT t c → c.Sublist r → QT t) {a : α} (ha : I a) {os t} (h : E.Calls (St.init s a) os t) :
    I t.alloc ∧ (∀ d, .ok (some d) ∈ os → d.All QT QX) ∧
      ∀ e, .err e ∈ os → ParserError E.cc X.F E.alloc r e ∨ QE e :=
  have ⟨_, C, hs⟩ := pr.conf
  C59_history C K hs hT ha h

/-- C59. A whole parse. (Of the library's parsers.) -/
theorem C59_parse_provided {QT : τ → Prop} {QX : ε → Prop} {QE : Err P CE → Prop} {I : α → Prop}
    (K : Keeps X E.alloc E.lookup QT QX QE I) {s : σ} {r : List (Item P)} (pr : Provided E s r X)
    (hT : ∀ t c, X.RT t c → c.Sublist r → QT t) {a : α} (ha : I a) {l t} (h : E.Yields (St.init s a) l t) :
    I t.alloc ∧ (∀ d, .ok d ∈ l → d.All QT QX) ∧
      ∀ e, .error e ∈ l → ParserError E.cc X.F E.alloc r e ∨ QE e :=
  have ⟨_, C, hs⟩ := pr.conf
  C59_parse C K hs hT ha h

/-! ## Positions (C24) with bindings -/

theorem exact_of_items {T : TextType PosStr τ α} {s : Str} {u : τ} {c : List (Item StrPos)}
    (h : T.Means PosStr.Means u c) (hc : ∀ it ∈ c, StandsIn it s) : Exact T s u := by
  obtain ⟨cs, ls, h1, h2, rfl⟩ := h
  refine ⟨cs, ls, h1, h2, hc, ?_⟩
  clear h1
  induction h2 with
  | nil => intro c hc; cases hc
  | @cons c l cs ls h _ ih =>
    intro c' hc' hne
    rcases List.mem_cons.mp hc' with rfl | hc'
    · exact h.isSliceOf (fun it hi => hc it (by simp [hi])) hne
    · exact ih (fun it hi => hc it (by simp at hi ⊢; exact Or.inr hi)) c' hc' hne

/-- C24, with bindings. Combiners are given exact texts only; and if they put only exact texts into what they
return, all texts in the results of parsing the string `s` are exact, and `UnbalancedEndChar`, unless
returned by a combiner, carries the exact position of an end delimiter. For any text type of the
library over `PosStr`, any classifier, any allocator. -/
theorem C24_positions_exact_with_bindings {T : TextType PosStr τ α} {X} (hT : LibText posStrOps PosStr.Means T X)
    {cc : Classifier} {al : AllocOps τ ε α} {lookup : Datum τ ε → Option (Combiner τ ε α StrPos CE)} (s : Str)
    {QX : ε → Prop} {QE : Err StrPos CE → Prop} {I : α → Prop} (K : Keeps X al lookup (Exact T s) QX QE I) {a : α}
    (ha : I a) {l t} (hy : (textEnv posStrOps T cc al lookup).Yields (St.init (.ofChunks posStrOps [.ofStr s]) a) l t) :
    (∀ d, .ok d ∈ l → d.All (Exact T s) QX) ∧
    ∀ p, .error (.unbalancedEndChar p) ∈ l →
      (∃ ch, cc.isNestEnd ch = true ∧ StandsIn ⟨ch, p⟩ s) ∨ QE (.unbalancedEndChar p) := by
  have hX : ∀ t c, X.RT t c → c.Sublist (strItems s) → Exact T s t := by
    intro t c ht hc
    refine exact_of_items (c := c) ?_ fun it hi => mem_strItems (hc.subset hi)
    rcases hT with _ | _ <;> exact ht
  obtain ⟨_, h2, h3⟩ := C59_parse_provided K (Provided.str hT cc al lookup s) hX ha hy
  refine ⟨h2, fun p hp => ?_⟩
  rcases h3 _ hp with (h | ⟨it, h4, h5, h⟩ | ⟨⟨_, h⟩, _⟩ | ⟨h, _⟩) | h
  · cases h
  · cases h; exact .inl ⟨it.ch, h5, mem_strItems h4⟩
  · cases h
  · cases h
  · exact .inr h

/-! ## Non-vacuity -/

/-- Bindings that log their calls keep the property of being made of characters of the source, in order. -/
theorem log_keeps (r : List (Item Unit)) : Keeps (seqSem Unit (List (List Char))) (freeAlloc _ Empty _) logLookup
    (fun t => t.Sublist r) (fun _ => True) (fun e => e = .failedCombiner 7)
    (fun log => ∀ w ∈ log, w = ['p'] ∨ w = ['x'] ∨ w.Sublist (r.map Item.ch)) where
  operative := by
    intro d f t a h hd ht ha
    have hl : ∀ w ∈ a ++ [t.map Item.ch], w = ['p'] ∨ w = ['x'] ∨ w.Sublist (r.map Item.ch) := by
      intro w hw
      rcases List.mem_append.mp hw with hw | hw
      · exact ha w hw
      · rw [List.mem_singleton.mp hw]; exact .inr (.inr (ht.map _))
    unfold logLookup at h
    split at h
    · split at h <;> cases h
      · exact ⟨by rintro _ ⟨⟩; exact .text ht, by rintro _ ⟨⟩, hl⟩
      · exact ⟨by rintro _ ⟨⟩, by rintro _ ⟨⟩, hl⟩
    · cases h
  applicative := by
    intro d f l a h hd hl ha
    unfold logLookup at h
    split at h
    · split at h <;> cases h
      · refine ⟨by rintro _ ⟨⟩; exact hl, by rintro _ ⟨⟩, ?_⟩
        intro w hw
        rcases List.mem_append.mp hw with hw | hw
        · exact ha w hw
        · exact .inl (List.mem_singleton.mp hw)
      · refine ⟨by rintro _ ⟨⟩, by rintro _ ⟨⟩; rfl, ?_⟩
        intro w hw
        rcases List.mem_append.mp hw with hw | hw
        · exact ha w hw
        · exact .inr (.inl (List.mem_singleton.mp hw))
    · cases h
  text := by rintro a b rfl h; exact h
  alloc := by intro d a _ h; exact h

/-- C59: so do parses with these bindings, here one of the source `{p a{o b}{x}}} {q \\}}`, whose results are
two errors (the combiner's and the parser's) and a text. -/
example : ∃ t, logEnv.Yields (St.init ⟨[], charsOf "{p a{o b}{x }}} {q \\}}"⟩ [])
      [.error (.failedCombiner 7), .error (.unbalancedEndChar ()), .error (.unbalancedEndChar ()), .ok (.text [⟨' ', ()⟩])] t ∧
    t.alloc = [['b'], ['x'], ['}']] ∧
    ∀ w ∈ t.alloc, w = ['p'] ∨ w = ['x'] ∨ w.Sublist ((charsOf "{p a{o b}{x }}} {q \\}}").map Item.ch) := by
  obtain ⟨l, t, h, he⟩ := Env.yields_of_view (E := logEnv) (n := 200) (k := 9)
    (s := St.init ⟨[], charsOf "{p a{o b}{x }}} {q \\}}"⟩ []) (fun p => ((p.1, p.2.alloc) : LogView))
    (v := ([.error (.failedCombiner 7), .error (.unbalancedEndChar ()), .error (.unbalancedEndChar ()), .ok (.text [⟨' ', ()⟩])],
      [['b'], ['x'], ['}']])) (by decide +kernel)
  simp only [Prod.mk.injEq] at he
  obtain ⟨rfl, h2⟩ := he
  exact ⟨t, h, h2, (C59_parse (seqConf _ _ _) (log_keeps (charsOf "{p a{o b}{x }}} {q \\}}")) rfl
    (by rintro _ _ rfl h; exact h) (by simp) h).1⟩

/-- Bindings that return what they are given. -/
def echoLookup (τ ε α P CE : Type) : Datum τ ε → Option (Combiner τ ε α P CE)
  | .text _ => some (.operative fun _ t a => (.ok (some (.text t)), a))
  | d => some (.applicative fun _ l a => (.ok (some (.combination d l)), a))

theorem echo_keeps {QT : τ → Prop} {QX : ε → Prop} (al : AllocOps τ ε α) : Keeps X al (echoLookup τ ε α P CE) QT QX
    (fun _ => False) (fun _ => True) where
  operative := by
    intro d f t a h hd ht _
    unfold echoLookup at h
    split at h <;> cases h
    exact ⟨by rintro _ ⟨⟩; exact .text ht, by rintro _ ⟨⟩, trivial⟩
  applicative := by
    intro d f l a h hd hl _
    unfold echoLookup at h
    split at h <;> cases h
    exact ⟨by rintro _ ⟨⟩; exact .combination hd hl, by rintro _ ⟨⟩, trivial⟩
  text := fun _ _ _ _ => trivial
  alloc := fun _ _ _ _ => trivial

theorem echo_exact {s : Str} {u d l t} (h : (inmemEnv (echoLookup _ Empty Unit StrPos Empty)).Yields (St.init (inmemSource s) ()) l t)
    (hd : .ok (.combination d (.list (.text u) .emptyList)) ∈ l) : Exact (textVec Unit posStrOps) s u := by
  have := (C24_positions_exact_with_bindings .vec _ (echo_keeps (QX := fun _ => True) _) trivial h).1 _ hd
  cases this with
  | combination _ h => cases h with
    | list h _ => cases h with
      | text h => exact h

/-- C24 with bindings: they return the text of two chunks that they are given. -/
example : ∃ t, (inmemEnv (echoLookup _ Empty Unit StrPos Empty)).Yields (St.init (inmemSource "λ{{} {e é\\}}}".toList) ())
    [.ok (.text (.single ⟨['λ'], ⟨"λ{{} {e é\\}}}".toList, 0, 0⟩⟩)),
     .ok (.combination .emptyNest (.list (.text (.multi [⟨['é'], ⟨"λ{{} {e é\\}}}".toList, 9, 8⟩⟩,
       ⟨['}'], ⟨"λ{{} {e é\\}}}".toList, 12, 10⟩⟩])) .emptyList))] t :=
  Env.yields_of' 200 9 (by decide +kernel)

end Kul
