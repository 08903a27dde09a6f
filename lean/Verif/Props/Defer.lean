import Verif.Proof.Defer
import Verif.Props.Provided

/-!
# C67: operatives that parse their operands themselves

An operative is given the text of its operands, which it can parse with a parser (C25). `Spec/Defer.lean` says what
it is for an operative to do by itself what the parser does for an applicative. The state `α` is what combiners
can observe and change; memory is not part of it here (`Mem` is `Eq`).
-/

namespace Kul

variable {σ P τ ε α CE : Type}

/-! ## The operands text -/

/-- C67. The text that an operative gets for operands `r` (C16) is `r` itself exactly if `r` has no escape character. -/
theorem C67_operand_text {cc : Classifier} (D : cc.Disjoint) {r c : List (Item P)} (h : RawOf cc r c) :
    c = r ↔ NoEscape cc r :=
  ⟨fun e => h.noEscape D (by rw [e]), h.eq_of_noEscape⟩

/-- C67. Operands without escape characters mean as a source of their own what they mean in their nest: the same
datums, with the same calls of combiners. -/
theorem C67_same_meaning {cc : Classifier} {RT : τ → List (Item P) → Prop} {Mem : α → α → Prop}
    {lookup : Datum τ ε → Option (Combiner τ ε α P CE)} {r : List (Item P)} (hr : NoEscape cc r) {a ds a'} :
    Means cc RT Mem lookup r a ds a' ↔ Reads cc RT Mem lookup (.forms false false) r a ds a' :=
  ⟨fun h => h.retop (Or.inr hr) rfl, fun h => h.retop (Or.inl rfl) rfl⟩

/-- C67. What an operative at a nest is given, if the operands `r` have no escape characters and mean `ds`, which is what an
applicative in its place would be given (C17): the text `r`. If it is parsed, in the state in which the operative is called,
that gives `ds`, and leaves the state in which the applicative would be called. -/
theorem C67_call {cc : Classifier} (D : cc.Disjoint)
    {lookup : Datum (List (Item P)) ε → Option (Combiner (List (Item P)) ε α P CE)} {b e : Item P}
    {h sep r : List (Item P)} {k d f ds} {a a₁ a₂ : α} (hb : cc.isNestStart b.ch = true) (he : cc.isNestEnd e.ch = true)
    (hh : Reads cc Eq Eq lookup (.head k) h a [d] a₁) (hsep : Sep cc k sep r) (hr : NoEscape cc r)
    (hds : Reads cc Eq Eq lookup (.forms false false) r a₁ ds a₂)
    (hf : lookup d = some (.operative f)) (rest : List (Item P)) :
    CallGives (seqEnv cc (freeAlloc _ ε α) lookup) SeqAt
      (St.init ⟨[], b :: (h ++ sep ++ r ++ e :: rest)⟩ a) (f d r a₁).1 (f d r a₁).2 rest ∧
    ∃ t, (seqEnv cc (freeAlloc _ ε α) lookup).Yields (St.init ⟨[], r⟩ a₁) (ds.map .ok) t ∧ t.alloc = a₂ := by
  obtain ⟨c, hc⟩ := hds.raw D (fun b e => by cases e)
  have := hc.eq_of_noEscape hr
  subst this
  exact ⟨C16_operative_any_head D hb he hh hsep hc hf rest,
    (C16_C17_C18_exact cc D lookup _ _ _ _).2 ((C67_same_meaning hr).2 hds)⟩

/-! ## Whole sources -/

/-- C67. If, of the bindings `early`, some applicatives are replaced by operatives that parse their operands and
pass the datums on to the applicatives, then what a source without escape characters is parsed to without
error is what it means with `early`. The operatives may parse with the bindings `early` or with the bindings they are among. -/
theorem C67_meaning {E : Env σ P τ ε α CE} {RS : σ → Seq P → Prop} {X : TextSem P τ α} (C : Conf E RS X)
    (D : E.cc.Disjoint) (M : MemOk X E.alloc Eq) {early inner : Datum τ ε → Option (Combiner τ ε α P CE)}
    (hi : inner = early ∨ inner = E.lookup) (hR : ∀ d, Replaced (Defers E.cc X.RT inner) (early d) (E.lookup d))
    {s : σ} {r : List (Item P)} (hs : RS s ⟨[], r⟩) (hr : NoEscape E.cc r) {a : α} {ds : List (Datum τ ε)} {t}
    (hy : E.Yields (St.init s a) (ds.map .ok) t) : Means E.cc X.RT Eq early r a ds t.alloc :=
  Reads.at_once hi hR (r.length + 1) (Nat.lt_succ_self _) (C16_C17_C18_meaning C D M hs hy) hr

/-- C67. Of the library's parsers. -/
theorem C67_meaning_provided {E : Env σ P τ ε α CE} {X : TextSem P τ α}
    (D : E.cc.Disjoint) (M : MemOk X E.alloc Eq) {early inner : Datum τ ε → Option (Combiner τ ε α P CE)}
    (hi : inner = early ∨ inner = E.lookup) (hR : ∀ d, Replaced (Defers E.cc X.RT inner) (early d) (E.lookup d))
    {s : σ} {r : List (Item P)} (pr : Provided E s r X) (hr : NoEscape E.cc r) {a : α} {ds : List (Datum τ ε)} {t}
    (hy : E.Yields (St.init s a) (ds.map .ok) t) : Means E.cc X.RT Eq early r a ds t.alloc :=
  have ⟨_, C, hs⟩ := pr.conf
  C67_meaning C D M hi hR hs hr hy

/-- C67. An operative that parses its operands text with a parser of the library, and calls `g` with the list of the datums if
there was no error, is such an operative. -/
theorem C67_parsing_defers {C CS : Type} {O : ChunkOps C CS P} {RC : C → List (Item P) → Prop} (hC : LibChunk O RC)
    {T : TextType C τ α} {X : TextSem P τ α} (hT : LibText O RC T X) {cc : Classifier} (D : cc.Disjoint)
    {al : AllocOps τ ε α} (M : MemOk X al Eq) {inner : Datum τ ε → Option (Combiner τ ε α P CE)} {f g}
    (hf : ∀ d t a o a', f d t a = (.ok o, a') → ∃ cs ds u, T.chunks t = .ok cs ∧
      (textEnv O T cc al inner).Yields (St.init (.ofChunks O cs) a) (ds.map .ok) u ∧ g d (listOf ds) u.alloc = (.ok o, a')) :
    Defers cc X.RT inner f g := by
  intro d t r a o a' ht _ h
  obtain ⟨cs, ds, u, h1, h2, h3⟩ := hf d t a o a' h
  obtain ⟨RCS, H⟩ := hC.conf
  obtain ⟨hX, K⟩ := hT.conf H
  rw [hX] at ht
  obtain ⟨cs', ls, h4, h5, rfl⟩ := ht
  rw [h1] at h4; cases h4
  have hX' := hT.sem
  rw [hX'] at M
  refine ⟨ds, u.alloc, ?_, h3⟩
  have := C16_C17_C18_meaning (textEnv_conf H K (cc := cc) (al := al) (lookup := inner)) D M
    (TextIter.ofChunks_means H h5) h2
  rw [hX']
  exact this

section Reference

variable {cc : Classifier} {early late inner : Datum (List (Item P)) ε → Option (Combiner (List (Item P)) ε α P CE)}

/-- C67. With the parser of plain items: a source without escape characters is parsed without error to the same datums,
leaving the same state, whether operands are parsed at once or later. -/
theorem C67_exact (D : cc.Disjoint) (hi : inner = early ∨ inner = late)
    (hR : ∀ d, Replaced (fun f g => Defers cc Eq inner f g ∧ DefersAll cc inner f g) (early d) (late d))
    {r : List (Item P)} (hr : NoEscape cc r) (a : α) (ds : List (Datum (List (Item P)) ε)) (a' : α) :
    (∃ t, (seqEnv cc (freeAlloc _ ε α) early).Yields (St.init ⟨[], r⟩ a) (ds.map .ok) t ∧ t.alloc = a') ↔
    (∃ t, (seqEnv cc (freeAlloc _ ε α) late).Yields (St.init ⟨[], r⟩ a) (ds.map .ok) t ∧ t.alloc = a') := by
  rw [C16_C17_C18_exact cc D, C16_C17_C18_exact cc D]
  exact ⟨fun h => Reads.later D hi (fun d => (hR d).mono fun _ _ h => h.2) h hr,
    fun h => Reads.at_once hi (fun d => (hR d).mono fun _ _ h => h.1) (r.length + 1) (Nat.lt_succ_self _) h hr⟩

/-- C67. For every applicative there is such an operative. -/
theorem C67_exists (D : cc.Disjoint) (g : Datum (List (Item P)) ε → Datum (List (Item P)) ε → α →
      Except (Err P CE) (Option (Datum (List (Item P)) ε)) × α) :
    ∃ f, Defers cc Eq inner f g ∧ DefersAll cc inner f g := by
  classical
  have uniq : ∀ {r : List (Item P)} {a ds a₁ ds' a₁'}, Means cc Eq Eq inner r a ds a₁ → Means cc Eq Eq inner r a ds' a₁' →
      ds = ds' ∧ a₁ = a₁' := by
    intro r a ds a₁ ds' a₁' h h'
    obtain ⟨t, h1, rfl⟩ := (C16_C17_C18_exact cc D inner _ _ _ _).2 h
    obtain ⟨t', h2, rfl⟩ := (C16_C17_C18_exact cc D inner _ _ _ _).2 h'
    obtain ⟨h3, rfl⟩ := h1.unique h2
    exact ⟨List.map_injective_iff.2 (fun _ _ e => by cases e; rfl) h3, rfl⟩
  refine ⟨fun d r a => if h : ∃ x : List (Datum (List (Item P)) ε) × α, Means cc Eq Eq inner r a x.1 x.2 then
    g d (listOf h.choose.1) h.choose.2 else (.error .missingEndChar, a), ?_, ?_⟩
  · rintro d t r a o a' rfl _ h
    dsimp only at h
    split at h
    · next hx => exact ⟨_, _, hx.choose_spec, h⟩
    · cases h
  · intro d r a ds a₁ _ h
    have hx : ∃ x : List (Datum (List (Item P)) ε) × α, Means cc Eq Eq inner r a x.1 x.2 := ⟨(ds, a₁), h⟩
    dsimp only
    rw [dif_pos hx]
    obtain ⟨h1, h2⟩ := uniq h hx.choose_spec
    rw [← h1, ← h2]

/-- C67. Operatives that parse with the bindings `early` might as well parse with the bindings they are among. -/
theorem C67_recursive (D : cc.Disjoint)
    (hR : ∀ d, Replaced (fun f g => Defers cc Eq early f g ∧ DefersAll cc early f g) (early d) (late d)) (d) :
    Replaced (fun f g => Defers cc Eq late f g ∧ DefersAll cc late f g) (early d) (late d) := by
  refine (hR d).mono fun f g ⟨h1, h2⟩ => ⟨?_, ?_⟩
  · rintro d t r a o a' rfl hr h
    obtain ⟨ds, a₁, h3, h4⟩ := h1 d _ _ a o a' rfl hr h
    exact ⟨ds, a₁, Reads.later D (Or.inl rfl) (fun d => (hR d).mono fun _ _ h => h.2) h3 hr, h4⟩
  · intro d r a ds a₁ hr h
    exact h2 d r a ds a₁ hr
      (Reads.at_once (Or.inl rfl) (fun d => (hR d).mono fun _ _ h => h.1) (r.length + 1) (Nat.lt_succ_self _) h hr)

end Reference

/-! ## Escapes, and examples -/

/-- The applicative `p` of `logLookup`. -/
def logList : Datum (List (Item Unit)) Empty → Datum (List (Item Unit)) Empty → List (List Char) →
    Except (Err Unit Nat) (Option (Datum (List (Item Unit)) Empty)) × List (List Char) :=
  fun _ l a => (.ok (some l), a ++ [['p']])

/-- The bindings `logLookup`, but with an operative `f` for `p`. -/
def logLate (f : Datum (List (Item Unit)) Empty → List (Item Unit) → List (List Char) →
      Except (Err Unit Nat) (Option (Datum (List (Item Unit)) Empty)) × List (List Char)) :
    Datum (List (Item Unit)) Empty → Option (Combiner (List (Item Unit)) Empty (List (List Char)) Unit Nat)
  | .text t => if t.map Item.ch = ['p'] then some (.operative f) else logLookup (.text t)
  | d => logLookup d

theorem logLate_replaced {R f} (h : R f logList) (d) : Replaced R (logLookup d) (logLate f d) := by
  unfold logLate
  split
  · next t =>
    split
    · next e =>
      have : logLookup (.text t) = some (.applicative logList) := by
        unfold logLookup
        simp only [e]
        rfl
      rw [this]
      exact .deferred h
    · exact .same _
  · exact .same _

theorem log_yields {src : String} {ds : List (Datum (List (Item Unit)) Empty)} {a' : List (List Char)}
    (h : (logEnv.yieldsOf 80 9 (St.init ⟨[], charsOf src⟩ [])).map (fun x => ((x.1, x.2.alloc) : LogView)) =
      some (ds.map .ok, a')) :
    ∃ t, logEnv.Yields (St.init ⟨[], charsOf src⟩ []) (ds.map .ok) t ∧ t.alloc = a' := by
  obtain ⟨l, t, h1, h2⟩ := Env.yields_of_view (E := logEnv) (β := LogView) (fun x => (x.1, x.2.alloc)) h
  obtain ⟨rfl, h4⟩ := Prod.mk.inj h2
  exact ⟨t, h1, h4⟩

/-- C67 does not hold with escapes: an operative that parses its operands itself takes escaped delimiters for
delimiters. In `{p \{b c\}}` the applicative gets the text `{b c}`; every operative that parses its operands gets
the combination of `b` and `c`. -/
theorem C67_not_with_escapes {f} (hf : DefersAll defaultClassifier logLookup f logList) :
    (∃ t, logEnv.Yields (St.init ⟨[], charsOf "{p \\{b c\\}}"⟩ []) ([listOf [.text (charsOf "{b c}")]].map .ok) t) ∧
    (∃ t, (seqEnv defaultClassifier (freeAlloc _ _ _) (logLate f)).Yields (St.init ⟨[], charsOf "{p \\{b c\\}}"⟩ [])
      ([listOf [.combination (.text (charsOf "b")) (listOf [.text (charsOf "c")])]].map .ok) t) := by
  refine ⟨(log_yields (a' := [['p']]) (by decide +kernel)).imp fun _ h => h.1, ?_⟩
  have hm : Means defaultClassifier Eq Eq logLookup (charsOf "{b c}") []
      [.combination (.text (charsOf "b")) (listOf [.text (charsOf "c")])] [] := by
    rw [← C16_C17_C18_exact _ defaultClassifier_disjoint]
    exact log_yields (by decide +kernel)
  have he := hf (.text (charsOf "p")) (charsOf "{b c}") [] _ _ (by unfold NoEscape; decide) hm
  have hr : Means defaultClassifier Eq Eq (logLate f) (charsOf "{p \\{b c\\}}") []
      [listOf [.combination (.text (charsOf "b")) (listOf [.text (charsOf "c")])]] [['p']] :=
    .form (s := charsOf "{p \\{b c\\}}") (r := [])
      (.operative (o := some (listOf [.combination (.text (charsOf "b")) (listOf [.text (charsOf "c")])])) (h := charsOf "p")
        (sep := charsOf " ") (r := charsOf "\\{b c\\}") (c := charsOf "{b c}") (b := ⟨'{', ()⟩) (e := ⟨'}', ()⟩)
        (by decide) (by decide)
        (.textHead (ws := []) (s := charsOf "p") (fun _ h => by cases h) (by decide) (.plain (by decide) (by decide) .nil) rfl rfl)
        (.one (by decide)) rfl
        (.escaped (by decide) (.plain (by decide) (by decide) (.plain (by decide) (by decide) (.plain (by decide) (by decide)
          (.escaped (by decide) .nil))))) rfl rfl he)
      rfl .nil
  obtain ⟨t, h, _⟩ := (C16_C17_C18_exact _ defaultClassifier_disjoint _ _ _ _ _).2 hr
  exact ⟨t, h⟩

/-- C67: there are bindings as in the theorems, whose operative parses with the bindings it is among, and with them
`{p a{p b}{o c}}` is parsed to what it is parsed to with `logLookup`; the calls are those for `p b`, `o c`, and the outer `p`. -/
example : ∃ f, (∀ d, Replaced (fun f' g => Defers defaultClassifier Eq (logLate f) f' g ∧ DefersAll defaultClassifier (logLate f) f' g)
      (logLookup d) (logLate f d)) ∧
    ∃ t, (seqEnv defaultClassifier (freeAlloc _ _ _) (logLate f)).Yields (St.init ⟨[], charsOf "{p a{p b}{o c}}"⟩ [])
      ([listOf [.text (charsOf "a"), listOf [.text (charsOf "b")], .text (charsOf "c")]].map .ok) t ∧
      t.alloc = [['p'], ['c'], ['p']] := by
  obtain ⟨f, hf⟩ := C67_exists (inner := logLookup) defaultClassifier_disjoint logList
  have hR := logLate_replaced (R := fun f g => Defers defaultClassifier Eq logLookup f g ∧ DefersAll defaultClassifier logLookup f g) hf
  exact ⟨f, C67_recursive defaultClassifier_disjoint hR,
    (C67_exact defaultClassifier_disjoint (Or.inr rfl) (C67_recursive defaultClassifier_disjoint hR)
      (by unfold NoEscape; decide) _ _ _).1 (log_yields (by decide +kernel))⟩

/-- C67: the operands of `{o {a}b}x`. -/
example : (charsOf "{a}b" = charsOf "{a}b" ↔ NoEscape defaultClassifier (charsOf "{a}b")) ∧
    CallGives logEnv SeqAt (St.init ⟨[], charsOf "{o {a}b}x"⟩ []) (.ok (some (.text (charsOf "{a}b")))) [charsOf "{a}b" |>.map Item.ch]
      (charsOf "x") ∧
    ∃ t, logEnv.Yields (St.init ⟨[], charsOf "{a}b"⟩ [])
      ([.combination (.text (charsOf "a")) .emptyList, .text (charsOf "b")].map .ok) t ∧ t.alloc = [] := by
  have hy : ∃ t, logEnv.Yields (St.init ⟨[], charsOf "{a}b"⟩ [])
      ([.combination (.text (charsOf "a")) .emptyList, .text (charsOf "b")].map .ok) t ∧ t.alloc = [] :=
    log_yields (by decide +kernel)
  have hn : NoEscape defaultClassifier (charsOf "{a}b") := by unfold NoEscape; decide
  have hds := (C67_same_meaning hn).1 ((C16_C17_C18_exact defaultClassifier defaultClassifier_disjoint _ _ _ _ _).1 hy)
  obtain ⟨c, hc⟩ := hds.raw defaultClassifier_disjoint (fun b e => by cases e)
  exact ⟨C67_operand_text defaultClassifier_disjoint (hc.eq_of_noEscape hn ▸ hc),
    C67_call (lookup := logLookup) defaultClassifier_disjoint (b := ⟨'{', ()⟩) (e := ⟨'}', ()⟩) (h := charsOf "o")
      (sep := charsOf " ") (r := charsOf "{a}b") (k := true) (d := .text (charsOf "o"))
      (f := fun _ t a => (.ok (some (.text t)), a ++ [t.map Item.ch])) (by decide) (by decide)
      (.textHead (ws := []) (s := charsOf "o") (fun _ h => by cases h) (by decide) (.plain (by decide) (by decide) .nil) rfl rfl)
      (.one (by decide)) hn hds rfl (charsOf "x")⟩

/-! With the in-memory parser of the library: the applicative `p` counts its calls and gives the list of its operands; the operative
does the same, parsing the operands with the in-memory parser. -/

abbrev MemDatum := Datum (TextVec PosStr) Empty

def countList (_ l : MemDatum) (a : Nat) : Except (Err StrPos Unit) (Option MemDatum) × Nat := (.ok (some l), a + 1)

def isP : MemDatum → Bool
  | .text t => (t.chunks.flatMap fun c => c.val) == ['p']
  | _ => false

def earlyP (d : MemDatum) : Option (Combiner (TextVec PosStr) Empty Nat StrPos Unit) :=
  if isP d then some (.applicative countList) else none

/-- The datums, if there is no error among the results. -/
def allOk {E D : Type} : List (Except E D) → Option (List D)
  | [] => some []
  | .ok d :: l => (allOk l).map (d :: ·)
  | .error _ :: _ => none

theorem allOk_eq {E D : Type} : ∀ {l : List (Except E D)} {ds}, allOk l = some ds → l = ds.map .ok
  | [], ds, h => by cases h; rfl
  | .ok d :: l, ds, h => by
    simp only [allOk] at h
    rcases hl : allOk l with _ | ds' <;> rw [hl] at h <;> cases h
    rw [allOk_eq hl]; rfl
  | .error _ :: _, ds, h => by cases h

def parseLater (d : MemDatum) (t : TextVec PosStr) (a : Nat) : Except (Err StrPos Unit) (Option MemDatum) × Nat :=
  match (inmemEnv earlyP).yieldsOf 80 9 (St.init (.ofChunks posStrOps t.chunks) a) with
  | some (l, u) =>
    match allOk l with
    | some ds => countList d (listOf ds) u.alloc
    | none => (.error .missingEndChar, a)
  | none => (.error .missingEndChar, a)

def lateP (d : MemDatum) : Option (Combiner (TextVec PosStr) Empty Nat StrPos Unit) :=
  if isP d then some (.operative parseLater) else none

theorem boxAlloc_mem : MemOk (vecSem Nat) (boxAlloc (TextVec PosStr) Empty Nat) Eq :=
  ⟨fun _ => rfl, fun _ _ _ h1 h2 => h1.trans h2, fun _ _ h => h, fun _ _ => rfl⟩

theorem parseLater_defers : Defers defaultClassifier (vecSem Nat).RT earlyP parseLater countList := by
  refine C67_parsing_defers .posStr .vec defaultClassifier_disjoint boxAlloc_mem fun d t a o a' h => ?_
  unfold parseLater at h
  rcases hy : (inmemEnv earlyP).yieldsOf 80 9 (St.init (.ofChunks posStrOps t.chunks) a) with _ | ⟨l, u⟩ <;> rw [hy] at h
  · cases h
  · simp only at h
    rcases hl : allOk l with _ | ds <;> rw [hl] at h
    · cases h
    · exact ⟨t.chunks, ds, u, rfl, allOk_eq hl ▸ Env.yields_of hy, h⟩

/-- C67: what `{p a{p b}}` is parsed to is what it means with the applicative. -/
example : ∃ ds t, (inmemEnv lateP).Yields (St.init (inmemSource "{p a{p b}}".toList) 0) (ds.map .ok) t ∧ t.alloc = 2 ∧
    Means defaultClassifier (vecSem Nat).RT Eq earlyP (strItems "{p a{p b}}".toList) 0 ds 2 := by
  obtain ⟨l, t, h, ht⟩ := Env.yields_of_view (E := inmemEnv lateP) (n := 80) (k := 9)
    (s := St.init (inmemSource "{p a{p b}}".toList) 0) (v := (true, 2))
    (fun x => ((allOk x.1).isSome, x.2.alloc)) (by decide +kernel)
  obtain ⟨h1, h2⟩ := Prod.mk.inj ht
  obtain ⟨ds, hds⟩ := Option.isSome_iff_exists.1 h1
  have hl := allOk_eq hds
  subst hl
  refine ⟨ds, t, h, h2, ?_⟩
  have := C67_meaning_provided (E := inmemEnv lateP) (early := earlyP) (inner := earlyP) defaultClassifier_disjoint
    boxAlloc_mem (Or.inl rfl) (fun d => by
      show Replaced _ (earlyP d) (lateP d)
      unfold earlyP lateP
      by_cases h : isP d = true
      · rw [if_pos h, if_pos h]; exact .deferred parseLater_defers
      · rw [if_neg h, if_neg h]; exact .same _)
    (Provided.str .vec defaultClassifier (boxAlloc _ _ _) lateP "{p a{p b}}".toList) (by unfold NoEscape; decide +kernel) h
  rw [← h2]
  exact this

end Kul
