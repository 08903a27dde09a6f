import Verif.Proof.GramPlain
import Verif.Proof.Sample

/-!
# C01, C02, C03: the parser accepts exactly the grammar

`E` is any parser whose source stream and text type fulfil the contract of
`Spec/Contract.lean` (all those of the repository do, `Props/Streams.lean`), started on
a stream that stands for the items `r`. `E.Yields (St.init s a) l t` says that a `for`
loop over the parser sees the items `l`.
-/

namespace Kul

variable {σ P τ ε α CE : Type} {E : Env σ P τ ε α CE} {RS : σ → Seq P → Prop} {X : TextSem P τ α}

theorem scanText_plain {cc : Classifier} (top : Bool) {r : List (Item P)}
    (h : ∀ it ∈ r, cc.isNestStart it.ch = false ∧ cc.isNestEnd it.ch = false ∧
      cc.isNestEscape it.ch = false) : scanText cc .base top 0 r = .ok r [] := by
  induction r with
  | nil => simp [scanText]
  | cons it r ih =>
    obtain ⟨h1, h2, h3⟩ := h it (by simp)
    rw [scanText_cons]
    simp [isEndChar, h1, h2, h3, ih (fun i hi => h i (by simp [hi])), TextRes.cons]

/-- What a source that is one text yields, whatever the bindings and the datum allocator. -/
theorem one_text_yields (C : Conf E RS X) (hF : ¬ X.F) {s : σ} {it : Item P} {r c : List (Item P)}
    (hs : RS s ⟨[], it :: r⟩) (a : α) (h1 : E.cc.isNestStart it.ch = false) (h2 : E.cc.isNestEnd it.ch = false)
    (hsc : scanText E.cc .base true 0 (it :: r) = .ok c []) :
    ∃ txt s', X.RT txt c ∧ E.Yields (St.init s a) [.ok (.text txt)] s' := by
  obtain ⟨l, s', r', a', hy, _, hr⟩ := C.yields_run a (AtItems.fresh hs)
  have key : ∀ o r₁ a₁, Eval E.cc X E.alloc E.lookup (.next .base 0) (it :: r) a o r₁ a₁ →
      ∃ t, o = .ok [.text t] ∧ r₁ = [] ∧ X.RT t c := by
    intro o r₁ a₁ he
    cases he with
    | next_eof h => cases h
    | next_nest h h' => cases h; rw [h1] at h'; cases h'
    | next_removed h h' => cases h; rw [h1] at h'; cases h'
    | next_end h _ h' => cases h; rw [h2] at h'; cases h'
    | next_text h _ _ ho =>
      cases h
      have hd : ((0 : Nat) == 0) = true := rfl
      rw [hd] at ho
      rcases ho with ⟨t, ⟨_, hev⟩, rfl⟩ | ⟨e, ⟨_, hev⟩, rfl⟩
      · rcases hev with ⟨t', c, ht, hsc', hrt⟩ | ⟨h, _⟩ | ⟨_, h, _⟩ | ⟨h, _⟩
        · cases ht
          rw [hsc] at hsc'
          cases hsc'
          exact ⟨t, rfl, rfl, hrt⟩
        · cases h
        · cases h
        · exact absurd h hF
      · rcases hev with ⟨t', c, ht, _⟩ | ⟨_, h, _⟩ | ⟨_, _, h⟩ | ⟨h, _⟩
        · cases ht
        · rw [hsc] at h; cases h
        · rw [hsc] at h; cases h
        · exact absurd h hF
  cases hr with
  | done he => obtain ⟨t, h, _⟩ := key _ _ _ he; cases h
  | error he => obtain ⟨t, h, _⟩ := key _ _ _ he; cases h
  | datum he hr =>
    obtain ⟨t, h, rfl, ht⟩ := key _ _ _ he
    cases h
    have := hr.length
    obtain rfl := List.length_eq_zero_iff.mp (by simpa using this)
    exact ⟨t, _, ht, hy⟩

/-- C01. A source without delimiters and escapes yields one text, which has exactly
the items of the source; whatever the bindings and the datum allocator. An empty source
yields nothing. -/
theorem C01_plain_text_preserved (C : Conf E RS X) (hF : ¬ X.F) {s : σ} {r : List (Item P)}
    (hs : RS s ⟨[], r⟩) (a : α)
    (h : ∀ it ∈ r, E.cc.isNestStart it.ch = false ∧ E.cc.isNestEnd it.ch = false ∧
      E.cc.isNestEscape it.ch = false) :
    (r = [] → ∃ s', E.Yields (St.init s a) [] s') ∧
    (r ≠ [] → ∃ txt s', X.RT txt r ∧ E.Yields (St.init s a) [.ok (.text txt)] s') := by
  refine ⟨?_, ?_⟩
  · rintro rfl
    obtain ⟨l, s', r', a', hy, _, hr⟩ := C.yields_run a (AtItems.fresh hs)
    have := hr.length
    obtain rfl := List.length_eq_zero_iff.mp (by simpa using this)
    exact ⟨_, hy⟩
  · intro hne
    cases r with
    | nil => exact absurd rfl hne
    | cons it r =>
      obtain ⟨h1, h2, h3⟩ := h it (by simp)
      exact one_text_yields C hF hs a h1 h2 (scanText_plain (cc := E.cc) true h)

/-- The hypotheses of C01 are met by "hi there". -/
example : ∃ txt s', (seqSem Unit Unit).RT txt (charsOf "hi there") ∧
    sampleEnv.Yields (St.init ⟨[], charsOf "hi there"⟩ ()) [.ok (.text txt)] s' :=
  (C01_plain_text_preserved (seqConf _ _ _) (fun h => h) (s := ⟨[], charsOf "hi there"⟩) rfl ()
    (by decide +kernel)).2 (by decide)

/-- C02 (soundness). If a parse without bindings yields only datums, the source is
written in the grammar, and the datums are the grammatical meaning of the source. Holds
for every allocator, also one that can fail. -/
theorem C02_accepted_is_written (C : Conf E RS X) (D : E.cc.Disjoint) (hb : ∀ d, E.lookup d = none)
    {s : σ} {r : List (Item P)} (hs : RS s ⟨[], r⟩) {a : α} {ds : List (Datum τ ε)} {t}
    (hy : E.Yields (St.init s a) (ds.map .ok) t) :
    ∃ ds', Written E.cc r ds' ∧ List.Forall₂ (DatumRel X.RT Eq) ds ds' := by
  obtain ⟨s', a', rfl, _, hr⟩ := C.yields_inv (AtItems.fresh hs) hy
  have := (hr.top ds rfl).sound D (MemOk.true _ _) false (fun h => by cases h)
  obtain ⟨ds', h1, h2⟩ := this.gram hb
  exact ⟨ds', h2, h1⟩

/-- The hypotheses of C02 are met by "x{a {b\}}  {}}\". -/
example : ∃ (ds : List (Datum (List (Item Unit)) Empty)) (t : _), ds.length = 3 ∧ sampleEnv.Yields
    (St.init ⟨[], charsOf "x{a {b\\}}  {}}\\"⟩ ()) (ds.map .ok) t := by
  obtain ⟨t, h⟩ := Env.yields_of' (E := sampleEnv) 80 9 (s := St.init ⟨[], charsOf "x{a {b\\}}  {}}\\"⟩ ())
    (l := [.text (charsOf "x"), .combination (.text (charsOf "a")) (listOf
      [.combination (.text (charsOf "b}")) .emptyList, .text (charsOf "  "), .emptyNest]),
      .text []].map .ok) (by decide +kernel)
  exact ⟨_, t, rfl, h⟩

/-- C03 (completeness). If the source is written in the grammar, a parse without
bindings, with memory that does not run out, yields exactly the meanings, in order, and no
error. -/
theorem C03_written_is_accepted (C : Conf E RS X) (D : E.cc.Disjoint) (hb : ∀ d, E.lookup d = none)
    (A : E.alloc.Reliable) (hF : ¬ X.F) {s : σ} {r : List (Item P)} (hs : RS s ⟨[], r⟩) (a : α)
    {ds : List (Datum (List (Item P)) ε)} (hw : Written E.cc r ds) :
    ∃ ds' t, E.Yields (St.init s a) (ds'.map .ok) t ∧ List.Forall₂ (DatumRel X.RT Eq) ds' ds := by
  obtain ⟨l, t, h1, h2⟩ := C.run_plain hb A hF hs a (hw.run D)
  obtain ⟨ds', rfl, h3⟩ := forall₂_resultRel_ok h2
  exact ⟨ds', t, h1, h3⟩

/-- C03, second part: the grammar is unambiguous. -/
theorem C03_grammar_unambiguous {cc : Classifier} (D : cc.Disjoint) {r : List (Item P)}
    {ds ds' : List (Datum (List (Item P)) ε)} (h : Written cc r ds) (h' : Written cc r ds') : ds = ds' := by
  have := (h.run D (CE := Empty)).det (seqSem_func P Unit) (h'.run D)
  have h2 := this.1
  clear this h h'
  induction ds generalizing ds' with
  | nil => cases ds' with
    | nil => rfl
    | cons => cases h2
  | cons d ds ih => cases ds' with
    | nil => cases h2
    | cons d' ds' =>
      simp only [List.map_cons, List.cons.injEq, Except.ok.injEq] at h2
      rw [h2.1, ih h2.2]

/-- C02 and C03 together: without bindings and with memory that does not run out,
the sources parsed without error are exactly those written in the grammar. -/
theorem C02_C03_accepts_exactly_the_grammar (C : Conf E RS X) (D : E.cc.Disjoint)
    (hb : ∀ d, E.lookup d = none) (A : E.alloc.Reliable) (hF : ¬ X.F) {s : σ} {r : List (Item P)}
    (hs : RS s ⟨[], r⟩) (a : α) :
    (∃ (ds : List (Datum τ ε)) (t : _), E.Yields (St.init s a) (ds.map .ok) t) ↔
      ∃ ds : List (Datum (List (Item P)) ε), Written E.cc r ds := by
  constructor
  · rintro ⟨ds, t, hy⟩
    obtain ⟨ds', h, _⟩ := C02_accepted_is_written C D hb hs hy
    exact ⟨ds', h⟩
  · rintro ⟨ds, hw⟩
    obtain ⟨ds', t, h, _⟩ := C03_written_is_accepted C D hb A hF hs a hw
    exact ⟨ds', t, h⟩

/-- `{ a b{}}` is written in the grammar (non-vacuity of C03). -/
example : Written (ε := Empty) defaultClassifier (charsOf "{ a b{}}")
    [.combination (.text (charsOf "a")) (listOf [.text (charsOf "b"), .emptyNest])] := by
  refine Gram.form (s := charsOf "{ a b{}}") (r := []) ?_ .nil
  refine Gram.combination (b := ⟨'{', ()⟩) (e := ⟨'}', ()⟩) (h := charsOf " a") (k := true)
    (sep := charsOf " ") (r := charsOf "b{}") (by decide) (by decide) ?_ (.one (by decide)) ?_
  · exact Gram.textHead (ws := charsOf " ") (s := charsOf "a") (by
      intro it hit; simp [charsOf] at hit; subst hit; decide) (by decide)
      (.plain (by decide) (by decide) .nil)
  · refine Gram.text (s := charsOf "b") (r := charsOf "{}") (by decide) (.plain (by decide) (by decide) .nil) ?_
    refine Gram.form (s := charsOf "{}") (r := []) ?_ .nil
    exact Gram.emptyNest (b := ⟨'{', ()⟩) (e := ⟨'}', ()⟩) (h := []) (by decide) (by decide)
      (.noHead (by intro _ h; cases h))

end Kul
