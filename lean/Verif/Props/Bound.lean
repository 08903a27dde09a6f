import Verif.Proof.FailSound
import Verif.Proof.CallCount
import Verif.Proof.Transfer
import Verif.Props.Balance

/-!
# C16, C17, C18, C19: operators bound to combiners

`Spec/Bound.lean` says what a source means when heads may be bound to combiners; combiners are
arbitrary functions that may also change the state `α`, so an equation about the state says
which combiners were called, how often, in which order and with what. `Spec/Failing.lean` says
the same of sources where something fails. `E` is any conforming parser, as in
`Props/Grammar.lean`; `seqEnv` is the parser of a source of plain items, where texts are lists
of items and take no memory.
-/

namespace Kul

variable {σ P τ ε α CE : Type} {E : Env σ P τ ε α CE} {RS : σ → Seq P → Prop} {X : TextSem P τ α}

/-! ## Whole sources -/

/-- C16, C17, C18. What an error-free parse yields, and the state it leaves, is a meaning of the
source. -/
theorem C16_C17_C18_meaning (C : Conf E RS X) (D : E.cc.Disjoint) {Mem : α → α → Prop}
    (M : MemOk X E.alloc Mem) {s : σ} {r : List (Item P)} (hs : RS s ⟨[], r⟩) {a : α}
    {ds : List (Datum τ ε)} {t} (hy : E.Yields (St.init s a) (ds.map .ok) t) :
    Means E.cc X.RT Mem E.lookup r a ds t.alloc := by
  obtain ⟨s', a', rfl, _, hr⟩ := C.yields_inv (AtItems.fresh hs) hy
  exact (hr.top ds rfl).sound D M false (fun h => by cases h)

/-- C16, C17, C18. Every balanced source is parsed without error to a meaning of it, if memory
does not run out and combiners do not fail. -/
theorem C16_C17_C18_total (C : Conf E RS X) (D : E.cc.Disjoint) {Mem : α → α → Prop}
    (M : MemOk X E.alloc Mem) (A : E.alloc.Reliable) (hF : ¬ X.F)
    (hc : ∀ e, ¬ CombinerError E.lookup e) {s : σ} {r : List (Item P)} (hs : RS s ⟨[], r⟩)
    (hb : Balanced E.cc r) (a : α) :
    ∃ ds t, E.Yields (St.init s a) (ds.map .ok) t ∧ Means E.cc X.RT Mem E.lookup r a ds t.alloc := by
  obtain ⟨l, s', r', a', hy, _, hr⟩ := C.yields_run a (AtItems.fresh hs)
  have hl := (C05_no_error_iff_balanced C D A hF hc hs hy).2 hb
  rcases results_cases l with ⟨ds, rfl⟩ | ⟨ds, e, l', rfl⟩
  · exact ⟨ds, _, hy, C16_C17_C18_meaning C D M hs hy⟩
  · obtain ⟨d, h⟩ := hl (.error e) (by simp)
    cases h

/-- C16, C17, C18. For the reference parser: a source yields exactly its meaning. -/
theorem C16_C17_C18_exact (cc : Classifier) (D : cc.Disjoint)
    (lookup : Datum (List (Item P)) ε → Option (Combiner (List (Item P)) ε α P CE))
    (r : List (Item P)) (a : α) (ds : List (Datum (List (Item P)) ε)) (a' : α) :
    (∃ t, (seqEnv cc (freeAlloc _ ε α) lookup).Yields (St.init ⟨[], r⟩ a) (ds.map .ok) t ∧ t.alloc = a') ↔
    Means cc Eq Eq lookup r a ds a' := by
  constructor
  · rintro ⟨t, hy, rfl⟩
    refine C16_C17_C18_meaning (seqConf cc (freeAlloc _ ε α) lookup) D ?_ rfl hy
    exact ⟨fun _ => rfl, fun _ _ _ h1 h2 => h1.trans h2, fun _ _ h => h, fun _ _ => rfl⟩
  · intro h
    have := Reads.complete (X := seqSem P α) D (fun _ => rfl) freeAlloc_free h
    obtain ⟨p, hy⟩ := (TopEval.run this).seqYields
    exact ⟨_, hy, rfl⟩

/-! ## Single nests -/

theorem Eval.text_head {cc : Classifier} (D : cc.Disjoint) {al : AllocOps τ ε α}
    {lookup : Datum τ ε → Option (Combiner τ ε α P CE)} (hF : ¬ X.F) {ws s c xs : List (Item P)} {a d o r' a'}
    (hws : AllWs cc ws) (hne : s ≠ []) (hs : TextOf cc cc.headDelim s c)
    (hx : ∀ it, xs.head? = some it → cc.headDelim it.ch = true)
    (h : Eval cc X al lookup (.next .operator d) (ws ++ s ++ xs) a o r' a') (hd : d ≠ 0) :
    ∃ t, o = .ok [.text t] ∧ X.RT t c ∧ X.RA a a' ∧ r' = xs := by
  cases s with
  | nil => exact absurd rfl hne
  | cons it s =>
    have hit : cc.isWhitespace it.ch = false ∧ cc.isNestStart it.ch = false ∧ cc.isNestEnd it.ch = false := by
      have hdel : cc.headDelim it.ch = false := by
        cases hs with
        | plain h => exact h
        | escaped h1 => exact stop_not_esc D h1 (m := .operator)
      simpa [Classifier.headDelim, Classifier.delim] using hdel
    have hl : lead cc .operator (ws ++ it :: s ++ xs) = it :: (s ++ xs) := by
      rw [List.append_assoc]
      exact lead_ws hws hit.1
    have hsc : scanText cc .operator (d == 0) 0 (it :: s ++ xs) = .ok c xs :=
      scanText_of_textOf D (m := .operator) (by simp) hs (fun y hy => ⟨hx y hy, by simp [hd]⟩)
    cases h with
    | next_eof h => rw [hl] at h; cases h
    | next_nest h h' => rw [hl] at h; cases h; rw [hit.2.1] at h'; cases h'
    | next_removed h h' => rw [hl] at h; cases h; rw [hit.2.1] at h'; cases h'
    | next_end h _ h' => rw [hl] at h; cases h; rw [hit.2.2] at h'; cases h'
    | next_text h _ _ ho =>
      rw [hl] at h
      cases h
      rcases ho with ⟨t, ⟨hra, hev⟩, rfl⟩ | ⟨e, ⟨hra, hev⟩, rfl⟩
      · rcases hev with ⟨t', c', ht, hsc', hrt⟩ | ⟨h, _⟩ | ⟨_, h, _⟩ | ⟨h, _⟩
        · cases ht
          rw [← List.cons_append, hsc] at hsc'
          cases hsc'
          exact ⟨t, rfl, hrt, hra, rfl⟩
        · cases h
        · cases h
        · exact absurd h hF
      · rcases hev with ⟨t', c', ht, _⟩ | ⟨_, h, _⟩ | ⟨_, _, h⟩ | ⟨h, _⟩
        · cases ht
        · rw [← List.cons_append, hsc] at h; cases h
        · rw [← List.cons_append, hsc] at h; cases h
        · exact absurd h hF

/-- A call at the start of a nest. -/
theorem Conf.call_nest (C : Conf E RS X) {s : σ} {it : Item P} {r1 : List (Item P)}
    (hs : AtItems RS s (it :: r1)) (hst : E.cc.isNestStart it.ch = true) (a : α) :
    ∃ o s' r' a', AtItems RS s' r' ∧ Eval E.cc X E.alloc E.lookup (.nested 1) (it :: r1) a o r' a' ∧
      (o ≠ .ok [] → E.Call ⟨s, a, 0⟩ (optOut o) ⟨s', a', 0⟩) ∧
      (o = .ok [] → ∃ x t, E.Call ⟨s, a, 0⟩ x t ∧ E.Call ⟨s', a', 0⟩ x t) := by
  obtain ⟨p, hs, hc⟩ := hs
  obtain ⟨N, hN⟩ : ∃ N, N = 3 * (it :: r1).length + 4 := ⟨_, rfl⟩
  have hp : p = [] := by rcases hc with h | h; exact h; cases h
  subst hp
  obtain ⟨s1, p1, h1, hs1, hc1, hp1⟩ := C.c_skipLeading .base (it :: r1) N [] s a 0 hs (by omega) (Or.inl rfl)
  obtain ⟨s2, hpk, hs2⟩ := C.c_peek hs1 a 0
  rw [lead_base] at hs2 hpk hc1
  have hp1 : p1 = [] := by rcases hc1 with h | h; exact h; cases h
  subst hp1
  obtain ⟨o, s', r', a', h2, ⟨p', hs', hc', hp'⟩, he⟩ := (run C N).2.1 [] it r1 s2 a 1 (by omega) hs2 hst (by omega)
  have hlen2 : r'.length < (it :: r1).length := he.length
  have hnd : Env.nestedInDepth (E.parseNested N) ⟨s2, a, 0⟩ = (optOut o, ⟨s', a', 0⟩) := by
    rw [Env.nestedInDepth_eq (E.keeps_parse N).2.1]
    show (((E.parseNested N) ⟨s2, a, 0 + 1⟩).1, _) = _
    rw [h2]
  have hrun : E.parseNext (N + 1) .base ⟨s, a, 0⟩ =
      (Env.nestedInDepth (E.parseNested N) >>= fun
        | none => E.parseNext N .base
        | some d => pure (some d)) ⟨s2, a, 0⟩ := by
    conv_lhs => unfold Env.parseNext
    rw [Act.bind_ok h1, Act.bind_ok hpk]
    simp only [List.head?_cons]
    rw [if_pos hst]
    rfl
  refine ⟨o, s', r', a', ⟨p', hs', hc'⟩, he, fun ho => ⟨N + 1, ?_, optOut_ne_fuel o⟩, ?_⟩
  · unfold Env.doNext
    rw [hrun]
    rcases o with e | l
    · rw [Act.bind_err hnd]; rfl
    · rw [Act.bind_ok hnd]
      rcases l with _ | ⟨x, l⟩
      · exact absurd rfl ho
      · rfl
  · rintro rfl
    obtain ⟨o, s3, r3, a3, h3, _⟩ := (run C N).1 .base p' r' s' a' 0 (by simp) hs' hc' (by omega)
    refine ⟨optOut o, ⟨s3, a3, 0⟩, ⟨N + 1, ?_, optOut_ne_fuel o⟩, ⟨N, h3, optOut_ne_fuel o⟩⟩
    unfold Env.doNext
    rw [hrun, Act.bind_ok hnd]
    exact h3

theorem Conf.call_gives (C : Conf E RS X) {s : σ} {it : Item P} {r1 : List (Item P)}
    (hs : AtItems RS s (it :: r1)) (hst : E.cc.isNestStart it.ch = true) (a : α) :
    ∃ o a' r', Eval E.cc X E.alloc E.lookup (.nested 1) (it :: r1) a o r' a' ∧
      ∀ o', o = optRes o' → CallGives E RS (St.init s a) o' a' r' := by
  obtain ⟨o, s', r', a', h1, h2, h3, h4⟩ := C.call_nest hs hst a
  refine ⟨o, a', r', h2, ?_⟩
  rintro o' rfl
  refine ⟨s', h1, ?_⟩
  rcases o' with e | _ | d
  · exact h3 (by simp [optRes])
  · obtain ⟨x, t, h5, h6⟩ := h4 rfl
    intro y u
    constructor
    · intro h; obtain ⟨rfl, rfl⟩ := h.unique h5; exact h6
    · intro h; obtain ⟨rfl, rfl⟩ := h.unique h6; exact h5
  · exact h3 (by simp [optRes])

/-- C16. A nest with a text as head that is bound to an operative: the operative is called with the
head and the text between the separating whitespace and the end delimiter, as it is written but
without escape characters. -/
theorem C16_operative_call (C : Conf E RS X) (D : E.cc.Disjoint) (hF : ¬ X.F)
    {b e : Item P} {ws h c sep r cr rest : List (Item P)} {f}
    (hb : E.cc.isNestStart b.ch = true) (hws : AllWs E.cc ws) (hne : h ≠ []) (hh : TextOf E.cc E.cc.headDelim h c)
    (hsep : Sep E.cc true sep r) (hr : RawOf E.cc r cr) (he : E.cc.isNestEnd e.ch = true)
    (hf : ∀ th, X.RT th c → E.lookup (.text th) = some (.operative f))
    {s : σ} (hs : AtItems RS s (b :: (ws ++ h ++ sep ++ r ++ e :: rest))) (a : α) :
    ∃ th tx a₁, X.RT th c ∧ X.RT tx cr ∧ X.RA a a₁ ∧
      CallGives E RS (St.init s a) (f (.text th) tx a₁).1 (f (.text th) tx a₁).2 rest := by
  obtain ⟨o, a', r', hE, hG⟩ := C.call_gives hs hb a
  obtain ⟨y, ys, hy, hy', hy''⟩ := hsep.split D he rest
  have hsplit : ws ++ h ++ sep ++ r ++ e :: rest = ws ++ h ++ (y :: ys) := by rw [← hy]; simp
  rw [hsplit] at hE
  have hhead := fun {o r' a'} h' => Eval.text_head (ε := ε) (CE := CE) (al := E.alloc) (lookup := E.lookup)
    (o := o) (r' := r') (a' := a') D hF hws hne hh (xs := y :: ys) (a := a) (d := 1)
    (by rintro _ ⟨⟩; exact hy' rfl) h' (by omega)
  cases hE with
  | nested_head_err h1 => obtain ⟨t, h, _⟩ := hhead h1; cases h
  | nested_empty h1 => obtain ⟨t, h, _⟩ := hhead h1; cases h
  | nested_args_err h1 h2 =>
    obtain ⟨t, h, hrt, _⟩ := hhead h1
    cases h
    exact absurd (hf _ hrt) (h2.not_operative _)
  | nested_args h1 h2 =>
    obtain ⟨t, h, hrt, _⟩ := hhead h1
    cases h
    exact absurd (hf _ hrt) (h2.not_operative _)
  | nested_operative h1 h2 h3 =>
    obtain ⟨th, h, hrt, hra, rfl⟩ := hhead h1
    cases h
    rw [hf _ hrt] at h2
    cases h2
    rw [hy''] at h3
    have hsc := scanText_of_raw D (top := false) hr he rest
    rcases h3 with ⟨t, x, a2, ⟨hra2, hev⟩, ho, rfl⟩ | ⟨t, ⟨_, hev⟩, _⟩ | ⟨e', ⟨_, hev⟩, _⟩
    · rcases hev with ⟨t', c', ht, hsc', hrt'⟩ | ⟨h, _⟩ | ⟨_, h, _⟩ | ⟨h, _⟩
      · cases ht
        rw [hsc] at hsc'
        cases hsc'
        exact ⟨th, t, a2, hrt, hrt', C.trans _ _ _ hra hra2, hG _ ho⟩
      · cases h
      · cases h
      · exact absurd h hF
    · rcases hev with ⟨t', c', ht, hsc', hrt'⟩ | ⟨h, _⟩ | ⟨_, h, _⟩ | ⟨h, _⟩
      · rw [hsc] at hsc'; cases hsc'
      · cases h
      · cases h
      · exact absurd h hF
    · rcases hev with ⟨t', c', ht, hsc', hrt'⟩ | ⟨_, h, _⟩ | ⟨_, _, h⟩ | ⟨h, _⟩
      · cases ht
      · rw [hsc] at h; cases h
      · rw [hsc] at h; cases h
      · exact absurd h hF

section Reference

variable {cc : Classifier} {lookup : Datum (List (Item P)) ε → Option (Combiner (List (Item P)) ε α P CE)}

theorem seq_call_gives {b : Item P} {r1 r' : List (Item P)} {a a' : α}
    {o : Except (Err P CE) (Option (Datum (List (Item P)) ε))} (hb : cc.isNestStart b.ch = true)
    (h : Eval cc (seqSem P α) (freeAlloc _ ε α) lookup (.nested 1) (b :: r1) a (optRes o) r' a') :
    CallGives (seqEnv cc (freeAlloc _ ε α) lookup) SeqAt (St.init ⟨[], b :: r1⟩ a) o a' r' := by
  obtain ⟨o', a₁, r₁, hE, hG⟩ := (seqConf cc (freeAlloc _ ε α) lookup).call_gives
    (s := ⟨[], b :: r1⟩) (AtItems.fresh rfl) hb a
  obtain ⟨rfl, rfl, rfl⟩ := hE.det (seqSem_func P α) h
  exact hG _ rfl

/-- C16. The same for any head, also a nest, with the reference parser. -/
theorem C16_operative_any_head (D : cc.Disjoint) {b e : Item P} {h sep r cr : List (Item P)} {k d f}
    {a a₁ : α} (hb : cc.isNestStart b.ch = true) (he : cc.isNestEnd e.ch = true)
    (hh : Reads cc Eq Eq lookup (.head k) h a [d] a₁) (hsep : Sep cc k sep r) (hr : RawOf cc r cr)
    (hf : lookup d = some (.operative f)) (rest : List (Item P)) :
    CallGives (seqEnv cc (freeAlloc _ ε α) lookup) SeqAt
      (St.init ⟨[], b :: (h ++ sep ++ r ++ e :: rest)⟩ a) (f d cr a₁).1 (f d cr a₁).2 rest := by
  refine seq_call_gives hb ?_
  obtain ⟨y, ys, hy, hy', hy''⟩ := hsep.split D he rest
  have h1 := Reads.complete (X := seqSem P α) D (fun _ => rfl) freeAlloc_free hh y ys 1 (by omega)
    (fun h => by cases h) hy'
  rw [show h ++ sep ++ r ++ e :: rest = h ++ (y :: ys) by rw [← hy]; simp]
  refine .nested_operative h1 hf ?_
  rw [hy'']
  exact Or.inl ⟨cr, e, a₁, ⟨rfl, Or.inl ⟨cr, cr, rfl, scanText_of_raw D hr he rest, rfl⟩⟩, rfl, rfl⟩

/-- C17. An applicative gets the list that the combination would have if the head were unbound. -/
theorem C17_same_list (D : cc.Disjoint) {b e : Item P} {h sep r : List (Item P)} {k d ds}
    {a a₁ a₂ : α} (hb : cc.isNestStart b.ch = true) (he : cc.isNestEnd e.ch = true)
    (hh : Reads cc Eq Eq lookup (.head k) h a [d] a₁) (hsep : Sep cc k sep r)
    (hr : Reads cc Eq Eq lookup (.forms false false) r a₁ ds a₂) (rest : List (Item P)) :
    (lookup d = none → CallGives (seqEnv cc (freeAlloc _ ε α) lookup) SeqAt
      (St.init ⟨[], b :: (h ++ sep ++ r ++ e :: rest)⟩ a) (.ok (some (.combination d (listOf ds)))) a₂ rest) ∧
    (∀ f, lookup d = some (.applicative f) → CallGives (seqEnv cc (freeAlloc _ ε α) lookup) SeqAt
      (St.init ⟨[], b :: (h ++ sep ++ r ++ e :: rest)⟩ a) (f d (listOf ds) a₂).1 (f d (listOf ds) a₂).2 rest) := by
  obtain ⟨y, ys, hy, hy', hy''⟩ := hsep.split D he rest
  have h1 := Reads.complete (X := seqSem P α) D (fun _ => rfl) freeAlloc_free hh y ys 1 (by omega)
    (fun h => by cases h) hy'
  have h2 := Reads.complete (X := seqSem P α) D (fun _ => rfl) freeAlloc_free hr e rest 1 (by omega) he
  rw [← hy''] at h2
  rw [show h ++ sep ++ r ++ e :: rest = h ++ (y :: ys) by rw [← hy]; simp, ← mkList_eq_listOf]
  exact ⟨fun hl => seq_call_gives hb (.nested_args h1 (.unbound hl) h2 (by rfl)),
    fun f hl => seq_call_gives hb (.nested_args h1 (.applicative hl) h2 (by rfl))⟩

/-- C18. At top level: a call at a removed nest is a call after it. -/
theorem C18_removed (D : cc.Disjoint) {s : List (Item P)} {a a₁ : α}
    (h : Reads cc Eq Eq lookup .nest s a [] a₁) (rest : List (Item P)) :
    CallGives (seqEnv cc (freeAlloc _ ε α) lookup) SeqAt (St.init ⟨[], s ++ rest⟩ a) (.ok none) a₁ rest := by
  obtain ⟨b, r, rfl, hb⟩ := h.nest_cons rfl
  exact seq_call_gives hb (Reads.complete (X := seqSem P α) D (fun _ => rfl) freeAlloc_free h rest 1 (by omega))

theorem Reads.then_removed {RT : τ → List (Item P) → Prop} {Mem : α → α → Prop}
    {lk : Datum τ ε → Option (Combiner τ ε α P CE)} {top : Bool} {cat : Cat} {r₁ x r₂ : List (Item P)}
    {a a₁ a₂ a₃ : α} {ds₁ ds₂ : List (Datum τ ε)} (h : Reads cc RT Mem lk cat r₁ a ds₁ a₁)
    (hx : Reads cc RT Mem lk .nest x a₁ [] a₂) (h₂ : Reads cc RT Mem lk (.forms top false) r₂ a₂ ds₂ a₃) :
    ∀ {b}, cat = .forms false b → Reads cc RT Mem lk (.forms top b) (r₁ ++ x ++ r₂) a (ds₁ ++ ds₂) a₃ := by
  induction h with
  | nil => intro b _; exact .removed hx h₂
  | text h1 h2 h3 h4 _ ih =>
    intro b hb
    cases hb
    have := Reads.text h1 h2 h3 h4 (ih hx rfl)
    simpa using this
  | form h1 h2 _ _ ih =>
    intro b hb
    cases hb
    simp only [List.append_assoc, List.cons_append] at ih ⊢
    exact .form h1 h2 (ih hx rfl)
  | removed h1 _ _ ih =>
    intro b hb
    cases hb
    simp only [List.append_assoc] at ih ⊢
    exact .removed h1 (ih hx rfl)
  | _ => intro b hb; cases hb

/-- C18. At top level, in a whole source: what is before and after a removed nest is what is yielded,
and what comes after is read in the state that the combiner has left. -/
theorem C18_removed_in_source (D : cc.Disjoint) {r₁ x r₂ : List (Item P)} {a a₁ a₂ a₃ : α} {ds₁ ds₂}
    (h₁ : Reads cc Eq Eq lookup (.forms false false) r₁ a ds₁ a₁) (hx : Reads cc Eq Eq lookup .nest x a₁ [] a₂)
    (h₂ : Means cc Eq Eq lookup r₂ a₂ ds₂ a₃) :
    ∃ t, (seqEnv cc (freeAlloc _ ε α) lookup).Yields (St.init ⟨[], r₁ ++ x ++ r₂⟩ a) ((ds₁ ++ ds₂).map .ok) t ∧
      t.alloc = a₃ :=
  (C16_C17_C18_exact cc D lookup _ _ _ _).2 (h₁.then_removed hx h₂ rfl)

/-- C18. Among operands: the operands before and after a removed nest make up the list. -/
theorem C18_removed_operand (D : cc.Disjoint) {b e : Item P} {h sep r₁ x r₂ : List (Item P)} {k d ds₁ ds₂}
    {a a₁ a₂ a₃ a₄ : α} (hb : cc.isNestStart b.ch = true) (he : cc.isNestEnd e.ch = true)
    (hh : Reads cc Eq Eq lookup (.head k) h a [d] a₁) (hsep : Sep cc k sep (r₁ ++ x ++ r₂)) (hd : lookup d = none)
    (h₁ : Reads cc Eq Eq lookup (.forms false false) r₁ a₁ ds₁ a₂) (hx : Reads cc Eq Eq lookup .nest x a₂ [] a₃)
    (h₂ : Reads cc Eq Eq lookup (.forms false false) r₂ a₃ ds₂ a₄) (rest : List (Item P)) :
    CallGives (seqEnv cc (freeAlloc _ ε α) lookup) SeqAt
      (St.init ⟨[], b :: (h ++ sep ++ (r₁ ++ x ++ r₂) ++ e :: rest)⟩ a)
      (.ok (some (.combination d (listOf (ds₁ ++ ds₂))))) a₄ rest :=
  (C17_same_list D hb he hh hsep (h₁.then_removed hx h₂ rfl) rest).1 hd

/-- C18. In head position: what follows a removed nest is the head; if nothing follows, the nest is an
empty nest. -/
theorem C18_removed_head (D : cc.Disjoint) {b e : Item P} {ws x h sep r : List (Item P)} {k}
    {a a₀ a₁ a₂ : α} (hb : cc.isNestStart b.ch = true) (he : cc.isNestEnd e.ch = true) (hws : AllWs cc ws)
    (hx : Reads cc Eq Eq lookup .nest x a [] a₀) (rest : List (Item P)) :
    (∀ d ds, Reads cc Eq Eq lookup (.head k) h a₀ [d] a₁ → Sep cc k sep r → lookup d = none →
      Reads cc Eq Eq lookup (.forms false false) r a₁ ds a₂ →
      CallGives (seqEnv cc (freeAlloc _ ε α) lookup) SeqAt
        (St.init ⟨[], b :: (ws ++ x ++ h ++ sep ++ r ++ e :: rest)⟩ a)
        (.ok (some (.combination d (listOf ds)))) a₂ rest) ∧
    (Reads cc Eq Eq lookup (.head false) h a₀ [] a₁ →
      CallGives (seqEnv cc (freeAlloc _ ε α) lookup) SeqAt
        (St.init ⟨[], b :: (ws ++ x ++ h ++ e :: rest)⟩ a) (.ok (some .emptyNest)) a₁ rest) := by
  refine ⟨fun d ds hh hsep hd hr => (C17_same_list D hb he (.removedHead hws hx hh) hsep hr rest).1 hd, fun hh => ?_⟩
  have h1 := Reads.complete (X := seqSem P α) D (fun _ => rfl) freeAlloc_free
    (Reads.emptyNest hb he (.removedHead hws hx hh)) rest 1 (by omega)
  have h2 := seq_call_gives (r1 := ws ++ x ++ h ++ [e] ++ rest) (o := .ok (some .emptyNest)) hb h1
  simpa using h2

end Reference

/-! ## Failures -/

theorem first_error_at (C : Conf E RS X) (D : E.cc.Disjoint) {Mem : α → α → Prop}
    (M : MemOk X E.alloc Mem) {s : σ} {r : List (Item P)} (hs : AtItems RS s r) {a : α}
    {ds : List (Datum τ ε)} {e after t}
    (hy : E.Yields (St.init s a) (ds.map .ok ++ .error e :: after) t) :
    ∃ r₁ rest s₁ a₁, r = r₁ ++ rest ∧
      Fails E.cc X.RT Mem (MemoryError X.F E.alloc) E.lookup (.forms true false) r₁ rest a ds e a₁ ∧
      AtItems RS s₁ rest ∧ E.Yields (St.init s₁ a₁) after t := by
  have key : ∀ (ds : List (Datum τ ε)) {s r a}, AtItems RS s r →
      E.Yields (St.init s a) (ds.map .ok ++ .error e :: after) t →
      ∃ r₁ rest s₁ a₁, r = r₁ ++ rest ∧ (∀ b, (b = true → AtNext E.cc true r) →
        FailsAt E.cc X E.alloc E.lookup Mem (.forms true b) r₁ rest a ds e a₁) ∧
        AtItems RS s₁ rest ∧ E.Yields (St.init s₁ a₁) after t := by
    intro ds
    induction ds with
    | nil =>
      intro s r a hs hy
      cases hy with
      | error hc hy =>
        obtain ⟨o, s', r', a', ho, rfl, h2, h3⟩ := C.call_inv hs hc
        rcases o with e' | l
        · cases ho
          obtain ⟨p, rfl, h4⟩ := (h3.fail_sound D M).1 _ rfl
          exact ⟨p, r', s', a', rfl, h4, h2, hy⟩
        · cases ho
    | cons d ds ih =>
      intro s r a hs hy
      cases hy with
      | datum hc hy =>
        obtain ⟨o, s', r', a', ho, rfl, h2, h3⟩ := C.call_inv hs hc
        have : o = .ok [d] := by
          rcases o with e' | l
          · cases ho
          · have := h3.le_one _ rfl
            match l, this with
            | [x], _ => cases ho; rfl
            | [], _ => cases ho
        subst this
        obtain ⟨p₂, rest, s₁, a₁, rfl, h5, h6, h7⟩ := ih h2 hy
        rcases (h3.fail_sound D M).2 _ rfl with ⟨p, k, rfl, h8, h9, _⟩ | ⟨h8, _⟩
        · exact ⟨p ++ p₂, rest, s₁, a₁, by simp,
            fun b hb => h9 b hb _ _ _ _ _ _ (M.refl _) (h5 k h8), h6, h7⟩
        · exfalso
          have hz : p₂ = [] ∧ rest = [] := by simpa using h8
          obtain ⟨rfl, rfl⟩ := hz
          have := (C.yields_inv h2 hy).choose_spec.choose_spec.2.2.length
          simp at this
  obtain ⟨r₁, rest, s₁, a₁, h1, h2, h3⟩ := key ds hs hy
  exact ⟨r₁, rest, s₁, a₁, h1, h2 false (fun h => by cases h), h3⟩

/-- C19. The first error of a parse is a failure of reading the source as `Fails` describes it, and
the parse goes on where that failure left off. -/
theorem C19_first_error (C : Conf E RS X) (D : E.cc.Disjoint) {Mem : α → α → Prop}
    (M : MemOk X E.alloc Mem) {s : σ} {r : List (Item P)} (hs : RS s ⟨[], r⟩) {a : α}
    {ds : List (Datum τ ε)} {e after t}
    (hy : E.Yields (St.init s a) (ds.map .ok ++ .error e :: after) t) :
    ∃ r₁ rest s₁ a₁, r = r₁ ++ rest ∧
      Fails E.cc X.RT Mem (MemoryError X.F E.alloc) E.lookup (.forms true false) r₁ rest a ds e a₁ ∧
      AtItems RS s₁ rest ∧ E.Yields (St.init s₁ a₁) after t :=
  first_error_at C D M (AtItems.fresh hs) hy

/-- C19. Every nest calls its combiner at most once: whatever counts the calls of combiners in the
state grows by no more than the number of start delimiters in the source. -/
theorem C19_at_most_one_call_per_nest (C : Conf E RS X) {n : α → Nat}
    (N : CountsCalls X E.alloc E.lookup n) {s : σ} {r : List (Item P)} (hs : RS s ⟨[], r⟩) {a : α}
    {l t} (hy : E.Yields (St.init s a) l t) :
    n t.alloc ≤ n a + r.countP fun it => E.cc.isNestStart it.ch := by
  obtain ⟨s', a', rfl, _, hr⟩ := C.yields_inv (AtItems.fresh hs) hy
  have := hr.count N
  simp only [starts] at this
  simpa using Nat.le_trans (Nat.le_add_right _ _) this

theorem Conf.calls_count_ends (C : Conf E RS X) {n : α → Nat} (N : CountsCalls X E.alloc E.lookup n) {t os t'}
    (h : E.Calls t os t') : ∀ {s a r}, t = ⟨s, a, 0⟩ → AtItems RS s r → ∃ s' a' r', t' = ⟨s', a', 0⟩ ∧
      AtItems RS s' r' ∧ r' <:+ r ∧ n a' + ends E.cc r' ≤ n a + ends E.cc r := by
  induction h with
  | nil =>
    rintro s a r rfl hs
    exact ⟨s, a, r, rfl, hs, List.suffix_rfl, Nat.le_refl _⟩
  | cons hc _ ih =>
    rintro s a r rfl hs
    obtain ⟨x, s', r', a', _, rfl, h1, h2⟩ := C.call_inv hs hc
    obtain ⟨s₂, a₂, r₂, rfl, h3, h4, h5⟩ := ih rfl h1
    have := h2.count_ends N
    exact ⟨s₂, a₂, r₂, rfl, h3, h4.trans h2.suffix, by omega⟩

/-- C19. No combiner is called before a nest has ended: after any history of calls of the parser, whatever their results,
whatever counts the calls of combiners in the state has grown by no more than the number of end delimiters in the part `u`
of the source that has been read. -/
theorem C19_no_call_before_end (C : Conf E RS X) {n : α → Nat} (N : CountsCalls X E.alloc E.lookup n) {s : σ}
    {r : List (Item P)} (hs : RS s ⟨[], r⟩) {a : α} {os t} (h : E.Calls (St.init s a) os t) :
    ∃ u v, r = u ++ v ∧ AtItems RS t.strm v ∧ n t.alloc ≤ n a + u.countP fun it => E.cc.isNestEnd it.ch := by
  obtain ⟨s', a', v, rfl, h1, ⟨u, rfl⟩, h3⟩ := C.calls_count_ends N h rfl (AtItems.fresh hs)
  refine ⟨u, v, rfl, h1, ?_⟩
  simp only [ends, List.countP_append] at h3
  dsimp only
  omega

/-! ## Non-vacuity -/

/-- Bindings that log their calls: `o` gives its operands as text, `q` drops its nest, `p` gives its
list of operands, `x` fails. -/
def logLookup : Datum (List (Item Unit)) Empty →
    Option (Combiner (List (Item Unit)) Empty (List (List Char)) Unit Nat)
  | .text t =>
    match t.map Item.ch with
    | ['o'] => some (.operative fun _ t a => (.ok (some (.text t)), a ++ [t.map Item.ch]))
    | ['q'] => some (.operative fun _ t a => (.ok none, a ++ [t.map Item.ch]))
    | ['p'] => some (.applicative fun _ l a => (.ok (some l), a ++ [['p']]))
    | ['x'] => some (.applicative fun _ _ a => (.error (.failedCombiner 7), a ++ [['x']]))
    | _ => none
  | _ => none

def logEnv : Env (Seq Unit) Unit (List (Item Unit)) Empty (List (List Char)) Nat :=
  seqEnv defaultClassifier (freeAlloc _ _ _) logLookup

/-- Results and log. -/
abbrev LogView := List (Except (Err Unit Nat) (Datum (List (Item Unit)) Empty)) × List (List Char)

instance : DecidableEq LogView :=
  haveI : DecidableEq (List (Except (Err Unit Nat) (Datum (List (Item Unit)) Empty))) := fun _ _ => inferInstance
  fun x y => instDecidableEqProd x y

theorem logEnv_mem : MemOk (seqSem Unit (List (List Char))) logEnv.alloc Eq :=
  ⟨fun _ => rfl, fun _ _ _ h1 h2 => h1.trans h2, fun _ _ h => h, fun _ _ => rfl⟩

/-- C16, C17, C18: in `{p a{o b}{q {}}c}d` the calls are `o b`, `q {}`, `p` in this order, and the
result is the list of `a`, `b` and `c` followed by `d`. -/
example : Means defaultClassifier Eq Eq logLookup (charsOf "{p a{o b}{q {}}c}d") []
    [listOf [.text (charsOf "a"), .text (charsOf "b"), .text (charsOf "c")], .text (charsOf "d")]
    [['b'], ['{', '}'], ['p']] := by
  obtain ⟨l, t, h, ht⟩ := Env.yields_of_view (E := logEnv) (β := LogView) (n := 200) (k := 9)
    (s := St.init ⟨[], charsOf "{p a{o b}{q {}}c}d"⟩ [])
    (v := ([listOf [.text (charsOf "a"), .text (charsOf "b"), .text (charsOf "c")], .text (charsOf "d")].map .ok,
      [['b'], ['{', '}'], ['p']]))
    (fun x => (x.1, x.2.alloc)) (by decide +kernel)
  obtain ⟨h1, h2⟩ := Prod.mk.inj ht
  subst h1
  exact h2 ▸ C16_C17_C18_meaning (seqConf _ _ _) defaultClassifier_disjoint logEnv_mem rfl h

/-- C16, C17, C18: `{p a{o }}\\}` balances, so it has a meaning. -/
example : ∃ ds t, boundEnv.Yields (St.init ⟨[], itemsOf "{p a{o }}\\}"⟩ ()) (ds.map .ok) t ∧
    Means defaultClassifier Eq Eq sampleLookup (itemsOf "{p a{o }}\\}") () ds t.alloc :=
  C16_C17_C18_total (seqConf _ _ _) defaultClassifier_disjoint
    ⟨fun _ => rfl, fun _ _ _ h1 h2 => h1.trans h2, fun _ _ h => h, fun _ _ => rfl⟩ (freeAlloc_reliable _ _ _)
    (fun h => h) sampleLookup_no_error rfl (by unfold Balanced; decide +kernel) ()

/-- C16: the operative `o` at the start of `{ o {\\}}}a`, for any continuation. -/
example (rest : List (Item Unit)) : ∃ (th tx : List (Item Unit)) (a₁ : List (List Char)), th = charsOf "o" ∧ tx = charsOf "{}}" ∧ [] = a₁ ∧
    CallGives logEnv SeqAt (St.init ⟨[], charsOf "{ o {\\}}}" ++ rest⟩ [])
      (.ok (some (.text tx))) (a₁ ++ [tx.map Item.ch]) rest :=
  C16_operative_call (E := logEnv) (X := seqSem Unit _) (seqConf _ _ _) defaultClassifier_disjoint (fun h => h)
    (b := ⟨'{', ()⟩) (e := ⟨'}', ()⟩) (ws := charsOf " ") (h := charsOf "o") (c := charsOf "o")
    (sep := charsOf " ") (r := charsOf "{\\}}") (cr := charsOf "{}}") (rest := rest)
    (f := fun _ t a => (.ok (some (.text t)), a ++ [t.map Item.ch])) (by decide) (by unfold AllWs; decide) (by decide)
    (.plain (by decide) (by decide) .nil) (.one (by decide))
    (.nest (s := charsOf "\\}") (c := charsOf "}") (e := ⟨'}', ()⟩) (s' := []) (c' := []) (by decide) (by decide)
      (.escaped (by decide) .nil) .nil)
    (by decide) (by rintro _ rfl; rfl) (AtItems.fresh rfl) []

/-- C16, any head: the head `{o o}` is the text `o`, which is bound to an operative. -/
example (rest : List (Item Unit)) : CallGives logEnv SeqAt (St.init ⟨[], charsOf "{{o o}a}" ++ rest⟩ [])
      (.ok (some (.text (charsOf "a")))) [['o'], ['a']] rest :=
  C16_operative_any_head (lookup := logLookup) defaultClassifier_disjoint
    (b := ⟨'{', ()⟩) (e := ⟨'}', ()⟩) (h := charsOf "{o o}") (sep := []) (r := charsOf "a") (cr := charsOf "a")
    (k := false) (d := .text (charsOf "o")) (a₁ := [['o']])
    (f := fun _ t a => (.ok (some (.text t)), a ++ [t.map Item.ch])) (by decide) (by decide)
    (.nestHead (ws := []) (fun _ h => by cases h)
      (.operative (o := some (.text (charsOf "o"))) (h := charsOf "o") (sep := charsOf " ") (r := charsOf "o") (b := ⟨'{', ()⟩) (e := ⟨'}', ()⟩)
        (by decide) (by decide)
        (.textHead (ws := []) (s := charsOf "o") (fun _ h => by cases h) (by decide) (.plain (by decide) (by decide) .nil) rfl rfl)
        (.one (by decide)) rfl (.plain (by decide) (by decide) .nil) rfl rfl rfl))
    (.none (by decide) (by decide)) (.plain (by decide) (by decide) .nil) rfl rest

/-- C17: `{p a}`. -/
example (rest : List (Item Unit)) : CallGives logEnv SeqAt (St.init ⟨[], charsOf "{p a}" ++ rest⟩ [])
      (.ok (some (listOf [.text (charsOf "a")]))) [['p']] rest :=
  (C17_same_list (lookup := logLookup) defaultClassifier_disjoint
    (b := ⟨'{', ()⟩) (e := ⟨'}', ()⟩) (h := charsOf "p") (sep := charsOf " ") (r := charsOf "a")
    (k := true) (d := .text (charsOf "p")) (ds := [.text (charsOf "a")]) (a₁ := []) (a₂ := []) (by decide) (by decide)
    (.textHead (ws := []) (s := charsOf "p") (fun _ h => by cases h) (by decide) (.plain (by decide) (by decide) .nil) rfl rfl)
    (.one (by decide))
    (.text (s := charsOf "a") (r := []) (by decide) (.plain (by decide) (by decide) .nil) rfl rfl .nil) rest).2 _ rfl

theorem removed_sample (a : List (List Char)) :
    Reads defaultClassifier Eq Eq logLookup .nest (charsOf "{q a}") a [] (a ++ [['a']]) :=
  .operative (o := none) (h := charsOf "q") (sep := charsOf " ") (r := charsOf "a") (b := ⟨'{', ()⟩) (e := ⟨'}', ()⟩)
    (by decide) (by decide)
    (.textHead (ws := []) (s := charsOf "q") (fun _ h => by cases h) (by decide) (.plain (by decide) (by decide) .nil) rfl rfl)
    (.one (by decide)) rfl (.plain (by decide) (by decide) .nil) rfl rfl rfl

theorem text_sample (c : Char) (hc : defaultClassifier.delim c = false) (he : defaultClassifier.isNestEscape c = false)
    (top : Bool) (a : List (List Char)) :
    Reads defaultClassifier Eq Eq logLookup (.forms top false) [⟨c, ()⟩] a [.text [⟨c, ()⟩]] a := by
  have := Reads.text (cc := defaultClassifier) (RT := Eq) (Mem := Eq) (lookup := logLookup) (top := top) (s := [⟨c, ()⟩])
    (by simp) (.plain hc he .nil) rfl (rfl : a = a) .nil
  simpa using this

/-- C18: `{q a}`. -/
example (rest : List (Item Unit)) : CallGives logEnv SeqAt (St.init ⟨[], charsOf "{q a}" ++ rest⟩ [])
      (.ok none) [['a']] rest :=
  C18_removed (lookup := logLookup) defaultClassifier_disjoint (s := charsOf "{q a}") (removed_sample []) rest

/-- C18: `x{q a}y` yields `x` and `y`. -/
example : ∃ t, logEnv.Yields (St.init ⟨[], charsOf "x" ++ charsOf "{q a}" ++ charsOf "y"⟩ [])
    (([Datum.text (charsOf "x")] ++ [Datum.text (charsOf "y")]).map .ok) t ∧ t.alloc = [['a']] :=
  C18_removed_in_source (lookup := logLookup) defaultClassifier_disjoint (text_sample 'x' rfl rfl false [])
    (removed_sample []) (text_sample 'y' rfl rfl true _)

/-- C18: `{h x{q a}y}` is the combination of `h` with `x` and `y`. -/
example (rest : List (Item Unit)) : CallGives logEnv SeqAt
    (St.init ⟨[], ⟨'{', ()⟩ :: (charsOf "h" ++ charsOf " " ++ (charsOf "x" ++ charsOf "{q a}" ++ charsOf "y") ++ ⟨'}', ()⟩ :: rest)⟩ [])
    (.ok (some (.combination (.text (charsOf "h")) (listOf ([.text (charsOf "x")] ++ [.text (charsOf "y")])))))
    [['a']] rest :=
  C18_removed_operand (lookup := logLookup) defaultClassifier_disjoint (by decide) (by decide)
    (.textHead (ws := []) (s := charsOf "h") (fun _ h => by cases h) (by decide) (.plain (by decide) (by decide) .nil) rfl rfl)
    (.one (by decide)) rfl (text_sample 'x' rfl rfl false []) (removed_sample []) (text_sample 'y' rfl rfl false _) rest

/-- C18: `{{q a}h y}` is the combination of `h` with `y`, and `{{q a}}` is an empty nest. -/
example (rest : List (Item Unit)) :
    CallGives logEnv SeqAt
      (St.init ⟨[], ⟨'{', ()⟩ :: ([] ++ charsOf "{q a}" ++ charsOf "h" ++ charsOf " " ++ charsOf "y" ++ ⟨'}', ()⟩ :: rest)⟩ [])
      (.ok (some (.combination (.text (charsOf "h")) (listOf [.text (charsOf "y")])))) [['a']] rest ∧
    CallGives logEnv SeqAt
      (St.init ⟨[], ⟨'{', ()⟩ :: ([] ++ charsOf "{q a}" ++ [] ++ ⟨'}', ()⟩ :: rest)⟩ []) (.ok (some .emptyNest)) [['a']] rest :=
  have nows : AllWs defaultClassifier ([] : List (Item Unit)) := fun _ h => by cases h
  ⟨(C18_removed_head (lookup := logLookup) defaultClassifier_disjoint (by decide) (by decide) nows (removed_sample []) rest).1
      _ _ (.textHead (ws := []) (s := charsOf "h") nows (by decide) (.plain (by decide) (by decide) .nil) rfl rfl)
      (.one (by decide)) rfl (text_sample 'y' rfl rfl false _),
    (C18_removed_head (k := false) (sep := []) (r := []) (a₂ := []) (lookup := logLookup) defaultClassifier_disjoint (by decide)
      (by decide) nows (removed_sample []) rest).2 (.noHead nows)⟩

/-- C19: in `a{p {o b}{x {q c}}{o d}}{q e}` the calls are `o b`, `q c` and `x`; the error of `x` is
the error and `p` is not called. After the error the parse goes on with `{o d}}{q e}`. -/
example : ∃ l t, logEnv.Yields (St.init ⟨[], charsOf "a{p {o b}{x {q c}}{o d}}{q e}"⟩ []) l t ∧
    (l = [.text (charsOf "a")].map .ok ++ .error (.failedCombiner 7) ::
      [.ok (.text (charsOf "d")), .error (.unbalancedEndChar ())] ∧
      t.alloc = [['b'], ['c'], ['x'], ['d'], ['e']]) ∧
    ∃ r₁ rest s₁ a₁, charsOf "a{p {o b}{x {q c}}{o d}}{q e}" = r₁ ++ rest ∧
      Fails defaultClassifier Eq Eq (MemoryError False logEnv.alloc) logLookup (.forms true false) r₁ rest []
        [.text (charsOf "a")] (.failedCombiner 7) a₁ ∧ AtItems SeqAt s₁ rest ∧
      logEnv.Yields (St.init s₁ a₁) [.ok (.text (charsOf "d")), .error (.unbalancedEndChar ())] t := by
  obtain ⟨l, t, h, ht⟩ := Env.yields_of_view (E := logEnv) (β := LogView) (n := 200) (k := 9)
    (s := St.init ⟨[], charsOf "a{p {o b}{x {q c}}{o d}}{q e}"⟩ [])
    (v := ([.text (charsOf "a")].map .ok ++ .error (.failedCombiner 7) ::
      [.ok (.text (charsOf "d")), .error (.unbalancedEndChar ())], [['b'], ['c'], ['x'], ['d'], ['e']]))
    (fun x => (x.1, x.2.alloc)) (by decide +kernel)
  obtain ⟨h1, h2⟩ := Prod.mk.inj ht
  subst h1
  exact ⟨_, t, h, ⟨rfl, h2⟩, C19_first_error (seqConf _ _ _) defaultClassifier_disjoint logEnv_mem rfl h⟩

/-- C19: the length of the log counts the calls. -/
theorem logEnv_counts : CountsCalls (seqSem Unit _) logEnv.alloc logEnv.lookup List.length where
  operative d f h t a := by
    cases d <;> simp only [logEnv, seqEnv, logLookup, reduceCtorEq] at h
    split at h <;> cases h <;> simp
  applicative d f h t a := by
    cases d <;> simp only [logEnv, seqEnv, logLookup, reduceCtorEq] at h
    split at h <;> cases h <;> simp
  text a b h := by cases h; exact Nat.le_refl _
  alloc d a := Nat.le_refl _

end Kul
