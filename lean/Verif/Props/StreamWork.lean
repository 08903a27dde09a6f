import Verif.Proof.StreamTurns
import Verif.Proof.StreamWork
import Verif.Proof.Invariant
import Verif.Props.Work

/-!
# C89: the work inside of the source streams

C57 bounds how often the parser calls its source. Here is what the streams of the library do in these calls:
`E.metered N` (`Spec/StreamWork.lean`) is the parser `E` on its stream with counts of the calls, of the peeks that find
nothing, and of the steps that the methods take: the turns of the loops of `text::Iter` (`textTurns`), the turns of the
loops of `StrishIterSourceStream` and the strings that it asks for (`strishSteps`), and the characters that
`CharIterSourceStream` copies (`charCopies`).
-/

namespace Kul

variable {σ C CS P τ ε α CE : Type} {O : ChunkOps C CS P} {RC : C → List (Item P) → Prop}
  {E : Env σ P τ ε α CE} {N : StreamSteps σ α}

/-- C89. Counting changes nothing: the histories of calls of the parser with counts are those of the parser itself. Of
every parser, in every state, whatever is counted. -/
theorem C89_counting_changes_nothing (t : St σ α) (m : Meter σ) (hm : m.strm = t.strm) (os) (t' : St σ α) :
    (∃ m', m'.strm = t'.strm ∧ (E.metered N).Calls ⟨m, t.alloc, t.ndepth⟩ os ⟨m', t'.alloc, t'.ndepth⟩) ↔ E.Calls t os t' := by
  constructor
  · rintro ⟨m', h0, h⟩
    obtain ⟨s', h1, ⟨h2, _⟩, h3, h4⟩ := (metered_tracks (S := E.strm) (N := N) (I := fun _ => True) (fun _ _ => trivial)
      (fun _ _ => trivial) (fun _ _ _ => trivial) (fun _ _ _ => trivial)).calls (E := E) h trivial (s := t)
      ⟨⟨hm.symm, trivial⟩, rfl, rfl⟩
    cases s'; cases t'
    dsimp only at h0 h2 h3 h4
    subst h0 h2 h3 h4
    exact h1
  · intro h
    obtain ⟨s', h1, h2, h3, h4⟩ := (tracks_metered E.strm N).calls (E := E) (os := os) (t := t) (t' := t') h trivial
      (s := ⟨m, t.alloc, t.ndepth⟩) ⟨hm, rfl, rfl⟩
    obtain ⟨m', a', d'⟩ := s'
    dsimp only at h2 h3 h4
    subst h3 h4
    exact ⟨m', h2, h1⟩

theorem metered_calls {X : TextSem P τ α} {RS : σ → Seq P → Prop} (C : Conf E RS X) {s : σ} {r : List (Item P)}
    (hs : RS s ⟨[], r⟩) {a : α} {os t} (h : (E.metered N).Calls (St.init (Meter.start s) a) os t) :
    t.strm.calls ≤ 5 * r.length + 4 * os.length ∧ t.strm.atEnd ≤ os.length + 2 := by
  constructor
  · obtain ⟨s', h1, h2, _, _⟩ := (counted_metered E.strm N).calls (E := E) h trivial (s := St.init (s, 0) a) ⟨rfl, rfl, rfl⟩
    have := C57_linear_total C hs h1
    rw [h2] at this
    exact this
  · have := C.end_calls h (r := r) ⟨[], hs⟩
    simp only [St.init, Meter.start] at this
    split at this <;> omega

theorem metered_item {X : TextSem P τ α} {RS : σ → Seq P → Prop} (C : Conf E RS X) {m : Meter σ} {a : α} {r : List (Item P)}
    {o t} {e l : Nat} (hs : AtItems RS m.strm r) (hc : (E.metered N).Call ⟨m, a, 0⟩ o t) (ho : o ≠ .ok none)
    (ih : ∀ {m' a' r'}, t = ⟨m', a', 0⟩ → AtItems RS m'.strm r' →
        e ≤ m'.atEnd + (if r' = [] then 1 else 4) ∧ l ≤ r'.length) :
    e ≤ m.atEnd + (if r = [] then 1 else 4) ∧ l + 1 ≤ r.length := by
  obtain ⟨x, m', r', a', rfl, rfl, h1, h2⟩ := (C.metered (N := N)).call_inv hs hc
  obtain ⟨p₀, hs, _⟩ := hs
  obtain ⟨r'', b, ⟨p, h3⟩, ⟨h4, h5, h6⟩, h7, h8⟩ := C.end_call ⟨p₀, hs⟩ hc
  obtain ⟨i1, i2⟩ := ih rfl h1
  obtain ⟨p', h1', _⟩ := h1
  have hr : r'' = r' := (C.toCome h3).unique (C.toCome h1')
  subst hr
  have h9 : x ≠ .ok [] → r''.length < r.length := h2.top_progress
  have hp := h9 fun h => ho (by rw [h]; rfl)
  have hne : r ≠ [] := by rintro rfl; simp at hp
  rw [if_neg hne]
  refine ⟨?_, by omega⟩
  dsimp only at h4
  by_cases hr : r'' = []
  · rw [if_pos hr] at i1; omega
  · rw [if_neg hr] at i1
    have := h6 hr
    omega

theorem metered_yields {X : TextSem P τ α} {RS : σ → Seq P → Prop} (C : Conf E RS X) {t l t'}
    (h : (E.metered N).Yields t l t') : ∀ {m a r}, t = ⟨m, a, 0⟩ → AtItems RS m.strm r →
    t'.strm.atEnd ≤ m.atEnd + (if r = [] then 1 else 4) ∧ l.length ≤ r.length := by
  induction h with
  | done hc =>
    rintro m a r rfl ⟨p, hs, _⟩
    obtain ⟨r', b, _, ⟨h4, _, _⟩, h7, h8⟩ := C.end_call ⟨p, hs⟩ hc
    refine ⟨?_, by simp⟩
    dsimp only at h4
    split
    · next h => have := h8 h; omega
    · omega
  | datum hc _ ih =>
    rintro m a r rfl hs
    exact metered_item C hs hc (by simp) ih
  | error hc _ ih =>
    rintro m a r rfl hs
    exact metered_item C hs hc (by simp) ih

theorem Env.Yields.calls_length {s : St σ α} {l t} (h : E.Yields s l t) : ∃ os, E.Calls s os t ∧ os.length = l.length + 1 := by
  induction h with
  | done h => exact ⟨[_], .cons h .nil, rfl⟩
  | datum h _ ih =>
    obtain ⟨os, h1, h2⟩ := ih
    exact ⟨_ :: os, .cons h h1, by simp [h2]⟩
  | error h _ ih =>
    obtain ⟨os, h1, h2⟩ := ih
    exact ⟨_ :: os, .cons h h1, by simp [h2]⟩

/-! ## `text::Iter` -/

/-- C89, `text::Iter`, over any text of the library, in any history of calls, whatever their results: the turns of all
its loops are at most as many as the calls of its methods, three for each chunk, and one for each peek that finds nothing and
each of the empty chunks, if any, that the text ends with. The calls are at most five for each character and four for each call
of the parser; the peeks that find nothing are at most as many as the calls of the parser and two. -/
theorem C89_text {T : TextType C τ α} {X} (hC : LibChunk O RC) (hT : LibText O RC T X) (cc : Classifier) (al : AllocOps τ ε α)
    (lookup : Datum τ ε → Option (Combiner τ ε α P CE)) {cs : List C} {pieces : List (List (Item P))}
    (h : List.Forall₂ RC cs pieces) {a : α} {os t}
    (hc : ((textEnv O T cc al lookup).metered (textTurns O T)).Calls (St.init (Meter.start (.ofChunks O cs)) a) os t) :
    t.strm.steps ≤ t.strm.calls + 3 * pieces.length + (trailing pieces + 1) * t.strm.atEnd ∧
      t.strm.calls ≤ 5 * pieces.flatten.length + 4 * os.length ∧ t.strm.atEnd ≤ os.length + 2 := by
  obtain ⟨RCS, H⟩ := hC.conf
  have K := (hT.conf H).2
  have Cf := textEnv_conf (cc := cc) (al := al) (lookup := lookup) H K
  obtain ⟨s', h1, ⟨h2, h3⟩, _, _⟩ := (textIter_metered H K pieces).calls (E := textEnv O T cc al lookup) hc trivial
    (s := St.init (.ofChunks O cs) a) ⟨⟨rfl, TextIter.ofChunks_metered H h⟩, rfl, rfl⟩
  refine ⟨by have := h3.le; omega, metered_calls Cf (TextIter.ofChunks_means H h) hc⟩

/-- C89, `text::Iter`, for a whole parse: the steps are at most proportional to the number of characters and the number of
chunks of the source, empty ones too, wherever they are. -/
theorem C89_whole_text {T : TextType C τ α} {X} (hC : LibChunk O RC) (hT : LibText O RC T X) (cc : Classifier) (al : AllocOps τ ε α)
    (lookup : Datum τ ε → Option (Combiner τ ε α P CE)) {cs : List C} {pieces : List (List (Item P))}
    (h : List.Forall₂ RC cs pieces) {a : α} {l t}
    (hy : ((textEnv O T cc al lookup).metered (textTurns O T)).Yields (St.init (Meter.start (.ofChunks O cs)) a) l t) :
    t.strm.steps ≤ 9 * pieces.flatten.length + 7 * pieces.length + 8 := by
  obtain ⟨RCS, H⟩ := hC.conf
  have K := (hT.conf H).2
  have Cf := textEnv_conf (cc := cc) (al := al) (lookup := lookup) H K
  obtain ⟨h1, h2⟩ := metered_yields Cf hy rfl (AtItems.fresh (TextIter.ofChunks_means H h))
  obtain ⟨os, h3, h4⟩ := hy.calls_length
  obtain ⟨h5, h6, _⟩ := C89_text hC hT cc al lookup h h3
  have h7 : t.strm.atEnd ≤ 4 := by
    simp only [Meter.start] at h1
    split at h1 <;> omega
  have h8 : trailing pieces ≤ pieces.length := by
    have := (List.takeWhile_prefix (fun l : List (Item P) => l.isEmpty) (l := pieces.reverse)).length_le
    simpa [trailing] using this
  have h9 : (trailing pieces + 1) * t.strm.atEnd ≤ (pieces.length + 1) * 4 := Nat.mul_le_mul (by omega) h7
  omega

/-- C89, `text::Iter`: but after the end nothing remembers that only empty chunks are left. At a text of `k` chunks, all
of them empty, each call of the parser, however often it is called, takes `k + 1` turns. -/
theorem C89_end_is_sought_again (T : TextType C τ α) (hC : LibChunk O RC) (cc : Classifier)
    (al : AllocOps τ ε α) (lookup : Datum τ ε → Option (Combiner τ ε α P CE)) {c : C} {cs : List C}
    (h : ∀ x ∈ c :: cs, RC x []) (a : α) (j : Nat) :
    ∃ t, ((textEnv O T cc al lookup).metered (textTurns O T)).Calls (St.init (Meter.start (.ofChunks O (c :: cs))) a)
        (List.replicate j (.ok none)) t ∧ t.strm.calls = j ∧ t.strm.steps = j * ((c :: cs).length + 1) := by
  obtain ⟨RCS, H⟩ := hC.conf
  have hcs : List.Forall₂ RC cs (List.replicate cs.length []) := by
    induction cs with
    | nil => exact .nil
    | cons x cs ih => exact .cons (h x (by simp)) (ih fun y hy => h y (by simp at hy ⊢; tauto))
  have hsk : TextIter.aheadTurns O cs = cs.length + 1 := by
    rw [TextIter.aheadTurns_spec H hcs]
    generalize cs.length = n
    induction n with
    | zero => rfl
    | succ n ih => simp only [List.replicate_succ, skipsOf, ih]
  have hpk : TextIter.peekAhead O cs = .ok none := by
    rw [TextIter.peekAhead_spec H hcs]
    simp
  have key : ∀ j s k e n, RCS s ⟨[], []⟩ → ∃ t, ((textEnv O T cc al lookup).metered (textTurns O T)).Calls
      ⟨⟨⟨some s, cs, none, none⟩, k, e, n⟩, a, 0⟩ (List.replicate j (.ok none)) t ∧ t.strm.calls = k + j ∧
      t.strm.steps = n + j * (cs.length + 2) := by
    intro j
    induction j with
    | zero => exact fun s k e n hs => ⟨_, .nil, rfl, by simp⟩
    | succ j ih =>
      intro s k e n hs
      obtain ⟨s', g1, g2⟩ := H.peek s _ hs
      obtain ⟨t, h1, h2, h3⟩ := ih s' (k + 1) (e + 1) (n + (cs.length + 2)) g2
      refine ⟨t, .cons ⟨1, ?_, by simp⟩ h1, by omega, by rw [h3, Nat.succ_mul]; omega⟩
      have h4 : ((textEnv O T cc al lookup).metered (textTurns O T)).strm.peek ⟨⟨some s, cs, none, none⟩, k, e, n⟩ =
          (.ok none, ⟨⟨some s', cs, none, none⟩, k + 1, e + 1, n + (cs.length + 2)⟩) := by
        simp only [Env.metered, StreamOps.metered, textEnv, textIterOps, textTurns, TextIter.peek, TextIter.peekTurns, g1,
          List.head?_nil, hpk, hsk]
      show Env.parseNext _ 1 .base _ = _
      unfold Env.parseNext
      rw [Act.bind_ok (show Env.skipLeading _ 0 .base _ = _ from rfl),
        Act.bind_ok (show Env.peek _ _ = (.ok none, _) by simp only [Env.peek, liftEmpty, h4]; rfl)]
      rfl
  obtain ⟨t, h1, h2, h3⟩ := key j (O.srcStrm c) 0 0 0 (H.srcStrm c [] (h c (by simp)))
  exact ⟨t, h1, by omega, by rw [h3]; simp⟩

/-! ## `StrishIterSourceStream` -/

/-- C89, an iterator of strings: in any history of calls, whatever their results, the turns of the loops and the strings
asked for are together at most four for each call of the stream's methods, and one for each string. -/
theorem C89_strings {T : TextType PosStrish τ α} {X} (hT : LibText posStrishOps PosStrish.Means T X) (cc : Classifier)
    (al : AllocOps τ ε α) (lookup : Datum τ ε → Option (Combiner τ ε α CharPos CE)) (ss : List Str) {a : α} {os t}
    (hc : ((strishEnv T cc al lookup).metered (strishSteps T)).Calls (St.init (Meter.start (.new ss)) a) os t) :
    t.strm.steps ≤ 4 * t.strm.calls + ss.length ∧
      t.strm.calls ≤ 5 * (charItems ss.flatten).length + 4 * os.length := by
  have Cf := strishEnv_conf (cc := cc) (al := al) (lookup := lookup) (hT.conf posStrish_conf).2
  obtain ⟨s', h1, ⟨h2, h3⟩, _, _⟩ := (strishIter_metered T ss.length).calls (E := strishEnv T cc al lookup) hc trivial
    (s := St.init (.new ss) a) ⟨⟨rfl, StrishIter.new_metered ss⟩, rfl, rfl⟩
  exact ⟨by simp only [StrishIter.Metered] at h3; omega, (metered_calls Cf (StrishIter.new_means _ ss) hc).1⟩

/-! ## `CharIterSourceStream` -/

/-- C89, an iterator of characters: in any history of calls, whatever their results, no character is copied more than
twice, once into the string that is accumulated and once out of it. -/
theorem C89_chars (T : TextType PosStrish τ α) (cc : Classifier) (al : AllocOps τ ε α)
    (lookup : Datum τ ε → Option (Combiner τ ε α CharPos CE)) (s : Str) {a : α} {os t}
    (hc : ((charEnv T cc al lookup).metered charCopies).Calls (St.init (Meter.start (.new s)) a) os t) :
    t.strm.steps ≤ 2 * s.length := by
  obtain ⟨s', h1, ⟨h2, h3⟩, _, _⟩ := (charIter_metered T s.length).calls (E := charEnv T cc al lookup) hc trivial
    (s := St.init (.new s) a) ⟨⟨rfl, CharIter.new_metered s⟩, rfl, rfl⟩
  simp only [CharIter.Metered] at h3
  omega

/-! ## Non-vacuity -/

/-- The parser of the library for strings, with the counts. -/
abbrev inmemMetered : Env (Meter (TextIter PosStr PosStrIter StrPos (TextVec PosStr))) StrPos (TextVec PosStr) Unit Unit Unit :=
  (inmemEnv (noBindings _ Unit Unit StrPos Unit)).metered (textTurns posStrOps (textVec Unit posStrOps))

/-- The chunks `{a`, an empty one, `b}`, and two empty ones. -/
abbrev gapChunks : List PosStr := ["{a", "", "b}", "", ""].map fun s => .ofStr s.toList

/-- A nest, and the end, three times: 17 calls of the stream, of which three peek at the end; 24 turns. -/
example : ∃ os t, inmemMetered.Calls (St.init (Meter.start (.ofChunks posStrOps gapChunks)) ()) os t ∧
    os.map shapeOf = [2, 0, 0, 0] ∧ (t.strm.calls, t.strm.atEnd, t.strm.steps) = (17, 3, 24) :=
  Env.callsOf_shape (E := inmemMetered) 30 4 (fun t => (t.strm.calls, t.strm.atEnd, t.strm.steps))
    (by decide +kernel) (by decide)

theorem gapChunks_means : List.Forall₂ PosStr.Means gapChunks (["{a", "", "b}", "", ""].map fun s => strItems s.toList) :=
  .cons (PosStr.ofStr_means _) (.cons (PosStr.ofStr_means _) (.cons (PosStr.ofStr_means _)
    (.cons (PosStr.ofStr_means _) (.cons (PosStr.ofStr_means _) .nil))))

/-- The bounds of such a history. -/
example (os t) (h : inmemMetered.Calls (St.init (Meter.start (.ofChunks posStrOps gapChunks)) ()) os t) :
    t.strm.steps ≤ t.strm.calls + 15 + 3 * t.strm.atEnd ∧ t.strm.calls ≤ 20 + 4 * os.length ∧ t.strm.atEnd ≤ os.length + 2 :=
  C89_text .posStr .vec defaultClassifier (boxAlloc _ _ _) _ gapChunks_means h

/-- Whole parses of it exist, and are within the bound. -/
example : ∃ l t, inmemMetered.Yields (St.init (Meter.start (.ofChunks posStrOps gapChunks)) ()) l t ∧ t.strm.steps ≤ 79 := by
  have Cf := textEnv_conf (cc := defaultClassifier) (al := boxAlloc _ _ _) (lookup := noBindings _ Unit Unit StrPos Unit)
    posStr_conf (textVec_conf (α := Unit) posStr_conf)
  obtain ⟨l, t, hy, _⟩ := C09_parse_ends (Cf.metered (N := textTurns posStrOps (textVec Unit posStrOps)))
    (s := Meter.start (.ofChunks posStrOps gapChunks)) (TextIter.ofChunks_means posStr_conf gapChunks_means) ()
  exact ⟨l, t, hy, C89_whole_text .posStr .vec defaultClassifier (boxAlloc _ _ _) _ gapChunks_means hy⟩

/-- Three empty chunks: four calls of the parser take sixteen turns. -/
example : ∃ t, inmemMetered.Calls (St.init (Meter.start (.ofChunks posStrOps (List.replicate 3 (.ofStr [])))) ())
    (List.replicate 4 (.ok none)) t ∧ t.strm.calls = 4 ∧ t.strm.steps = 16 :=
  C89_end_is_sought_again _ .posStr _ _ _ (c := .ofStr []) (cs := List.replicate 2 (.ofStr []))
    (fun x hx => by
      have : x = .ofStr [] := by simpa using hx
      subst this
      exact PosStr.ofStr_means []) () 4

/-- The parser for iterators of strings, with the counts. -/
abbrev strishMetered : Env (Meter (StrishIter (TextVec PosStrish))) CharPos (TextVec PosStrish) Unit Unit Unit :=
  (strishEnv (textVec Unit posStrishOps) defaultClassifier (boxAlloc _ _ _) (noBindings _ Unit Unit CharPos Unit)).metered
    (strishSteps (textVec Unit posStrishOps))

/-- The same pieces, as strings of an iterator. -/
example : ∃ os t, strishMetered.Calls (St.init (Meter.start (.new (["{a", "", "b}", "", ""].map String.toList))) ()) os t ∧
    os.map shapeOf = [2, 0, 0] ∧ (t.strm.calls, t.strm.atEnd, t.strm.steps) = (16, 2, 11) :=
  Env.callsOf_shape (E := strishMetered) 30 3 (fun t => (t.strm.calls, t.strm.atEnd, t.strm.steps))
    (by decide +kernel) (by decide)

/-- The parser for iterators of characters, with the counts. -/
abbrev charMetered : Env (Meter CharIter) CharPos (TextVec PosStrish) Unit Unit Unit :=
  (charEnv (textVec Unit posStrishOps) defaultClassifier (boxAlloc _ _ _) (noBindings _ Unit Unit CharPos Unit)).metered
    charCopies

/-- Of the five characters of `ab{c}` three are copied, twice each. -/
example : ∃ os t, charMetered.Calls (St.init (Meter.start (.new "ab{c}".toList)) ()) os t ∧
    os.map shapeOf = [1, 2, 0] ∧ t.strm.steps = 6 :=
  Env.callsOf_shape (E := charMetered) 30 3 (fun t => t.strm.steps) (by decide +kernel) (by decide)

end Kul
