import Verif.Proof.ConcatLower
import Verif.Props.Work
import Verif.Props.Slices

/-!
# C66: the cost of concatenating texts

How often does the parser concatenate texts, and how many steps does this take? `Tallied O RC T steps E E' s pieces`
(`Spec/ConcatCost.lean`): `E'` is the parser `E` with counts, kept beside the state of the allocator, of the
concatenations and of their steps. There are at most proportionally many as there are characters, pieces of the
source, and calls of the parser; each looks at no more than two chunks; and with `TextVec` it moves no more than three
on average. With `TextDatumList` each finds the end of a list, which has at most as many nodes as the source has
characters: this is quadratic, and there are sources for which it is.
-/

namespace Kul

variable {σ C CS P τ ε α CE : Type} {O : ChunkOps C CS P} {RC : C → List (Item P) → Prop} {T : TextType C τ α}
  {steps : τ → τ → Nat} {E : Env σ P τ ε α CE} {E' : Env σ P τ ε (Tally α) CE} {s : σ} {pieces : List (List (Item P))}

theorem Tallied.beside (h : Tallied O RC T steps E E' s pieces) (V : (τ → Nat) → Prop) (hV : ∀ W, V W → CheapLast T steps W) :
    ∃ left held, left s ≤ pieces.length ∧ (∀ W, held W s = 0) ∧ ∀ L, Beside (TallyInv V left held L) E.counted E'.counted :=
  have ⟨left, held, h1, h2, h3, h4⟩ := h.stream
  ⟨left, held, h3, h4, fun L => h1.beside h2 hV L⟩

/-- C66. Counting changes nothing: the histories of calls of the parser with counts are those of the parser itself. -/
theorem C66_counting_changes_nothing (h : Tallied O RC T steps E E' s pieces) (t : St σ α) (i k : Nat) (os) (t' : St σ α) :
    (∃ i' k', E'.Calls ⟨t.strm, ⟨t.alloc, i, k⟩, t.ndepth⟩ os ⟨t'.strm, ⟨t'.alloc, i', k'⟩, t'.ndepth⟩) ↔ E.Calls t os t' := by
  obtain ⟨left, held, _, _, B⟩ := h.beside (fun _ => False) (fun _ h => h.elim)
  have hi : TallyInv (fun _ => False) left held (i + left t.strm) (t.strm, 0) t.alloc ⟨t.alloc, i, k⟩ :=
    ⟨rfl, by simp, fun _ h => h.elim⟩
  constructor
  · rintro ⟨i', k', h⟩
    obtain ⟨c', h⟩ := (C57_counting_changes_nothing (E := E') ⟨t.strm, ⟨t.alloc, i, k⟩, t.ndepth⟩ 0 os _).2 h
    obtain ⟨a', h1, h2⟩ := (B (i + left t.strm)).symm.calls hi h
    have : a' = t'.alloc := h2.1.symm
    subst this
    exact (C57_counting_changes_nothing t 0 os t').1 ⟨c', h1⟩
  · intro h
    obtain ⟨c', h⟩ := (C57_counting_changes_nothing t 0 os t').2 h
    obtain ⟨⟨a', i', k'⟩, h1, h2⟩ := (B (i + left t.strm)).calls hi h
    have : a' = t'.alloc := h2.1
    subst this
    exact ⟨i', k', (C57_counting_changes_nothing (E := E') ⟨t.strm, ⟨t.alloc, i, k⟩, t.ndepth⟩ 0 os ⟨t'.strm, ⟨t'.alloc, i', k'⟩, t'.ndepth⟩).1
      ⟨c', h1⟩⟩

theorem Tallied.history {X : TextSem P τ α} (hT : LibText O RC T X) (h : Tallied O RC T steps E E' s pieces)
    {a : α} {os t} (hc : E'.Calls (St.init s ⟨a, 0, 0⟩) os t) :
    t.alloc.concats ≤ 10 * pieces.flatten.length + 8 * os.length + pieces.length ∧
      ∀ W, CheapLast T steps W → t.alloc.steps ≤ 3 * t.alloc.concats := by
  obtain ⟨left, held, h1, h2, B⟩ := h.beside (CheapLast T steps) (fun _ h => h)
  obtain ⟨RS, C, hs⟩ := h.conf hT
  obtain ⟨c', hc⟩ := (C57_counting_changes_nothing (St.init s ⟨a, 0, 0⟩) 0 os t).2 hc
  obtain ⟨a', g1, g2, g3, g4⟩ := (B (left s)).symm.calls (s := (s, 0)) (a := (⟨a, 0, 0⟩ : Tally α)) (b := a)
    ⟨rfl, by simp, fun W _ => by simp [h2]⟩ hc
  have g5 := C57_linear_total C hs (E := E) (a := a) (s := s) g1
  refine ⟨?_, fun W hW => ?_⟩
  · dsimp only at g3 g5; omega
  · have := g4 W hW
    dsimp only at this; omega

/-- C66. In any history of calls texts are concatenated at most ten times for each character of the source, eight times
for each call of the parser, and once for each piece of the source. -/
theorem C66_concats {X : TextSem P τ α} (hT : LibText O RC T X) (h : Tallied O RC T steps E E' s pieces)
    {a : α} {os t} (hc : E'.Calls (St.init s ⟨a, 0, 0⟩) os t) :
    t.alloc.concats ≤ 10 * pieces.flatten.length + 8 * os.length + pieces.length :=
  (h.history hT hc).1

/-- C66. To know whether texts are empty, a concatenation looks at no more than two chunks on average, however many
chunks the texts have. -/
theorem C66_looks {X : TextSem P τ α} (hT : LibText O RC T X) (h : Tallied O RC T (T.looks O) E E' s pieces)
    {a : α} {os t} (hc : E'.Calls (St.init s ⟨a, 0, 0⟩) os t) : t.alloc.steps ≤ 2 * t.alloc.concats := by
  obtain ⟨RCS, H⟩ : ∃ RCS, ChunkConf O RC RCS := h.chunk
  exact h.steps_le hT (fun t u c e ht hu => TextType.looks_le H ht hu) hc

/-- C66. With `TextVec`, the work is linear: at most three chunks are moved for each concatenation. -/
theorem C66_vec_moves {E : Env σ P (TextVec C) ε α CE} {E' : Env σ P (TextVec C) ε (Tally α) CE}
    (h : Tallied O RC (textVec α O) (TextVec.moves O) E E' s pieces) {a : α} {os t}
    (hc : E'.Calls (St.init s ⟨a, 0, 0⟩) os t) : t.alloc.steps ≤ 3 * t.alloc.concats :=
  (h.history .vec hc).2 _ textVec_cheap

/-- C66. With `TextDatumList`, it is at most quadratic: if the items of the source are all different, the loops that find
the ends of lists have, for each concatenation, at most as many turns as there are characters. -/
theorem C66_list_turns {al : AllocOps (TextDatumList C ε) ε α} {E : Env σ P (TextDatumList C ε) ε α CE}
    {E' : Env σ P (TextDatumList C ε) ε (Tally α) CE}
    (h : Tallied O RC (textDatumList O al) (TextDatumList.turns O) E E' s pieces) (hn : pieces.flatten.Nodup)
    {a : α} {os t} (hc : E'.Calls (St.init s ⟨a, 0, 0⟩) os t) :
    t.alloc.steps ≤ pieces.flatten.length * t.alloc.concats := by
  obtain ⟨RCS, H⟩ : ∃ RCS, ChunkConf O RC RCS := h.chunk
  exact h.steps_le (.datumList al) (fun t u c e ht _ => TextDatumList.turns_le H hn ht) hc

/-- C66. And it is quadratic: the `2 * k` characters `\a\a…\a` of a source in one piece are one text of `k` chunks, for
which the loops have `k * (k - 1) / 2` turns. Any chunks of the library, any bindings, any allocator that does not fail. -/
theorem C66_list_quadratic (hC : LibChunk O RC) {al : AllocOps (TextDatumList C ε) ε α}
    (hal : ∀ d a, ∃ a', al.newDatum d a = (.ok (), a'))
    (lookup : Datum (TextDatumList C ε) ε → Option (Combiner (TextDatumList C ε) ε α P CE)) {k : Nat} (hk : 0 < k) {c : C} {r : List (Item P)}
    (hc : RC c r) (hr : r.map (·.ch) = (List.replicate k ['\\', 'a']).flatten) (a : α) :
    ∃ t t', (textEnv O ((textDatumList O al).tallied (TextDatumList.turns O)) defaultClassifier al.tallied (tallyLookup lookup)).Calls
        (St.init (.ofChunks O [c]) ⟨a, 0, 0⟩) [.ok (some (.text t))] t' ∧
      (∃ cs, t.chunks = .ok cs ∧ cs.length = k) ∧ t'.alloc.steps = k * (k - 1) / 2 := by
  obtain ⟨RCS, H⟩ := hC.conf
  obtain ⟨m, rfl⟩ : ∃ m, k = m + 1 := ⟨k - 1, by omega⟩
  obtain ⟨t, t', h1, h2, h3, _⟩ := listEnv_call H (Room := fun _ _ => True) ⟨fun _ _ _ => trivial, fun _ d a _ => have ⟨a', h⟩ := hal d a; ⟨a', h, trivial⟩⟩
    (lookup := lookup) hc (.of_chars hr) (a := a) (n := 0) trivial
  exact ⟨t, t', .cons h1 .nil, h2, by rw [h3, Nat.add_sub_cancel, Nat.mul_comm]⟩

/-- C66. So it is with the premade parser of the crate that needs no allocator of memory, which puts datums into a slice, if
there are `k` places in it. -/
theorem C66_core_quadratic (lookup : Datum (CoreText ε) ε → Option (Combiner (CoreText ε) ε (CoreMem ε) StrPos CE)) {k : Nat}
    (hk : 0 < k) (mem : List (Datum (CoreText ε) ε)) (hm : k ≤ mem.length) :
    Tallied posStrOps PosStr.Means (textDatumList posStrOps (sliceAlloc _ _)) (TextDatumList.turns posStrOps) (coreEnv lookup)
        (textEnv posStrOps ((textDatumList posStrOps (sliceAlloc _ _)).tallied (TextDatumList.turns posStrOps)) defaultClassifier
          (sliceAlloc _ _).tallied (tallyLookup lookup))
        (coreSource (List.replicate k ['\\', 'a']).flatten) [strItems (List.replicate k ['\\', 'a']).flatten] ∧
    ∃ t t', (textEnv posStrOps ((textDatumList posStrOps (sliceAlloc _ _)).tallied (TextDatumList.turns posStrOps)) defaultClassifier
          (sliceAlloc _ _).tallied (tallyLookup lookup)).Calls
        (St.init (coreSource (List.replicate k ['\\', 'a']).flatten) ⟨.new mem, 0, 0⟩) [.ok (some (.text t))] t' ∧
      (∃ cs, t.chunks = .ok cs ∧ cs.length = k) ∧ t'.alloc.steps = k * (k - 1) / 2 := by
  refine ⟨.text .posStr _ _ _ _ _ (.cons (PosStr.ofStr_means _) .nil), ?_⟩
  obtain ⟨m, rfl⟩ : ∃ m, k = m + 1 := ⟨k - 1, by omega⟩
  have hr : (strItems (List.replicate (m + 1) ['\\', 'a']).flatten).map (·.ch) = (List.replicate (m + 1) ['\\', 'a']).flatten :=
    itemsFrom_ch _ _ _
  obtain ⟨t, t', h1, h2, h3, _⟩ := listEnv_call posStr_conf slice_roomy (lookup := lookup) (PosStr.ofStr_means _) (.of_chars hr)
    (a := .new mem) (n := 0) (.inr ⟨0, by cases mem with | nil => simp at hm | cons => rfl, by simp only [SliceAlloc.new]; omega⟩)
  exact ⟨t, t', .cons h1 .nil, h2, by rw [h3, Nat.add_sub_cancel, Nat.mul_comm]⟩

/-! ## Non-vacuity -/

/-- The parser of the library for strings, with the counts. -/
abbrev inmemTallied (steps : TextVec PosStr → TextVec PosStr → Nat) :
    Env (TextIter PosStr PosStrIter StrPos (TextVec PosStr)) StrPos (TextVec PosStr) Unit (Tally Unit) Unit :=
  textEnv posStrOps ((textVec Unit posStrOps).tallied steps) defaultClassifier (boxAlloc _ _ _).tallied
    (tallyLookup (noBindings _ Unit Unit StrPos Unit))

/-- It is one of the parsers of the theorems. -/
example (steps) (s : Str) : Tallied posStrOps PosStr.Means (textVec Unit posStrOps) steps (inmemEnv (noBindings _ Unit Unit StrPos Unit))
    (inmemTallied steps) (inmemSource s) [strItems s] :=
  .text .posStr _ _ _ _ _ (.cons (PosStr.ofStr_means s) .nil)

/-- `{a\}b}c\d\e`: a nest, a text and the end; 10 concatenations, which move 5 chunks. -/
example : ∃ os t, (inmemTallied (TextVec.moves posStrOps)).Calls
    (St.init (inmemSource "{a\\}b}c\\d\\e".toList) ⟨(), 0, 0⟩) os t ∧ os.map shapeOf = [2, 1, 0] ∧
    (t.alloc.concats, t.alloc.steps) = (10, 5) :=
  Env.callsOf_shape (E := inmemTallied (TextVec.moves posStrOps)) 12 3 (fun t => (t.alloc.concats, t.alloc.steps))
    (by decide +kernel) (by decide)

/-- They look at 6 chunks. -/
example : ∃ os t, (inmemTallied ((textVec Unit posStrOps).looks posStrOps)).Calls
    (St.init (inmemSource "{a\\}b}c\\d\\e".toList) ⟨(), 0, 0⟩) os t ∧ os.map shapeOf = [2, 1, 0] ∧
    (t.alloc.concats, t.alloc.steps) = (10, 6) :=
  Env.callsOf_shape (E := inmemTallied ((textVec Unit posStrOps).looks posStrOps)) 12 3
    (fun t => (t.alloc.concats, t.alloc.steps)) (by decide +kernel) (by decide)

/-- The premade parser with a slice of 100 datums needs 4950 turns for 200 characters. -/
example : ∃ t t', (textEnv (CE := Unit) posStrOps ((textDatumList posStrOps (sliceAlloc _ _)).tallied (TextDatumList.turns posStrOps))
      defaultClassifier (sliceAlloc _ Unit).tallied (tallyLookup (noBindings _ Unit _ StrPos Unit))).Calls
    (St.init (coreSource (List.replicate 100 ['\\', 'a']).flatten) ⟨.new (List.replicate 100 .emptyNest), 0, 0⟩)
    [.ok (some (.text t))] t' ∧ (∃ cs, t.chunks = .ok cs ∧ cs.length = 100) ∧ t'.alloc.steps = 4950 :=
  (C66_core_quadratic (noBindings _ Unit _ StrPos Unit) (k := 100) (by decide) (List.replicate 100 .emptyNest) (by simp)).2

/-- The items of a string are all different. -/
example (s : Str) : ([strItems s].flatten).Nodup := by
  rw [List.flatten_singleton]
  exact itemsFrom_str_nodup s _

end Kul
