import Verif.Props.Provided

/-!
# C62: iterating the chunks of a text, and the characters of the chunks

The chunks of a text are iterated one at a time by a state that each text type has of its own (a slice of what
is left of a vector, a node of a linked list). That gives all of the chunks of the text, in order, each
once. And `text::Iter`, which goes from one chunk to the next in this way, is as if it had a list of the
chunks to come, which is how all the other theorems have it.
-/

namespace Kul

variable {S C CS P τ ε α CE : Type} {O : ChunkOps C CS P}

/-- **C62.** Any number of calls of the iterator of the chunks of a `TextVec` gives the chunks in the vector, in
order, and then nothing, however often it is called. -/
theorem C62_vec (t : TextVec C) (n : Nat) :
    (sliceState C).results n t.state = yieldsOnly (match t with | .single c => [c] | .multi cs => cs) n := by
  have := (GivesChunks.vec t).results n
  cases t <;> exact this

/-- **C62**, for a `TextDatumList`: its nodes' chunks, from the first to the last. -/
theorem C62_datum_list {t : TextDatumList C ε} {cs : List C} (h : t.Nodes cs) (n : Nat) :
    TextDatumList.stateNext.results n (some t) = yieldsOnly cs n := by
  refine (GivesChunks.list ?_).results n
  induction h with
  | last => rfl
  | node _ ih => simp only [TextDatumList.chunks, ih]

/-- **C62**, for every text type of the library and every text that stands for characters, as all texts that are made by
the library do. -/
theorem C62_chunks {T : TextType C τ α} {state : τ → Option S} {N : ChunksState C S} (hN : LibIteration O T state N)
    {RC : C → List (Item P) → Prop} {t : τ} {r : List (Item P)} (ht : T.Means RC t r) :
    ∃ cs ls, T.chunks t = .ok cs ∧ List.Forall₂ RC cs ls ∧ r = ls.flatten ∧ ∀ n, N.results n (state t) = yieldsOnly cs n := by
  obtain ⟨cs, ls, h1, h2, h3⟩ := ht
  exact ⟨cs, ls, h1, h2, h3, (hN.gives h1).results⟩

/-- **C62.** The stream of the characters of a text, which goes from chunk to chunk by the states, exists, and any
history of calls of its methods gives the characters of the text as one sequence. -/
theorem C62_stream {RC : C → List (Item P) → Prop} (hC : LibChunk O RC) {T : TextType C τ α} {X : TextSem P τ α}
    (hT : LibText O RC T X) {state : τ → Option S} {N : ChunksState C S} (hN : LibIteration O T state N) {t : τ}
    {r : List (Item P)} (ht : T.Means RC t r) : ∃ n, ∀ fuel, n ≤ fuel → ∃ it : StateIter S CS P τ,
      StateIter.new N O (state t) = .ok it ∧
      ∀ es, (stateIterOps N O T fuel).History it es → SeqHistory X.RT X.F [] r es := by
  obtain ⟨cs, ls, h1, h2, rfl⟩ := ht
  refine ⟨cs.length + 2, fun fuel hf => ?_⟩
  obtain ⟨fuel, rfl⟩ : ∃ f, fuel = f + 1 := ⟨fuel - 1, by omega⟩
  obtain ⟨it, g1, g2⟩ := StateIter.new_sim (O := O) (hN.gives h1) (fuel := fuel) (by omega)
  refine ⟨it, g1, fun es h => ?_⟩
  have p := Provided.byStates (CE := Empty) hC hT hN defaultClassifier (freeAlloc τ Empty α) (noBindings _ _ _ _ _)
    ⟨cs, ls, h1, h2, rfl⟩ (fuel := fuel + 1) (by intro cs' e; rw [h1] at e; cases e; omega) g1
  obtain ⟨RS, H, hs⟩ := p.conf
  exact H.history h hs

/-- **C62.** It has the very same histories as the one that has a list of the chunks to come. -/
theorem C62_same_history {T : TextType C τ α} {state : τ → Option S} {N : ChunksState C S}
    (hN : LibIteration O T state N) {t : τ} {cs : List C} (ht : T.chunks t = .ok cs) {fuel : Nat}
    (hf : cs.length + 2 ≤ fuel) : ∃ it : StateIter S CS P τ, StateIter.new N O (state t) = .ok it ∧
      ∀ es, (stateIterOps N O T fuel).History it es ↔ (textIterOps O T).History (.ofChunks O cs) es := by
  obtain ⟨fuel, rfl⟩ : ∃ f, fuel = f + 1 := ⟨fuel - 1, by omega⟩
  obtain ⟨it, g1, g2⟩ := StateIter.new_sim (O := O) (hN.gives ht) (fuel := fuel) (by omega)
  exact ⟨it, g1, fun es => ⟨fun h => sim_history h g2, fun h => history_of_sim h g2⟩⟩

/-- A link that is not a text, which `concat` never makes, would make the iteration panic. -/
theorem C62_datum_list_panics : ∀ {t : TextDatumList C ε}, (¬ ∃ cs, t.Nodes cs) →
    ∃ n, .panic ∈ TextDatumList.stateNext.results n (some t)
  | .mk c none, h => absurd ⟨[c], .last⟩ h
  | .mk c (some (.text t)), h => by
    obtain ⟨n, hn⟩ := C62_datum_list_panics (t := t) fun ⟨cs, hc⟩ => h ⟨c :: cs, .node hc⟩
    exact ⟨n + 1, List.mem_cons_of_mem _ hn⟩
  | .mk c (some (.combination ..)), _ => ⟨1, List.mem_cons_self⟩
  | .mk c (some .emptyNest), _ => ⟨1, List.mem_cons_self⟩
  | .mk c (some (.list ..)), _ => ⟨1, List.mem_cons_self⟩
  | .mk c (some .emptyList), _ => ⟨1, List.mem_cons_self⟩
  | .mk c (some (.extra ..)), _ => ⟨1, List.mem_cons_self⟩

/-! ## Examples -/

/-- Two chunks, linked. -/
def exLinked : TextDatumList PosStr Unit := .mk (.ofStr "ab".toList) (some (.text (.mk (.ofStr "c".toList) none)))

example : exLinked.Nodes [.ofStr "ab".toList, .ofStr "c".toList] := .node .last

example : (sliceState Nat).results 5 (TextVec.multi [1, 2, 3]).state =
    [.ok (some 1), .ok (some 2), .ok (some 3), .ok none, .ok none] := rfl

example : ¬ ∃ cs, (TextDatumList.mk 1 (some .emptyNest) : TextDatumList Nat Unit).Nodes cs := by
  rintro ⟨cs, h⟩
  cases h

/-- `exLinked` stands for three characters, the positions of the third starting anew, and can be read in this way. -/
example : (textDatumList posStrOps (freeAlloc _ Unit Unit)).Means PosStr.Means exLinked
    (strItems "ab".toList ++ strItems "c".toList) :=
  ⟨_, [strItems "ab".toList, strItems "c".toList], rfl, .cons (PosStr.ofStr_means _) (.cons (PosStr.ofStr_means _) .nil), by simp⟩

/-- Parsing it by states: `C19`-like theorems for what the library provides apply. -/
example (al : AllocOps (TextDatumList PosStr Unit) Unit α) : ∃ it, Provided
    (stateEnv (CE := Empty) (S := TextDatumList PosStr Unit) TextDatumList.stateNext posStrOps (textDatumList posStrOps al) 4 defaultClassifier al fun _ => none) it
    (strItems "ab".toList ++ strItems "c".toList) ((textDatumList posStrOps al).sem PosStr.Means al.Steps al.CanFail) :=
  ⟨_, .byStates .posStr (.datumList al) (.datumList al) _ _ _
    ⟨_, [strItems "ab".toList, strItems "c".toList], rfl, .cons (PosStr.ofStr_means _) (.cons (PosStr.ofStr_means _) .nil), by simp⟩
    (t := exLinked) (by intro cs h; cases h; decide) rfl⟩

end Kul
