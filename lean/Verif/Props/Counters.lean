import Verif.Proof.CountersWithin
import Verif.Props.Stack
import Verif.Props.Shared
import Verif.Props.ChunkIter

/-!
# The counters of the source streams

C80: the positions, indexes and lengths that the library's source streams compute do not overflow, if the source is not longer
than the largest value. `WithinLimit M E s r X R` (`Spec/Counters.lean`) says so of the source `s`; `R` is the stream with a largest
value `M`, where every addition with a greater sum is a panic (`Model/Counters.lean`). `E.withStream R` is the parser with it.
-/

namespace Kul

variable {σ P τ ε α CE : Type} {M : Nat} {E : Env σ P τ ε α CE} {s : σ} {r : List (Item P)} {X : TextSem P τ α}
  {R : StreamOps σ P τ α}

/-- C80. The parser with finite counters makes the same histories of calls as the one without limits, whatever the bindings,
the allocator and the classifier. -/
theorem C80_same (w : WithinLimit M E s r X R) (a : α) (os t) :
    (E.withStream R).Calls (St.init s a) os t ↔ E.Calls (St.init s a) os t :=
  have ⟨_, _, _, H, hi, _, _⟩ := w.conf
  calls_on H (s := St.init s a) hi

/-- C80. No history of its calls has a panic, and after each there is a next call, that ends and does not panic. -/
theorem C80_no_panic (w : WithinLimit M E s r X R) {a : α} {os t} (h : (E.withStream R).Calls (St.init s a) os t) :
    .panic ∉ os ∧ ∃ o t', (E.withStream R).Call t o t' ∧ o ≠ .panic :=
  have ⟨_, _, _, _, _, C, hs⟩ := w.conf
  C15_no_panic C hs h

/-- C80, with the parser's own counters and a call stack (C56): all the counters have the largest value `M`, and the stack has
room for `k` frames of the parser's recursive functions. If they suffice for as many nests as the source has start delimiters,
every history of calls is one of the parser without any limits. -/
theorem C80_all_counters (w : WithinLimit M E s r X R) (D : E.cc.Disjoint) {a : α} {k : Nat}
    (hM : (r.countP fun it => E.cc.isNestStart it.ch) ≤ M)
    (hk : 3 * (r.countP fun it => E.cc.isNestStart it.ch) + 2 ≤ k) {os t}
    (h : (E.withStream R).CallsK M k (St.init s a) os t) : E.Calls (St.init s a) os t ∧ .panic ∉ os := by
  obtain ⟨_, _, _, _, _, C, hs⟩ := w.conf
  obtain ⟨h1, h2⟩ := C56_whole_parse C D hs hM hk h
  exact ⟨(C80_same w a os t).1 h1, h2⟩

theorem exists_bound {A : Type} (f : A → Nat) : ∀ l : List A, ∃ B, ∀ x ∈ l, f x ≤ B
  | [] => ⟨0, fun _ h => by cases h⟩
  | x :: l => by
    obtain ⟨B, h⟩ := exists_bound f l
    refine ⟨f x + B, fun y hy => ?_⟩
    rcases List.mem_cons.1 hy with rfl | hy
    · omega
    · have := h y hy; omega

/-- C80. For every source of the library's parsers there is a largest value that suffices, and then every greater one does. -/
theorem C80_every_source (p : Provided E s r X) : ∃ M₀, ∀ M, M₀ ≤ M → ∃ R, WithinLimit M E s r X R := by
  have bound : ∀ {A : Type} (f g : A → Nat) (l : List A), ∃ B, ∀ M, B ≤ M → ∀ x ∈ l, f x ≤ M ∧ g x ≤ M := by
    intro A f g l
    obtain ⟨B, h⟩ := exists_bound f l
    obtain ⟨B', h'⟩ := exists_bound g l
    exact ⟨B + B', fun M hM x hx => ⟨by have := h x hx; omega, by have := h' x hx; omega⟩⟩
  cases p with
  | str hT cc al lookup s => exact ⟨Str.len s, fun M h => ⟨_, .str hT cc al lookup h⟩⟩
  | @text _ _ _ _ _ _ hT cc al lookup cs ls h =>
    obtain ⟨B, hB⟩ := bound (fun c : PosStr => Str.len c.pos.src) (fun c => c.pos.charPos + c.val.length) cs
    exact ⟨B, fun M hM => ⟨_, .text hT cc al lookup h (hB M hM)⟩⟩
  | @textish _ _ _ _ _ _ hT cc al lookup cs ls h =>
    obtain ⟨B, hB⟩ := bound (fun c : PosStrish => Str.len c.val.strish) (fun c => c.pos.n + (c.val.asStr.getD []).length) cs
    refine ⟨B, fun M hM => ⟨_, .textish hT cc al lookup h fun c hc => ⟨(hB M hM c hc).1, fun v hv => ?_⟩⟩⟩
    have := (hB M hM c hc).2
    rwa [hv] at this
  | strs hT cc al lookup ss =>
    obtain ⟨B, hB⟩ := exists_bound Str.len ss
    exact ⟨B + ss.flatten.length, fun M hM =>
      ⟨_, .strs hT cc al lookup (fun s hs => by have := hB s hs; omega) (by omega)⟩⟩
  | chars hT cc al lookup s => exact ⟨s.length, fun M h => ⟨_, .chars hT cc al lookup h⟩⟩
  | @sharedText _ _ _ _ _ A hA _ _ O hT cc al lookup cs ls h =>
    obtain ⟨B, hB⟩ := bound (fun c : SharedChunk _ => Str.len (A.asStr c.val.strish))
      (fun c => c.pos.n + ((c.val.asStr A).getD []).length) cs
    refine ⟨B, fun M hM => ⟨_, .sharedText hA O hT cc al lookup h fun c hc => ⟨(hB M hM c hc).1, fun v hv => ?_⟩⟩⟩
    have := (hB M hM c hc).2
    rwa [hv] at this
  | @shared _ _ _ _ _ A hA _ _ rs hT cc al lookup =>
    obtain ⟨B, hB⟩ := exists_bound (fun r => Str.len (A.asStr r)) rs
    exact ⟨B + (A.contents rs).length, fun M hM =>
      ⟨_, .shared hA hT cc al lookup (fun r hr => by have := hB r hr; omega) (by omega)⟩⟩
  | byStates hC hT hN cc al lookup h hf hi =>
    obtain ⟨cs, ls, ht, h, rfl⟩ := h
    have hf := hf cs ht
    cases hC with
    | posStr =>
      obtain ⟨B, hB⟩ := bound (fun c : PosStr => Str.len c.pos.src) (fun c => c.pos.charPos + c.val.length) cs
      exact ⟨B, fun M hM => ⟨_, .byStates .posStr hT hN cc al lookup ht h (hB M hM) hf hi⟩⟩
    | posStrish =>
      obtain ⟨B, hB⟩ := bound (fun c : PosStrish => Str.len c.val.strish) (fun c => c.pos.n + (c.val.asStr.getD []).length) cs
      refine ⟨B, fun M hM => ⟨_, .byStates .posStrish hT hN cc al lookup ht h (fun c hc => ⟨(hB M hM c hc).1, fun v hv => ?_⟩) hf hi⟩⟩
      have := (hB M hM c hc).2
      rwa [hv] at this
    | @shared _ A hA O =>
      obtain ⟨B, hB⟩ := bound (fun c : SharedChunk _ => Str.len (A.asStr c.val.strish))
        (fun c => c.pos.n + ((c.val.asStr A).getD []).length) cs
      refine ⟨B, fun M hM => ⟨_, .byStates (.shared hA O) hT hN cc al lookup ht h
        (fun c hc => ⟨(hB M hM c hc).1, fun v hv => ?_⟩) hf hi⟩⟩
      have := (hB M hM c hc).2
      rwa [hv] at this

theorem countP_itemsFrom_le {P : Type} (adv : P → Char → P) (p : P) (f : Item P → Bool) (v : Str) :
    (itemsFrom adv p v).countP f ≤ v.length := by
  refine Nat.le_trans List.countP_le_length (Nat.le_of_eq ?_)
  rw [← List.length_map (f := Item.ch), map_itemsFrom_ch]

/-- C80, the library's parsers in `common`: a string of at most `M` bytes, or strings of at most `M` bytes each and at most `M`
characters together. The parser's own counters are then large enough, too; the stack has room for three frames for each
character, and two. -/
theorem C80_common
    (lookup : Datum (TextVec PosStr) ε → Option (Combiner (TextVec PosStr) ε α StrPos CE))
    (lookup' : Datum (TextVec PosStrish) ε → Option (Combiner (TextVec PosStrish) ε α CharPos CE)) (a : α) :
    (∀ s : Str, Str.len s ≤ M → ∀ k, 3 * s.length + 2 ≤ k → ∀ os t,
      ((inmemEnv lookup).withStream (textIterOps (posStrM M) (textVec α posStrOps))).CallsK M k (St.init (inmemSource s) a) os t →
        (inmemEnv lookup).Calls (St.init (inmemSource s) a) os t ∧ .panic ∉ os) ∧
    (∀ ss : List Str, (∀ s ∈ ss, Str.len s ≤ M) → ss.flatten.length ≤ M → ∀ k, 3 * ss.flatten.length + 2 ≤ k → ∀ os t,
      ((streamEnv lookup').withStream (strishIterM M (textVec α posStrishOps))).CallsK M k (St.init (.new ss) a) os t →
        (streamEnv lookup').Calls (St.init (.new ss) a) os t ∧ .panic ∉ os) := by
  refine ⟨fun s hs k hk os t h => ?_, fun ss h1 h2 k hk os t h => ?_⟩
  · have hl := Str.length_le_len s
    have hc := countP_itemsFrom_le StrPos.adv ⟨s, 0, 0⟩ (fun it => defaultClassifier.isNestStart it.ch) s
    exact C80_all_counters (WithinLimit.str .vec _ _ lookup hs) defaultClassifier_disjoint
      (Nat.le_trans hc (by omega)) (Nat.le_trans (Nat.add_le_add_right (Nat.mul_le_mul_left 3 hc) 2) hk) h
  · have hc := countP_itemsFrom_le CharPos.adv ⟨0⟩ (fun it => defaultClassifier.isNestStart it.ch) ss.flatten
    exact C80_all_counters (WithinLimit.strs .vec _ _ lookup' h1 h2) defaultClassifier_disjoint
      (Nat.le_trans hc (by omega)) (Nat.le_trans (Nat.add_le_add_right (Nat.mul_le_mul_left 3 hc) 2) hk) h

/-! ## Non-vacuity -/

/-- C80: `{é}b`, of 5 bytes. The largest value 5 suffices. -/
example : ∃ t, ((inmemEnv (noBindings _ Empty Unit StrPos Empty)).withStream
      (textIterOps (posStrM 5) (textVec Unit posStrOps))).Calls (St.init (inmemSource "{é}b".toList) ())
    [.ok (some (.combination (.text (.single ⟨"é".toList, ⟨"{é}b".toList, 1, 1⟩⟩)) .emptyList)),
     .ok (some (.text (.single ⟨"b".toList, ⟨"{é}b".toList, 4, 3⟩⟩))), .ok none] t :=
  Env.calls_of 12 3 (by decide +kernel) (by decide +kernel)

/-- With 4 the last end of a text overflows. -/
example : ∃ t, ((inmemEnv (noBindings _ Empty Unit StrPos Empty)).withStream
      (textIterOps (posStrM 4) (textVec Unit posStrOps))).Calls (St.init (inmemSource "{é}b".toList) ())
    [.ok (some (.combination (.text (.single ⟨"é".toList, ⟨"{é}b".toList, 1, 1⟩⟩)) .emptyList)), .panic] t :=
  Env.calls_of 12 2 (by decide +kernel) (by decide +kernel)

/-- Strings of at most 3 bytes and of 4 characters together, with 4 and with 3. -/
example : (∃ t, ((streamEnv (noBindings _ Empty Unit CharPos Empty)).withStream
      (strishIterM 4 (textVec Unit posStrishOps))).Calls (St.init (.new ["{a".toList, "}é".toList]) ())
    [.ok (some (.combination (.text (.single ⟨⟨"{a".toList, 1, 2⟩, ⟨1⟩⟩)) .emptyList)),
     .ok (some (.text (.single ⟨⟨"}é".toList, 1, 3⟩, ⟨3⟩⟩))), .ok none] t) ∧
    ∃ t, ((streamEnv (noBindings _ Empty Unit CharPos Empty)).withStream
      (strishIterM 3 (textVec Unit posStrishOps))).Calls (St.init (.new ["{a".toList, "}é".toList]) ())
    [.ok (some (.combination (.text (.single ⟨⟨"{a".toList, 1, 2⟩, ⟨1⟩⟩)) .emptyList)), .panic] t :=
  ⟨Env.calls_of 12 3 (by decide +kernel) (by decide +kernel), Env.calls_of 12 2 (by decide +kernel) (by decide +kernel)⟩

/-- Four characters from an iterator, with 4 and with 3. -/
example : (∃ t, ((charEnv (textVec Unit posStrishOps) defaultClassifier (boxAlloc _ _ _)
      (noBindings _ Empty Unit CharPos Empty)).withStream (charIterM 4 (textVec Unit posStrishOps))).Calls
      (St.init (.new "{a}é".toList) ())
    [.ok (some (.combination (.text (.single ⟨⟨"a".toList, 0, 1⟩, ⟨1⟩⟩)) .emptyList)),
     .ok (some (.text (.single ⟨⟨"é".toList, 0, 2⟩, ⟨3⟩⟩))), .ok none] t) ∧
    ∃ t, ((charEnv (textVec Unit posStrishOps) defaultClassifier (boxAlloc _ _ _)
      (noBindings _ Empty Unit CharPos Empty)).withStream (charIterM 3 (textVec Unit posStrishOps))).Calls
      (St.init (.new "{a}é".toList) ())
    [.ok (some (.combination (.text (.single ⟨⟨"a".toList, 0, 1⟩, ⟨1⟩⟩)) .emptyList)), .panic] t :=
  ⟨Env.calls_of 12 3 (by decide +kernel) (by decide +kernel), Env.calls_of 12 2 (by decide +kernel) (by decide +kernel)⟩

/-- C80: a text in memory whose chunk is the piece `é}` of a string of 5 bytes, at the position 6: it ends at 8. -/
example (cc : Classifier) (lookup : Datum (TextVec PosStrish) Unit → Option (Combiner (TextVec PosStrish) Unit Unit CharPos Unit))
    (a : Unit) (os t) :
    ((textEnv posStrishOps (textVec Unit posStrishOps) cc (boxAlloc _ _ _) lookup).withStream
        (textIterOps (posStrishM 8) (textVec Unit posStrishOps))).Calls
      (St.init (.ofChunks posStrishOps [⟨⟨"{é}b".toList, 1, 4⟩, ⟨6⟩⟩]) a) os t ↔
    (textEnv posStrishOps (textVec Unit posStrishOps) cc (boxAlloc _ _ _) lookup).Calls
      (St.init (.ofChunks posStrishOps [⟨⟨"{é}b".toList, 1, 4⟩, ⟨6⟩⟩]) a) os t :=
  C80_same (.textish .vec cc _ lookup (ls := [itemsFrom CharPos.adv ⟨6⟩ "é}".toList])
    (.cons ⟨"{".toList, "é}".toList, "b".toList, rfl, rfl, rfl, rfl⟩ .nil)
    (by
      intro c hc
      cases List.mem_singleton.1 hc
      refine ⟨by decide, fun v hv => ?_⟩
      have e : Str.slice "{é}b".toList 1 4 = some "é}".toList := by decide
      cases (e.symm.trans hv)
      decide)) a os t

/-- C80: two pieces of strings in memory, with positions of their own. -/
example (a : Unit) (os t) (h : ((inmemEnv (noBindings _ Unit Unit StrPos Unit)).withStream
      (textIterOps (posStrM 9) (textVec Unit posStrOps))).Calls
      (St.init (.ofChunks posStrOps [⟨"a".toList, ⟨"{a".toList, 1, 8⟩⟩, ⟨"b}".toList, ⟨"b}".toList, 0, 0⟩⟩]) a) os t) :
    .panic ∉ os :=
  (C80_no_panic (.text .vec _ _ _ (ls := [itemsFrom StrPos.adv ⟨"{a".toList, 1, 8⟩ "a".toList,
      itemsFrom StrPos.adv ⟨"b}".toList, 0, 0⟩ "b}".toList])
    (.cons ⟨rfl, "{".toList, [], rfl, rfl⟩ (.cons ⟨rfl, [], [], rfl, rfl⟩ .nil))
    (by
      intro c hc
      simp only [List.mem_cons, List.not_mem_nil, or_false] at hc
      rcases hc with rfl | rfl <;> decide)) h).1

/-- C80: strings with the same contents that are told apart, of 4 bytes at most and 7 characters together. -/
example : (∃ t, (sampleShared.withStream (sharedStreamM 7 addressed (textVec Unit (sharedChunkOps addressed)))).Calls
      (St.init (.new addressed [(1, "{é".toList), (2, "} é".toList), (3, "{é".toList)]) ())
    [.ok (some (.combination (.text (.single ⟨⟨(1, "{é".toList), 1, 3⟩, ⟨1⟩⟩)) .emptyList)),
     .ok (some (.text (.single ⟨⟨(2, "} é".toList), 1, 4⟩, ⟨3⟩⟩))), .err .missingEndChar] t) ∧
    ∃ t, (sampleShared.withStream (sharedStreamM 4 addressed (textVec Unit (sharedChunkOps addressed)))).Calls
      (St.init (.new addressed [(1, "{é".toList), (2, "} é".toList), (3, "{é".toList)]) ())
    [.ok (some (.combination (.text (.single ⟨⟨(1, "{é".toList), 1, 3⟩, ⟨1⟩⟩)) .emptyList)), .panic] t :=
  ⟨Env.calls_of 14 3 (by decide +kernel) (by decide +kernel), Env.calls_of 14 2 (by decide +kernel) (by decide +kernel)⟩

example (os t) (h : (sampleShared.withStream (sharedStreamM 7 addressed (textVec Unit (sharedChunkOps addressed)))).Calls
      (St.init (.new addressed [(1, "{é".toList), (2, "} é".toList), (3, "{é".toList)]) ()) os t) : .panic ∉ os :=
  (C80_no_panic (.shared addressed_lawful .vec _ _ _ (by decide) (by decide)) h).1

/-- C80: a linked text in memory, iterated by its own states, with 2: its chunks have at most two bytes. -/
example (al : AllocOps (TextDatumList PosStr Unit) Unit α) (a : α) : ∃ it, ∀ os t,
    ((stateEnv (CE := Empty) (S := TextDatumList PosStr Unit) TextDatumList.stateNext posStrOps (textDatumList posStrOps al) 4
        defaultClassifier al fun _ => none).withStream
        (stateIterOps TextDatumList.stateNext (posStrM 2) (textDatumList posStrOps al) 4)).Calls (St.init it a) os t →
      .panic ∉ os :=
  ⟨_, fun _ _ h => (C80_no_panic (.byStates .posStr (.datumList al) (.datumList al) _ _ _ (t := exLinked) rfl
    (ls := [strItems "ab".toList, strItems "c".toList]) (.cons (PosStr.ofStr_means _) (.cons (PosStr.ofStr_means _) .nil))
    (by
      intro c hc
      simp only [List.mem_cons, List.not_mem_nil, or_false] at hc
      rcases hc with rfl | rfl <;> decide) (by decide) rfl) h).1⟩

end Kul
