import Verif.Props.Invariant

/-!
# C61: parsing reference-counted strings shares them

The strings are values of any type `R`, which may tell apart strings with the same contents. Parsing never
copies a string: the chunks of all texts refer to strings of the source, at the right place. And between
calls the stream itself refers to at most two of the strings that it has asked for: the current one and, when the
current one is used up, the next.
-/

namespace Kul

variable {R τ ε α CE : Type} {A : StrishOps R}

theorem SharedSlice.Is.empty {s : SharedSlice R} {pre v post : Str} (h : s.Is A pre v post) (he : A.asStr s.strish = []) :
    v = [] := by
  have := h.1
  rw [he] at this
  simp at this
  exact this.2.1

/-- A chunk with an origin among whole strings is cut from one of them. -/
theorem SharedChunk.Means.cutFrom (hA : A.Lawful) {rs : List R} {c : SharedChunk R} {l : List (Item CharPos)}
    (h : c.Means A (wholes A 0 rs) l) : c.CutFrom A rs := by
  obtain ⟨pre, v, post, h1, _, h2 | ⟨o, ho, pre', u, w, post', rfl, rfl, k1, k2, k3⟩⟩ := h
  · exact .inl (by rw [h2]; exact hA [])
  · obtain ⟨before, r, after, rfl, rfl⟩ := mem_wholes.1 ho
    have hp : pre' = [] := by
      have := k1.2.1
      simp only [SharedChunk.new] at this
      cases pre' with
      | nil => rfl
      | cons x s => have := Str.lenUtf8_pos x; simp [Str.len] at *; omega
    subst hp
    refine .inr ⟨before, after, u, v, w ++ post', ?_, h1, ?_⟩
    · rw [k2]; rfl
    · rw [k3]; simp [SharedChunk.new]

/-- A chunk with an origin among some chunks is cut from one of them. -/
theorem SharedChunk.Means.cutFromChunks (hA : A.Lawful) {O : List (SharedChunk R)} {c : SharedChunk R}
    {l : List (Item CharPos)} (h : c.Means A O l) : c.CutFromChunks A O := by
  obtain ⟨pre, v, post, h1, _, h2 | ⟨o, ho, pre', u, w, post', rfl, rfl, k1, k2, k3⟩⟩ := h
  · exact .inl (by rw [h2]; exact hA [])
  · exact .inr ⟨o, ho, k2, pre', u, v, w, post', k1, h1, k3⟩

theorem LibText.allChunks {C CS P : Type} {O : ChunkOps C CS P} {RC : C → List (Item P) → Prop} {T : TextType C τ α}
    {X : TextSem P τ α} (hT : LibText O RC T X) {Q : C → Prop} (hQ : ∀ c l, RC c l → Q c) {t : τ} {l : List (Item P)}
    (h : X.RT t l) : T.AllChunks Q t := by
  rw [hT.sem] at h
  obtain ⟨cs, ls, h1, h2, -⟩ := h
  refine ⟨cs, h1, ?_⟩
  clear h1
  induction h2 with
  | nil => simp
  | cons h _ ih =>
    intro c hc
    rcases List.mem_cons.mp hc with rfl | hc
    · exact hQ _ _ h
    · exact ih c hc

/-- C61. Any history of calls on a parser that reads from an iterator of the reference-counted strings `rs`: every
chunk of every text that is given to a combiner or returned is empty or is cut from one of the strings `rs`; it refers
to that very string, and has the position of the part in the source. If combiners put only such texts into what they
return (`Keeps`), this holds for all of the results. For any text type of the library, any classifier, any allocator. -/
theorem C61_shares {T : TextType (SharedChunk R) τ α} {X} (hA : A.Lawful) (rs : List R)
    (hT : LibText (sharedChunkOps A) (SharedChunk.Means A (wholes A 0 rs)) T X) {cc : Classifier} {al : AllocOps τ ε α}
    {lookup : Datum τ ε → Option (Combiner τ ε α CharPos CE)} {QX : ε → Prop} {QE : Err CharPos CE → Prop} {I : α → Prop}
    (K : Keeps X al lookup (T.AllChunks (SharedChunk.CutFrom A rs)) QX QE I) {a : α} (ha : I a) {os t}
    (h : (sharedEnv A T cc al lookup).Calls (St.init (.new A rs) a) os t) {d : Datum τ ε} (hd : .ok (some d) ∈ os) :
    d.All (T.AllChunks (SharedChunk.CutFrom A rs)) QX :=
  (C59_history_provided K (Provided.shared hA rs hT cc al lookup)
    (fun _ _ ht _ => hT.allChunks (fun _ _ hc => hc.cutFrom hA) ht) ha h).2.1 d hd

/-- C61. The same for a parser that reads from a text in memory, with the chunks `cs`: chunks of texts are empty or are
cut from one of the chunks `cs`, and refer to the same string. -/
theorem C61_shares_text {T : TextType (SharedChunk R) τ α} {X} (hA : A.Lawful) (cs : List (SharedChunk R))
    {ls : List (List (Item CharPos))} (hcs : List.Forall₂ (SharedChunk.Means A cs) cs ls)
    (hT : LibText (sharedChunkOps A) (SharedChunk.Means A cs) T X) {cc : Classifier} {al : AllocOps τ ε α}
    {lookup : Datum τ ε → Option (Combiner τ ε α CharPos CE)} {QX : ε → Prop} {QE : Err CharPos CE → Prop} {I : α → Prop}
    (K : Keeps X al lookup (T.AllChunks (SharedChunk.CutFromChunks A cs)) QX QE I) {a : α} (ha : I a) {os t}
    (h : (textEnv (sharedChunkOps A) T cc al lookup).Calls (St.init (.ofChunks (sharedChunkOps A) cs) a) os t)
    {d : Datum τ ε} (hd : .ok (some d) ∈ os) : d.All (T.AllChunks (SharedChunk.CutFromChunks A cs)) QX :=
  (C59_history_provided K (Provided.sharedText hA cs hT cc al lookup hcs)
    (fun _ _ ht _ => hT.allChunks (fun _ _ hc => hc.cutFromChunks hA) ht) ha h).2.1 d hd

/-- C61. After any history of calls, `n` characters of the source having been consumed and some not: the stream
has no accumulated text; it refers to the string `r` that the last of these characters is in and, only if
the characters of `r` have all been consumed, maybe to the next string that has characters. It refers to no string before `r`, and
has not yet asked for any string after these. -/
theorem C61_lets_go {T : TextType (SharedChunk R) τ α} {X} (hA : A.Lawful) (rs : List R)
    (hT : LibText (sharedChunkOps A) (SharedChunk.Means A (wholes A 0 rs)) T X) {cc : Classifier} {al : AllocOps τ ε α}
    {lookup : Datum τ ε → Option (Combiner τ ε α CharPos CE)} {a : α} {os t}
    (h : (sharedEnv A T cc al lookup).Calls (St.init (.new A rs) a) os t) :
    ∃ n, ToCome (sharedStreamOps A T) t.strm ((charItems (A.contents rs)).drop n) ∧
      (n < A.size rs → t.strm.accum = none ∧ ∃ before r, A.size before ≤ n ∧ n ≤ A.size (before ++ [r]) ∧
        ((t.strm.strings = [r] ∧ rs = before ++ r :: t.strm.strishIter) ∨
         (n = A.size (before ++ [r]) ∧ ∃ empties r', A.contents empties = [] ∧ A.asStr r' ≠ [] ∧
          t.strm.strings = [r, r'] ∧ rs = before ++ r :: (empties ++ r' :: t.strm.strishIter)))) := by
  have H := sharedChunk_conf (O := wholes A 0 rs) hA
  have C := sharedStream_conf (E := sharedEnv A T cc al lookup) hA rs (hT.conf H).2 rfl rfl
  obtain ⟨s₁, a₁, r₁, rfl, ⟨p, h1, hc⟩, h2, _⟩ := C.calls h rfl (AtItems.fresh (SharedStream.new_means A T rs))
  have htc := C.toCome h1
  obtain ⟨u, h2⟩ := h2
  have hlen : (itemsFrom CharPos.adv ⟨0⟩ (A.contents rs)).length = A.size rs := itemsFrom_length _ _ _
  have hul : u.length + r₁.length = A.size rs := by rw [← hlen, ← h2, List.length_append]
  refine ⟨u.length, ?_, fun hn => ?_⟩
  · rw [show charItems (A.contents rs) = u ++ r₁ from h2.symm, List.drop_left]
    exact htc
  · have hr : r₁ ≠ [] := by rintro rfl; simp at hul; omega
    have hp : p = [] := hc.resolve_right hr
    subst hp
    obtain ⟨p1, p2, h3, h4, h5, h6⟩ := h1
    have h4' : p1 ++ p2 = [] := h4.symm
    have hacc : s₁.accum = none := h5.resolve_right (by rintro (h | h); exact h h4'; exact hr h)
    refine ⟨hacc, ?_⟩
    rcases h6 with ⟨_, _, h⟩ | ⟨s, w, before, r, mid, k1, k2, k3, k4, k5, k6, k7⟩
    · exact absurd h hr
    · have hz0 : A.size [] = 0 := rfl
      have hmid : A.size mid = 0 := by simp [StrishOps.size, k6]
      rcases k7 with ⟨m1, m2, m3, m4⟩ | ⟨rfl, ps, r', m1, m2, m3, m4, m5, m6⟩
      · have hm : mid = [] := m3.resolve_right hr
        subst hm
        have e : r₁.length = w.length + A.size s₁.strishIter := by
          have := congrArg List.length m4
          simpa [itemsFrom_length, StrishOps.size] using this
        have e' : A.size rs = A.size before + (A.asStr r).length + A.size s₁.strishIter := by
          rw [m2]; simp [StrishOps.size_append, StrishOps.size_cons, Nat.add_assoc]
        have e3 : A.size (before ++ [r]) = A.size before + (A.asStr r).length := by
          simp [StrishOps.size_append, StrishOps.size_cons, hz0]
        have hu : u.length = s₁.charIdx := by omega
        refine ⟨before, r, by omega, by omega, .inl ⟨?_, m2⟩⟩
        simp [SharedStream.strings, k1, m1, k3, SharedChunk.new]
      · have e : r₁.length = (A.asStr r').length + A.size s₁.strishIter := by
          have := congrArg List.length m6
          simpa [itemsFrom_length, StrishOps.size] using this
        have e' : A.size rs = A.size before + (A.asStr r).length + ((A.asStr r').length + A.size s₁.strishIter) := by
          rw [m5]; simp [StrishOps.size_append, StrishOps.size_cons, hmid, Nat.add_assoc]
        have e3 : A.size (before ++ [r]) = A.size before + (A.asStr r).length := by
          simp [StrishOps.size_append, StrishOps.size_cons, hz0]
        refine ⟨before, r, by omega, by omega, .inr ⟨by omega, mid, r', k6, m2, ?_, m5⟩⟩
        simp [SharedStream.strings, k1, m1, k3, m3, SharedChunk.new]

/-- C61, at the end of the source, all characters having been consumed: the stream refers to at most one string,
after which there are no characters. (Until it is used again or dropped, it may still have an accumulated text, of a form that
the end of the source has cut off: see the last example.) -/
theorem C61_at_end {T : TextType (SharedChunk R) τ α} {X} (hA : A.Lawful) (rs : List R)
    (hT : LibText (sharedChunkOps A) (SharedChunk.Means A (wholes A 0 rs)) T X) {cc : Classifier} {al : AllocOps τ ε α}
    {lookup : Datum τ ε → Option (Combiner τ ε α CharPos CE)} {a : α} {os t}
    (h : (sharedEnv A T cc al lookup).Calls (St.init (.new A rs) a) os t)
    (he : ToCome (sharedStreamOps A T) t.strm []) :
    t.strm.strings = [] ∨ ∃ before r after, rs = before ++ r :: after ∧ A.contents after = [] ∧ t.strm.strings = [r] := by
  have H := sharedChunk_conf (O := wholes A 0 rs) hA
  have C := sharedStream_conf (E := sharedEnv A T cc al lookup) hA rs (hT.conf H).2 rfl rfl
  obtain ⟨s₁, a₁, r₁, rfl, ⟨p, h1, hc⟩, h2, _⟩ := C.calls h rfl (AtItems.fresh (SharedStream.new_means A T rs))
  have hr : r₁ = [] := (C.toCome h1).unique he
  subst hr
  obtain ⟨p1, p2, h3, h4, h5, h6⟩ := h1
  rcases h6 with ⟨⟨k, k'⟩, _, _⟩ | ⟨s, w, before, r, mid, k1, k2, k3, k4, k5, k6, k7⟩
  · exact .inl (by simp [SharedStream.strings, k, k'])
  · rcases k7 with ⟨m1, m2, m3, m4⟩ | ⟨rfl, ps, r', m1, m2, m3, m4, m5, m6⟩
    · refine .inr ⟨before, r, _, m2, ?_, ?_⟩
      · have := congrArg List.length m4
        simp only [itemsFrom_length, List.length_nil, List.length_append] at this
        rw [StrishOps.contents_append, k6, List.length_eq_zero_iff.1 (show (A.contents s₁.strishIter).length = 0 by omega)]
        rfl
      · simp [SharedStream.strings, k1, m1, k3, SharedChunk.new]
    · have := congrArg List.length m6
      simp only [itemsFrom_length, List.length_nil, List.length_append] at this
      exact absurd (List.length_eq_zero_iff.1 (by omega)) m2

/-! ## Non-vacuity -/

/-- Strings with addresses; new ones get address 0. -/
def addressed : StrishOps (Nat × Str) := ⟨Prod.snd, fun s => (0, s)⟩

theorem addressed_lawful : addressed.Lawful := fun _ => rfl

/-- Without bindings, whatever texts have is kept. -/
theorem none_keeps {X : TextSem CharPos τ α} {al : AllocOps τ ε α} {QT : τ → Prop} {QX : ε → Prop} :
    Keeps X al (noBindings τ ε α CharPos CE) QT QX (fun _ => False) (fun _ => True) where
  operative := by rintro d f t a ⟨⟩
  applicative := by rintro d f t a ⟨⟩
  text := fun _ _ _ _ => trivial
  alloc := fun _ _ _ _ => trivial

/-- A parser of such strings. -/
abbrev sampleShared : Env (SharedStream (Nat × Str) (TextVec (SharedChunk (Nat × Str)))) CharPos
    (TextVec (SharedChunk (Nat × Str))) Empty Unit Empty :=
  sharedEnv addressed (textVec Unit (sharedChunkOps addressed)) defaultClassifier (boxAlloc _ _ _) (noBindings _ _ _ _ _)

/-- The same, but all heads are bound to an operative. -/
abbrev sampleRaw : Env (SharedStream (Nat × Str) (TextVec (SharedChunk (Nat × Str)))) CharPos
    (TextVec (SharedChunk (Nat × Str))) Empty Unit Empty :=
  sharedEnv addressed (textVec Unit (sharedChunkOps addressed)) defaultClassifier (boxAlloc _ _ _)
    fun _ => some (.operative fun _ _ a => (.ok none, a))

/-- Five strings, two of them empty or the same as another. -/
def sampleStrings : List (Nat × Str) :=
  [(1, "a{".toList), (2, []), (3, "b λc".toList), (4, "d} a".toList), (5, "a{".toList), (6, "}".toList)]

instance : DecidableEq (TextVec (SharedChunk (Nat × Str))) := inferInstance

/-- C61, for this source: the texts of the second datum are cut from strings 3 and 4. -/
example {d os t} (h : sampleShared.Calls (St.init (.new addressed sampleStrings) ()) os t) (hd : .ok (some d) ∈ os) :
    d.All ((textVec Unit (sharedChunkOps addressed)).AllChunks (SharedChunk.CutFrom addressed sampleStrings))
      fun _ => True :=
  C61_shares addressed_lawful _ .vec none_keeps trivial h hd

example : ((sampleShared.callsOf 80 3 (St.init (.new addressed sampleStrings) ())).1.map
      fun o => match o with | .ok d => d | _ => none) =
    [some (.text (.single ⟨⟨(1, "a{".toList), 0, 1⟩, ⟨0⟩⟩)),
     some (.combination (.text (.single ⟨⟨(3, "b λc".toList), 0, 1⟩, ⟨2⟩⟩))
       (.list (.text (.multi [⟨⟨(3, "b λc".toList), 2, 5⟩, ⟨4⟩⟩, ⟨⟨(4, "d} a".toList), 0, 1⟩, ⟨6⟩⟩])) .emptyList)),
     some (.text (.multi [⟨⟨(4, "d} a".toList), 2, 4⟩, ⟨8⟩⟩, ⟨⟨(5, "a{".toList), 0, 1⟩, ⟨10⟩⟩]))] := by
  decide +kernel

/-- After the first and the second call the stream refers to one string each; it has let go of the others. -/
example : ((sampleShared.callsOf 80 1 (St.init (.new addressed sampleStrings) ())).2.strm.strings.map Prod.fst,
    (sampleShared.callsOf 80 2 (St.init (.new addressed sampleStrings) ())).2.strm.strings.map Prod.fst,
    (sampleShared.callsOf 80 2 (St.init (.new addressed sampleStrings) ())).2.strm.strishIter.map Prod.fst) =
    ([1], [4], [5, 6]) := by decide +kernel

/-- A stream refers to two strings when a form ends with a string. -/
example : (sampleShared.callsOf 80 1 (St.init (.new addressed [(1, "a".toList), (2, []), (3, "{".toList)]) ())).2.strm.strings =
    [(1, "a".toList), (3, "{".toList)] := by decide +kernel

theorem ToCome.nil_of {σ P : Type} {S : StreamOps σ P τ α} {s : σ} (h : (S.next s).1 = .ok none) : ToCome S s [] :=
  .nil (Prod.ext h rfl)

/-- At the end of a source that ends inside a nest within the operands of an operative, the stream still has what it had
accumulated of them. Calls of the parser do not change this any more. -/
example : let t := (sampleRaw.callsOf 80 3 (St.init (.new addressed
      [(1, "{a {".toList), (2, "b".toList), (3, "c".toList), (4, [])]) ())).2
    t.strm.accum = some (.multi [⟨⟨(1, "{a {".toList), 3, 4⟩, ⟨3⟩⟩, ⟨⟨(2, "b".toList), 0, 1⟩, ⟨4⟩⟩]) ∧
    t.strm.strings = [(3, "c".toList)] ∧
    ToCome (sharedStreamOps addressed (textVec Unit (sharedChunkOps addressed))) t.strm [] :=
  ⟨by decide +kernel, by decide +kernel, .nil_of (by decide +kernel)⟩

/-- A text in memory, of two chunks. -/
example : List.Forall₂ (SharedChunk.Means addressed [⟨⟨(1, "xab".toList), 1, 3⟩, ⟨7⟩⟩, ⟨⟨(2, "c".toList), 0, 1⟩, ⟨0⟩⟩])
    [⟨⟨(1, "xab".toList), 1, 3⟩, ⟨7⟩⟩, ⟨⟨(2, "c".toList), 0, 1⟩, ⟨0⟩⟩]
    [[⟨'a', ⟨7⟩⟩, ⟨'b', ⟨8⟩⟩], [⟨'c', ⟨0⟩⟩]] := by
  refine .cons ⟨['x'], ['a', 'b'], [], ⟨rfl, rfl, rfl⟩, rfl, .inr ⟨_, .head _, ['x'], [], [], [], rfl, rfl, ⟨rfl, rfl, rfl⟩, rfl, rfl⟩⟩
    (.cons ⟨[], ['c'], [], ⟨rfl, rfl, rfl⟩, rfl, .inr ⟨_, .tail _ (.head _), [], [], [], [], rfl, rfl, ⟨rfl, rfl, rfl⟩, rfl, rfl⟩⟩ .nil)

end Kul
