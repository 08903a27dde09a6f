import Mathlib.Tactic.Ring
import Verif.Proof.ConcatCost

/-!
# A source for which `TextDatumList` is slow
-/

namespace Kul

variable {C CS P ε α CE : Type} {O : ChunkOps C CS P} {RC : C → List (Item P) → Prop} {RCS : CS → Seq P → Prop}
  {al : AllocOps (TextDatumList C ε) ε α}

theorem TextDatumList.link_ok {u : TextDatumList C ε} {cu : List C} {a a' : α} (hu : u.chunks = .ok cu)
    (ha : al.newDatum (.text u) a = (.ok (), a')) : ∀ {t : TextDatumList C ε} {cs : List C}, t.chunks = .ok cs →
      ∃ v, link al t u a = (.ok v, a') ∧ v.chunks = .ok (cs ++ cu)
  | .mk c none, cs, h => by
    cases h
    refine ⟨.mk c (some (.text u)), ?_, ?_⟩
    · unfold link; rw [ha]
    · unfold chunks; rw [hu]; rfl
  | .mk c (some (.text t)), cs, h => by
    unfold chunks at h
    split at h
    · rename_i cs' h'
      cases h
      obtain ⟨v, h1, h2⟩ := link_ok hu ha h'
      refine ⟨.mk c (some (.text v)), ?_, ?_⟩
      · unfold link; rw [h1]
      · unfold chunks; rw [h2]; rfl
    · rename_i h'
      exact absurd h (h' cs)
  | .mk c (some (.combination _ _)), cs, h => by cases h
  | .mk c (some .emptyNest), cs, h => by cases h
  | .mk c (some (.list _ _)), cs, h => by cases h
  | .mk c (some .emptyList), cs, h => by cases h
  | .mk c (some (.extra _)), cs, h => by cases h

theorem allChunks_false {f : C → Outcome Empty Bool} : ∀ {cs : List C} (cs' : List C), allChunks f cs = .ok false →
    allChunks f (cs ++ cs') = .ok false
  | [], _, h => by cases h
  | c :: cs, cs', h => by
    rw [List.cons_append]
    unfold allChunks at h ⊢
    rcases hf : f c with b | e | _ | _ <;> rw [hf] at h
    · cases b with
      | true => exact allChunks_false cs' h
      | false => rfl
    · exact e.elim
    · cases h
    · cases h

/-- The text has `N` chunks; or it is empty, and `N` is 0. -/
def ChunkCount (O : ChunkOps C CS P) (t : TextDatumList C ε) (N : Nat) : Prop :=
  (N = 0 ∧ t.isEmpty O = .ok true) ∨ (0 < N ∧ t.isEmpty O = .ok false ∧ ∃ cs, t.chunks = .ok cs ∧ cs.length = N)

/-- `Room n a`: the allocator can make `n` datums. -/
structure Roomy (al : AllocOps (TextDatumList C ε) ε α) (Room : Nat → α → Prop) : Prop where
  less : ∀ n a, Room (n + 1) a → Room n a
  newDatum : ∀ n d a, Room (n + 1) a → ∃ a', al.newDatum d a = (.ok (), a') ∧ Room n a'

section
variable (H : ChunkConf O RC RCS) {Room : Nat → α → Prop} (R : Roomy al Room)
include H

theorem TextDatumList.isEmpty_ofChunk {c : C} {l : List (Item P)} (h : RC c l) :
    (TextDatumList.mk c none : TextDatumList C ε).isEmpty O = .ok l.isEmpty := by
  have := allChunks_isEmpty H (cs := [c]) (ls := [l]) (.cons h .nil)
  simpa [isEmpty, chunks] using this

include R in
theorem concat_counts {t : TextDatumList C ε} {N n : Nat} (ht : ChunkCount O t N) {c : C} {x : Item P} {l : List (Item P)}
    (hc : RC c (x :: l)) {b : Tally α} (hb : Room (n + 1) b.state) :
    ∃ v a', ((textDatumList O al).tallied (TextDatumList.turns O)).concat t (.mk c none) b =
      (.ok v, ⟨a', b.concats + 1, b.steps + N⟩) ∧ ChunkCount O v (N + 1) ∧ Room n a' := by
  have hu : (TextDatumList.mk c none : TextDatumList C ε).isEmpty O = .ok false := TextDatumList.isEmpty_ofChunk H hc
  rcases ht with ⟨rfl, h1⟩ | ⟨hN, h1, cs, h2, h3⟩
  · refine ⟨.mk c none, b.state, ?_, .inr ⟨by omega, hu, [c], rfl, rfl⟩, R.less _ _ hb⟩
    simp [tallied_concat, textDatumList, TextDatumList.concat, TextDatumList.turns, h1]
  · obtain ⟨a', g1, g2⟩ := R.newDatum n (.text (.mk c none)) b.state hb
    obtain ⟨v, g3, g4⟩ := TextDatumList.link_ok (u := .mk c none) (cu := [c]) rfl g1 h2
    refine ⟨v, a', ?_, .inr ⟨by omega, ?_, _, g4, by simp [h3]⟩, g2⟩
    · simp [tallied_concat, textDatumList, TextDatumList.concat, TextDatumList.turns, h1, hu, g3, TextDatumList.toEnd_eq h2, h3]
    · simp only [TextDatumList.isEmpty, h2] at h1
      simp only [TextDatumList.isEmpty, g4]
      exact allChunks_false _ h1

omit H in
/-- The stream in the only chunk of a source. -/
abbrev inChunk (s : CS) (pk : Option (Item P)) : TextIter C CS P (TextDatumList C ε) := ⟨some s, [], none, pk⟩

omit H in
abbrev listEnv (O : ChunkOps C CS P) (al : AllocOps (TextDatumList C ε) ε α)
    (lookup : Datum (TextDatumList C ε) ε → Option (Combiner (TextDatumList C ε) ε α P CE)) :
    Env (TextIter C CS P (TextDatumList C ε)) P (TextDatumList C ε) ε (Tally α) CE :=
  textEnv O ((textDatumList O al).tallied (TextDatumList.turns O)) defaultClassifier al.tallied (tallyLookup lookup)

variable {lookup : Datum (TextDatumList C ε) ε → Option (Combiner (TextDatumList C ε) ε α P CE)}

theorem listEnv_peek {s : CS} {p r : List (Item P)} (hs : RCS s ⟨p, r⟩) {pk : Option (Item P)} (hp : ∀ x ∈ pk, r.head? = some x)
    (b : Tally α) (d : Nat) : ∃ s', (listEnv O al lookup).peek ⟨inChunk s pk, b, d⟩ = (.ok r.head?, ⟨inChunk s' r.head?, b, d⟩) ∧
      RCS s' ⟨p, r⟩ := by
  cases pk with
  | some x =>
    refine ⟨s, ?_, hs⟩
    simp [Env.peek, liftEmpty, textEnv, textIterOps, TextIter.peek, hp x rfl, Outcome.mapErr]
  | none =>
    obtain ⟨s', h1, h2⟩ := H.peek s _ hs
    refine ⟨s', ?_, h2⟩
    cases r with
    | nil => simp [Env.peek, liftEmpty, textEnv, textIterOps, TextIter.peek, h1, TextIter.peekAhead, Outcome.mapErr]
    | cons x r => simp [Env.peek, liftEmpty, textEnv, textIterOps, TextIter.peek, h1, Outcome.mapErr]

theorem listEnv_next {s : CS} {p r : List (Item P)} {x : Item P} (hs : RCS s ⟨p, x :: r⟩) (pk : Option (Item P))
    (b : Tally α) (d : Nat) : ∃ s', (listEnv O al lookup).next ⟨inChunk s pk, b, d⟩ = (.ok (some x), ⟨inChunk s' none, b, d⟩) ∧
      RCS s' ⟨[], r⟩ := by
  obtain ⟨s', h1, h2⟩ := H.next s _ hs
  refine ⟨s', ?_, h2⟩
  simp [Env.next, liftEmpty, textEnv, textIterOps, TextIter.next, TextIter.nextLoop, h1, Outcome.mapErr]

theorem listEnv_nextAccum {s : CS} {p r : List (Item P)} {x : Item P} (hs : RCS s ⟨p, x :: r⟩) (pk : Option (Item P))
    (b : Tally α) (d : Nat) : ∃ s', (listEnv O al lookup).nextAccum ⟨inChunk s pk, b, d⟩ = (.ok (some x), ⟨inChunk s' none, b, d⟩) ∧
      RCS s' ⟨p ++ [x], r⟩ := by
  obtain ⟨s', h1, h2⟩ := H.nextAccum s _ hs
  refine ⟨s', ?_, h2⟩
  simp [Env.nextAccum, liftAccum, textEnv, textIterOps, TextIter.nextAccum, TextIter.nextAccumLoop, h1, Outcome.mapErr]

theorem listEnv_accumDone {s : CS} {p r : List (Item P)} (hs : RCS s ⟨p, r⟩) (pk : Option (Item P))
    (b : Tally α) (d : Nat) : ∃ s' c, liftAccum (P := P) (CE := CE) (listEnv O al lookup).strm.accumDone ⟨inChunk s pk, b, d⟩ =
      (.ok (.mk c none), ⟨inChunk s' pk, ⟨b.state, b.concats + 1, b.steps⟩, d⟩) ∧ RC c p ∧ RCS s' ⟨[], r⟩ := by
  obtain ⟨c, s', h1, h2, h3⟩ := H.accumDone s _ hs
  refine ⟨s', c, ?_, h2, h3⟩
  have h4 : (TextDatumList.mk O.empty none : TextDatumList C ε).isEmpty O = .ok true := TextDatumList.isEmpty_ofChunk H H.empty
  have h5 : ((textDatumList O al).tallied (TextDatumList.turns O)).concat (.mk O.empty none) (.mk c none) b =
      (.ok (.mk c none), ⟨b.state, b.concats + 1, b.steps⟩) := by
    simp [tallied_concat, textDatumList, TextDatumList.concat, TextDatumList.turns, h4]
  have h6 : TextIter.accumDone O ((textDatumList O al).tallied (TextDatumList.turns O)) (inChunk s pk) b =
      (.ok (.mk c none), inChunk s' pk, ⟨b.state, b.concats + 1, b.steps⟩) := by
    unfold TextIter.accumDone
    simp only [h1]
    change (match ((textDatumList O al).tallied (TextDatumList.turns O)).concat (.mk O.empty none) (.mk c none) b with
      | (o, a) => (o, inChunk s' pk, a)) = _
    rw [h5]
  simp only [liftAccum, textEnv, textIterOps, h6, Outcome.mapErr]

include R in
theorem listEnv_concatAccum {s : CS} {x : Item P} {p r : List (Item P)} (hs : RCS s ⟨x :: p, r⟩) (pk : Option (Item P))
    {t : TextDatumList C ε} {N n : Nat} (ht : ChunkCount O t N) {b : Tally α} (hb : Room (n + 1) b.state) (d : Nat) :
    ∃ s' v a', (listEnv O al lookup).concatAccum t ⟨inChunk s pk, b, d⟩ =
      (.ok v, ⟨inChunk s' pk, ⟨a', b.concats + 2, b.steps + N⟩, d⟩) ∧ ChunkCount O v (N + 1) ∧ RCS s' ⟨[], r⟩ ∧ Room n a' := by
  obtain ⟨s', c, h1, h2, h3⟩ := listEnv_accumDone H (lookup := lookup) (al := al) hs pk b d
  obtain ⟨v, a', h4, h5, h6⟩ := concat_counts H R ht h2 (b := ⟨b.state, b.concats + 1, b.steps⟩) hb
  refine ⟨s', v, a', ?_, h5, h3, h6⟩
  refine (Act.bind_ok h1).trans ?_
  change liftAlloc (((textDatumList O al).tallied (TextDatumList.turns O)).concat t (.mk c none)) _ = _
  simp only [liftAlloc, h4, Outcome.mapErr]

theorem listEnv_concatAccum_empty {s : CS} {r : List (Item P)} (hs : RCS s ⟨[], r⟩) (pk : Option (Item P))
    {t : TextDatumList C ε} (ht : ChunkCount O t 0) {b : Tally α} (d : Nat) :
    ∃ s' v, (listEnv O al lookup).concatAccum t ⟨inChunk s pk, b, d⟩ =
      (.ok v, ⟨inChunk s' pk, ⟨b.state, b.concats + 2, b.steps⟩, d⟩) ∧ ChunkCount O v 0 ∧ RCS s' ⟨[], r⟩ := by
  obtain ⟨s', c, h1, h2, h3⟩ := listEnv_accumDone H (lookup := lookup) (al := al) hs pk b d
  have ht : t.isEmpty O = .ok true := by
    rcases ht with ⟨_, h⟩ | ⟨h, _⟩
    · exact h
    · omega
  refine ⟨s', .mk c none, ?_, .inl ⟨rfl, TextDatumList.isEmpty_ofChunk H h2⟩, h3⟩
  refine (Act.bind_ok h1).trans ?_
  change liftAlloc (((textDatumList O al).tallied (TextDatumList.turns O)).concat t (.mk c none)) _ = _
  simp [liftAlloc, tallied_concat, textDatumList, TextDatumList.concat, TextDatumList.turns, ht, Outcome.mapErr]

omit H in
/-- Escaped characters, `m` of them. -/
inductive Escapes : Nat → List (Item P) → Prop where
  | nil : Escapes 0 []
  | cons {m x y r} : x.ch = '\\' → Escapes m r → Escapes (m + 1) (x :: y :: r)

include R in
theorem listEnv_loop : ∀ (m : Nat) {N n : Nat} {s : CS} {x : Item P} {r : List (Item P)}, RCS s ⟨[x], r⟩ → Escapes m r →
    ∀ {t : TextDatumList C ε}, ChunkCount O t N → ∀ {b : Tally α}, Room (n + m + 1) b.state → ∀ (d : Nat),
    ∃ s' v a', (listEnv O al lookup).parseTextLoop .base (m + 1) t 0 ⟨inChunk s none, b, d⟩ =
      (.ok v, ⟨inChunk s' none, ⟨a', b.concats + 2 * (m + 1), b.steps + (m + 1) * N + m * (m + 1) / 2⟩, d⟩) ∧
      ChunkCount O v (N + m + 1) ∧ RCS s' ⟨[], []⟩ ∧ Room n a' := by
  intro m
  induction m with
  | zero =>
    intro N n s x r hs hr t ht b hb d
    cases hr
    obtain ⟨s₁, h1, h2⟩ := listEnv_peek H (lookup := lookup) (al := al) hs (pk := none) (by simp) b d
    obtain ⟨s₂, v, a', h3, h4, h5, h6⟩ := listEnv_concatAccum H R (lookup := lookup) h2 none ht hb d
    refine ⟨s₂, v, a', ?_, h4, h5, h6⟩
    unfold Env.parseTextLoop
    refine (Act.bind_ok h1).trans ?_
    simp only [List.head?_nil, Env.finishText, if_true]
    rw [h3]
    simp
  | succ m ih =>
    intro N n s x r hs hr t ht b hb d
    cases hr with
    | @cons _ z y r hz hr =>
    obtain ⟨s₁, h1, h2⟩ := listEnv_peek H (lookup := lookup) (al := al) hs (pk := none) (by simp) b d
    obtain ⟨s₂, v, a₁, h3, h4, h5, h6⟩ := listEnv_concatAccum H R (lookup := lookup) h2 (some z) ht
      (n := n + m + 1) (by rw [show n + m + 1 + 1 = n + (m + 1) + 1 by omega]; exact hb) d
    obtain ⟨s₃, h7, h8⟩ := listEnv_next H (lookup := lookup) (al := al) h5 (some z) ⟨a₁, b.concats + 2, b.steps + N⟩ d
    obtain ⟨s₄, h9, h10⟩ := listEnv_nextAccum H (lookup := lookup) (al := al) h8 none ⟨a₁, b.concats + 2, b.steps + N⟩ d
    obtain ⟨s₅, w, a', h11, h12, h13, h14⟩ := ih h10 hr h4 (n := n) (b := ⟨a₁, b.concats + 2, b.steps + N⟩) h6 d
    refine ⟨s₅, w, a', ?_, by rwa [show N + (m + 1) + 1 = N + 1 + m + 1 by omega], h13, h14⟩
    unfold Env.parseTextLoop
    refine (Act.bind_ok h1).trans ?_
    have e1 : isEndChar (listEnv O al lookup).cc .base z.ch = false := by rw [hz]; rfl
    have e2 : (listEnv O al lookup).cc.isNestEscape z.ch = true := by rw [hz]; rfl
    simp only [List.head?_cons, e1, e2, if_true, Bool.false_eq_true, and_false, if_false]
    refine (Act.bind_ok h3).trans ((Act.bind_ok h7).trans ((Act.bind_ok h9).trans (h11.trans ?_)))
    have e3 : (m + 1) * (m + 1 + 1) / 2 = m * (m + 1) / 2 + (m + 1) := by
      rw [show (m + 1) * (m + 1 + 1) = m * (m + 1) + (m + 1) * 2 by ring, Nat.add_mul_div_right _ _ (by omega)]
    have e4 : b.concats + 2 + 2 * (m + 1) = b.concats + 2 * (m + 1 + 1) := by omega
    have e5 : b.steps + N + (m + 1) * (N + 1) + m * (m + 1) / 2 = b.steps + (m + 1 + 1) * N + (m * (m + 1) / 2 + (m + 1)) := by
      ring
    simp only [e3, e4, e5]

include R in
theorem listEnv_call {m : Nat} {c : C} {r : List (Item P)} (hc : RC c r) (hr : Escapes (m + 1) r) {a : α} {n : Nat}
    (ha : Room (n + m + 1) a) : ∃ t t', (listEnv O al lookup).Call (St.init (.ofChunks O [c]) ⟨a, 0, 0⟩) (.ok (some (.text t))) t' ∧
      (∃ cs, t.chunks = .ok cs ∧ cs.length = m + 1) ∧ t'.alloc.steps = m * (m + 1) / 2 ∧ Room n t'.alloc.state := by
  have hs := H.srcStrm c r hc
  cases hr with
  | @cons _ x y r hx hr =>
  have h0 : ChunkCount O (listEnv O al lookup).text.empty 0 := .inl ⟨rfl, TextDatumList.isEmpty_ofChunk H H.empty⟩
  obtain ⟨s₀, g1, g2⟩ := listEnv_peek H (lookup := lookup) (al := al) hs (pk := none) (by simp) ⟨a, 0, 0⟩ 0
  obtain ⟨s₁, h1, h2⟩ := listEnv_peek H (lookup := lookup) (al := al) g2 (pk := some x) (by simp) ⟨a, 0, 0⟩ 0
  obtain ⟨s₂, v, h3, h4, h5⟩ := listEnv_concatAccum_empty H (lookup := lookup) (al := al) h2 (some x) h0 (b := ⟨a, 0, 0⟩) 0
  obtain ⟨s₃, h7, h8⟩ := listEnv_next H (lookup := lookup) (al := al) h5 (some x) ⟨a, 0 + 2, 0⟩ 0
  obtain ⟨s₄, h9, h10⟩ := listEnv_nextAccum H (lookup := lookup) (al := al) h8 none ⟨a, 0 + 2, 0⟩ 0
  obtain ⟨s₅, w, a', h11, h12, h13, h14⟩ := listEnv_loop H R (lookup := lookup) m h10 hr h4 (n := n) (b := ⟨a, 0 + 2, 0⟩) ha 0
  have e0 : (listEnv O al lookup).cc.isNestStart x.ch = false := by rw [hx]; rfl
  have e0' : (listEnv O al lookup).cc.isNestEnd x.ch = false := by rw [hx]; rfl
  have e1 : isEndChar (listEnv O al lookup).cc .base x.ch = false := by rw [hx]; rfl
  have e2 : (listEnv O al lookup).cc.isNestEscape x.ch = true := by rw [hx]; rfl
  refine ⟨w, ⟨inChunk s₅ none, ⟨a', 0 + 2 + 2 * (m + 1), 0 + (m + 1) * 0 + m * (m + 1) / 2⟩, 0⟩, ⟨m + 3, ?_, by simp⟩, ?_, ?_, h14⟩
  · change (listEnv O al lookup).parseNext (m + 2 + 1) .base _ = _
    unfold Env.parseNext
    have g0 : (listEnv O al lookup).skipLeading (m + 2) .base (St.init (.ofChunks O [c]) ⟨a, 0, 0⟩) =
        (.ok (), ⟨inChunk (O.srcStrm c) none, ⟨a, 0, 0⟩, 0⟩) := rfl
    refine (Act.bind_ok g0).trans ((Act.bind_ok g1).trans ?_)
    simp only [List.head?_cons, e0, e0', Bool.false_eq_true, if_false]
    refine (Act.bind_ok (a := w) ?_).trans rfl
    unfold Env.parseText Env.parseTextLoop
    refine (Act.bind_ok h1).trans ?_
    simp only [List.head?_cons, e1, e2, if_true, Bool.false_eq_true, and_false, if_false]
    exact (Act.bind_ok h3).trans ((Act.bind_ok h7).trans ((Act.bind_ok h9).trans h11))
  · rcases h12 with ⟨h, _⟩ | ⟨_, _, cs, h, h'⟩
    · omega
    · exact ⟨cs, h, by omega⟩
  · simp

end

theorem Escapes.of_chars : ∀ {m : Nat} {r : List (Item P)}, r.map (·.ch) = (List.replicate m ['\\', 'a']).flatten → Escapes m r
  | 0, r, h => by
    have : r = [] := by simpa using h
    subst this
    exact .nil
  | m + 1, [], h => by simp [List.replicate_succ] at h
  | m + 1, [_], h => by simp [List.replicate_succ] at h
  | m + 1, x :: y :: r, h => by
    simp only [List.map_cons, List.replicate_succ, List.flatten_cons, List.cons_append, List.nil_append, List.cons.injEq] at h
    exact .cons h.1 (.of_chars h.2.2)

theorem slice_roomy {C ε : Type} : Roomy (sliceAlloc (TextDatumList C ε) ε)
    fun n a => n = 0 ∨ ∃ i, a.free = some i ∧ i + n ≤ a.mem.length where
  less n a h := by
    rcases h with h | ⟨i, h1, h2⟩
    · omega
    · exact .inr ⟨i, h1, by omega⟩
  newDatum n d a h := by
    rcases h with h | ⟨i, h1, h2⟩
    · omega
    · refine ⟨⟨a.mem.set i d, some (i + 1)⟩, ?_, .inr ⟨i + 1, rfl, ?_⟩⟩
      · simp only [sliceAlloc, SliceAlloc.newDatum, h1, if_pos (show i < a.mem.length by omega)]
      · rw [List.length_set]; omega

end Kul
