import Verif.Proof.CompareWork
import Verif.Props.SizeBest
import Verif.Props.Forms
import Verif.Props.Texts
import Verif.Props.Datums
import Verif.Props.Concrete

/-!
# C90: what comparing, ordering and hashing look at, and how long they take
-/

namespace Kul

variable {σ P P' τ τ' ε ε' α α' CE C CS C' CS' H : Type}

/-! ## Datums -/

/-- C90. Comparing two datums compares the datums that they consist of one by one, in a fixed order (operands before operators, elements
before the rest of a list), and stops at the first difference. So the user's comparisons of texts and of extras are called
in that order, only as long as everything before was the same, and whatever they do (change a state, panic, not return) happens then.
For every monad. -/
theorem C90_in_order {M : Type → Type} [Monad M] [LawfulMonad M] (turn : M Unit) (teq : τ → τ' → M Bool) (xeq : ε → ε' → M Bool)
    (d : Datum τ ε) (e : Datum τ' ε') :
    d.eqM turn teq xeq e = inOrder turn (Tok.same teq xeq) d.toks e.toks := eqM_inOrder d e

/-- C90, the same for datums in memory, of any two kinds of references, however the datums share parts. -/
theorem C90_in_order_memory {M : Type → Type} [Monad M] [LawfulMonad M] (turn : M Unit) (teq : τ → τ' → M Bool)
    (xeq : ε → ε' → M Bool) (bad : M Bool) {m : Mem.Addr → Option (Mem.Dat τ ε)} {m' : Mem.Addr → Option (Mem.Dat τ' ε')}
    {d : Mem.Dat τ ε} {D : Datum τ ε} {e : Mem.Dat τ' ε'} {E : Datum τ' ε'} (h : Mem.Reads m d D) (h' : Mem.Reads m' e E)
    {n : Nat} (hn : D.nodes ≤ n) :
    d.eqIn turn teq xeq bad m m' n e = inOrder turn (Tok.same teq xeq) D.toks E.toks := by
  rw [eqIn_eqM h h' n hn, eqM_inOrder]

/-- C90. Comparing takes one turn for each pair of datums that is compared: all of them if the two are equal; if not, those up to
and including the first difference. So never more than either of the two consists of. The result is that of C38. -/
theorem C90_turns (teq : τ → τ' → Bool) (xeq : ε → ε' → Bool) (d : Datum τ ε) (e : Datum τ' ε') :
    ∃ k, d.eqTurns teq xeq e = (d.eqv teq xeq e, k) ∧
      Differ (fun x y => Tok.sameB teq xeq x y = true) d.toks e.toks (d.eqv teq xeq e) k ∧ k ≤ d.nodes ∧ k ≤ e.nodes ∧
      (d.eqv teq xeq e = true → k = d.nodes ∧ k = e.nodes) := by
  have hr : (d.eqTurns teq xeq e).1 = d.eqv teq xeq e := by
    obtain ⟨b, k, h1, h2⟩ := eqM_turns teq xeq d e 0
    rw [Datum.eqTurns, h1]
    have key : ∀ (d : Datum τ ε) (e : Datum τ' ε') n,
        ((Datum.eqM oneTurn (fun t u => (pure (teq t u) : StateM Nat Bool)) (fun x y => pure (xeq x y)) d e).run n).1 =
          d.eqv teq xeq e := by
      intro d
      induction d with
      | combination f a ihf iha =>
        intro e n
        cases e
        case combination g b =>
          obtain ⟨b1, k1, h1, _⟩ := eqM_turns teq xeq a b (n + 1)
          have h2 := iha b (n + 1)
          rw [h1] at h2
          rw [Datum.eqM, run_both _ _ _ h1]
          simp only at h2
          simp only [Datum.eqv, Datum.eqRun] at h2 ⊢
          rcases hb : a.eqRun teq xeq b with ⟨_ | _, _⟩ <;> rw [hb] at h2 <;> subst h2
          · rfl
          · exact ihf g _
        all_goals rfl
      | list f a ihf iha =>
        intro e n
        cases e
        case list g b =>
          obtain ⟨b1, k1, h1, _⟩ := eqM_turns teq xeq f g (n + 1)
          have h2 := ihf g (n + 1)
          rw [h1] at h2
          rw [Datum.eqM, run_both _ _ _ h1]
          simp only at h2
          simp only [Datum.eqv, Datum.eqRun] at h2 ⊢
          rcases hb : f.eqRun teq xeq g with ⟨_ | _, _⟩ <;> rw [hb] at h2 <;> subst h2
          · rfl
          · exact iha b _
        all_goals rfl
      | _ =>
        intro e n
        cases e <;> rfl
    have := key d e 0
    rw [h1] at this
    exact this
  obtain ⟨b, k, h1, h2⟩ := eqM_turns teq xeq d e 0
  rw [Datum.eqTurns, h1] at hr
  rw [Nat.zero_add] at h1
  simp only at hr
  subst hr
  refine ⟨k, h1, h2, ?_⟩
  rcases h2 with ⟨hb, h3, rfl⟩ | ⟨hb, p, p', x, y, q, q', h3, h4, h5, _, rfl⟩
  · have := h3.length_eq
    rw [Datum.toks_length, Datum.toks_length] at this
    rw [Datum.toks_length]
    exact ⟨Nat.le_refl _, Nat.le_of_eq this, fun _ => ⟨rfl, this⟩⟩
  · have h6 := d.toks_length
    have h7 := e.toks_length
    have h8 := h5.length_eq
    rw [h3] at h6
    rw [h4] at h7
    simp only [List.length_append, List.length_cons] at h6 h7
    exact ⟨by omega, by omega, fun h => by rw [hb] at h; cases h⟩

/-- C90. Hashing writes once for each datum that the datum consists of, and what its texts write. -/
theorem C90_hash_writes (c : τ → Nat) (x : ε → Nat) (d : Datum τ ε) (h : Nat) :
    d.hash countWrites (fun t h => h + c t) (fun y h => h + x y) h =
      h + d.nodes + (d.toks.map fun | .text t => c t | .extra y => x y | _ => 0).sum := by
  induction d generalizing h with
  | combination f a ihf iha | list f a ihf iha =>
    have e : ∀ h k, countWrites.writeIsize h k = h + 1 := fun _ _ => rfl
    simp only [Datum.hash, ihf, iha, Datum.toks, List.map_cons, List.map_append, List.sum_cons, List.sum_append, Datum.nodes, e]
    omega
  | _ => simp only [Datum.hash, Datum.toks, Datum.nodes, countWrites, List.map_cons, List.map_nil, List.sum_cons, List.sum_nil]; omega

/-! ## Sharing -/

theorem stacked_reads (n : Nat) : ∃ d, stacked τ ε n = some d ∧ Mem.Reads (stacked τ ε) d (unstacked τ ε n) := by
  induction n with
  | zero => exact ⟨_, rfl, .emptyList⟩
  | succ n ih =>
    obtain ⟨d, h1, h2⟩ := ih
    exact ⟨_, rfl, .list h1 h2 h1 h2⟩

theorem unstacked_nodes (n : Nat) : (unstacked τ ε n).nodes + 1 = 2 ^ (n + 1) := by
  induction n with
  | zero => rfl
  | succ n ih =>
    simp only [unstacked, Datum.nodes]
    rw [Nat.pow_succ, ← ih]
    omega

/-- C90, what cannot be had. Datums may be shared ("It can also be used for DAGs", `core/src/datum.rs` 16), but comparing and
hashing do not notice: for every `n` there is a datum in `n + 1` places of memory (a well-formed list, whose element and rest are one
shared datum, and so on) whose comparison with itself takes `2 ^ (n + 1) - 1` turns, and whose hashing writes as many times. -/
theorem C90_shared_exponential (teq : τ → τ → Bool) (xeq : ε → ε → Bool) (n : Nat) :
    ∃ d, stacked τ ε n = some d ∧ Mem.Reads (stacked τ ε) d (unstacked τ ε n) ∧
      (∀ p e, p ≤ n → stacked τ ε p = some e → ∀ q ∈ e.refs, q < p) ∧
      (∀ k, 2 ^ (n + 1) ≤ k → d.eqTurns teq xeq (stacked τ ε) (stacked τ ε) k d = (true, 2 ^ (n + 1) - 1)) ∧
      ∀ th xh, (unstacked τ ε n).hash countWrites th xh 0 = 2 ^ (n + 1) - 1 := by
  obtain ⟨d, h1, h2⟩ := stacked_reads (τ := τ) (ε := ε) n
  have hn := unstacked_nodes (τ := τ) (ε := ε) n
  refine ⟨d, h1, h2, ?_, ?_, ?_⟩
  · rintro (_ | p) e _ he q hq
    · cases he; cases hq
    · cases he
      have : q = p := by simpa [Mem.Dat.refs] using hq
      exact this ▸ Nat.lt_succ_self p
  · intro k hk
    have he : (unstacked τ ε n).eqv teq xeq (unstacked τ ε n) = true := by
      rw [C38_structural]
      clear hn h2 h1 hk
      induction n with
      | zero => exact .emptyList
      | succ n ih => exact .list ih ih
    obtain ⟨j, h3, _, _, _, h4⟩ := C90_turns teq xeq (unstacked τ ε n) (unstacked τ ε n)
    rw [he] at h3
    rw [Mem.Dat.eqTurns, eqIn_eqM h2 h2 k (by omega)]
    rw [Datum.eqTurns] at h3
    rw [h3, (h4 he).1]
    exact Prod.ext rfl (show _ = 2 ^ (n + 1) - 1 by omega)
  · intro th xh
    have key : ∀ h, (unstacked τ ε n).hash countWrites th xh h = h + (unstacked τ ε n).nodes := by
      clear hn h2 h1
      induction n with
      | zero => intro h; rfl
      | succ n ih =>
        intro h
        have e : ∀ h k, countWrites.writeIsize h k = h + 1 := fun _ _ => rfl
        simp only [unstacked, Datum.hash, ih, Datum.nodes, e]
        omega
    rw [key]
    omega

/-! ## Texts -/

/-- C90. Comparing two texts asks each for as many characters as they have in common at the beginning, and once more: exactly.
(An iterator that may be asked only `i` times panics if it is asked more often.) -/
theorem C90_text_eq {O : ChunkOps C CS P} {T : TextType C τ α} {O' : ChunkOps C' CS' P'} {T' : TextType C' τ' α'} {t : τ} {u : τ'}
    {cs ds : List Char} (ht : T.Chars O t cs) (hu : T'.Chars O' u ds) :
    ∃ s s', T.iter O t = .ok s ∧ T'.iter O' u = .ok s' ∧ ∀ n i j, cs.length < n →
      iterEq (TextType.charsNext O).atMost (TextType.charsNext O').atMost n (s, i) (s', j) =
        if commonPrefix cs ds < i ∧ commonPrefix cs ds < j then T.eq O O' T' n t u else .panic := by
  obtain ⟨s, h1, h2⟩ := ht.iter
  obtain ⟨s', h3, h4⟩ := hu.iter
  refine ⟨s, s', h1, h3, fun n i j hn => ?_⟩
  rw [iterEq_atMost h2 h4 n i j hn]
  simp only [TextType.eq, h1, h3, iterEq_spec h2 h4 n hn]

/-- C90, the same for the order of texts. -/
theorem C90_text_cmp {O : ChunkOps C CS P} {T : TextType C τ α} {O' : ChunkOps C' CS' P'} {T' : TextType C' τ' α'} {t : τ} {u : τ'}
    {cs ds : List Char} (ht : T.Chars O t cs) (hu : T'.Chars O' u ds) :
    ∃ s s', T.iter O t = .ok s ∧ T'.iter O' u = .ok s' ∧ ∀ n i j, cs.length < n →
      iterCmp (TextType.charsNext O).atMost (TextType.charsNext O').atMost n (s, i) (s', j) =
        if commonPrefix cs ds < i ∧ commonPrefix cs ds < j then T.cmp O O' T' n t u else .panic := by
  obtain ⟨s, h1, h2⟩ := ht.iter
  obtain ⟨s', h3, h4⟩ := hu.iter
  refine ⟨s, s', h1, h3, fun n i j hn => ?_⟩
  rw [iterCmp_atMost h2 h4 n i j hn]
  simp only [TextType.cmp, h1, h3]

/-- C90. Hashing a text asks for each character once, and once more. -/
theorem C90_text_hash {O : ChunkOps C CS P} {T : TextType C τ α} (W : HasherOps H) {t : τ} {cs : List Char} (ht : T.Chars O t cs) :
    ∃ s, T.iter O t = .ok s ∧ ∀ n i h, cs.length < n → hashLoop W (TextType.charsNext O).atMost n (s, i) h =
      if cs.length < i then T.hash O W n t h else .panic := by
  obtain ⟨s, h1, h2⟩ := ht.iter
  refine ⟨s, h1, fun n i h hn => ?_⟩
  rw [hashLoop_atMost W h2 n i h hn]
  simp only [TextType.hash, h1]

/-- C90. Encoding a text into a buffer asks for the characters that fit, and once more. -/
theorem C90_text_encode {O : ChunkOps C CS P} {T : TextType C τ α} {t : τ} {cs p : List Char} (ht : T.Chars O t cs)
    (buf : List UInt8) (hp : LongestFit buf.length cs p) :
    ∃ s, T.iter O t = .ok s ∧ ∀ n i, cs.length < n → encodeLoop (TextType.charsNext O).atMost n (s, i) buf 0 =
      if p.length < i then T.encodeUtf8 O n t buf else .panic := by
  obtain ⟨s, h1, h2⟩ := ht.iter
  obtain ⟨⟨q, rfl⟩, h3, h4⟩ := hp
  refine ⟨s, h1, fun n i hn => ?_⟩
  rw [utf8_length] at h3
  rw [encodeLoop_atMost h2 rfl n i buf 0 hn (by omega)]
  · simp only [TextType.encodeUtf8, h1]
  · rintro c q' rfl
    by_contra hc
    have := (h4 (p ++ [c]) ⟨q', by simp⟩ (by
      rw [utf8_append, List.length_append, utf8_length, utf8_length]
      simp only [Str.len]
      omega)).length_le
    simp at this
    omega

/-- C90. Taking items from a text takes one turn for each that is asked for, and one for each chunk, whether it is empty or not, however they
are cut. -/
theorem C90_text_turns (O : ChunkOps C CS P) (cs : List C) (k : Nat) :
    TextIter.turnsOf O k (TextIter.ofChunks (τ := τ) O cs) ≤ k + cs.length := by
  have key : ∀ k (it : TextIter C CS P τ), TextIter.turnsOf O k it ≤ k + (it.nextChunks.length + it.cur.toList.length) := by
    intro k
    induction k with
    | zero => intro it; exact Nat.zero_le _
    | succ k ih =>
      intro it
      have h1 := TextIter.nextTurns_le O it.nextChunks it.cur
      have h2 := ih (it.next O).2
      have e : (it.next O).2.nextChunks = (TextIter.nextLoop O it.nextChunks it.cur).2.2 ∧
        (it.next O).2.cur = (TextIter.nextLoop O it.nextChunks it.cur).2.1 := ⟨rfl, rfl⟩
      rw [e.1, e.2] at h2
      simp only [TextIter.turnsOf]
      omega
  refine Nat.le_trans (key k _) ?_
  cases cs <;> simp [TextIter.ofChunks]

/-! ## What was parsed -/

variable {E : Env σ P τ ε α CE} {X : TextSem P τ α}

theorem Env.Yields.calls_nodes {s : St σ α} {l t} (h : E.Yields s l t) : ∀ {ds : List (Datum τ ε)}, l = ds.map .ok →
    ∃ os, E.Calls s os t ∧ nodesOf os = (ds.map fun d => d.nodes + 1).sum := by
  induction h with
  | done h =>
    intro ds e
    obtain rfl : ds = [] := by cases ds <;> simp_all
    exact ⟨[_], .cons h .nil, rfl⟩
  | datum h _ ih =>
    intro ds e
    cases ds with
    | nil => cases e
    | cons d ds =>
      simp only [List.map_cons, List.cons.injEq, Except.ok.injEq] at e
      obtain ⟨rfl, e⟩ := e
      obtain ⟨os, h1, h2⟩ := ih e
      exact ⟨_ :: os, .cons h h1, by simp [nodesOf, h2]⟩
  | error h _ ih =>
    intro ds e
    cases ds <;> cases e

theorem eqCostAll_le {A : Type} (teq : τ → τ' → Bool) (w : τ → τ' → Nat) (xeq : ε → ε' → Bool) {R : ε → ε → Prop} {ds : List (Datum τ ε)}
    {Ds : List (Datum (List A) ε)}
    (h : List.Forall₂ (DatumRel (fun t (c : List A) => ∀ u, w t u ≤ c.length + 1) R) ds Ds) : ∀ (es : List (Datum τ' ε')),
    eqCostAll teq w xeq ds es ≤ 2 * (ds.map fun d => d.nodes + 1).sum + (Ds.flatMap Datum.texts).length := by
  induction h with
  | nil => intro es; simp [eqCostAll]
  | @cons d D ds Ds h1 _ ih =>
    intro es
    cases es with
    | nil => simp [eqCostAll]
    | cons e es =>
      obtain ⟨b, k, h2, h3⟩ := eqM_cost teq w xeq h1 e 0
      have h4 := ih es
      rw [Nat.zero_add] at h2
      have h5 : d.eqCost teq w xeq e = (b, k) := h2
      simp only [eqCostAll, h5, List.map_cons, List.sum_cons, List.flatMap_cons, List.length_append]
      cases b <;> simp only <;> omega

/-- C90. Comparing all that was parsed from a source with any other datums takes time linear in the length of the source, whatever is
compared with it: the turns, and for each text that is compared the characters asked for (`C90_text_eq`), are together at most four for each
character of the source, and one. Without bindings, for any of the library's streams and text types. -/
theorem C90_parsed {s : σ} {r : List (Item P)} (pr : Provided E s r X) (D : E.cc.Disjoint) (hb : ∀ d, E.lookup d = none) {a : α}
    {ds : List (Datum τ ε)} {t} (hy : E.Yields (St.init s a) (ds.map .ok) t) (teq : τ → τ' → Bool) {w : τ → τ' → Nat}
    (hw : ∀ t c u, X.RT t c → w t u ≤ c.length + 1) (xeq : ε → ε' → Bool) (es : List (Datum τ' ε')) :
    eqCostAll teq w xeq ds es ≤ 4 * r.length + 1 := by
  obtain ⟨_, C, hs⟩ := pr.conf
  obtain ⟨Ds, h1, _, h2⟩ := C08_no_character_lost C D hb hs hy
  obtain ⟨os, h3, h4⟩ := hy.calls_nodes rfl
  have h5 := C70_linear_total C (.none hb) hs h3
  have h6 := eqCostAll_le teq w xeq (h1.imp fun d D h => h.mono fun t c ht u => hw t c u ht) es
  have h7 := h2.length_le
  omega

/-- C90, for strings and `TextVec`, with what comparing texts takes by `C90_text_eq`. -/
theorem C90_parsed_inmem (string : Str) {a : α} {ds : List (Datum (TextVec PosStr) ε)} {t}
    (hy : (inmemEnv (noBindings _ ε α StrPos CE)).Yields (St.init (inmemSource string) a) (ds.map .ok) t) (xeq : ε → ε → Bool)
    (es : List (Datum (TextVec PosStr) ε)) :
    eqCostAll TextVec.eqFn (fun t u => commonPrefix t.charsOf u.charsOf + 1) xeq ds es ≤ 4 * string.length + 1 := by
  have := C90_parsed (inmem_provided (noBindings _ ε α StrPos CE) string) defaultClassifier_disjoint (fun _ => rfl) hy TextVec.eqFn
    (w := fun t u => commonPrefix t.charsOf u.charsOf + 1) (fun t c u h => by
      have h1 : (textVec α posStrOps).Chars posStrOps t (c.map Item.ch) := ⟨c, h.reads posStr_conf, rfl⟩
      have h2 := (TextVec.chars_posStr (α := α) t).det h1
      have h3 : commonPrefix t.charsOf u.charsOf ≤ t.charsOf.length := commonPrefix_le _ _
      rw [h2, List.length_map] at h3
      rw [h2]
      omega) xeq es
  rwa [strItems_length] at this

/-! ## Non-vacuity -/

/-- The comparison of `{a b}` with `{a c}`: the third pair of datums is the first difference. -/
example : (Datum.combination (.text 'a') (.list (.text 'b') .emptyList) : Datum Char Empty).eqTurns (fun a b => a == b) (fun _ _ => true)
    (.combination (.text 'a') (.list (.text 'c') .emptyList) : Datum Char Empty) = (false, 3) := by decide

example : (Datum.combination (.text 'a') (.list (.text 'b') .emptyList) : Datum Char Empty).eqTurns (fun a b => a == b) (fun _ _ => true)
    (.combination (.text 'a') (.list (.text 'b') .emptyList) : Datum Char Empty) = (true, 5) := by decide

/-- A list of shared lists, in four places, takes fifteen turns. -/
example : ∃ d, stacked Char Empty 3 = some d ∧
    d.eqTurns (fun a b => a == b) (fun _ _ => true) (stacked Char Empty) (stacked Char Empty) 16 d = (true, 15) := ⟨_, rfl, by decide⟩

/-- Texts `ab` and `ac` of different cuts: two characters of each are asked for, not one. -/
example : ∃ s s', (textVec Unit posStrOps).iter posStrOps (.multi [.ofStr ['a'], .ofStr ['b']]) = .ok s ∧
    (textVec Unit posStrOps).iter posStrOps (.single (.ofStr ['a', 'c', 'd'])) = .ok s' ∧
    iterEq (TextType.charsNext posStrOps).atMost (TextType.charsNext posStrOps).atMost 5 (s, 2) (s', 2) = .ok false ∧
    iterEq (TextType.charsNext posStrOps).atMost (TextType.charsNext posStrOps).atMost 5 (s, 1) (s', 2) = .panic :=
  ⟨_, _, rfl, rfl, by decide, by decide⟩

/-- A long source whose datum is compared with itself. -/
example : ∃ (string : Str) (d : Datum (TextVec PosStr) Empty) (t : _), 1000 ≤ string.length ∧
    (inmemEnv (noBindings _ Empty Unit StrPos Empty)).Yields (St.init (inmemSource string) ()) [.ok d] t ∧ 2 * d.nodes + 3 = 3 * string.length ∧
    eqCostAll TextVec.eqFn (fun t u => commonPrefix t.charsOf u.charsOf + 1) (fun _ _ => true) [d] [d] ≤ 4 * string.length + 1 := by
  obtain ⟨string, h1, ⟨l, t, hy⟩, h2⟩ := C70_optimal (ε := Empty) (CE := Empty) 1000 ()
  obtain ⟨d, rfl, h3⟩ := h2 l t hy
  exact ⟨string, d, t, h1, hy, h3, C90_parsed_inmem (ds := [d]) string hy _ _⟩

end Kul
