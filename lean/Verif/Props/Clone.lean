import Verif.Props.Reads
import Verif.Props.Datums
import Verif.Spec.Clone
import Verif.Spec.Concrete
import Verif.Spec.Depth

/-!
# C63: cloning and hashing of datums

That clones are equal to their originals and stay so, whatever else is done, is also in C50 and C51, where cloning is
one of the things that a user can do.
-/

namespace Kul

variable {τ ε H : Type}

/-! ## Hashing -/

/-- C63. Hashing of a datum nests calls as deep as the tree has levels, also along the rest of lists. (Comparing does
not, see `C39_depth_bound`.) -/
theorem C63_hash_depth (W : HasherOps H) (th : τ → H → H) (xh : ε → H → H) (d : Datum τ ε) (h : H) :
    d.hashRun W th xh h = (d.hash W th xh h, d.levels) := by
  induction d generalizing h with
  | combination f a ihf iha | list f a ihf iha =>
    simp only [Datum.hashRun, Datum.hash, Datum.levels, ihf, iha, Prod.mk.injEq, true_and]
    omega
  | _ => rfl

/-- C63. A list has more levels than elements. -/
theorem C63_list_levels (ds : List (Datum τ ε)) : ds.length < (listOf ds).levels := by
  induction ds with
  | nil => exact Nat.one_pos
  | cons d ds ih =>
    simp only [listOf, List.length_cons, Datum.levels]
    omega

theorem levels_emptyNests (n : Nat) : (listOf (List.replicate n (.emptyNest : Datum τ ε))).levels = n + 1 := by
  induction n with
  | zero => rfl
  | succ n ih =>
    simp only [List.replicate_succ, listOf, Datum.levels, ih]
    omega

theorem numbered_append (s t : Str) : ∀ n, numbered n (s ++ t) = numbered n s ++ numbered (n + s.length) t := by
  induction s with
  | nil => intro n; rfl
  | cons c s ih =>
    intro n
    simp only [List.cons_append, numbered, ih, List.length_cons]
    rw [Nat.add_right_comm, Nat.add_assoc]

/-- C63. For every `n` there is a source that nests three deep only, however large `n` is, so that eleven frames suffice for
the parser itself (`C56_enough`), but whose head has `n + 2` levels: the bindings are asked for it, and those that are a
`HashMap` hash it. -/
theorem C63_flat_source {CE : Type} (n : Nat) :
    StrResults (CE := CE) (ε := ε) (flatHead n)
      [.ok (.combination (.combination .emptyNest (listOf (List.replicate n .emptyNest))) .emptyList)] ∧
    deepest defaultClassifier 0 (numbered 0 (flatHead n)) = 3 ∧
    (Datum.combination .emptyNest (listOf (List.replicate n .emptyNest)) : Datum (List (Item Nat)) ε).levels = n + 2 := by
  have hs : defaultClassifier.isNestStart '{' = true := by decide
  have he : defaultClassifier.isNestEnd '}' = true := by decide
  have nest : ∀ i j : Nat, Gram (ε := ε) defaultClassifier .nest [⟨'{', i⟩, ⟨'}', j⟩] [.emptyNest] := fun i j =>
    Gram.emptyNest (h := []) hs he (.noHead (fun _ h => by cases h))
  have forms : ∀ n k : Nat, Gram (ε := ε) defaultClassifier (.forms false false)
      (numbered k (List.replicate n ['{', '}']).flatten) (List.replicate n .emptyNest) := by
    intro n
    induction n with
    | zero => exact fun k => .nil
    | succ n ih => exact fun k => Gram.form (s := [⟨'{', k⟩, ⟨'}', k + 1⟩]) (nest _ _) (ih (k + 2))
  have len : (List.replicate n ['{', '}']).flatten.length = 2 * n := by simp [Nat.mul_comm]
  refine ⟨?_, ?_, ?_⟩
  · refine PlainResults.all (ds := [_]) ?_
    have e : numbered 0 (flatHead n) = (⟨'{', 0⟩ :: (([] ++ (⟨'{', 1⟩ :: (([] ++ [⟨'{', 2⟩, ⟨'}', 3⟩]) ++ [] ++
        numbered 4 (List.replicate n ['{', '}']).flatten ++ [⟨'}', 4 + 2 * n⟩]))) ++ [] ++ [] ++
        [⟨'}', 4 + 2 * n + 1⟩])) ++ [] := by
      simp [flatHead, numbered, numbered_append, len, Nat.mul_comm]
    rw [e]
    refine Gram.form ?_ .nil
    refine Gram.combination hs he (.nestHead (fun _ h => by cases h) ?_) .empty .nil
    refine Gram.combination hs he (.nestHead (fun _ h => by cases h) (nest _ _)) ?_ (forms n 4)
    cases n with
    | zero => exact .empty
    | succ n => exact .none (by decide) (fun h => by cases h)
  · have open' : ∀ d k (r : List (Item Nat)), deepest defaultClassifier d (⟨'{', k⟩ :: r) = deepest defaultClassifier (d + 1) r := by
      intro d k r
      rw [deepest.eq_def]
      rfl
    have close' : ∀ d k (r : List (Item Nat)), deepest defaultClassifier d (⟨'}', k⟩ :: r) =
        max d (deepest defaultClassifier (d - 1) r) := by
      intro d k r
      rw [deepest.eq_def]
      rfl
    have flat : ∀ n k (r : List (Item Nat)), deepest defaultClassifier 2 (numbered k (List.replicate n ['{', '}']).flatten ++ r) =
        if n = 0 then deepest defaultClassifier 2 r else max 3 (deepest defaultClassifier 2 r) := by
      intro n
      induction n with
      | zero => intro k r; rfl
      | succ n ih =>
        intro k r
        rw [List.replicate_succ, List.flatten_cons, numbered_append]
        simp only [numbered, List.cons_append, List.nil_append, List.length_cons, List.length_nil]
        rw [open', close', ih]
        simp only [Nat.add_one_ne_zero, if_false]
        split <;> omega
    rw [show flatHead n = ['{', '{', '{', '}'] ++ ((List.replicate n ['{', '}']).flatten ++ ['}', '}']) from rfl,
      numbered_append, numbered_append]
    simp only [numbered, List.cons_append, List.nil_append, List.length_cons, List.length_nil]
    rw [open', open', open', close', flat]
    have e : ∀ i j : Nat, deepest defaultClassifier 2 [⟨'}', i⟩, ⟨'}', j⟩] = 2 := by
      intro i j
      rw [close', close', deepest]
      rfl
    simp only [e]
    split <;> rfl
  · simp only [Datum.levels, levels_emptyNests]
    omega

namespace Mem

/-! ## Cloning of `Box`es -/

/-- C63. Cloning of a datum with references that are `Box`es: if calls can be nested as deep as the tree has levels, then
the clone reads as the same tree; everything in memory is as it was; all that belongs to the clone is new, so that it has
nothing in common with any other datum; and as many allocations are made as there are references in the tree. If calls
cannot be nested as deep, the stack overflows. -/
theorem C63_box {h : Heap τ ε} (ht : h.Tidy) {d : Dat τ ε} {D : Datum τ ε} (hr : Reads h.read d D) (n : Nat) :
    (D.levels ≤ n → ∃ d' h', (heapMem τ ε true).clone n d h = some (d', h') ∧ Reads h'.read d' D ∧
      (∀ k, k < h.size → h'.cells k = h.cells k) ∧ (∀ k, h'.Reach [d'] k → h.size ≤ k) ∧ h'.Tidy ∧
      h'.size = h.size + D.refs (fun _ => 0)) ∧
    (n < D.levels → (heapMem τ ε true).clone n d h = none) := by
  refine ⟨fun hn => ?_, fun hn => cloneBoxed_overflow D n hn ht hr⟩
  obtain ⟨d', h', h1, h2, h3, h4⟩ := cloneBoxed_clones D n hn ht hr
  exact ⟨d', h', h1, h3.reads, h2.same, fun k hk => (h3.reach hk).1, h2.tidy, h4⟩

/-! ## Cloning of `Rc`s and `Arc`s -/

theorem Heap.clone_cells (h : Heap τ ε) (p : Addr) : (h.clone p).size = h.size ∧ (∀ k, (h.clone p).read k = h.read k) ∧
    ∀ k, h.cells k ≠ none → (h.clone p).strong k = h.strong k + [p].count k := by
  unfold Heap.clone
  cases hc : h.cells p with
  | none =>
    refine ⟨rfl, fun _ => rfl, fun k hk => ?_⟩
    have : p ≠ k := fun e => hk (e ▸ hc)
    simp [this]
  | some c =>
    refine ⟨rfl, fun k => ?_, fun k _ => ?_⟩
    · by_cases e : k = p
      · simp [Heap.read, Heap.put, e, hc]
      · simp [Heap.read, Heap.put, e]
    · rw [Heap.strong_put]
      by_cases e : k = p
      · subst e
        simp [Heap.strong, hc]
      · simp [e, Ne.symm e]

/-- C63. Cloning of a datum with references that are `Rc`s or `Arc`s: no calls are nested; the clone is the same datum;
nothing is allocated, and what is in memory reads as before; only the counts of what the datum refers to go up. -/
theorem C63_counted (h : Heap τ ε) (d : Dat τ ε) (n : Nat) :
    ∃ h', (heapMem τ ε false).clone (n + 1) d h = some (d, h') ∧ h'.size = h.size ∧ (∀ k, h'.read k = h.read k) ∧
      ∀ k, h.cells k ≠ none → h'.strong k = h.strong k + d.refs.count k := by
  have key : ∀ (ps : List Addr) (h : Heap τ ε), (ps.foldl (fun h p => h.clone p) h).size = h.size ∧
      (∀ k, (ps.foldl (fun h p => h.clone p) h).read k = h.read k) ∧
      ∀ k, h.cells k ≠ none → (ps.foldl (fun h p => h.clone p) h).strong k = h.strong k + ps.count k := by
    intro ps
    induction ps with
    | nil => exact fun h => ⟨rfl, fun _ => rfl, fun _ _ => rfl⟩
    | cons p ps ih =>
      intro h
      obtain ⟨h1, h2, h3⟩ := h.clone_cells p
      obtain ⟨k1, k2, k3⟩ := ih (h.clone p)
      refine ⟨k1.trans h1, fun k => (k2 k).trans (h2 k), fun k hk => ?_⟩
      have hl : (h.clone p).cells k ≠ none := by
        intro e
        have := h2 k
        simp only [Heap.read, e, Option.map_none] at this
        exact hk (Option.map_eq_none_iff.mp this.symm)
      simp only [List.foldl_cons]
      rw [k3 k hl, h3 k hk, List.count_cons, List.count_cons]
      simp only [List.count_nil]
      omega
  exact ⟨_, rfl, key _ _⟩

/-! ## A clone that is dropped -/

theorem Heap.Exact.unique {h h' : Heap τ ε} {ds : List (Dat τ ε)} (H : h.Exact ds) (H' : h'.Exact ds) (ht : h.Tidy)
    (ht' : h'.Tidy) (hd : ∀ k c c', h.cells k = some c → h'.cells k = some c' → c.dat = c'.dat) (k : Addr) :
    h'.cells k = h.cells k := by
  have one : ∀ {h h' : Heap τ ε}, h.Exact ds → h'.Exact ds →
      (∀ k c c', h.cells k = some c → h'.cells k = some c' → c.dat = c'.dat) → ∀ {k}, h.Reach ds k → h'.Reach ds k := by
    intro h h' _ H' hd k hr
    induction hr with
    | root h1 h2 => exact .root h1 h2
    | @ref p c q _ h1 h2 ih =>
      cases hc : h'.cells p with
      | none => exact absurd hc ((H'.1 p).mpr ih)
      | some c' => exact .ref ih hc (hd p c c' h1 hc ▸ h2)
  have hd' : ∀ k c c', h'.cells k = some c → h.cells k = some c' → c.dat = c'.dat := fun k c c' h1 h2 => (hd k c' c h2 h1).symm
  have live : ∀ k, h.cells k ≠ none ↔ h'.cells k ≠ none := fun k =>
    ⟨fun hk => (H'.1 k).mpr (one H H' hd ((H.1 k).mp hk)), fun hk => (H.1 k).mpr (one H' H hd' ((H'.1 k).mp hk))⟩
  have from' : ∀ k p, h.refsFrom k p = h'.refsFrom k p := by
    intro k p
    unfold Heap.refsFrom
    cases hc : h.cells k with
    | none =>
      have : h'.cells k = none := by
        by_contra hn
        exact (live k).mpr hn hc
      rw [this]
    | some c =>
      cases hc' : h'.cells k with
      | none => exact absurd hc' ((live k).mp (by rw [hc]; simp))
      | some c' => simp only [hd k c c' hc hc']
  have dead : ∀ {h : Heap τ ε}, h.Tidy → ∀ p m, h.size ≤ m →
      ((List.range m).map fun k => h.refsFrom k p).sum = ((List.range h.size).map fun k => h.refsFrom k p).sum := by
    intro h ht p m hm
    induction m with
    | zero => rw [Nat.le_zero.mp hm]
    | succ m ih =>
      by_cases e : h.size = m + 1
      · rw [e]
      · rw [List.range_succ, List.map_append, List.sum_append, ih (by omega)]
        simp [Heap.refsFrom, ht m (by omega)]
  have to' : ∀ p, h.refsTo ds p = h'.refsTo ds p := by
    intro p
    unfold Heap.refsTo
    rw [← dead ht p (max h.size h'.size) (Nat.le_max_left _ _), ← dead ht' p (max h.size h'.size) (Nat.le_max_right _ _)]
    simp only [from']
  cases hc : h.cells k with
  | none =>
    by_contra hn
    exact (live k).mpr hn hc
  | some c =>
    cases hc' : h'.cells k with
    | none => exact absurd hc' ((live k).mp (by rw [hc]; simp))
    | some c' =>
      have h1 := hd k c c' hc hc'
      have h2 := H.2 k c hc
      have h3 := H'.2 k c' hc'
      rw [← to' k, ← h2] at h3
      cases c
      cases c'
      simp_all

theorem dropDat_sub (box : Bool) (d : Dat τ ε) (h : Heap τ ε) (k : Addr) (c : Cell τ ε)
    (hc : ((heapMem τ ε box).dropDat d h).cells k = some c) : ∃ s, h.cells k = some ⟨s, c.dat⟩ := by
  have key : ∀ (ps : List Addr) (h : Heap τ ε) c, (ps.foldl (fun a p => (heapMem τ ε box).dropRef p a) h).cells k = some c →
      ∃ s, h.cells k = some ⟨s, c.dat⟩ := by
    intro ps
    induction ps with
    | nil => exact fun h c hc => ⟨_, hc⟩
    | cons p ps ih =>
      intro h c hc
      obtain ⟨s, h1⟩ := ih _ c hc
      exact (Heap.release_sub _ _ _).2 k ⟨s, c.dat⟩ h1
  exact key _ _ c hc

/-- C63. After any history of calls, drops and clones: if a datum is cloned and the clone is dropped, then the memory is
exactly as it was before, whether datums are in `Box`es, `Rc`s or `Arc`s, and with any bindings whose combiners respect
ownership. -/
theorem C63_dropped {C CS P β CE : Type} (box : Bool) (O : ChunkOps C CS P) (cc : Classifier)
    {lookup : Dat (TextVec C) ε → Heap (TextVec C) ε → Option (Combiner (TextVec C) ε (Heap (TextVec C) ε) P CE)}
    {lookup' : Datum (TextVec C) ε → Option (Kul.Combiner (TextVec C) ε β P CE)}
    (hl : ∀ {h : Heap (TextVec C) ε} {b : β} {d D rs xs}, Parts d D rs → heapOwn box h b (rs ++ xs) →
      OptRel (CombRel (heapOwn box)) (lookup d h) (lookup' D)) (s : TextIter C CS P (TextVec C)) (b : β)
    {os held t} (h : (textEnv O (textVec _ O) cc (heapMem _ _ box) lookup).Uses true (St.init s Heap.empty) os held t)
    {i d n d' a} (hi : (i, d) ∈ held) (hc : (heapMem _ _ box).clone n d t.alloc = some (d', a)) (k : Addr) :
    ((heapMem _ _ box).dropDat d' a).cells k = t.alloc.cells k := by
  have L := heapLaws (box := box) (u := box) (E := textEnv O (textVec _ O) cc (heapMem _ _ box) lookup)
    (V := Kul.textEnv O (textVec _ O) cc (boxAlloc _ _ _) lookup') id rfl rfl (rest_text (fun _ => textVec_lock O _) hl)
  have hh := Env.Uses.drop (held' := []) (Env.Uses.clone rfl h hi hc)
  rw [List.append_nil] at hh
  have tidy : ∀ {os held t}, (textEnv O (textVec _ O) cc (heapMem _ _ box) lookup).Uses true (St.init s Heap.empty) os held t →
      ∃ xs, HeapOwn box t.alloc xs := fun h => by
    obtain ⟨_, _, xs, _, _, _, _, _, k6⟩ :=
      L.uses (fun _ => cloneLaw_heap rfl rfl) (s₀ := St.init s Heap.empty) (t₀ := St.init s b) rfl rfl HeapOwn.empty h
    exact ⟨xs, k6⟩
  refine Heap.Exact.unique (C51_heap_text box O cc hl s b h) (C51_heap_text box O cc hl s b hh)
    (tidy h).choose_spec.tidy (tidy hh).choose_spec.tidy (fun k c c' h1 h2 => ?_) k
  obtain ⟨s', h3⟩ := dropDat_sub box d' a k c' h2
  have hr : a.read k = t.alloc.read k := by
    cases box with
    | false =>
      cases n with
      | zero => cases hc
      | succ n =>
        obtain ⟨a', e, _, h4, _⟩ := C63_counted t.alloc d n
        cases e.symm.trans hc
        exact h4 k
    | true =>
      obtain ⟨os', t', xs, _, _, _, _, k5, k6⟩ :=
        L.uses (fun _ => cloneLaw_heap rfl rfl) (s₀ := St.init s Heap.empty) (t₀ := St.init s b) rfl rfl HeapOwn.empty h
      obtain ⟨D, rs, ys, _, m2, m3⟩ := k5.pick hi
      have H := HeapOwn.perm k6 m3
      have g := (HeapOwn.cloneBoxed D n H (m2.reads fun p D' hm => H.at (List.mem_append_left _ hm)) hc).1
      have hlt := H.lt (k := k) (by rw [h1]; simp)
      simp only [Heap.read, g.same k hlt]
  simp only [Heap.read, h1, h3, Option.map_some, Option.some.injEq] at hr
  exact hr.symm

/-! ## Cases that meet the hypotheses -/

/-- A list of two empty nests, in `Box`es. -/
private def boxes : Dat Nat Nat × Heap Nat Nat :=
  let h : Heap Nat Nat := Heap.empty
  let (p, h) := h.alloc .emptyNest
  let (q, h) := h.alloc .emptyNest
  let (r, h) := h.alloc .emptyList
  let (l, h) := h.alloc (.list q r)
  (.list p l, h)

private theorem boxes_tidy : boxes.2.Tidy := by
  intro k hk
  have hk : 4 ≤ k := hk
  have h0 : k ≠ 0 := by omega
  have h1 : k ≠ 1 := by omega
  have h2 : k ≠ 2 := by omega
  have h3 : k ≠ 3 := by omega
  simp [boxes, Heap.alloc, Heap.put, Heap.empty, h0, h1, h2, h3]

private theorem boxes_reads : Reads boxes.2.read boxes.1 (.list .emptyNest (.list .emptyNest .emptyList)) :=
  .list (d := .emptyNest) rfl .emptyNest (e := .list 1 2) rfl (.list (d := .emptyNest) rfl .emptyNest (e := .emptyList) rfl
    .emptyList)

/-- Three calls have to be nested for a list of two elements; four allocations are made. -/
example : ∃ d' h', (heapMem Nat Nat true).clone 3 boxes.1 boxes.2 = some (d', h') ∧ h'.size = 8 := by
  obtain ⟨d', h', h1, _, _, _, _, h2⟩ := (C63_box boxes_tidy boxes_reads 3).1 (by decide)
  exact ⟨d', h', h1, h2⟩

example : (heapMem Nat Nat true).clone 2 boxes.1 boxes.2 = none := (C63_box boxes_tidy boxes_reads 2).2 (by decide)

/-- Comparing it with itself needs two. -/
example : ((.list .emptyNest (.list .emptyNest .emptyList) : Datum Nat Nat).eqRun (· == ·) (· == ·)
    (.list .emptyNest (.list .emptyNest .emptyList))) = (true, 2) := by decide

/-- A history with a datum that can be cloned. -/
example : ∃ os held t, (inmemEnv true (unbound _ Empty _ _ Empty)).Uses true
      (St.init (inmemSource "{a {b c}}".toList) Heap.empty) os held t ∧
      (held.length, held.all fun x => ((heapMem _ _ true).clone 5 x.2 t.alloc).isSome) = (1, true) :=
  uses_of_view 60 [.call] _ _
    (fun _ held t => (held.length, held.all fun x => ((heapMem _ _ true).clone 5 x.2 t.alloc).isSome)) (by decide +kernel)

end Mem

end Kul
