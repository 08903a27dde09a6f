import Verif.Props.DropUse
import Verif.Props.Size

/-!
# The memory that what was parsed takes

C70, for datums in memory: how many allocations are live, whatever the user does.
-/

namespace Kul.Mem

variable {σ C CS P τ ε β CE : Type}

/-- What is held is what was returned, if there is no cloning, or if a clone is the same reference. -/
theorem Env.Uses.returned {α : Type} {E : Env σ P τ ε α CE} {cl : Bool} {s₀ : St σ α}
    (hc : cl = true → ∀ n d a d' a', E.alloc.clone n d a = some (d', a') → d' = d) {os held s}
    (h : E.Uses cl s₀ os held s) : ∀ x ∈ held, os[x.1]? = some (.ok (some x.2)) := by
  have more : ∀ {os : List (Outcome (Err P CE) (Option (Dat τ ε)))} {x : Nat × Dat τ ε} {o},
      os[x.1]? = some (.ok (some x.2)) → (os ++ [o])[x.1]? = some (.ok (some x.2)) := by
    intro os x o h
    have : x.1 < os.length := by
      by_contra hn
      rw [List.getElem?_eq_none (by omega)] at h
      cases h
    rw [List.getElem?_append_left this, h]
  induction h with
  | start => intro x hx; cases hx
  | datum _ _ ih =>
    intro x hx
    rcases List.mem_append.mp hx with hx | hx
    · exact more (ih x hx)
    · cases List.mem_singleton.mp hx
      simp
  | none _ _ ih | error _ _ ih => exact fun x hx => more (ih x hx)
  | drop _ ih =>
    intro x hx
    exact ih x (by
      rcases List.mem_append.mp hx with hx | hx
      · exact List.mem_append_left _ hx
      · exact List.mem_append_right _ (List.mem_cons_of_mem _ hx))
  | clone h1 _ h2 h3 ih =>
    intro x hx
    rcases List.mem_append.mp hx with hx | hx
    · exact ih x hx
    · cases List.mem_singleton.mp hx
      cases hc h1 _ _ _ _ _ h3
      exact ih _ h2

/-- The allocations of a datum. -/
theorem Reads.addrs {h : Heap τ ε} {d : Dat τ ε} {D : Datum τ ε}
    (hr : Reads (fun p => (h.cells p).map (·.dat)) d D) :
    ∃ ps : List Addr, ps.length + 1 = D.nodes ∧ ∀ p, h.Reach [d] p → p ∈ ps := by
  have leaf : ∀ {d : Dat τ ε}, d.refs = [] → ∀ p, ¬ h.Reach [d] p := by
    intro d hd p hp
    induction hp with
    | root h1 h2 => cases List.mem_singleton.mp h1; rw [hd] at h2; cases h2
    | ref _ _ _ ih => exact ih
  have two : ∀ {x : Dat τ ε} {p q d e} {A B : Datum τ ε}, x.refs = [p, q] → (h.cells p).map (·.dat) = some d →
      (h.cells q).map (·.dat) = some e →
      (∃ ps : List Addr, ps.length + 1 = A.nodes ∧ ∀ p, h.Reach [d] p → p ∈ ps) →
      (∃ ps : List Addr, ps.length + 1 = B.nodes ∧ ∀ p, h.Reach [e] p → p ∈ ps) →
      ∃ ps : List Addr, ps.length + 1 = A.nodes + B.nodes + 1 ∧ ∀ p, h.Reach [x] p → p ∈ ps := by
    rintro x p q d e A B hx hp hq ⟨ps, e1, r1⟩ ⟨qs, e2, r2⟩
    refine ⟨p :: q :: (ps ++ qs), by simp only [List.length_cons, List.length_append]; omega, ?_⟩
    have key : ∀ k, h.Reach [x] k → (k = p ∨ k = q) ∨ h.Reach [d] k ∨ h.Reach [e] k := by
      intro k hk
      induction hk with
      | root h1 h2 =>
        cases List.mem_singleton.mp h1
        rw [hx] at h2
        left
        simpa using h2
      | ref _ h1 h2 ih =>
        rcases ih with (rfl | rfl) | ih | ih
        · rw [h1] at hp
          cases hp
          exact .inr (.inl (.root (List.mem_singleton.mpr rfl) h2))
        · rw [h1] at hq
          cases hq
          exact .inr (.inr (.root (List.mem_singleton.mpr rfl) h2))
        · exact .inr (.inl (.ref ih h1 h2))
        · exact .inr (.inr (.ref ih h1 h2))
    intro k hk
    rcases key k hk with (rfl | rfl) | hk | hk
    · simp
    · simp
    · simp [r1 k hk]
    · simp [r2 k hk]
  induction hr with
  | text | emptyNest | emptyList | extra => exact ⟨[], rfl, fun p hp => absurd hp (leaf rfl p)⟩
  | combination h1 _ h3 _ ih1 ih2 | list h1 _ h3 _ ih1 ih2 => exact two rfl h1 h3 ih1 ih2

theorem Heap.Reach.one {h : Heap τ ε} {ds : List (Dat τ ε)} {p} (hr : h.Reach ds p) : ∃ d ∈ ds, h.Reach [d] p := by
  induction hr with
  | root h1 h2 => exact ⟨_, h1, .root (List.mem_singleton.mpr rfl) h2⟩
  | ref _ h1 h2 ih =>
    obtain ⟨d, hd, ih⟩ := ih
    exact ⟨d, hd, .ref ih h1 h2⟩

/-- All allocations of results that are still held. -/
theorem addrs_all {α' : Type} {P' : α' → Addr → Prop} {os' : List (Outcome (Err P CE) (Option (Datum τ ε)))} (f : Nat → Option α')
    (hf : ∀ i x, f i = some x → ∃ D, os'[i]? = some (.ok (some D)) ∧
      ∃ ps : List Addr, ps.length + 1 = D.nodes ∧ ∀ p, P' x p → p ∈ ps) :
    ∃ ps : List Addr, ps.length ≤ nodesOf os' - 2 ∧ ∀ i x, f i = some x → ∀ p, P' x p → p ∈ ps := by
  induction os' generalizing f with
  | nil =>
    refine ⟨[], by simp, fun i x hx => ?_⟩
    obtain ⟨D, h, _⟩ := hf i x hx
    simp at h
  | cons o os ih =>
    obtain ⟨ps, h1, h2⟩ := ih (fun i => f (i + 1)) fun i x hx => by
      obtain ⟨D, h, h'⟩ := hf (i + 1) x hx
      exact ⟨D, by simpa using h, h'⟩
    rw [nodesOf_cons]
    cases h0 : f 0 with
    | none =>
      refine ⟨ps, by omega, fun i x hx p hp => ?_⟩
      cases i with
      | zero => rw [h0] at hx; cases hx
      | succ i => exact h2 i x hx p hp
    | some y =>
      obtain ⟨D, h, qs, h3, h4⟩ := hf 0 y h0
      simp only [List.getElem?_cons_zero, Option.some.injEq] at h
      subst h
      refine ⟨qs ++ ps, by simp only [List.length_append, nodesOf]; omega, fun i x hx p hp => ?_⟩
      cases i with
      | zero =>
        cases h0.symm.trans hx
        exact List.mem_append_left _ (h4 p hp)
      | succ i => exact List.mem_append_right _ (h2 i x hx p hp)

theorem Laws.live {u : Bool} {E : Env σ P τ ε (Heap τ ε) CE} {V : Kul.Env σ P τ ε β CE}
    (L : Laws E V (heapOwn u)) (hm : ∀ h : Heap τ ε, E.alloc.read h = fun p => (h.cells p).map (·.dat)) {cl : Bool}
    (hcl : cl = true → CloneLaw (β := β) E (heapOwn u))
    (hc : cl = true → ∀ n d a d' a', E.alloc.clone n d a = some (d', a') → d' = d) (s : σ) (b : β) {os held t}
    (h : E.Uses cl (St.init s Heap.empty) os held t) :
    ∃ os' t', V.Calls (St.init s b) os' t' ∧ ∀ ps : List Addr, ps.Nodup → (∀ p ∈ ps, t.alloc.cells p ≠ none) →
      ps.length ≤ nodesOf os' - 2 := by
  obtain ⟨os', t', xs, k1, _, _, _, k5, k6⟩ :=
    L.uses hcl (s₀ := St.init s Heap.empty) (t₀ := St.init s b) rfl rfl HeapOwn.empty h
  refine ⟨os', t', k1, ?_⟩
  have hx := (L.heap hcl s b h).1
  have hret := h.returned hc
  have hread : ∀ x ∈ held, ∃ D, os'[x.1]? = some (.ok (some D)) ∧ Reads (fun p => (t.alloc.cells p).map (·.dat)) x.2 D := by
    intro x hx
    obtain ⟨D, rs, ys, m1, m2, m3⟩ := k5.pick hx
    have := L.readsDat (b := t'.alloc) m2 (HeapOwn.perm k6 m3)
    rw [hm] at this
    exact ⟨D, m1, this⟩
  classical
  obtain ⟨all, h1, h2⟩ := addrs_all (P' := fun (d : Dat τ ε) p => t.alloc.Reach [d] p) (os' := os')
    (fun i => if (∃ d, (i, d) ∈ held) then (os[i]?).bind fun | .ok (some d) => some d | _ => none else none)
    (fun i x hx => by
      split at hx
      · rename_i hi
        obtain ⟨d, hd⟩ := hi
        rw [hret _ hd] at hx
        cases hx
        obtain ⟨D, e, hr⟩ := hread _ hd
        exact ⟨D, e, hr.addrs⟩
      · cases hx)
  intro ps hn hp
  refine le_trans (List.Subperm.length_le (List.subperm_of_subset hn fun p hpm => ?_)) h1
  obtain ⟨d, hd, hr⟩ := ((hx.1 p).mp (hp p hpm)).one
  obtain ⟨⟨i, d⟩, hm, rfl⟩ := List.mem_map.mp hd
  refine h2 i d ?_ p hr
  rw [if_pos ⟨d, hm⟩, hret _ hm]
  rfl

theorem nodesOf_mem {os : List (Outcome (Err P CE) (Option (Datum τ ε)))} {i : Nat} {D : Datum τ ε}
    (h : os[i]? = some (.ok (some D))) :
    D.nodes + 1 ≤ nodesOf os := by
  induction os generalizing i with
  | nil => simp at h
  | cons o os ih =>
    rw [nodesOf_cons]
    cases i with
    | zero =>
      simp only [List.getElem?_cons_zero, Option.some.injEq] at h
      subst h
      simp [nodesOf]
    | succ i =>
      have := ih (i := i) (by simpa using h)
      omega

theorem heap_read (box : Bool) (h : Heap τ ε) : (heapMem τ ε box).read h = fun p => (h.cells p).map (·.dat) := rfl

/-- A clone of counted references is the same references. -/
theorem heap_clone_same {box : Bool} (hb : box = false) {n d a d' a'} (h : (heapMem τ ε box).clone n d a = some (d', a')) :
    d' = d := by
  subst hb
  cases n with
  | zero => cases h
  | succ n => cases h; rfl

/-- C70, in memory. Whatever the user did: the allocations that are live are at most one and a half times as many as the
source has characters. This holds for `Rc`s and `Arc`s, and for `Box`es if the user does not clone; with any text type
made of chunks, any source in memory, classifier and bindings whose combiners respect ownership and give no more than
they are given. -/
theorem C70_memory (box cloning : Bool) (hb : box = false ∨ cloning = false) {O : ChunkOps C CS P} {cc : Classifier}
    {lookup : Dat (TextVec C) ε → Heap (TextVec C) ε → Option (Combiner (TextVec C) ε (Heap (TextVec C) ε) P CE)}
    {lookup' : Datum (TextVec C) ε → Option (Kul.Combiner (TextVec C) ε β P CE)}
    (hl : ∀ {h : Heap (TextVec C) ε} {b : β} {d D rs xs}, Parts d D rs → heapOwn box h b (rs ++ xs) →
      OptRel (CombRel (heapOwn box)) (lookup d h) (lookup' D)) (M : Modest lookup') {s : TextIter C CS P (TextVec C)}
    {r : List (Item P)} {X : TextSem P (TextVec C) β}
    (pr : Provided (Kul.textEnv O (textVec _ O) cc (boxAlloc _ _ _) lookup') s r X) (b : β) {os held t}
    (h : (textEnv O (textVec _ O) cc (heapMem _ _ box) lookup).Uses cloning (St.init s Heap.empty) os held t)
    {ps : List Addr} (hn : ps.Nodup) (hp : ∀ p ∈ ps, t.alloc.cells p ≠ none) : 2 * ps.length ≤ 3 * r.length := by
  have L := heapLaws (box := box) (u := box) (E := textEnv O (textVec _ O) cc (heapMem _ _ box) lookup)
    (V := Kul.textEnv O (textVec _ O) cc (boxAlloc _ _ _) lookup') id rfl rfl (rest_text (fun _ => textVec_lock O _) hl)
  obtain ⟨os', t', h1, h2⟩ := L.live (heap_read box) (fun _ => cloneLaw_heap rfl rfl) (fun hc n d a d' a' e => by
    rcases hb with hb | hb
    · exact heap_clone_same hb e
    · rw [hb] at hc; cases hc) s b h
  have := h2 ps hn hp
  have := C70_linear_total_provided pr M h1
  omega

/-- C70, in memory, for the in-memory parser without bindings, on any string. -/
theorem C70_memory_inmem (box cloning : Bool) (hb : box = false ∨ cloning = false) (string : Str) {os held t}
    (h : (inmemEnv box (unbound _ ε _ _ CE)).Uses cloning (St.init (inmemSource string) Heap.empty) os held t)
    {ps : List Addr} (hn : ps.Nodup) (hp : ∀ p ∈ ps, t.alloc.cells p ≠ none) : 2 * ps.length ≤ 3 * string.length := by
  have := C70_memory (β := Unit) (lookup' := noBindings _ ε Unit _ CE) (lookup := unbound _ ε _ _ CE) box cloning hb
    (fun _ _ => trivial) (.none fun _ => rfl) (inmem_provided (noBindings _ ε Unit _ CE) string) () h hn hp
  rwa [strItems_length] at this

/-- C70, the same for iterators of strings. -/
theorem C70_memory_stream (box cloning : Bool) (hb : box = false ∨ cloning = false) (strings : List Str) {os held t}
    (h : (streamEnv box (unbound _ ε _ _ CE)).Uses cloning (St.init (.new strings) Heap.empty) os held t)
    {ps : List Addr} (hn : ps.Nodup) (hp : ∀ p ∈ ps, t.alloc.cells p ≠ none) :
    2 * ps.length ≤ 3 * strings.flatten.length := by
  have L : Laws (streamEnv box (unbound _ ε _ _ CE)) (Kul.streamEnv (noBindings _ ε Unit _ CE)) (heapOwn box) :=
    heapLaws (box := box) id rfl rfl (rest_strish (fun _ => textVec_lock _ _) fun _ _ => trivial)
  obtain ⟨os', t', h1, h2⟩ := L.live (heap_read box) (fun _ => cloneLaw_heap rfl rfl) (fun hc n d a d' a' e => by
    rcases hb with hb | hb
    · exact heap_clone_same hb e
    · rw [hb] at hc; cases hc) (.new strings) () h
  have := h2 ps hn hp
  have h3 := C70_linear_total_provided (stream_provided (noBindings _ ε Unit _ CE) strings) (.none fun _ => rfl) h1
  rw [charItems, itemsFrom_length] at h3
  omega

/-- C70 with C69. When the user drops a datum that they got from the in-memory parser, the loop of the drop algorithm is
iterated fewer than one and a half times as often as the source has characters, and calls are nested at most two deep. -/
theorem C70_drop_inmem [DecidableEq ε] (box cloning : Bool) (hb : box = true ∨ cloning = false) (string : Str)
    {os held i d held' t} (h : (inmemEnv box (unbound _ ε _ _ CE)).Uses cloning
      (St.init (inmemSource string) Heap.empty) os (held ++ (i, d) :: held') t) :
    ∃ N evs steps depth, (∀ n, N ≤ n → dropAll n d.refs t.alloc.asRcHeap =
        .done ((heapMem _ _ box).dropDat d t.alloc).asRcHeap evs steps depth) ∧
      depth ≤ 2 ∧ 2 * steps < 3 * string.length := by
  have L : Laws (inmemEnv box (unbound _ ε _ _ CE)) (Kul.inmemEnv (noBindings _ ε Unit _ CE)) (heapOwn box) :=
    heapLaws (box := box) id rfl rfl (rest_text (fun _ => textVec_lock _ _) fun _ _ => trivial)
  obtain ⟨os', t', xs, k1, _, _, _, k5, k6⟩ := L.uses (fun _ => cloneLaw_heap rfl rfl)
    (s₀ := St.init (inmemSource string) Heap.empty) (t₀ := St.init (inmemSource string) ()) rfl rfl HeapOwn.empty h
  obtain ⟨D, rs, ys, m1, m2, m3⟩ := k5.pick (i := i) (d := d) (by simp)
  obtain ⟨N, evs, st, dp, h1, h2, h3⟩ := C69_inmem box cloning hb string h
    (L.readsDat (b := t'.alloc) m2 (HeapOwn.perm k6 m3))
  have h4 := C70_linear_total_provided (inmem_provided (noBindings _ ε Unit _ CE) string) (.none fun _ => rfl) k1
  rw [strItems_length] at h4
  have := nodesOf_mem m1
  exact ⟨N, evs, st, dp, h1, h2, by omega⟩

/-! ## Cases that meet the hypotheses -/

/-- Two datums, one of them cloned and one dropped: four live allocations, for 12 characters. -/
example : ∃ os held t, (inmemEnv false (unbound _ Empty _ _ Empty)).Uses true
      (St.init (inmemSource "{a b}{c {}}}".toList) Heap.empty) os held t ∧
      (held.map (·.1), (List.range 8).filter fun p => (Heap.cells t.alloc p).isSome) = ([1, 1], [4, 5, 6, 7]) :=
  uses_of_view 60 [.call, .call, .clone 1, .drop 0, .call] _ _
    (fun _ held t => (held.map (·.1), (List.range 8).filter fun p => (Heap.cells t.alloc p).isSome)) (by decide +kernel)

end Kul.Mem
