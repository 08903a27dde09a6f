import Verif.Proof.MemUse
import Verif.Props.Streams

/-!
# C50, C51: datums in memory

Here datums are in memory and refer to each other by addresses (`Model/MemParser.lean`), as `DatumBox`,
`DatumRc`, `DatumArc` and `DatumMutRef` do; `parse_all` builds its lists in place. In other files datums are by
value. These properties say that this makes no difference to a user, and what becomes of the memory.
-/

namespace Kul.Mem

variable {σ C CS P τ ε β CE : Type}

/-! ## The rest of the parsers is the same -/

theorem rest_text {α : Type} {O : ChunkOps C CS P} {T : TextType C τ α} {T' : TextType C τ β} {cc : Classifier}
    {al : AllocOps τ ε α} {al' : Kul.AllocOps τ ε β} {lookup : Dat τ ε → α → Option (Combiner τ ε α P CE)}
    {lookup' : Datum τ ε → Option (Kul.Combiner τ ε β P CE)} {Own : α → β → List (Res τ ε) → Prop}
    (hT : ∀ xs, T.Lock (fun a b => Own a b xs) T')
    (hl : ∀ {a b d D rs xs}, Parts d D rs → Own a b (rs ++ xs) →
      OptRel (CombRel Own) (lookup d a) (lookup' D)) :
    SameRest (textEnv O T cc al lookup) (Kul.textEnv O T' cc al' lookup') Own where
  cc := rfl
  empty := (hT []).empty
  strm xs := textIterOps_lock O (hT xs)
  concat H := (hT _).concat H
  lookup := hl

theorem rest_strish {α : Type} {T : TextType PosStrish τ α} {T' : TextType PosStrish τ β} {cc : Classifier}
    {al : AllocOps τ ε α} {al' : Kul.AllocOps τ ε β} {lookup : Dat τ ε → α → Option (Combiner τ ε α CharPos CE)}
    {lookup' : Datum τ ε → Option (Kul.Combiner τ ε β CharPos CE)} {Own : α → β → List (Res τ ε) → Prop}
    (hT : ∀ xs, T.Lock (fun a b => Own a b xs) T')
    (hl : ∀ {a b d D rs xs}, Parts d D rs → Own a b (rs ++ xs) →
      OptRel (CombRel Own) (lookup d a) (lookup' D)) :
    SameRest (strishEnv T cc al lookup) (Kul.strishEnv T' cc al' lookup') Own where
  cc := rfl
  empty := (hT []).empty
  strm xs := strishIterOps_lock (hT xs)
  concat H := (hT _).concat H
  lookup := hl

theorem sliceOwn.start (mem : List (Dat τ ε)) (mem' : List (Datum τ ε)) (h : mem.length = mem'.length) :
    sliceOwn (SliceAlloc.new mem) (SliceAlloc.new mem') [] := by
  refine ⟨?_, h, _, HeapOwn.empty, fun i _ => Nat.zero_le _, fun k c hk => by cases hk⟩
  simp only [SliceAlloc.new, List.isEmpty_iff_length_eq_zero, h]

theorem datumList_slice_lock (O : ChunkOps C CS P) (xs : List (Res (TextDatumList C ε) ε)) :
    (textDatumList O (sliceText (TextDatumList C ε) ε)).Lock (fun a b => sliceOwn a b xs)
      (textDatumList O (sliceAlloc (TextDatumList C ε) ε)) := by
  refine textDatumList_lock O fun {a b} H t => ?_
  obtain ⟨o, a', b', h1, h2, h3⟩ := sliceOwn.skip H t (.text t)
  cases o <;> simp only [sliceText, sliceAlloc, h1, h2] <;> exact ⟨_, _, _, rfl, rfl, h3⟩

/-! ## C50 -/

/-- C50, in memory made of `Box`es, `Rc`s or `Arc`s, for sources in memory, with any bindings whose combiners respect
ownership. `b` is anything; the allocator by value has no state. -/
theorem C50_heap_text (box : Bool) (O : ChunkOps C CS P) (cc : Classifier)
    {lookup : Dat (TextVec C) ε → Heap (TextVec C) ε → Option (Combiner (TextVec C) ε (Heap (TextVec C) ε) P CE)}
    {lookup' : Datum (TextVec C) ε → Option (Kul.Combiner (TextVec C) ε β P CE)}
    (hl : ∀ {h : Heap (TextVec C) ε} {b : β} {d D rs xs}, Parts d D rs → heapOwn box h b (rs ++ xs) →
      OptRel (CombRel (heapOwn box)) (lookup d h) (lookup' D)) (s : TextIter C CS P (TextVec C)) (b : β) :
    ReadBack (textEnv O (textVec _ O) cc (heapMem _ _ box) lookup)
      (Kul.textEnv O (textVec _ O) cc (boxAlloc _ _ _) lookup') (St.init s Heap.empty) (St.init s b) :=
  (heapLaws (box := box) id rfl rfl (rest_text (fun _ => textVec_lock O _) hl)).readBack (cloneLaw_heap rfl rfl) rfl rfl HeapOwn.empty

/-- C50, the same for sources that are iterators of strings. -/
theorem C50_heap_stream (box : Bool) (cc : Classifier)
    {lookup : Dat (TextVec PosStrish) ε → Heap (TextVec PosStrish) ε →
      Option (Combiner (TextVec PosStrish) ε (Heap (TextVec PosStrish) ε) CharPos CE)}
    {lookup' : Datum (TextVec PosStrish) ε → Option (Kul.Combiner (TextVec PosStrish) ε β CharPos CE)}
    (hl : ∀ {h : Heap (TextVec PosStrish) ε} {b : β} {d D rs xs}, Parts d D rs → heapOwn box h b (rs ++ xs) →
      OptRel (CombRel (heapOwn box)) (lookup d h) (lookup' D)) (s : StrishIter (TextVec PosStrish)) (b : β) :
    ReadBack (strishEnv (textVec _ posStrishOps) cc (heapMem _ _ box) lookup)
      (Kul.strishEnv (textVec _ posStrishOps) cc (boxAlloc _ _ _) lookup') (St.init s Heap.empty) (St.init s b) :=
  (heapLaws (box := box) id rfl rfl (rest_strish (fun _ => textVec_lock _ _) hl)).readBack (cloneLaw_heap rfl rfl) rfl rfl HeapOwn.empty

/-- C50, in a slice `mem` of any length, whose slots are also used for the texts; with any bindings whose combiners
respect ownership. By value, a slice `mem'` of the same length is used. -/
theorem C50_slice (O : ChunkOps C CS P) (cc : Classifier)
    {lookup : Dat (TextDatumList C ε) ε → SliceAlloc (Dat (TextDatumList C ε) ε) →
      Option (Combiner (TextDatumList C ε) ε (SliceAlloc (Dat (TextDatumList C ε) ε)) P CE)}
    {lookup' : Datum (TextDatumList C ε) ε →
      Option (Kul.Combiner (TextDatumList C ε) ε (SliceAlloc (Datum (TextDatumList C ε) ε)) P CE)}
    (hl : ∀ {a b d D rs xs}, Parts d D rs → sliceOwn a b (rs ++ xs) →
      OptRel (CombRel sliceOwn) (lookup d a) (lookup' D)) (s : TextIter C CS P (TextDatumList C ε))
    (mem : List (Dat (TextDatumList C ε) ε)) (mem' : List (Datum (TextDatumList C ε) ε))
    (hm : mem.length = mem'.length) :
    ReadBack (textEnv O (textDatumList O (sliceText _ _)) cc (sliceMem _ _) lookup)
      (Kul.textEnv O (textDatumList O (sliceAlloc _ _)) cc (sliceAlloc _ _) lookup')
      (St.init s (SliceAlloc.new mem)) (St.init s (SliceAlloc.new mem')) :=
  (sliceLaws rfl rfl (rest_text (datumList_slice_lock O) hl)).readBack (cloneLaw_slice rfl) rfl rfl (sliceOwn.start mem mem' hm)

/-- C50, for the parser of `kul::common::inmem`, whether datums are in `Box`es, `Rc`s or `Arc`s, for any string: what is
read back from memory, at any time, is what the parser by value returns. And the parser never fails to return. -/
theorem C50_inmem (box : Bool) (string : Str) :
    ReadBack (inmemEnv box (unbound _ ε _ _ CE)) (Kul.inmemEnv (noBindings _ ε Unit _ CE))
      (St.init (inmemSource string) Heap.empty) (St.init (inmemSource string) ()) ∧
    GoesOn (inmemEnv box (unbound _ ε _ _ CE)) (St.init (inmemSource string) Heap.empty) := by
  have L : Laws (inmemEnv box (unbound _ ε _ _ CE)) (Kul.inmemEnv (noBindings _ ε Unit _ CE)) (heapOwn box) :=
    heapLaws (box := box) id rfl rfl (rest_text (fun _ => textVec_lock _ _) fun _ _ => trivial)
  exact ⟨L.readBack (cloneLaw_heap rfl rfl) rfl rfl HeapOwn.empty,
    L.goesOn (cloneLaw_heap rfl rfl) (inmem_conf _) (AtItems.fresh (strSource_means _ string)) (b := ()) HeapOwn.empty⟩

/-- C50, for the parser of `kul::common::stream`, likewise, for any strings from an iterator. -/
theorem C50_stream (box : Bool) (strings : List Str) :
    ReadBack (streamEnv box (unbound _ ε _ _ CE)) (Kul.streamEnv (noBindings _ ε Unit _ CE))
      (St.init (.new strings) Heap.empty) (St.init (.new strings) ()) ∧
    GoesOn (streamEnv box (unbound _ ε _ _ CE)) (St.init (.new strings) Heap.empty) := by
  have L : Laws (streamEnv box (unbound _ ε _ _ CE)) (Kul.streamEnv (noBindings _ ε Unit _ CE)) (heapOwn box) :=
    heapLaws (box := box) id rfl rfl (rest_strish (fun _ => textVec_lock _ _) fun _ _ => trivial)
  exact ⟨L.readBack (cloneLaw_heap rfl rfl) rfl rfl HeapOwn.empty,
    L.goesOn (cloneLaw_heap rfl rfl) (stream_conf _) (AtItems.fresh (StrishIter.new_means _ strings)) (b := ()) HeapOwn.empty⟩

/-- C50, for the parser of `kul_core::premade::inmem`, for any string and any slice of memory, also if it is too
small. -/
theorem C50_core (string : Str) (mem : List (Dat (CoreText ε) ε)) (mem' : List (Datum (CoreText ε) ε))
    (hm : mem.length = mem'.length) :
    ReadBack (coreEnv (unbound _ ε _ _ CE)) (Kul.coreEnv (noBindings _ ε _ _ CE))
      (St.init (coreSource string) (SliceAlloc.new mem)) (St.init (coreSource string) (SliceAlloc.new mem')) ∧
    GoesOn (coreEnv (unbound _ ε _ _ CE)) (St.init (coreSource string) (SliceAlloc.new mem)) := by
  have L : Laws (coreEnv (unbound _ ε _ _ CE)) (Kul.coreEnv (noBindings _ ε _ _ CE)) sliceOwn :=
    sliceLaws rfl rfl (rest_text (datumList_slice_lock _) fun _ _ => trivial)
  exact ⟨L.readBack (cloneLaw_slice rfl) rfl rfl (sliceOwn.start mem mem' hm),
    L.goesOn (cloneLaw_slice rfl) (core_conf _) (AtItems.fresh (strSource_means _ string)) (sliceOwn.start mem mem' hm)⟩

/-! ## C51 -/

/-- What holds of the memory after a history. -/
theorem Laws.heap {u : Bool} {E : Env σ P τ ε (Heap τ ε) CE} {V : Kul.Env σ P τ ε β CE}
    (L : Laws E V (heapOwn u)) {cl : Bool} (hcl : cl = true → CloneLaw (β := β) E (heapOwn u)) (s : σ) (b : β) {os held t}
    (h : E.Uses cl (St.init s Heap.empty) os held t) :
    t.alloc.Exact (held.map (·.2)) ∧ (u = true → ∀ p c, t.alloc.cells p = some c → c.strong = 1) := by
  obtain ⟨os', t', xs, _, _, _, _, k5, k6⟩ :=
    L.uses hcl (s₀ := St.init s Heap.empty) (t₀ := St.init s b) rfl rfl HeapOwn.empty h
  obtain ⟨h1, h2⟩ := k5.addrs
  exact ⟨HeapOwn.exact k6 h1 h2, HeapOwn.box k6⟩

/-- C51, in memory made of `Box`es, `Rc`s or `Arc`s, for sources in memory, with any bindings whose combiners respect
ownership: after any history, what is live is exactly what can be reached from the datums that the user holds, and
all counts are exact. So calls that failed, removed forms, and dropped datums have left nothing behind. -/
theorem C51_heap_text (box : Bool) (O : ChunkOps C CS P) (cc : Classifier)
    {lookup : Dat (TextVec C) ε → Heap (TextVec C) ε → Option (Combiner (TextVec C) ε (Heap (TextVec C) ε) P CE)}
    {lookup' : Datum (TextVec C) ε → Option (Kul.Combiner (TextVec C) ε β P CE)}
    (hl : ∀ {h : Heap (TextVec C) ε} {b : β} {d D rs xs}, Parts d D rs → heapOwn box h b (rs ++ xs) →
      OptRel (CombRel (heapOwn box)) (lookup d h) (lookup' D)) (s : TextIter C CS P (TextVec C)) (b : β)
    {os held t} (h : (textEnv O (textVec _ O) cc (heapMem _ _ box) lookup).Uses true (St.init s Heap.empty) os held t) :
    t.alloc.Exact (held.map (·.2)) :=
  (Laws.heap (heapLaws (box := box) id rfl rfl (rest_text (fun _ => textVec_lock O _) hl)) (fun _ => cloneLaw_heap rfl rfl) s b h).1

/-- C51, the same for sources that are iterators of strings. -/
theorem C51_heap_stream (box : Bool) (cc : Classifier)
    {lookup : Dat (TextVec PosStrish) ε → Heap (TextVec PosStrish) ε →
      Option (Combiner (TextVec PosStrish) ε (Heap (TextVec PosStrish) ε) CharPos CE)}
    {lookup' : Datum (TextVec PosStrish) ε → Option (Kul.Combiner (TextVec PosStrish) ε β CharPos CE)}
    (hl : ∀ {h : Heap (TextVec PosStrish) ε} {b : β} {d D rs xs}, Parts d D rs → heapOwn box h b (rs ++ xs) →
      OptRel (CombRel (heapOwn box)) (lookup d h) (lookup' D)) (s : StrishIter (TextVec PosStrish)) (b : β)
    {os held t} (h : (strishEnv (textVec _ posStrishOps) cc (heapMem _ _ box) lookup).Uses true
      (St.init s Heap.empty) os held t) :
    t.alloc.Exact (held.map (·.2)) :=
  (Laws.heap (heapLaws (box := box) id rfl rfl (rest_strish (fun _ => textVec_lock _ _) hl)) (fun _ => cloneLaw_heap rfl rfl) s b h).1

/-- What `Exact` means when nothing is held any more. -/
theorem C51_all_dropped {h : Heap τ ε} (H : h.Exact []) (p : Addr) : h.cells p = none := by
  by_contra hn
  have hr := (H.1 p).mp hn
  clear hn
  induction hr with
  | root h => cases h
  | ref _ _ _ ih => exact ih

/-- C51, without bindings: also each live datum has exactly one reference to it, if it is in a `Box`, or if nothing is
cloned. -/
theorem C51_inmem (box cloning : Bool) (string : Str) {os held t}
    (h : (inmemEnv box (unbound _ ε _ _ CE)).Uses cloning (St.init (inmemSource string) Heap.empty) os held t) :
    t.alloc.Exact (held.map (·.2)) ∧
    (box = true ∨ cloning = false → ∀ p c, t.alloc.cells p = some c → c.strong = 1) := by
  have L : ∀ u : Bool, (box = true → u = true) →
      Laws (inmemEnv box (unbound _ ε _ _ CE)) (Kul.inmemEnv (noBindings _ ε Unit _ CE)) (heapOwn u) := fun u hu =>
    heapLaws (box := box) hu rfl rfl (rest_text (fun _ => textVec_lock _ _) fun _ _ => trivial)
  refine ⟨((L box id).heap (fun _ => cloneLaw_heap rfl rfl) (inmemSource string) () h).1, fun hb => ?_⟩
  refine ((L true fun _ => rfl).heap (fun hc => ?_) (inmemSource string) () h).2 rfl
  rcases hb with hb | hb
  · exact cloneLaw_heap hb.symm rfl
  · rw [hb] at hc; cases hc

/-- C51, the same for sources that are iterators of strings. -/
theorem C51_stream (box cloning : Bool) (strings : List Str) {os held t}
    (h : (streamEnv box (unbound _ ε _ _ CE)).Uses cloning (St.init (.new strings) Heap.empty) os held t) :
    t.alloc.Exact (held.map (·.2)) ∧
    (box = true ∨ cloning = false → ∀ p c, t.alloc.cells p = some c → c.strong = 1) := by
  have L : ∀ u : Bool, (box = true → u = true) →
      Laws (streamEnv box (unbound _ ε _ _ CE)) (Kul.streamEnv (noBindings _ ε Unit _ CE)) (heapOwn u) := fun u hu =>
    heapLaws (box := box) hu rfl rfl (rest_strish (fun _ => textVec_lock _ _) fun _ _ => trivial)
  refine ⟨((L box id).heap (fun _ => cloneLaw_heap rfl rfl) (StrishIter.new strings) () h).1, fun hb => ?_⟩
  refine ((L true fun _ => rfl).heap (fun hc => ?_) (StrishIter.new strings) () h).2 rfl
  rcases hb with hb | hb
  · exact cloneLaw_heap hb.symm rfl
  · rw [hb] at hc; cases hc

/-- C51, and dropping by `src/drop.rs`: when the user drops a datum that they hold, then the algorithm there, which
restructures what is dropped so as not to recurse (`Model/RcHeap.lean`), ends, with the memory that is left by
dropping as `Heap.release` does it, which was taken for granted in the theorems above. (With `Box`es, where taking a
datum out always succeeds, all counts are one, so that it always succeeds in `Model/RcHeap.lean`, too.) -/
theorem C51_drop [DecidableEq C] [DecidableEq ε] (box : Bool) (O : ChunkOps C CS P) (cc : Classifier)
    {lookup : Dat (TextVec C) ε → Heap (TextVec C) ε → Option (Combiner (TextVec C) ε (Heap (TextVec C) ε) P CE)}
    {lookup' : Datum (TextVec C) ε → Option (Kul.Combiner (TextVec C) ε β P CE)}
    (hl : ∀ {h : Heap (TextVec C) ε} {b : β} {d D rs xs}, Parts d D rs → heapOwn box h b (rs ++ xs) →
      OptRel (CombRel (heapOwn box)) (lookup d h) (lookup' D)) (s : TextIter C CS P (TextVec C)) (b : β)
    {os held i d held' t} (h : (textEnv O (textVec _ O) cc (heapMem _ _ box) lookup).Uses true (St.init s Heap.empty) os
      (held ++ (i, d) :: held') t) :
    ∃ N evs steps depth, ∀ n, N ≤ n →
      dropAll n d.refs t.alloc.asRcHeap = .done ((heapMem _ _ box).dropDat d t.alloc).asRcHeap evs steps depth := by
  have L := heapLaws (box := box) (u := box) (E := textEnv O (textVec _ O) cc (heapMem _ _ box) lookup)
    (V := Kul.textEnv O (textVec _ O) cc (boxAlloc _ _ _) lookup') id rfl rfl (rest_text (fun _ => textVec_lock O _) hl)
  obtain ⟨os', t', xs, _, _, _, _, k5, k6⟩ :=
    L.uses (fun _ => cloneLaw_heap rfl rfl) (s₀ := St.init s Heap.empty) (t₀ := St.init s b) rfl rfl HeapOwn.empty h
  obtain ⟨D, rs, ys, m1, m2, m3⟩ := k5.remove
  exact HeapOwn.dropDat_eq m1 (HeapOwn.perm k6 m3) m2.addrs.2

/-! ## Cases that meet the hypotheses -/

/-- What the user does next: call `next`, or drop or clone the datum at a place in the list of what they hold. -/
inductive Do where
  | call
  | drop (k : Nat)
  | clone (k : Nat)

def use {σ P τ ε α CE : Type} (E : Env σ P τ ε α CE) (n : Nat) :
    List Do → List (Outcome (Err P CE) (Option (Dat τ ε))) × List (Nat × Dat τ ε) × St σ α →
      Option (List (Outcome (Err P CE) (Option (Dat τ ε))) × List (Nat × Dat τ ε) × St σ α)
  | [], x => some x
  | .call :: l, (os, held, s) =>
    match E.parseNext n .base s with
    | (.ok (some d), s') => use E n l (os ++ [.ok (some d)], held ++ [(os.length, d)], s')
    | (.ok none, s') => use E n l (os ++ [.ok none], held, s')
    | (.err e, s') => use E n l (os ++ [.err e], held, s')
    | _ => none
  | .drop k :: l, (os, held, s) =>
    match held.drop k with
    | (_, d) :: held' => use E n l (os, held.take k ++ held', { s with alloc := E.alloc.dropDat d s.alloc })
    | [] => none
  | .clone k :: l, (os, held, s) =>
    match held.drop k with
    | (i, d) :: _ =>
      match E.alloc.clone n d s.alloc with
      | some (d', a) => use E n l (os, held ++ [(i, d')], { s with alloc := a })
      | none => none
    | [] => none

theorem use_uses {σ P τ ε α CE : Type} {E : Env σ P τ ε α CE} {n : Nat} {s₀ : St σ α} (l : List Do) :
    ∀ {x y}, E.Uses true s₀ x.1 x.2.1 x.2.2 → use E n l x = some y → E.Uses true s₀ y.1 y.2.1 y.2.2 := by
  induction l with
  | nil => intro x y h e; cases e; exact h
  | cons d l ih =>
    rintro ⟨os, held, s⟩ y h e
    cases d with
    | call =>
      simp only [use] at e
      split at e
      · next hp => exact ih (.datum h ⟨n, hp, by simp⟩) e
      · next hp => exact ih (.none h ⟨n, hp, by simp⟩) e
      · next hp => exact ih (.error h ⟨n, hp, by simp⟩) e
      · cases e
    | drop k =>
      simp only [use] at e
      split at e
      · next i d held' hp =>
        refine ih (.drop (i := i) ?_) e
        rw [← hp, List.take_append_drop]
        exact h
      · cases e
    | clone k =>
      simp only [use] at e
      split at e
      · next i d held' hp =>
        split at e
        · next d' a hc =>
          refine ih (.clone rfl h ?_ hc) e
          exact List.mem_of_mem_drop (hp ▸ List.mem_cons_self)
        · cases e
      · cases e

/-- From a run to a history. -/
theorem uses_of_view {σ P τ ε α CE V : Type} {E : Env σ P τ ε α CE} (n : Nat) (l : List Do) (s₀ : St σ α) (v : V)
    (view : List (Outcome (Err P CE) (Option (Dat τ ε))) → List (Nat × Dat τ ε) → St σ α → V)
    (h : (use E n l ([], [], s₀)).map (fun x => view x.1 x.2.1 x.2.2) = some v) :
    ∃ os held s, E.Uses true s₀ os held s ∧ view os held s = v := by
  cases hu : use E n l ([], [], s₀) with
  | none => rw [hu] at h; cases h
  | some y =>
    rw [hu] at h
    cases h
    exact ⟨_, _, _, use_uses l .start hu, rfl⟩

private def str (s : String) : Str := s.toList

private def okCount {P τ ε CE : Type} (os : List (Outcome (Err P CE) (Option (Dat τ ε)))) : List Nat :=
  os.map fun | .ok (some _) => 0 | .ok none => 1 | .err _ => 2 | _ => 3

/-- Live allocations. -/
private def lives {τ ε : Type} (h : Heap τ ε) : List Nat := (List.range h.size).filter fun k => (h.cells k).isSome

/-- C50, C51: the first datum has four allocations; the second call fails after more allocations were made, of which none
is left. -/
example : ∃ os held t, (inmemEnv false (unbound _ Empty _ _ Empty)).Uses true
      (St.init (inmemSource (str "{a b}{c d {e f}")) Heap.empty) os held t ∧
      (okCount os, held.map (·.1), lives t.alloc, t.alloc.size) = ([0, 2], [0], [0, 1, 2, 3], 12) :=
  uses_of_view 60 [.call, .call] _ _ (fun os held t => (okCount os, held.map (·.1), lives t.alloc, t.alloc.size))
    (by decide +kernel)

/-- C50, C51: after dropping of the first of two datums, only the second is left. -/
example : ∃ os held t, (streamEnv true (unbound _ Empty _ _ Empty)).Uses true
      (St.init (.new [str "{a", str " b}{c", str "d}"]) Heap.empty) os held t ∧
      (okCount os, held.map (·.1), lives t.alloc, t.alloc.size) = ([0, 0, 1], [1], [4, 5], 6) :=
  uses_of_view 60 [.call, .call, .drop 0, .call] _ _
    (fun os held t => (okCount os, held.map (·.1), lives t.alloc, t.alloc.size)) (by decide +kernel)

/-- C50, C51: a datum in `Box`es is cloned, to as many allocations, and dropped. The clone is left. -/
example : ∃ os held t, (inmemEnv true (unbound _ Empty _ _ Empty)).Uses true
      (St.init (inmemSource (str "{a b}")) Heap.empty) os held t ∧
      (okCount os, held.map (·.1), lives t.alloc, t.alloc.size) = ([0, 1], [0], [4, 5, 6, 7], 8) :=
  uses_of_view 60 [.call, .clone 0, .drop 0, .call] _ _
    (fun os held t => (okCount os, held.map (·.1), lives t.alloc, t.alloc.size)) (by decide +kernel)

/-- C50, C51: a datum in `Rc`s is cloned twice, and dropped. The clones are left, which are two references each to the same
two allocations. -/
example : ∃ os held t, (inmemEnv false (unbound _ Empty _ _ Empty)).Uses true
      (St.init (inmemSource (str "{a b}")) Heap.empty) os held t ∧
      (okCount os, held.map (·.1), (lives t.alloc).map t.alloc.strong, t.alloc.size) = ([0, 1], [0, 0], [1, 1, 2, 2], 4) :=
  uses_of_view 60 [.call, .clone 0, .clone 1, .drop 0, .call] _ _
    (fun os held t => (okCount os, held.map (·.1), (lives t.alloc).map t.alloc.strong, t.alloc.size)) (by decide +kernel)

/-- C50: a slice that is too small for the second datum; the first can still be read. -/
example : ∃ os held t, (coreEnv (unbound _ Empty _ _ Empty)).Uses true
      (St.init (coreSource (str "{a b\\c}{d e} x"))
        (SliceAlloc.new [.emptyNest, .emptyNest, .emptyNest, .emptyNest, .emptyNest, .emptyNest])) os held t ∧
      (okCount os, held.map (·.1)) = ([0, 2, 2, 0], [0, 3]) :=
  uses_of_view 60 [.call, .call, .call, .call] _ _
    (fun os held _ => (okCount os, held.map (·.1))) (by decide +kernel)

/-- An applicative that returns a combination of its first argument with itself, and thus shares it; if there is no
argument, it removes the form. -/
private def twice (τ ε P CE : Type) : Combiner τ ε (Heap τ ε) P CE :=
  .applicative fun operator arguments h =>
    let h := (heapMem τ ε false).dropDat operator h
    match arguments with
    | .list p q => (.ok (some (.combination p p)), ((heapMem τ ε false).dropRef q h).clone p)
    | d => (.ok none, (heapMem τ ε false).dropDat d h)

/-- The same by value. -/
private def twiceV (τ ε P CE : Type) : Kul.Combiner τ ε Unit P CE :=
  .applicative fun _ arguments b => match arguments with
    | .list D _ => (.ok (some (.combination D D)), b)
    | _ => (.ok none, b)

/-- It respects ownership. -/
private theorem twice_rel (τ ε P CE : Type) : CombRel (heapOwn false) (twice τ ε P CE) (twiceV τ ε P CE) := by
  refine .applicative fun d D rs d' D' rs' a b xs hp hp' H => ?_
  have H : HeapOwn false ((heapMem τ ε false).dropDat d a) (rs' ++ xs) := HeapOwn.dropDat hp H
  have drop := HeapOwn.dropDat hp' H
  cases hp' with
  | list =>
    refine Or.inr (Or.inl ⟨_, _, _, rfl, rfl, .combination, ?_⟩)
    have H : HeapOwn false _ _ := HeapOwn.drop (HeapOwn.perm H (List.Perm.swap _ _ _))
    exact HeapOwn.clone H
  | _ => exact Or.inl ⟨rfl, rfl, drop⟩

private def sharing : Dat (TextVec PosStr) Empty → Heap (TextVec PosStr) Empty →
    Option (Combiner (TextVec PosStr) Empty (Heap (TextVec PosStr) Empty) StrPos Empty) := fun d _ => match d with
  | .text (.single c) => if c.val = str "twice" then some (twice ..) else none
  | _ => none

private def sharingV : Datum (TextVec PosStr) Empty → Option (Kul.Combiner (TextVec PosStr) Empty Unit StrPos Empty) :=
  fun d => match d with
  | .text (.single c) => if c.val = str "twice" then some (twiceV ..) else none
  | _ => none

/-- So do the bindings: `C50_heap_text` and `C51_heap_text` apply. -/
private theorem sharing_rel {h : Heap (TextVec PosStr) Empty} {b : Unit} {d D rs xs} (hp : Parts d D rs)
    (_ : heapOwn false h b (rs ++ xs)) : OptRel (CombRel (heapOwn false)) (sharing d h) (sharingV D) := by
  cases hp with
  | @text t =>
    cases t with
    | single c =>
      simp only [sharing, sharingV]
      split
      · exact twice_rel ..
      · trivial
    | _ => trivial
  | _ => trivial

/-- There is sharing: the datum `{b c}` is referred to twice by a datum that is referred to twice. -/
example : ∃ os held t, (textEnv posStrOps (textVec _ posStrOps) defaultClassifier (heapMem _ _ false) sharing).Uses true
      (St.init (inmemSource (str "{twice {twice {b c}}}{twice}x")) Heap.empty) os held t ∧
      (okCount os, (lives t.alloc).map t.alloc.strong) = ([0, 0, 1], [1, 1, 1, 1, 2, 2]) :=
  uses_of_view 60 [.call, .call, .call] _ _
    (fun os _ t => (okCount os, (lives t.alloc).map t.alloc.strong)) (by decide +kernel)

end Kul.Mem
