import Verif.Model.AnyStream
import Verif.Props.Threads
import Verif.Props.DropUse
import Verif.Props.MemSize
import Verif.Props.MemUnwind

/-!
# C50, C51, C69, C70, C71, C72 with any source stream and texts

The theorems of `Props/Reads.lean`, `DropUse.lean`, `MemSize.lean`, `Threads.lean` and `MemUnwind.lean` about datums in memory, for
any source stream and text type that allocate no datums themselves (`Model/AnyStream.lean`), whether or not the stream keeps
any contract; and for `CharIterSourceStream`, which these files leave out.
-/

namespace Kul

variable {C CS σ P τ ε α β CE : Type}

/-! ## The streams and texts of the library are such -/

theorem textVec_within (O : ChunkOps C CS P) (α : Type) : (textVec α O).ops = (textVec Unit O).ops.within α := by
  unfold TextOps.within TextType.ops
  congr 1
  funext t u a
  simp only [textVec, TextVec.concat]
  split <;> (try split) <;> rfl

theorem charIter_within (T : TextType PosStrish τ α) (T' : TextType PosStrish τ Unit) (h : T.ofChunk = T'.ofChunk) :
    charIterOps T = (charIterOps T').within α := by
  unfold charIterOps StreamOps.within
  rw [h]

/-- A stream that is in lockstep with another and leaves any allocator as it is. -/
theorem StreamOps.eq_within {S : StreamOps σ P τ α} {S' : StreamOps σ P τ Unit}
    (h : ∀ R : α → Unit → Prop, S.Lock R S') : S = S'.within α := by
  have hp := (h fun _ _ => True).peek
  have hn := (h fun _ _ => True).next
  cases S with
  | mk peek next nextAccum accumDone =>
    unfold StreamOps.within
    congr 1
    · funext s a
      obtain ⟨o, s', a', b', h1, h2, h3⟩ := (h fun x _ => x = a).nextAccum (a := a) (b := ()) rfl s
      simp only at h1
      rw [h1, h2, h3]
    · funext s a
      obtain ⟨o, s', a', b', h1, h2, h3⟩ := (h fun x _ => x = a).accumDone (a := a) (b := ()) rfl s
      simp only at h1
      rw [h1, h2, h3]

/-- `text::Iter` with `TextVec`. -/
theorem textIter_within (O : ChunkOps C CS P) (α : Type) :
    textIterOps O (textVec α O) = (textIterOps O (textVec Unit O)).within α :=
  StreamOps.eq_within fun R => textIterOps_lock O (textVec_lock O R)

/-- `StrishIterSourceStream` with `TextVec`. -/
theorem strishIter_within (α : Type) :
    strishIterOps (textVec α posStrishOps) = (strishIterOps (textVec Unit posStrishOps)).within α :=
  StreamOps.eq_within fun R => strishIterOps_lock (textVec_lock _ R)

namespace Mem

theorem rest_any {S : StreamOps σ P τ Unit} {T : TextOps τ Unit} {cc : Classifier}
    {al : AllocOps τ ε α} {al' : Kul.AllocOps τ ε β} {lookup : Dat τ ε → α → Option (Combiner τ ε α P CE)}
    {lookup' : Datum τ ε → Option (Kul.Combiner τ ε β P CE)} {Own : α → β → List (Res τ ε) → Prop}
    (hl : ∀ {a b d D rs xs}, Parts d D rs → Own a b (rs ++ xs) →
      OptRel (CombRel Own) (lookup d a) (lookup' D)) :
    SameRest (anyEnv S T cc al lookup) (Kul.anyEnv S T cc al' lookup') Own where
  cc := rfl
  empty := rfl
  strm _ := ⟨rfl, rfl, fun H _ => ⟨_, _, _, _, rfl, rfl, H⟩, fun H _ => ⟨_, _, _, _, rfl, rfl, H⟩⟩
  concat H _ _ := ⟨_, _, _, rfl, rfl, H⟩
  lookup := hl

section
variable {S : StreamOps σ P τ Unit} {T : TextOps τ Unit} {cc : Classifier}

section
variable {lookup : Dat τ ε → Heap τ ε → Option (Combiner τ ε (Heap τ ε) P CE)}
  {lookup' : Datum τ ε → Option (Kul.Combiner τ ε β P CE)}

/-- C50, with any source stream, also one that keeps no contract, and any texts. -/
theorem C50_any (box : Bool) (hl : ∀ {h : Heap τ ε} {b : β} {d D rs xs}, Parts d D rs → heapOwn box h b (rs ++ xs) →
      OptRel (CombRel (heapOwn box)) (lookup d h) (lookup' D)) (s : σ) (b : β) :
    ReadBack (anyEnv S T cc (heapMem _ _ box) lookup) (Kul.anyEnv S T cc (boxAlloc _ _ _) lookup')
      (St.init s Heap.empty) (St.init s b) :=
  (heapLaws (box := box) id rfl rfl (rest_any hl)).readBack (cloneLaw_heap rfl rfl) rfl rfl HeapOwn.empty

/-- C50: if the stream does keep its contract, the next call always returns. -/
theorem C50_any_goes_on (box : Bool) (hl : ∀ {h : Heap τ ε} {b : β} {d D rs xs}, Parts d D rs → heapOwn box h b (rs ++ xs) →
      OptRel (CombRel (heapOwn box)) (lookup d h) (lookup' D)) {RS : σ → Seq P → Prop} {X : TextSem P τ β}
    (C : Conf (Kul.anyEnv S T cc (boxAlloc _ _ _) lookup') RS X) {s : σ} {r : List (Item P)} (hs : RS s ⟨[], r⟩) (b : β) :
    GoesOn (anyEnv S T cc (heapMem _ _ box) lookup) (St.init s Heap.empty) :=
  (heapLaws (box := box) id rfl rfl (rest_any hl)).goesOn (cloneLaw_heap rfl rfl) C (AtItems.fresh hs) (b := b) HeapOwn.empty

/-- C51, with any source stream and any texts. -/
theorem C51_any (box : Bool) (hl : ∀ {h : Heap τ ε} {b : β} {d D rs xs}, Parts d D rs → heapOwn box h b (rs ++ xs) →
      OptRel (CombRel (heapOwn box)) (lookup d h) (lookup' D)) (s : σ) (b : β) {os held t}
    (h : (anyEnv S T cc (heapMem _ _ box) lookup).Uses true (St.init s Heap.empty) os held t) :
    t.alloc.Exact (held.map (·.2)) :=
  (Laws.heap (heapLaws (box := box) id rfl rfl (rest_any (S := S) (T := T) (cc := cc) hl))
    (fun _ => cloneLaw_heap rfl rfl) s b h).1

/-- C69, with any source stream and any texts. -/
theorem C69_any [DecidableEq τ] [DecidableEq ε] (box cloning : Bool) (hb : box = true ∨ cloning = false)
    (hl : ∀ {h : Heap τ ε} {b : β} {d D rs xs}, Parts d D rs → heapOwn true h b (rs ++ xs) →
      OptRel (CombRel (heapOwn true)) (lookup d h) (lookup' D)) (s : σ) (b : β)
    {os held i d held' t} (h : (anyEnv S T cc (heapMem _ _ box) lookup).Uses cloning (St.init s Heap.empty)
      os (held ++ (i, d) :: held') t) {D} (hD : Reads ((heapMem _ _ box).read t.alloc) d D) :
    ∃ N evs steps depth, (∀ n, N ≤ n → dropAll n d.refs t.alloc.asRcHeap =
        .done ((heapMem _ _ box).dropDat d t.alloc).asRcHeap evs steps depth) ∧
      depth ≤ 2 ∧ steps < D.nodes := by
  have L := heapLaws (box := box) (u := true) (E := anyEnv S T cc (heapMem _ _ box) lookup)
    (V := Kul.anyEnv S T cc (boxAlloc _ _ _) lookup') (fun _ => rfl) rfl rfl (rest_any hl)
  obtain ⟨os', t', xs, _, _, _, _, k5, k6⟩ :=
    L.uses (fun hc => by
      rcases hb with hb | hb
      · exact cloneLaw_heap hb.symm rfl
      · rw [hb] at hc; cases hc) (s₀ := St.init s Heap.empty) (t₀ := St.init s b) rfl rfl HeapOwn.empty h
  obtain ⟨D', rs, ys, m1, m2, m3⟩ := k5.remove
  have k7 := HeapOwn.perm k6 m3
  have := Reads.unique hD (L.readsDat (b := t'.alloc) m1 k7)
  subst this
  exact HeapOwn.dropDat_steps m1 k7 m2.addrs.2

/-- C70, in memory, with any source stream that keeps its contract, and any texts. -/
theorem C70_memory_any (box cloning : Bool) (hb : box = false ∨ cloning = false)
    (hl : ∀ {h : Heap τ ε} {b : β} {d D rs xs}, Parts d D rs → heapOwn box h b (rs ++ xs) →
      OptRel (CombRel (heapOwn box)) (lookup d h) (lookup' D)) (M : Modest lookup') {RS : σ → Seq P → Prop} {X : TextSem P τ β}
    (C : Conf (Kul.anyEnv S T cc (boxAlloc _ _ _) lookup') RS X) {s : σ} {r : List (Item P)} (hs : RS s ⟨[], r⟩) (b : β)
    {os held t} (h : (anyEnv S T cc (heapMem _ _ box) lookup).Uses cloning (St.init s Heap.empty) os held t)
    {ps : List Addr} (hn : ps.Nodup) (hp : ∀ p ∈ ps, t.alloc.cells p ≠ none) : 2 * ps.length ≤ 3 * r.length := by
  have L := heapLaws (box := box) (u := box) (E := anyEnv S T cc (heapMem _ _ box) lookup)
    (V := Kul.anyEnv S T cc (boxAlloc _ _ _) lookup') id rfl rfl (rest_any hl)
  obtain ⟨os', t', h1, h2⟩ := L.live (heap_read box) (fun _ => cloneLaw_heap rfl rfl) (fun hc n d a d' a' e => by
    rcases hb with hb | hb
    · exact heap_clone_same hb e
    · rw [hb] at hc; cases hc) s b h
  have := h2 ps hn hp
  have := C70_linear_total C M hs h1
  omega

/-- C70 with C69, with any source stream that keeps its contract, and any texts: dropping a datum takes fewer than one and a half times as
many iterations as the source has characters, and calls are nested at most two deep. -/
theorem C70_drop_any [DecidableEq τ] [DecidableEq ε] (box cloning : Bool) (hb : box = true ∨ cloning = false)
    (hl : ∀ {h : Heap τ ε} {b : β} {d D rs xs}, Parts d D rs → heapOwn true h b (rs ++ xs) →
      OptRel (CombRel (heapOwn true)) (lookup d h) (lookup' D)) (M : Modest lookup') {RS : σ → Seq P → Prop} {X : TextSem P τ β}
    (C : Conf (Kul.anyEnv S T cc (boxAlloc _ _ _) lookup') RS X) {s : σ} {r : List (Item P)} (hs : RS s ⟨[], r⟩) (b : β)
    {os held i d held' t} (h : (anyEnv S T cc (heapMem _ _ box) lookup).Uses cloning (St.init s Heap.empty)
      os (held ++ (i, d) :: held') t) :
    ∃ N evs steps depth, (∀ n, N ≤ n → dropAll n d.refs t.alloc.asRcHeap =
        .done ((heapMem _ _ box).dropDat d t.alloc).asRcHeap evs steps depth) ∧
      depth ≤ 2 ∧ 2 * steps < 3 * r.length := by
  have L := heapLaws (box := box) (u := true) (E := anyEnv S T cc (heapMem _ _ box) lookup)
    (V := Kul.anyEnv S T cc (boxAlloc _ _ _) lookup') (fun _ => rfl) rfl rfl (rest_any hl)
  obtain ⟨os', t', xs, k1, _, _, _, k5, k6⟩ :=
    L.uses (fun hc => by
      rcases hb with hb | hb
      · exact cloneLaw_heap hb.symm rfl
      · rw [hb] at hc; cases hc) (s₀ := St.init s Heap.empty) (t₀ := St.init s b) rfl rfl HeapOwn.empty h
  obtain ⟨D, rs, ys, m1, m2, m3⟩ := k5.pick (i := i) (d := d) (by simp)
  obtain ⟨N, evs, st, dp, h1, h2, h3⟩ := C69_any box cloning hb hl s b h
    (L.readsDat (b := t'.alloc) m2 (HeapOwn.perm k6 m3))
  have h4 := C70_linear_total C M hs k1
  have := nodesOf_mem m1
  exact ⟨N, evs, st, dp, h1, h2, by omega⟩

end

/-- C71, with any source stream and any texts. -/
theorem C71_any {lookup : Dat τ ε → Busy τ ε → Option (Combiner τ ε (Busy τ ε) P CE)}
    {lookup' : Datum τ ε → Option (Kul.Combiner τ ε β P CE)}
    (hl : ∀ {a : Busy τ ε} {b : β} {d D rs xs}, Parts d D rs → BusyOwn Scene.empty a b (rs ++ xs) →
      OptRel (CombRel (BusyOwn Scene.empty)) (lookup d a) (lookup' D)) (s : σ) (b : β) (script : List (Turn τ ε)) :
    Undisturbed (anyEnv S T cc (busyMem _ _) lookup) (Kul.anyEnv S T cc (boxAlloc _ _ _) lookup')
      (St.init s (Busy.start script)) (St.init s b) ∧
    LeavesAlone (anyEnv S T cc (busyMem _ _) lookup) (St.init s (Busy.start script)) ∧
    NoLeak (anyEnv S T cc (busyMem _ _) lookup) (St.init s (Busy.start script)) := by
  have L := busyLaws (w₀ := Scene.empty) (E := anyEnv S T cc (busyMem _ _) lookup)
    (V := Kul.anyEnv S T cc (boxAlloc _ _ _) lookup') rfl rfl (rest_any hl)
  exact ⟨L.undisturbed rfl s b script, L.leavesAlone rfl s b script, L.noLeak rfl s b script⟩

/-- C72, with any source stream and any texts: only combiners need to respect ownership. -/
theorem C72_any (box : Bool) {unused} {lookup : Dat τ ε → Heap τ ε → Option (Option (UCombiner τ ε (Heap τ ε) P CE))}
    (hl : ∀ d h c, lookup d h = some (some c) → c.Careful (HeapOwn box)) (src : σ) {held s}
    (h : ((anyEnv S T cc (heapMem _ _ box) unused).unwinding lookup).Uses (St.init src Heap.empty) held s) :
    Sound ((anyEnv S T cc (heapMem _ _ box) unused).unwinding lookup) box held s :=
  C72_heap box rfl
    { nextAccum := fun H => H
      accumDone := fun H => H
      concat := fun H => H
      newDatum := heap_newDatum
      lookup := fun _ _ h => hl _ _ _ h
      strmPanics := fun _ h => by cases h
      panics := fun _ h => by cases h } src h

/-- C72, with any source stream and any texts, whatever panics: only combiners need to respect ownership. -/
theorem C72_anywhere (box : Bool) {lookup : Dat τ ε → Heap τ ε → Option (Option (UCombiner τ ε (Heap τ ε) P CE))}
    (hl : ∀ d h c, lookup d h = some (some c) → c.Careful (HeapOwn box)) (strmPanics : StreamCall → σ → Heap τ ε → Option σ)
    (newPanics : Dat τ ε → Heap τ ε → Bool) (panics : UserCall τ ε → Heap τ ε → Bool) (src : σ) {held s}
    (h : (anyUEnv S T cc (heapMem _ _ box) lookup strmPanics newPanics panics).Uses (St.init src Heap.empty) held s) :
    Sound (anyUEnv S T cc (heapMem _ _ box) lookup strmPanics newPanics panics) box held s :=
  C72_heap box rfl
    { nextAccum := fun H => H
      accumDone := fun H => H
      concat := fun H => H
      newDatum := by
        intro d D rs a xs hp H
        simp only [anyUEnv]
        split
        · exact (heapOwnLaws (β := Unit) (box := box) (u := box) id).dropDat hp a () _ H
        · exact heap_newDatum hp H
      lookup := fun _ _ h => hl _ _ _ h
      strmPanics := by
        intro c s a s' a' xs H h
        obtain ⟨s'', _, h⟩ := Option.map_eq_some_iff.mp h
        cases h
        exact H
      panics := by
        intro c a a' xs H h
        simp only [anyUEnv] at h
        split at h
        · cases h; exact H
        · cases h } src h

end

/-! ## Iterators of characters -/

/-- The parser of an iterator of characters, without bindings. -/
def charsEnv (ε CE : Type) (box : Bool) : Env CharIter CharPos (TextVec PosStrish) ε (Heap (TextVec PosStrish) ε) CE :=
  charEnv (textVec _ posStrishOps) defaultClassifier (heapMem _ _ box) (unbound _ ε _ _ CE)

/-- The same by value. -/
def charsValues (ε CE : Type) : Kul.Env CharIter CharPos (TextVec PosStrish) ε Unit CE :=
  Kul.charEnv (textVec _ posStrishOps) defaultClassifier (boxAlloc _ _ _) (noBindings _ ε Unit _ CE)

theorem charsEnv_any (box : Bool) : charsEnv ε CE box = anyEnv (charIterOps (textVec Unit posStrishOps))
    (textVec Unit posStrishOps).ops defaultClassifier (heapMem _ _ box) (unbound _ ε _ _ CE) := by
  unfold charsEnv charEnv anyEnv
  congr 1
  exact textVec_within _ _

theorem charsValues_any : charsValues ε CE = Kul.anyEnv (charIterOps (textVec Unit posStrishOps))
    (textVec Unit posStrishOps).ops defaultClassifier (boxAlloc _ _ _) (noBindings _ ε Unit _ CE) := by
  unfold charsValues Kul.charEnv Kul.anyEnv
  congr 1

theorem charsValues_conf : Conf (charsValues ε CE) CharIter.Means (vecishSem Unit) :=
  charEnv_conf (textVec_conf posStrish_conf)

/-- C50, for iterators of characters. -/
theorem C50_chars (box : Bool) (string : Str) :
    ReadBack (charsEnv ε CE box) (charsValues ε CE) (St.init (.new string) Heap.empty) (St.init (.new string) ()) ∧
    GoesOn (charsEnv ε CE box) (St.init (.new string) Heap.empty) := by
  have C := charsValues_conf (ε := ε) (CE := CE)
  rw [charsEnv_any, charsValues_any] at *
  have hl : ∀ {h : Heap (TextVec PosStrish) ε} {b : Unit} {d D rs xs}, Parts d D rs → heapOwn box h b (rs ++ xs) →
      OptRel (CombRel (heapOwn box)) (unbound _ ε _ CharPos CE d h) (noBindings _ ε Unit CharPos CE D) := fun _ _ => trivial
  exact ⟨C50_any box hl _ (), C50_any_goes_on box hl C (CharIter.new_means string) ()⟩

/-- C51, for iterators of characters. -/
theorem C51_chars (box : Bool) (string : Str) {os held t}
    (h : (charsEnv ε CE box).Uses true (St.init (.new string) Heap.empty) os held t) : t.alloc.Exact (held.map (·.2)) := by
  rw [charsEnv_any] at h
  exact C51_any (β := Unit) (lookup := unbound _ ε _ _ CE) (lookup' := noBindings _ ε Unit _ CE) box (fun _ _ => trivial) _ () h

/-- C70, in memory, for iterators of characters. -/
theorem C70_memory_chars (box cloning : Bool) (hb : box = false ∨ cloning = false) (string : Str) {os held t}
    (h : (charsEnv ε CE box).Uses cloning (St.init (.new string) Heap.empty) os held t)
    {ps : List Addr} (hn : ps.Nodup) (hp : ∀ p ∈ ps, t.alloc.cells p ≠ none) : 2 * ps.length ≤ 3 * string.length := by
  have C := charsValues_conf (ε := ε) (CE := CE)
  rw [charsEnv_any] at h
  rw [charsValues_any] at C
  have := C70_memory_any (lookup := unbound _ ε _ _ CE) (lookup' := noBindings _ ε Unit _ CE) box cloning hb (fun _ _ => trivial) (.none fun _ => rfl) C (CharIter.new_means string) () h hn hp
  simpa [itemsFrom_length] using this

/-- C70 with C69, for iterators of characters. -/
theorem C70_drop_chars [DecidableEq ε] (box cloning : Bool) (hb : box = true ∨ cloning = false) (string : Str)
    {os held i d held' t} (h : (charsEnv ε CE box).Uses cloning (St.init (.new string) Heap.empty)
      os (held ++ (i, d) :: held') t) :
    ∃ N evs steps depth, (∀ n, N ≤ n → dropAll n d.refs t.alloc.asRcHeap =
        .done ((heapMem _ _ box).dropDat d t.alloc).asRcHeap evs steps depth) ∧
      depth ≤ 2 ∧ 2 * steps < 3 * string.length := by
  have C := charsValues_conf (ε := ε) (CE := CE)
  rw [charsEnv_any] at h
  rw [charsValues_any] at C
  have := C70_drop_any (lookup := unbound _ ε _ _ CE) (lookup' := noBindings _ ε Unit _ CE) box cloning hb
    (fun _ _ => trivial) (.none fun _ => rfl) C (CharIter.new_means string) () h
  simpa [itemsFrom_length] using this

/-- C70 with C69, for iterators of strings. -/
theorem C70_drop_stream [DecidableEq ε] (box cloning : Bool) (hb : box = true ∨ cloning = false) (strings : List Str)
    {os held i d held' t} (h : (streamEnv box (unbound _ ε _ _ CE)).Uses cloning (St.init (.new strings) Heap.empty)
      os (held ++ (i, d) :: held') t) :
    ∃ N evs steps depth, (∀ n, N ≤ n → dropAll n d.refs t.alloc.asRcHeap =
        .done ((heapMem _ _ box).dropDat d t.alloc).asRcHeap evs steps depth) ∧
      depth ≤ 2 ∧ 2 * steps < 3 * strings.flatten.length := by
  have C := stream_conf (noBindings _ ε Unit _ CE)
  have e : streamEnv box (unbound _ ε _ _ CE) = anyEnv (strishIterOps (textVec Unit posStrishOps))
      (textVec Unit posStrishOps).ops defaultClassifier (heapMem _ _ box) (unbound _ ε _ _ CE) := by
    unfold streamEnv strishEnv anyEnv
    congr 1
    · exact strishIter_within _
    · exact textVec_within _ _
  have e' : Kul.streamEnv (noBindings _ ε Unit _ CE) = Kul.anyEnv (strishIterOps (textVec Unit posStrishOps))
      (textVec Unit posStrishOps).ops defaultClassifier (boxAlloc _ _ _) (noBindings _ ε Unit _ CE) := by
    unfold Kul.streamEnv Kul.strishEnv Kul.anyEnv
    congr 1
  rw [e] at h
  rw [e'] at C
  have := C70_drop_any (lookup := unbound _ ε _ _ CE) (lookup' := noBindings _ ε Unit _ CE) box cloning hb
    (fun _ _ => trivial) (.none fun _ => rfl) C (StrishIter.new_means _ strings) () h
  simpa [charItems, itemsFrom_length] using this

/-! ## Non-vacuity -/

/-- A stream that breaks every contract: it goes round between two characters, and gives the same text again and again. -/
def spinOps : StreamOps Bool Unit (List (Item Unit)) Unit where
  peek b := (.ok (some ⟨if b then '{' else 'x', ()⟩), b)
  next b := (.ok (some ⟨if b then '{' else 'x', ()⟩), !b)
  nextAccum b _ := (.ok (some ⟨'}', ()⟩), !b, ())
  accumDone b _ := (.ok [⟨'y', ()⟩], b, ())

/-- The theorems hold of it, too; its first call returns a text. -/
example : ∃ os held t, (anyEnv spinOps (seqText Unit Unit) defaultClassifier (heapMem _ Empty true)
      (unbound _ Empty _ _ Empty)).Uses true (St.init false Heap.empty) os held t ∧
      (held.map (·.1), t.strm) = ([0], true) ∧ t.alloc.Exact (held.map (·.2)) := by
  obtain ⟨os, held, t, h, h'⟩ := uses_of_view (E := anyEnv spinOps (seqText Unit Unit) defaultClassifier (heapMem _ Empty true)
    (unbound _ Empty _ _ Empty)) 20 [.call] (St.init false Heap.empty) ([0], true) (fun _ held t => (held.map (·.1), t.strm)) (by decide +kernel)
  exact ⟨os, held, t, h, h', C51_any (β := Unit) (lookup := unbound _ Empty _ _ Empty)
    (lookup' := noBindings _ Empty Unit _ Empty) true (fun _ _ => trivial) _ () h⟩

/-- A datum and its clone, from an iterator of characters. -/
example : ∃ os held t, (charsEnv Empty Empty false).Uses true (St.init (.new "{a b}".toList) Heap.empty) os held t ∧
      (held.map (·.1), (List.range 8).filter fun p => (Heap.cells t.alloc p).isSome) = ([0, 0], [0, 1, 2, 3]) :=
  uses_of_view 60 [.call, .clone 0] _ _
    (fun _ held t => (held.map (·.1), (List.range 8).filter fun p => (Heap.cells t.alloc p).isSome)) (by decide +kernel)

/-- An iterator of characters, where `get_mut` panics when there were four allocations. -/
def breaks : UEnv CharIter CharPos (TextVec PosStrish) Empty (Heap (TextVec PosStrish) Empty) Empty :=
  anyUEnv (charIterOps (textVec _ posStrishOps)) (textVec _ posStrishOps).ops defaultClassifier (heapMem _ _ true)
    (fun _ _ => some none) (fun _ _ _ => none) (fun _ _ => false) fun c h => c matches .getMut && h.size == 4

/-- It panics for `{a {}{}}`, after four allocations, of which nothing is left, by `C72_anywhere`. -/
example : ∃ s, breaks.Uses (St.init (.new "{a {}{}}".toList) Heap.empty) [] s ∧ s.alloc.size = 4 ∧
    ∀ p, s.alloc.cells p = none := by
  have e : (match breaks.parseNext 60 .base (St.init (.new "{a {}{}}".toList) Heap.empty) with
      | (.panic, s) => some s.alloc.size | _ => none) = some 4 := by decide +kernel
  rcases hr : breaks.parseNext 60 .base (St.init (.new "{a {}{}}".toList) Heap.empty) with ⟨o, s⟩
  rw [hr] at e
  cases o with
  | panic =>
    have hu : breaks.Uses (St.init (.new "{a {}{}}".toList) Heap.empty) [] s := .other .start ⟨60, hr, by simp⟩ (by simp)
    refine ⟨s, hu, by simpa using e, C51_all_dropped (C72_anywhere true ?_ _ _ _ _ hu).2.1⟩
    intro _ _ _ h
    cases h
  | _ => cases e

end Mem

end Kul
