import Verif.Proof.Threads
import Verif.Props.Reads

/-!
# C71: parsing while other threads use datums in the same memory

`ArcDatumAllocator` and `DatumArc` let datums be shared between threads. Whatever the other threads do, and whenever, with
the references they hold (also `Weak` ones): results are those of parsing alone, what is held reads back as it was given, nothing leaks, and
what the parser does is as permitted as what the others do.
-/

namespace Kul.Mem

variable {C CS P ε CE β : Type}

/-- C71, for any chunks, with any bindings whose combiners respect ownership. -/
theorem C71_text (O : ChunkOps C CS P) (cc : Classifier)
    {lookup : Dat (TextVec C) ε → Busy (TextVec C) ε → Option (Combiner (TextVec C) ε (Busy (TextVec C) ε) P CE)}
    {lookup' : Datum (TextVec C) ε → Option (Kul.Combiner (TextVec C) ε β P CE)}
    (hl : ∀ {a : Busy (TextVec C) ε} {b : β} {d D rs xs}, Parts d D rs → BusyOwn Scene.empty a b (rs ++ xs) →
      OptRel (CombRel (BusyOwn Scene.empty)) (lookup d a) (lookup' D)) (s : TextIter C CS P (TextVec C)) (b : β)
    (script : List (Turn (TextVec C) ε)) :
    Undisturbed (textEnv O (textVec _ O) cc (busyMem _ _) lookup)
      (Kul.textEnv O (textVec _ O) cc (boxAlloc _ _ _) lookup') (St.init s (Busy.start script)) (St.init s b) ∧
    LeavesAlone (textEnv O (textVec _ O) cc (busyMem _ _) lookup) (St.init s (Busy.start script)) ∧
    NoLeak (textEnv O (textVec _ O) cc (busyMem _ _) lookup) (St.init s (Busy.start script)) := by
  have L := busyLaws (w₀ := Scene.empty) (E := textEnv O (textVec _ O) cc (busyMem _ _) lookup)
    (V := Kul.textEnv O (textVec _ O) cc (boxAlloc _ _ _) lookup') rfl rfl (rest_text (fun _ => textVec_lock O _) hl)
  exact ⟨L.undisturbed rfl s b script, L.leavesAlone rfl s b script, L.noLeak rfl s b script⟩

/-- C71, the same for sources that are iterators of strings. -/
theorem C71_strings (cc : Classifier)
    {lookup : Dat (TextVec PosStrish) ε → Busy (TextVec PosStrish) ε →
      Option (Combiner (TextVec PosStrish) ε (Busy (TextVec PosStrish) ε) CharPos CE)}
    {lookup' : Datum (TextVec PosStrish) ε → Option (Kul.Combiner (TextVec PosStrish) ε β CharPos CE)}
    (hl : ∀ {a : Busy (TextVec PosStrish) ε} {b : β} {d D rs xs}, Parts d D rs →
      BusyOwn Scene.empty a b (rs ++ xs) → OptRel (CombRel (BusyOwn Scene.empty)) (lookup d a) (lookup' D))
    (s : StrishIter (TextVec PosStrish)) (b : β) (script : List (Turn (TextVec PosStrish) ε)) :
    Undisturbed (strishEnv (textVec _ posStrishOps) cc (busyMem _ _) lookup)
      (Kul.strishEnv (textVec _ posStrishOps) cc (boxAlloc _ _ _) lookup') (St.init s (Busy.start script))
      (St.init s b) ∧
    LeavesAlone (strishEnv (textVec _ posStrishOps) cc (busyMem _ _) lookup) (St.init s (Busy.start script)) ∧
    NoLeak (strishEnv (textVec _ posStrishOps) cc (busyMem _ _) lookup) (St.init s (Busy.start script)) := by
  have L := busyLaws (w₀ := Scene.empty) (E := strishEnv (textVec _ posStrishOps) cc (busyMem _ _) lookup)
    (V := Kul.strishEnv (textVec _ posStrishOps) cc (boxAlloc _ _ _) lookup') rfl rfl
    (rest_strish (fun _ => textVec_lock _ _) hl)
  exact ⟨L.undisturbed rfl s b script, L.leavesAlone rfl s b script, L.noLeak rfl s b script⟩

/-- The parser of `src/common/inmem.rs` without bindings (as `inmemEnv`), in a memory that others use. -/
def inmemBusy (ε CE : Type) :=
  textEnv posStrOps (textVec _ posStrOps) defaultClassifier (busyMem (TextVec PosStr) ε) (unbound _ ε _ _ CE)

/-- The parser of `src/common/stream.rs` without bindings (as `streamEnv`), in a memory that others use. -/
def streamBusy (ε CE : Type) :=
  strishEnv (textVec _ posStrishOps) defaultClassifier (busyMem (TextVec PosStrish) ε) (unbound _ ε _ _ CE)

/-- C71, for the parser of `kul::common::inmem`; for any string, and whatever the others do. The results are
those of `Kul.inmemEnv`, which C01 to C11 describe; and `next` always returns. -/
theorem C71_inmem (string : Str) (script : List (Turn (TextVec PosStr) ε)) :
    Undisturbed (inmemBusy ε CE) (Kul.inmemEnv (noBindings _ ε Unit _ CE))
      (St.init (inmemSource string) (Busy.start script)) (St.init (inmemSource string) ()) ∧
    GoesOnAmong (inmemBusy ε CE) (St.init (inmemSource string) (Busy.start script)) ∧
    LeavesAlone (inmemBusy ε CE) (St.init (inmemSource string) (Busy.start script)) ∧
    NoLeak (inmemBusy ε CE) (St.init (inmemSource string) (Busy.start script)) := by
  have L : Laws (inmemBusy ε CE) (Kul.inmemEnv (noBindings _ ε Unit _ CE)) (BusyOwn Scene.empty) :=
    busyLaws rfl rfl (rest_text (fun _ => textVec_lock _ _) fun _ _ => trivial)
  exact ⟨L.undisturbed rfl _ () script,
    L.goesOnAmong rfl _ () script (inmem_conf _) (AtItems.fresh (strSource_means _ string)),
    L.leavesAlone rfl _ () script, L.noLeak rfl _ () script⟩

/-- C71, for the parser of `kul::common::stream`, for any strings from an iterator. -/
theorem C71_stream (strings : List Str) (script : List (Turn (TextVec PosStrish) ε)) :
    Undisturbed (streamBusy ε CE) (Kul.streamEnv (noBindings _ ε Unit _ CE))
      (St.init (.new strings) (Busy.start script)) (St.init (.new strings) ()) ∧
    GoesOnAmong (streamBusy ε CE) (St.init (.new strings) (Busy.start script)) ∧
    LeavesAlone (streamBusy ε CE) (St.init (.new strings) (Busy.start script)) ∧
    NoLeak (streamBusy ε CE) (St.init (.new strings) (Busy.start script)) := by
  have L : Laws (streamBusy ε CE) (Kul.streamEnv (noBindings _ ε Unit _ CE)) (BusyOwn Scene.empty) :=
    busyLaws rfl rfl (rest_strish (fun _ => textVec_lock _ _) fun _ _ => trivial)
  exact ⟨L.undisturbed rfl _ () script,
    L.goesOnAmong rfl _ () script (stream_conf _) (AtItems.fresh (StrishIter.new_means _ strings)),
    L.leavesAlone rfl _ () script, L.noLeak rfl _ () script⟩

/-- What `NoLeak` means when nobody holds anything any more. -/
theorem C71_all_dropped {σ τ : Type} {E : Env σ P τ ε (Busy τ ε) CE} {s₀ os s} (N : NoLeak E s₀)
    (h : E.UsesAmong s₀ os [] s) (hr : s.alloc.others.refs = []) (ho : s.alloc.others.opened = []) (p : Addr) :
    s.alloc.heap.cells p = none := by
  by_contra hn
  have hr' := ((N os [] s h ho).1 p).mp hn
  rw [hr] at hr'
  clear hn
  induction hr' with
  | root h => cases h
  | ref _ _ _ ih => exact ih

/-! ## Cases that meet the hypotheses -/

/-- What happens next, besides `Do`: it is the others' turn; they are given the datum at a place in the list. -/
inductive DoAmong where
  | call
  | drop (k : Nat)
  | clone (k : Nat)
  | turn
  | give (k : Nat)

def useAmong {σ P τ ε CE : Type} (E : Env σ P τ ε (Busy τ ε) CE) (n : Nat) :
    List DoAmong → List (Outcome (Err P CE) (Option (Dat τ ε))) × List (Nat × Dat τ ε) × St σ (Busy τ ε) →
      Option (List (Outcome (Err P CE) (Option (Dat τ ε))) × List (Nat × Dat τ ε) × St σ (Busy τ ε))
  | [], x => some x
  | .call :: l, (os, held, s) =>
    match E.parseNext n .base s with
    | (.ok (some d), s') => useAmong E n l (os ++ [.ok (some d)], held ++ [(os.length, d)], s')
    | (.ok none, s') => useAmong E n l (os ++ [.ok none], held, s')
    | (.err e, s') => useAmong E n l (os ++ [.err e], held, s')
    | _ => none
  | .drop k :: l, (os, held, s) =>
    match held.drop k with
    | (_, d) :: held' => useAmong E n l (os, held.take k ++ held', { s with alloc := E.alloc.dropDat d s.alloc })
    | [] => none
  | .clone k :: l, (os, held, s) =>
    match held[k]? with
    | some (i, d) =>
      match E.alloc.clone n d s.alloc with
      | some (d', a) => useAmong E n l (os, held ++ [(i, d')], { s with alloc := a })
      | none => none
    | none => none
  | .turn :: l, (os, held, s) => useAmong E n l (os, held, { s with alloc := s.alloc.turn })
  | .give k :: l, (os, held, s) =>
    match held.drop k with
    | (_, d) :: held' => useAmong E n l (os, held.take k ++ held', { s with alloc := s.alloc.give d.refs })
    | [] => none

theorem useAmong_uses {σ P τ ε CE : Type} {E : Env σ P τ ε (Busy τ ε) CE} {n : Nat} {s₀ : St σ (Busy τ ε)}
    (l : List DoAmong) : ∀ {x y}, E.UsesAmong s₀ x.1 x.2.1 x.2.2 → useAmong E n l x = some y →
      E.UsesAmong s₀ y.1 y.2.1 y.2.2 := by
  induction l with
  | nil => intro x y h e; cases e; exact h
  | cons d l ih =>
    rintro ⟨os, held, s⟩ y h e
    cases d with
    | call =>
      simp only [useAmong] at e
      split at e
      · next hp => exact ih (.datum h ⟨n, hp, by simp⟩) e
      · next hp => exact ih (.none h ⟨n, hp, by simp⟩) e
      · next hp => exact ih (.error h ⟨n, hp, by simp⟩) e
      · cases e
    | drop k =>
      simp only [useAmong] at e
      split at e
      · next i d held' hk =>
        refine ih (.drop (i := i) (d := d) ?_) e
        rw [← hk, List.take_append_drop]
        exact h
      · cases e
    | clone k =>
      simp only [useAmong] at e
      split at e
      · next i d hk =>
        split at e
        · next d' a hc => exact ih (.clone h (List.mem_of_getElem? hk) hc) e
        · cases e
      · cases e
    | turn => exact ih (.turn h) e
    | give k =>
      simp only [useAmong] at e
      split at e
      · next i d held' hk =>
        refine ih (.give (i := i) (d := d) ?_) e
        rw [← hk, List.take_append_drop]
        exact h
      · cases e

theorem usesAmong_of_view {σ P τ ε CE V : Type} {E : Env σ P τ ε (Busy τ ε) CE} (n : Nat) (l : List DoAmong)
    (s₀ : St σ (Busy τ ε)) (v : V)
    (view : List (Outcome (Err P CE) (Option (Dat τ ε))) → List (Nat × Dat τ ε) → St σ (Busy τ ε) → V)
    (h : (useAmong E n l ([], [], s₀)).map (fun x => view x.1 x.2.1 x.2.2) = some v) :
    ∃ os held s, E.UsesAmong s₀ os held s ∧ view os held s = v := by
  cases hu : useAmong E n l ([], [], s₀) with
  | none => rw [hu] at h; cases h
  | some y =>
    rw [hu] at h
    cases h
    exact ⟨_, _, _, useAmong_uses l .start hu, rfl⟩

private def str (s : String) : Str := s.toList

/-- Per call: a datum, nothing, or an error; which datums are held; strong counts of what is live; and, of the others: what
they hold, and how many things they did. -/
private def whatIs {σ P τ ε CE : Type} (os : List (Outcome (Err P CE) (Option (Dat τ ε)))) (held : List (Nat × Dat τ ε))
    (t : St σ (Busy τ ε)) : List Nat × List Nat × List (Addr × Nat) × Pool × Nat :=
  (os.map fun | .ok (some _) => 0 | .ok none => 1 | .err _ => 2 | _ => 3, held.map (·.1),
    (List.range t.alloc.heap.size).filterMap fun p => (t.alloc.heap.cells p).map fun c => (p, c.strong),
    t.alloc.others, t.alloc.done.length)

/-- While `{a b}` is parsed, others make datums, of which one refers to another. -/
private def making : List (Turn (TextVec PosStr) Empty) :=
  [⟨true, [.make .emptyNest]⟩, ⟨true, [.close 1, .clone 1]⟩, ⟨true, [.make (.list 1 1)]⟩, ⟨true, [.close 4, .clone 1]⟩]


/-- The datums of the others are 1 and 4, and 1 is referred to twice by 4. (They cannot clone 1 when they no longer hold
it.) -/
example : ∃ os held t, (inmemBusy Empty Empty).UsesAmong (St.init (inmemSource (str "{a b}")) (Busy.start making))
    os held t ∧ whatIs os held t =
      ([0], [0], [(0, 1), (1, 2), (2, 1), (3, 1), (4, 1), (5, 1)], ⟨[4], [], []⟩, 5) :=
  usesAmong_of_view 60 [.call] _ _ _ (by decide +kernel)

/-- A datum is cloned, given to the others, and the clone is dropped: one reference of it not at once but by the others, and
what remains is taken apart by them. -/
private def apart : List (Turn (TextVec PosStr) Empty) :=
  [⟨true, []⟩, ⟨true, []⟩, ⟨true, []⟩, ⟨true, []⟩, ⟨true, []⟩, ⟨false, [.letGo 2, .takeOut 2]⟩,
    ⟨true, [.takeOut 3, .takeOut 0, .takeOut 7]⟩, ⟨true, [.takeOut 1]⟩]

/-- After the first turns the second datum in `{a b}` is left, which the others still hold. -/
example : ∃ os held t, (inmemBusy Empty Empty).UsesAmong (St.init (inmemSource (str "{a b}")) (Busy.start apart))
    os held t ∧ whatIs os held t = ([0], [], [(1, 1)], ⟨[1], [], []⟩, 4) :=
  usesAmong_of_view 60 [.call, .clone 0, .give 0, .drop 0] _ _ _ (by decide +kernel)

/-- In the end nothing is left: `C71_all_dropped` applies. -/
example : ∃ os held t, (inmemBusy Empty Empty).UsesAmong (St.init (inmemSource (str "{a b}")) (Busy.start apart))
    os held t ∧ whatIs os held t = ([0, 1], [], [], ⟨[], [], []⟩, 5) :=
  usesAmong_of_view 60 [.call, .clone 0, .give 0, .drop 0, .turn, .call] _ _ _ (by decide +kernel)

/-- If the original is not given to the others, then only one of these actions is possible. The clone is left. -/
example : ∃ os held t, (inmemBusy Empty Empty).UsesAmong (St.init (inmemSource (str "{a b}")) (Busy.start apart))
    os held t ∧ whatIs os held t = ([0], [0], [(0, 1), (1, 1), (2, 1), (3, 1)], ⟨[], [], []⟩, 1) :=
  usesAmong_of_view 60 [.call, .clone 0, .drop 0] _ _ _ (by decide +kernel)

/-- An applicative that shares its first argument with the other threads, and returns the list of arguments; if there is no
argument, it removes the form. -/
private def publish (τ ε P CE : Type) : Combiner τ ε (Busy τ ε) P CE :=
  .applicative fun operator arguments a =>
    let a := (busyMem τ ε).dropDat operator a
    match arguments with
    | .list p q => (.ok (some (.list p q)), ({ a with heap := a.heap.clone p }.give [p]).turn)
    | d => (.ok none, (busyMem τ ε).dropDat d a)

/-- The same by value. -/
private def publishV (τ ε P CE : Type) : Kul.Combiner τ ε Unit P CE :=
  .applicative fun _ arguments b => match arguments with
    | .list D D' => (.ok (some (.list D D')), b)
    | _ => (.ok none, b)

/-- It respects ownership. -/
private theorem publish_rel (ε P CE : Type) :
    CombRel (BusyOwn Scene.empty) (publish (TextVec PosStr) ε P CE) (publishV (TextVec PosStr) ε P CE) := by
  have L : Laws (inmemBusy ε Empty) (Kul.inmemEnv (noBindings _ ε Unit _ Empty)) (BusyOwn Scene.empty) :=
    busyLaws rfl rfl (rest_text (fun _ => textVec_lock _ _) fun _ _ => trivial)
  refine .applicative fun d D rs d' D' rs' a b xs hp hp' H => ?_
  have H : BusyOwn Scene.empty ((busyMem (TextVec PosStr) ε).dropDat d a) b (rs' ++ xs) := L.dropDat hp _ _ _ H
  have drop := L.dropDat hp' _ _ _ H
  cases hp' with
  | list =>
    refine Or.inr (Or.inl ⟨_, _, _, rfl, rfl, .list, ?_⟩)
    exact ((H.cloneRef List.mem_cons_self).give (rs := [.ref _ _]) rfl).turn
  | _ => exact Or.inl ⟨rfl, rfl, drop⟩

private def publishing : Dat (TextVec PosStr) Empty → Busy (TextVec PosStr) Empty →
    Option (Combiner (TextVec PosStr) Empty (Busy (TextVec PosStr) Empty) StrPos Empty) := fun d _ => match d with
  | .text (.single c) => if c.val = str "p" then some (publish ..) else none
  | _ => none

private def publishingV :
    Datum (TextVec PosStr) Empty → Option (Kul.Combiner (TextVec PosStr) Empty Unit StrPos Empty) := fun d => match d with
  | .text (.single c) => if c.val = str "p" then some (publishV ..) else none
  | _ => none

/-- So do the bindings: `C71_text` applies. -/
private theorem publishing_rel {a : Busy (TextVec PosStr) Empty} {b : Unit} {d D rs xs} (hp : Parts d D rs)
    (_ : BusyOwn Scene.empty a b (rs ++ xs)) :
    OptRel (CombRel (BusyOwn Scene.empty)) (publishing d a) (publishingV D) := by
  cases hp with
  | @text t =>
    cases t with
    | single c =>
      simp only [publishing, publishingV]
      split
      · exact publish_rel ..
      · trivial
    | _ => trivial
  | _ => trivial

example (string : Str) (script : List (Turn (TextVec PosStr) Empty)) :=
  C71_text posStrOps defaultClassifier publishing_rel (inmemSource string) () script

/-- The others get the argument, clone it, and use it in a list that they make. -/
private def building : List (Turn (TextVec PosStr) Empty) :=
  [⟨true, []⟩, ⟨true, []⟩, ⟨true, [.make .emptyNest, .close 2, .make (.list 0 2), .clone 0, .close 3]⟩]

/-- The argument is referred to by the list that the user holds, by the list that the others made, and by the others. -/
example : ∃ os held t,
    (textEnv posStrOps (textVec _ posStrOps) defaultClassifier (busyMem (TextVec PosStr) Empty) publishing).UsesAmong
      (St.init (inmemSource (str "{p {}}")) (Busy.start building)) os held t ∧
    whatIs os held t = ([0], [0], [(0, 3), (1, 1), (2, 1), (3, 1)], ⟨[3, 0], [], []⟩, 5) :=
  usesAmong_of_view 60 [.call] _ _ _ (by decide +kernel)

/-- The others keep only a `Weak` reference to the argument that they get, and make two more. -/
private def watching : List (Turn (TextVec PosStr) Empty) :=
  [⟨true, []⟩, ⟨true, []⟩, ⟨true, [.downgrade 0, .letGo 0, .openUp 0, .cloneWeak 0, .cloneWeak 0, .dropWeak 0]⟩,
    ⟨true, [.upgrade 0]⟩, ⟨true, [.takeOut 0, .upgrade 0]⟩]

private def watched :=
  (textEnv posStrOps (textVec _ posStrOps) defaultClassifier (busyMem (TextVec PosStr) Empty) publishing).UsesAmong
    (St.init (inmemSource (str "{p {}}")) (Busy.start watching))

/-- It does not keep the argument. -/
example : ∃ os held t, watched os held t ∧ whatIs os held t = ([0], [0], [(0, 1), (1, 1)], ⟨[], [], [0, 0]⟩, 5) :=
  usesAmong_of_view 60 [.call] _ _ _ (by decide +kernel)

/-- They get the argument again. -/
example : ∃ os held t, watched os held t ∧ whatIs os held t = ([0], [0], [(0, 2), (1, 1)], ⟨[0], [], [0, 0]⟩, 6) :=
  usesAmong_of_view 60 [.call, .turn] _ _ _ (by decide +kernel)

/-- The user drops the list, then they drop the argument, and cannot get it again: `C71_all_dropped` applies. -/
example : ∃ os held t, watched os held t ∧ whatIs os held t = ([0], [], [], ⟨[], [], [0, 0]⟩, 7) :=
  usesAmong_of_view 60 [.call, .turn, .drop 0] _ _ _ (by decide +kernel)

end Kul.Mem
