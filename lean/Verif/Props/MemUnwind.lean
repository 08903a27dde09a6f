import Verif.Proof.MemUnwind
import Verif.Proof.Clone
import Verif.Props.Reads

/-!
# C72: panics of user-supplied code lose no memory

`UEnv` is the parser with datums in memory, any part of which that is user-supplied may panic
(`Model/MemUnwind.lean`). What must be expected of that code, `Careful`, is only that it respects ownership.
-/

namespace Kul.Mem

variable {σ C CS P τ ε CE : Type}

/-- C72, in memory made of `Box`es, `Rc`s or `Arc`s: whatever panics, and after any history: what is read from a datum
or clone that the user holds is still what was read when the datum was returned; what is live is exactly what can be
reached from what the user holds, and all counts are exact; in `Box`es, nothing is shared; and if a call returns a datum,
then all of it can be read. -/
theorem C72_heap (box : Bool) {U : UEnv σ P τ ε (Heap τ ε) CE} (ha : U.env.alloc = heapMem τ ε box)
    (H : U.Careful (HeapOwn box)) (src : σ) {held s} (h : U.Uses (St.init src Heap.empty) held s) :
    Sound U box held s := by
  have L : OwnLaws U.env.alloc fun a (_ : Unit) => HeapOwn box a := ha ▸ heapOwnLaws id
  obtain ⟨xs, h1, h2⟩ := UEnv.history L H (fun hp ho hc => HeapOwn.cloneDat rfl hp ho (ha ▸ hc))
    (s₀ := St.init src Heap.empty) HeapOwn.empty h
  refine ⟨fun D d hd => ?_, HeapOwn.exact h2 h1.addrs.1 h1.addrs.2, HeapOwn.box h2, fun d s' hc => ?_⟩
  · obtain ⟨rs, ys, h3, h4⟩ := h1.pick hd
    exact L.readsDat (b := ()) h3 (L.perm (b := ()) h2 h4)
  · rcases UEnv.call L H hc h2 with ⟨d', D, rs, e, h3, h4⟩ | ⟨hn, _⟩
    · cases e
      exact ⟨D, L.readsDat (b := ()) h3 h4⟩
    · exact absurd rfl (hn d)

/-- C72. When the user has dropped all, nothing is left, whatever panicked. -/
theorem C72_all_dropped (box : Bool) {U : UEnv σ P τ ε (Heap τ ε) CE} (ha : U.env.alloc = heapMem τ ε box)
    (H : U.Careful (HeapOwn box)) (src : σ) {s} (h : U.Uses (St.init src Heap.empty) [] s) (p : Addr) :
    s.alloc.cells p = none :=
  C51_all_dropped (C72_heap box ha H src h).2.1 p

/-- C72. A call that does not panic does what it would do if the rest did not panic either; so all other properties, of
what is returned, hold of it. -/
theorem C72_until_panic {α : Type} {U : UEnv σ P τ ε α CE} (G : U.Agrees) {s o s'} (h : U.Call s o s') (ho : o ≠ .panic) :
    U.env.Call s o s' := by
  obtain ⟨n, hn, hf⟩ := h
  rcases (below_parse G n).1 .base s with hp | hp
  · rw [hn] at hp
    exact absurd hp ho
  · exact ⟨n, by rw [← hp, hn], hf⟩

/-! ## The provided source streams -/

/-- New datums in `Box`es, `Rc`s or `Arc`s. -/
theorem heap_newDatum {box : Bool} {d : Dat τ ε} {D rs} {h : Heap τ ε} {xs : List (Res τ ε)} (hp : Parts d D rs)
    (H : HeapOwn box h (rs ++ xs)) :
    NewOut (HeapOwn box) D xs (match (heapMem τ ε box).newDatum d h with | (r, a') => (some r, a')) :=
  HeapOwn.alloc hp (Nat.le_refl _) H

theorem careful_text (box : Bool) {O : ChunkOps C CS P} {cc : Classifier} {unused}
    {lookup : Dat (TextVec C) ε → Heap (TextVec C) ε → Option (Option (UCombiner (TextVec C) ε (Heap (TextVec C) ε) P CE))}
    (hl : ∀ d h c, lookup d h = some (some c) → c.Careful (HeapOwn box)) :
    ((textEnv O (textVec _ O) cc (heapMem _ _ box) unused).unwinding lookup).Careful (HeapOwn box) where
  nextAccum {s a xs} H := by
    obtain ⟨o, s', a', b', h1, _, h3⟩ := (textIterOps_lock O
      (textVec_lock O fun a (_ : Unit) => HeapOwn box a xs)).nextAccum (b := ()) H s
    simp only [Env.unwinding, textEnv, h1]
    exact h3
  accumDone {s a xs} H := by
    obtain ⟨o, s', a', b', h1, _, h3⟩ := (textIterOps_lock O
      (textVec_lock O fun a (_ : Unit) => HeapOwn box a xs)).accumDone (b := ()) H s
    simp only [Env.unwinding, textEnv, h1]
    exact h3
  concat {t u a xs} H := by
    obtain ⟨o, a', b', h1, _, h3⟩ := (textVec_lock O fun a (_ : Unit) => HeapOwn box a xs).concat (b := ()) H t u
    simp only [Env.unwinding, textEnv, TextType.ops, h1]
    exact h3
  newDatum := heap_newDatum
  lookup _ _ h := hl _ _ _ h
  strmPanics _ h := by cases h
  panics _ h := by cases h

theorem careful_strings (box : Bool) {cc : Classifier} {unused}
    {lookup : Dat (TextVec PosStrish) ε → Heap (TextVec PosStrish) ε →
      Option (Option (UCombiner (TextVec PosStrish) ε (Heap (TextVec PosStrish) ε) CharPos CE))}
    (hl : ∀ d h c, lookup d h = some (some c) → c.Careful (HeapOwn box)) :
    ((strishEnv (textVec _ posStrishOps) cc (heapMem _ _ box) unused).unwinding lookup).Careful (HeapOwn box) where
  nextAccum {s a xs} H := by
    obtain ⟨o, s', a', b', h1, _, h3⟩ := (strishIterOps_lock
      (textVec_lock posStrishOps fun a (_ : Unit) => HeapOwn box a xs)).nextAccum (b := ()) H s
    simp only [Env.unwinding, strishEnv, h1]
    exact h3
  accumDone {s a xs} H := by
    obtain ⟨o, s', a', b', h1, _, h3⟩ := (strishIterOps_lock
      (textVec_lock posStrishOps fun a (_ : Unit) => HeapOwn box a xs)).accumDone (b := ()) H s
    simp only [Env.unwinding, strishEnv, h1]
    exact h3
  concat {t u a xs} H := by
    obtain ⟨o, a', b', h1, _, h3⟩ :=
      (textVec_lock posStrishOps fun a (_ : Unit) => HeapOwn box a xs).concat (b := ()) H t u
    simp only [Env.unwinding, strishEnv, TextType.ops, h1]
    exact h3
  newDatum := heap_newDatum
  lookup _ _ h := hl _ _ _ h
  strmPanics _ h := by cases h
  panics _ h := by cases h

/-- C72, for sources in memory: only combiners, and `lookup`, can panic, and only combiners need to respect ownership. -/
theorem C72_text (box : Bool) (O : ChunkOps C CS P) (cc : Classifier) {unused}
    {lookup : Dat (TextVec C) ε → Heap (TextVec C) ε → Option (Option (UCombiner (TextVec C) ε (Heap (TextVec C) ε) P CE))}
    (hl : ∀ d h c, lookup d h = some (some c) → c.Careful (HeapOwn box)) (src : TextIter C CS P (TextVec C)) {held s}
    (h : ((textEnv O (textVec _ O) cc (heapMem _ _ box) unused).unwinding lookup).Uses (St.init src Heap.empty) held s) :
    Sound ((textEnv O (textVec _ O) cc (heapMem _ _ box) unused).unwinding lookup) box held s :=
  C72_heap box rfl (careful_text box hl) src h

/-- C72, the same for sources that are iterators of strings. -/
theorem C72_strings (box : Bool) (cc : Classifier) {unused}
    {lookup : Dat (TextVec PosStrish) ε → Heap (TextVec PosStrish) ε →
      Option (Option (UCombiner (TextVec PosStrish) ε (Heap (TextVec PosStrish) ε) CharPos CE))}
    (hl : ∀ d h c, lookup d h = some (some c) → c.Careful (HeapOwn box)) (src : StrishIter (TextVec PosStrish)) {held s}
    (h : ((strishEnv (textVec _ posStrishOps) cc (heapMem _ _ box) unused).unwinding lookup).Uses
      (St.init src Heap.empty) held s) :
    Sound ((strishEnv (textVec _ posStrishOps) cc (heapMem _ _ box) unused).unwinding lookup) box held s :=
  C72_heap box rfl (careful_strings box hl) src h

/-! ## Instances -/

/-- What is done in a history. -/
inductive UDo (σ : Type) where
  | call
  | drop (k : Nat)
  | clone (k : Nat)
  | parse (src : σ)

def useUnwind (U : UEnv σ P τ ε (Heap τ ε) CE) (n : Nat) :
    List (UDo σ) → List Nat × List (Dat τ ε) × St σ (Heap τ ε) → Option (List Nat × List (Dat τ ε) × St σ (Heap τ ε))
  | [], x => some x
  | .call :: l, (os, held, s) =>
    match U.parseNext n .base s with
    | (.ok (some d), s') => useUnwind U n l (os ++ [0], held ++ [d], s')
    | (.ok none, s') => useUnwind U n l (os ++ [1], held, s')
    | (.err _, s') => useUnwind U n l (os ++ [2], held, s')
    | (.panic, s') => useUnwind U n l (os ++ [3], held, s')
    | (.fuel, _) => none
  | .drop k :: l, (os, held, s) =>
    match held.drop k with
    | d :: held' => useUnwind U n l (os, held.take k ++ held', { s with alloc := U.env.alloc.dropDat d s.alloc })
    | [] => none
  | .clone k :: l, (os, held, s) =>
    match held[k]? with
    | some d =>
      match U.env.alloc.clone n d s.alloc with
      | some (d', a) => useUnwind U n l (os, held ++ [d'], { s with alloc := a })
      | none => none
    | none => none
  | .parse src :: l, (os, held, s) => useUnwind U n l (os, held, St.init src s.alloc)

theorem useUnwind_uses {box : Bool} {U : UEnv σ P τ ε (Heap τ ε) CE} (ha : U.env.alloc = heapMem τ ε box)
    (H : U.Careful (HeapOwn box)) {n : Nat} {src : σ} (l : List (UDo σ)) : ∀ {x y},
      (∃ held, held.map (·.2) = x.2.1 ∧ U.Uses (St.init src Heap.empty) held x.2.2) → useUnwind U n l x = some y →
      ∃ held, held.map (·.2) = y.2.1 ∧ U.Uses (St.init src Heap.empty) held y.2.2 := by
  induction l with
  | nil => intro x y h e; cases e; exact h
  | cons d l ih =>
    rintro ⟨os, ds, s⟩ y ⟨held, rfl, h⟩ e
    simp only at h
    cases d with
    | call =>
      simp only [useUnwind] at e
      split at e
      · next hp =>
        obtain ⟨D, hD⟩ := (C72_heap box ha H src h).2.2.2 _ _ ⟨n, hp, by simp⟩
        exact ih ⟨held ++ [(D, _)], by simp, .datum h ⟨n, hp, by simp⟩ hD⟩ e
      · next hp => exact ih ⟨held, rfl, .other h ⟨n, hp, by simp⟩ (by simp)⟩ e
      · next hp => exact ih ⟨held, rfl, .other h ⟨n, hp, by simp⟩ (by simp)⟩ e
      · next hp => exact ih ⟨held, rfl, .other h ⟨n, hp, by simp⟩ (by simp)⟩ e
      · cases e
    | drop k =>
      simp only [useUnwind] at e
      split at e
      · next d held' hk =>
        rw [← List.map_drop] at hk
        obtain ⟨⟨D, d'⟩, l', h1, h2, h3⟩ := List.map_eq_cons_iff.mp hk
        cases h2
        subst h3
        refine ih ⟨held.take k ++ l', by simp, .drop (D := D) ?_⟩ e
        rw [← h1, List.take_append_drop]
        exact h
      · cases e
    | clone k =>
      simp only [useUnwind] at e
      split at e
      · next d hk =>
        split at e
        · next d' a hc =>
          rw [List.getElem?_map] at hk
          obtain ⟨⟨D, d⟩, h1, h2⟩ := Option.map_eq_some_iff.mp hk
          cases h2
          exact ih ⟨held ++ [(D, d')], by simp, .clone (s := s) h (List.mem_of_getElem? h1) hc⟩ e
        · cases e
      · cases e
    | parse src' => exact ih ⟨held, rfl, .parse src' h⟩ e

/-- From a run to a history. -/
theorem usesUnwind_of_view {V : Type} {box : Bool} {U : UEnv σ P τ ε (Heap τ ε) CE} (ha : U.env.alloc = heapMem τ ε box)
    (H : U.Careful (HeapOwn box)) (n : Nat) (src : σ) (l : List (UDo σ)) (v : V) (view : List (Dat τ ε) → Heap τ ε → V)
    (os : List Nat) (h : (useUnwind U n l ([], [], St.init src Heap.empty)).map (fun x => (x.1, view x.2.1 x.2.2.alloc)) =
      some (os, v)) :
    ∃ held s, U.Uses (St.init src Heap.empty) held s ∧ view (held.map (·.2)) s.alloc = v := by
  cases hu : useUnwind U n l ([], [], St.init src Heap.empty) with
  | none => rw [hu] at h; cases h
  | some y =>
    rw [hu] at h
    cases h
    obtain ⟨held, h1, h2⟩ := useUnwind_uses ha H l ⟨[], rfl, .start⟩ hu
    exact ⟨held, _, h2, by rw [h1]⟩

private def str (s : String) : Str := s.toList

/-- A source stream that panics at some of the times when it is called. -/
private def flaky {α : Type} (S : StreamOps σ P τ α) : StreamOps (σ × List Bool) P τ α where
  peek s := match s.2 with
    | true :: bs => (.panic, (s.1, bs))
    | bs => match S.peek s.1 with | (o, s') => (o, (s', bs.tail))
  next s := match s.2 with
    | true :: bs => (.panic, (s.1, bs))
    | bs => match S.next s.1 with | (o, s') => (o, (s', bs.tail))
  nextAccum s a := match s.2 with
    | true :: bs => (.panic, (s.1, bs), a)
    | bs => match S.nextAccum s.1 a with | (o, s', a') => (o, (s', bs.tail), a')
  accumDone s a := match s.2 with
    | true :: bs => (.panic, (s.1, bs), a)
    | bs => match S.accumDone s.1 a with | (o, s', a') => (o, (s', bs.tail), a')

private abbrev T := TextVec PosStr

/-- The operator `p` drops its operands and returns the operator, or panics if the operands are the empty list. -/
private def picky (box : Bool) : UCombiner T Empty (Heap T Empty) StrPos Empty :=
  .applicative fun d d' h => match d' with
    | .emptyList => (none, (heapMem _ _ box).dropDat d h)
    | d' => (some (.ok (some d)), (heapMem _ _ box).dropDat d' h)

/-- A parser of strings in memory, where the source stream may panic; where `new_datum` panics if it is given a combination,
which it drops; where `lookup` panics for the operator `{}`; with the combiner `p`; where the classifier panics if it is asked
whether `!` starts a nest; and where `get_mut` panics when there were ten allocations. -/
private def fragile (box : Bool) :
    UEnv (TextIter PosStr PosStrIter StrPos T × List Bool) StrPos T Empty (Heap T Empty) Empty where
  env :=
    { cc := defaultClassifier
      strm := flaky (textIterOps posStrOps (textVec _ posStrOps))
      text := (textVec _ posStrOps).ops
      alloc := heapMem _ _ box
      lookup := unbound _ _ _ _ _ }
  newDatum d h := match d with
    | .combination p q => (none, (heapMem _ _ box).dropDat (.combination p q) h)
    | d => match (heapMem _ _ box).newDatum d h with | (r, a') => (some r, a')
  lookup d _ := match d with
    | .text (.single c) => some (if c.val = str "p" then some (picky box) else none)
    | .emptyNest => none
    | _ => some none
  strmPanics _ _ _ := none
  panics c h := match c with
    | .ask .nestStart '!' => some h
    | .getMut => if h.size = 10 then some h else none
    | _ => none

private theorem careful_picky (box : Bool) : (picky box).Careful (HeapOwn box) := by
  intro d D rs d' D' rs' h xs hp hp' H
  have L := heapOwnLaws (τ := T) (ε := Empty) (β := Unit) (box := box) (u := box) id
  cases hp' with
  | emptyList => exact L.dropDat hp h () _ H
  | text | emptyNest | extra => exact ⟨D, rs, hp, H⟩
  | combination | list =>
    have H' := L.perm (b := ()) H (List.perm_append_comm_assoc rs [_, _] xs)
    exact ⟨D, rs, hp, L.dropRef (b := ()) (L.dropRef (b := ()) H')⟩

/-- The hypothesis of `C72_heap`. -/
private theorem fragile_careful (box : Bool) : (fragile box).Careful (HeapOwn box) where
  nextAccum {s a xs} H := by
    obtain ⟨s, bs⟩ := s
    have key : HeapOwn box (textIterOps posStrOps (textVec _ posStrOps) |>.nextAccum s a).2.2 xs := by
      obtain ⟨o, s', a', b', h1, _, h3⟩ := (textIterOps_lock posStrOps
        (textVec_lock posStrOps fun a (_ : Unit) => HeapOwn box a xs)).nextAccum (b := ()) H s
      rw [h1]
      exact h3
    rcases bs with _ | ⟨_ | _, bs⟩
    · exact key
    · exact key
    · exact H
  accumDone {s a xs} H := by
    obtain ⟨s, bs⟩ := s
    have key : HeapOwn box (textIterOps posStrOps (textVec _ posStrOps) |>.accumDone s a).2.2 xs := by
      obtain ⟨o, s', a', b', h1, _, h3⟩ := (textIterOps_lock posStrOps
        (textVec_lock posStrOps fun a (_ : Unit) => HeapOwn box a xs)).accumDone (b := ()) H s
      rw [h1]
      exact h3
    rcases bs with _ | ⟨_ | _, bs⟩
    · exact key
    · exact key
    · exact H
  concat {t u a xs} H := by
    obtain ⟨o, a', b', h1, _, h3⟩ := (textVec_lock posStrOps fun a (_ : Unit) => HeapOwn box a xs).concat (b := ()) H t u
    simp only [fragile, TextType.ops, h1]
    exact h3
  newDatum {d D rs a xs} hp H := by
    cases hp with
    | combination => exact (heapOwnLaws (β := Unit) (box := box) (u := box) id).dropDat .combination a () _ H
    | _ => exact heap_newDatum (by constructor) H
  lookup {d D rs a xs c} _ _ h := by
    simp only [fragile] at h
    split at h
    · split at h
      · cases h
        exact careful_picky box
      · cases h
    · cases h
    · cases h
  strmPanics _ h := by cases h
  panics {c a a' xs} H h := by
    simp only [fragile] at h
    split at h
    · cases h; exact H
    · split at h
      · cases h; exact H
      · cases h
    · cases h

private abbrev Src := TextIter PosStr PosStrIter StrPos T × List Bool

/-- Strong counts of what is live; and the size of the memory. -/
private def whatLives (_ : List (Dat T Empty)) (h : Heap T Empty) : List (Addr × Nat) × Nat :=
  ((List.range h.size).filterMap fun p => (h.cells p).map fun c => (p, c.strong), h.size)

private def from' (s : String) (n : Nat) : Src := (inmemSource (str s), List.replicate n false ++ [true])

/-- C72: the stream panics when all but the last `}` was read. All four allocations are gone. -/
example : ∃ held s, (fragile false).Uses (St.init (from' "{a {} b}" 26) Heap.empty) held s ∧
    whatLives (held.map (·.2)) s.alloc = ([], 4) :=
  usesUnwind_of_view rfl (fragile_careful false) 60 _ [.call] _ _ [3] (by decide +kernel)

/-- C72, with `Rc`s: the first datum was cloned before a combiner panicked, and dropped after that; then another source is
parsed. -/
example : ∃ held s, (fragile false).Uses (St.init (from' "{a}{d {p {} c} {p}}" 80) Heap.empty) held s ∧
    whatLives (held.map (·.2)) s.alloc = ([(0, 1), (1, 1), (14, 1), (15, 1), (16, 1), (17, 1)], 18) :=
  usesUnwind_of_view rfl (fragile_careful false) 60 _
    [.call, .clone 0, .call, .drop 0, .parse (from' "{d {p {} c}}" 80), .call] _ _ [0, 3, 0] (by decide +kernel)

/-- C72, with `Box`es: `new_datum` panicked instead. -/
example : ∃ held s, (fragile true).Uses (St.init (from' "{a}{d {q {} c}}" 80) Heap.empty) held s ∧
    whatLives (held.map (·.2)) s.alloc = ([(2, 1), (3, 1), (14, 1), (15, 1), (16, 1), (17, 1)], 18) :=
  usesUnwind_of_view rfl (fragile_careful true) 60 _
    [.call, .clone 0, .call, .drop 0, .parse (from' "{d {p {} c}}" 80), .call] _ _ [0, 3, 0] (by decide +kernel)

/-- C72: `lookup` panicked, and the other datum was dropped. `C72_all_dropped` applies. -/
example : ∃ held s, (fragile true).Uses (St.init (from' "{a}{d {p {} c} {{} e}" 80) Heap.empty) held s ∧
    (held.length, whatLives (held.map (·.2)) s.alloc) = (0, ([], 10)) :=
  by
  have := usesUnwind_of_view rfl (fragile_careful true) 60 (from' "{a}{d {p {} c} {{} e}" 80) [.call, .call, .drop 0]
    (0, ([], 10)) (fun ds h => (ds.length, whatLives ds h)) [0, 3] (by decide +kernel)
  simpa using this

/-- C72: the classifier panicked, first in a text and, called again, at once; and then, in another source, `get_mut` did. Of the
ten allocations, none is left. -/
example : ∃ held s, (fragile false).Uses (St.init (from' "{a {} b!" 80) Heap.empty) held s ∧
    whatLives (held.map (·.2)) s.alloc = ([], 10) :=
  usesUnwind_of_view rfl (fragile_careful false) 60 _
    [.call, .call, .parse (from' "{p {}{}{}{}}" 80), .call] _ _ [3, 3, 3] (by decide +kernel)

/-- C72, for the parser of `kul::common::inmem`, with the combiner `p`, for any string, and whatever else is parsed. -/
example (box : Bool) (string : Str) {held s}
    (h : ((inmemEnv box (unbound _ _ _ _ _)).unwinding fun _ _ => some (some (picky box))).Uses
      (St.init (inmemSource string) Heap.empty) held s) :
    s.alloc.Exact (held.map (·.2)) :=
  (C72_text box posStrOps defaultClassifier (fun _ _ _ h => by cases h; exact careful_picky box) _ h).2.1

/-- `C72_until_panic` applies if combiners do not panic before they did anything. -/
example (box : Bool) {s o s'} (h : ((inmemEnv (ε := Empty) (CE := Empty) box fun _ _ =>
      some (.operative fun d _ h => (.ok (some d), h))).unwinding fun _ _ =>
      some (some (.operative fun d t h => (match t with | .multi [] => none | _ => some (.ok (some d)), h)))).Call s o s')
    (ho : o ≠ .panic) :
    (inmemEnv box fun _ _ => some (.operative fun d _ h => (.ok (some d), h))).Call s o s' :=
  C72_until_panic ⟨fun h => by cases h; rfl, fun {d a c} h => by
    cases h
    intro d t a r a' h
    simp only at h
    split at h
    · cases h
    · cases h; rfl⟩ h ho

end Kul.Mem
