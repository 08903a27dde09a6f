import Verif.Spec.ThreadsUnwind
import Verif.Props.AnyStream

/-!
# C87: panics of user-supplied code while other threads use the same memory

C71 and C72 together. `UEnv` is the parser any part of which that is user-supplied may panic; `busyMem` is the memory of
`Arc`s that other threads use in between.
-/

namespace Kul.Mem

variable {σ C CS P τ ε CE : Type}

theorem amongLaws : OwnLaws (busyMem τ ε) fun a (_ : Unit) => Among a := busyOwnLaws (β := Unit) (w₀ := Scene.empty)

theorem among_history {U : UEnv σ P τ ε (Busy τ ε) CE} (ha : U.env.alloc = busyMem τ ε) (H : U.Careful Among) {src : σ}
    {script : List (Turn τ ε)} {held s} (h : U.UsesAmong (St.init src (Busy.start script)) held s) :
    ∃ xs, Holds held xs ∧ Among s.alloc xs := by
  have L : OwnLaws U.env.alloc fun a (_ : Unit) => Among a := ha ▸ amongLaws
  induction h with
  | start => exact ⟨[], .nil, BusyOwn.start script ()⟩
  | datum _ hc hr ih =>
    obtain ⟨xs, h1, h2⟩ := ih
    rcases UEnv.call L H hc h2 with ⟨d, D, rs, e, h3, h4⟩ | ⟨h3, _⟩
    · cases e
      cases hr.det (L.readsDat (b := ()) h3 h4)
      exact ⟨xs ++ rs, h1.snoc h3, L.perm (b := ()) h4 List.perm_append_comm⟩
    · exact absurd rfl (h3 _)
  | other _ hc hn ih =>
    obtain ⟨xs, h1, h2⟩ := ih
    rcases UEnv.call L H hc h2 with ⟨d, D, rs, e, _⟩ | ⟨_, h4⟩
    · exact absurd e (hn _)
    · exact ⟨xs, h1, h4⟩
  | drop _ ih =>
    obtain ⟨xs, h1, h2⟩ := ih
    obtain ⟨rs, ys, m1, m2, m3⟩ := h1.remove
    exact ⟨ys, m2, UEnv.dropDat L m1 (L.perm (b := ()) h2 m3)⟩
  | clone _ hi he ih =>
    obtain ⟨xs, h1, h2⟩ := ih
    obtain ⟨rs, ys, m2, m3⟩ := h1.pick hi
    obtain ⟨rs', m4, m5⟩ := busyClone (β := Unit) (w₀ := Scene.empty) ha m2 (L.perm (b := ()) h2 m3) he
    exact ⟨xs ++ rs', h1.snoc m4, L.perm (b := ()) m5 ((m3.symm.append_left rs').trans List.perm_append_comm)⟩
  | parse _ _ ih => exact ih
  | turn _ ih =>
    obtain ⟨xs, h1, h2⟩ := ih
    exact ⟨xs, h1, BusyOwn.turn h2⟩
  | give _ ih =>
    obtain ⟨xs, h1, h2⟩ := ih
    obtain ⟨rs, ys, m1, m2, m3⟩ := h1.remove
    have := (BusyOwn.perm h2 m3).give m1.places
    rw [m1.addrs] at this
    exact ⟨ys, m2, this⟩

/-- C87. In memory of `Arc`s that others use: whatever panics, whatever the others do, and after any history. -/
theorem C87_among {U : UEnv σ P τ ε (Busy τ ε) CE} (ha : U.env.alloc = busyMem τ ε) (H : U.Careful Among) (src : σ)
    (script : List (Turn τ ε)) {held s} (h : U.UsesAmong (St.init src (Busy.start script)) held s) :
    SoundAmong U held s := by
  have L : OwnLaws U.env.alloc fun a (_ : Unit) => Among a := ha ▸ amongLaws
  obtain ⟨xs, h1, h2⟩ := among_history ha H h
  obtain ⟨a1, a2⟩ := h1.addrs
  rw [List.flatMap_map] at a1
  have h2' := h2
  obtain ⟨evs, mine, h3, h4, h5, h6, ys, h7, h8, W⟩ := h2'
  have key : s.alloc.others.opened = [] → _ := fun ho => by
    have h9 : places ys = [] := by
      have := h7.opened
      rw [ho] at this
      exact this.eq_nil
    refine HeapOwn.live (ps := held.flatMap (·.2.refs) ++ s.alloc.others.refs) h8 ?_ (by rw [places_append, a2, h9]; rfl)
    rw [List.map_append, a1]
    refine List.perm_append_comm.trans (List.Perm.append_left _ ?_)
    have := h7.refs
    rwa [refsOf_eq h9] at this
  refine ⟨fun D d hd => ?_, ⟨evs, mine, h3, h4, List.Perm.nil_eq ?_ |>.symm, h6, ?_⟩, fun ho => (key ho).1,
    fun ho => (key ho).2, W.count, fun d s' hc => ?_⟩
  · obtain ⟨rs, zs, h3, h4⟩ := h1.pick hd
    exact L.readsDat (b := ()) h3 (L.perm (b := ()) h2 h4)
  · have := h5.opened
    rwa [a2] at this
  · have := h5.refs
    rw [refsOf_eq a2, a1] at this
    exact this.symm
  · rcases UEnv.call L H hc h2 with ⟨d', D, rs, e, h3, h4⟩ | ⟨hn, _⟩
    · cases e
      exact ⟨D, L.readsDat (b := ()) h3 h4⟩
    · exact absurd rfl (hn d)

/-- C87. When nobody holds anything any more, nothing is left, whatever panicked. -/
theorem C87_all_dropped {U : UEnv σ P τ ε (Busy τ ε) CE} {s} (S : SoundAmong U [] s) (hr : s.alloc.others.refs = [])
    (ho : s.alloc.others.opened = []) (p : Addr) : s.alloc.heap.cells p = none := by
  by_contra hn
  have hr' := (S.live ho p).mp hn
  rw [hr] at hr'
  clear hn
  induction hr' with
  | root h => cases h
  | ref _ _ _ ih => exact ih

/-- A datum that is made in memory of `Arc`s. -/
theorem among_newDatum {d : Dat τ ε} {D rs} {a : Busy τ ε} {xs : List (Res τ ε)} (hp : Parts d D rs)
    (H : Among a (rs ++ xs)) :
    NewOut Among D xs (match (busyMem τ ε).newDatum d a with | (r, a') => (some r, a')) :=
  BusyOwn.close hp (BusyOwn.new d H).turn

/-- With any source stream and any texts: only combiners need to respect ownership. -/
theorem among_careful {S : StreamOps σ P τ Unit} {T : TextOps τ Unit} {cc : Classifier}
    {lookup : Dat τ ε → Busy τ ε → Option (Option (UCombiner τ ε (Busy τ ε) P CE))}
    (hl : ∀ d a c, lookup d a = some (some c) → c.Careful Among) (strmPanics : StreamCall → σ → Busy τ ε → Option σ)
    (newPanics : Dat τ ε → Busy τ ε → Bool) (panics : UserCall τ ε → Busy τ ε → Bool) :
    (anyUEnv S T cc (busyMem _ _) lookup strmPanics newPanics panics).Careful Among where
  nextAccum H := H
  accumDone H := H
  concat H := H
  newDatum {d D rs a xs} hp H := by
    simp only [anyUEnv]
    split
    · exact amongLaws.dropDat hp a () _ H
    · exact among_newDatum hp H
  lookup _ _ h := hl _ _ _ h
  strmPanics {c s a s' a' xs} H h := by
    obtain ⟨s'', _, h⟩ := Option.map_eq_some_iff.mp h
    cases h
    exact H
  panics {c a a' xs} H h := by
    simp only [anyUEnv] at h
    split at h
    · cases h; exact H
    · cases h

/-- C87, with any source stream and any texts, whatever panics: only combiners need to respect ownership. -/
theorem C87_anywhere {S : StreamOps σ P τ Unit} {T : TextOps τ Unit} {cc : Classifier}
    {lookup : Dat τ ε → Busy τ ε → Option (Option (UCombiner τ ε (Busy τ ε) P CE))}
    (hl : ∀ d a c, lookup d a = some (some c) → c.Careful Among) (strmPanics : StreamCall → σ → Busy τ ε → Option σ)
    (newPanics : Dat τ ε → Busy τ ε → Bool) (panics : UserCall τ ε → Busy τ ε → Bool) (src : σ) (script : List (Turn τ ε))
    {held s} (h : (anyUEnv S T cc (busyMem _ _) lookup strmPanics newPanics panics).UsesAmong
      (St.init src (Busy.start script)) held s) :
    SoundAmong (anyUEnv S T cc (busyMem _ _) lookup strmPanics newPanics panics) held s :=
  C87_among rfl (among_careful hl strmPanics newPanics panics) src script h

theorem among_text {O : ChunkOps C CS P} {cc : Classifier} {unused}
    {lookup : Dat (TextVec C) ε → Busy (TextVec C) ε → Option (Option (UCombiner (TextVec C) ε (Busy (TextVec C) ε) P CE))}
    (hl : ∀ d h c, lookup d h = some (some c) → c.Careful Among) :
    ((textEnv O (textVec _ O) cc (busyMem _ _) unused).unwinding lookup).Careful Among where
  nextAccum {s a xs} H := by
    obtain ⟨o, s', a', b', h1, _, h3⟩ := (textIterOps_lock O
      (textVec_lock O fun a (_ : Unit) => Among a xs)).nextAccum (b := ()) H s
    simp only [Env.unwinding, textEnv, h1]
    exact h3
  accumDone {s a xs} H := by
    obtain ⟨o, s', a', b', h1, _, h3⟩ := (textIterOps_lock O
      (textVec_lock O fun a (_ : Unit) => Among a xs)).accumDone (b := ()) H s
    simp only [Env.unwinding, textEnv, h1]
    exact h3
  concat {t u a xs} H := by
    obtain ⟨o, a', b', h1, _, h3⟩ := (textVec_lock O fun a (_ : Unit) => Among a xs).concat (b := ()) H t u
    simp only [Env.unwinding, textEnv, TextType.ops, h1]
    exact h3
  newDatum := among_newDatum
  lookup _ _ h := hl _ _ _ h
  strmPanics _ h := by cases h
  panics _ h := by cases h

theorem among_strings {cc : Classifier} {unused}
    {lookup : Dat (TextVec PosStrish) ε → Busy (TextVec PosStrish) ε →
      Option (Option (UCombiner (TextVec PosStrish) ε (Busy (TextVec PosStrish) ε) CharPos CE))}
    (hl : ∀ d h c, lookup d h = some (some c) → c.Careful Among) :
    ((strishEnv (textVec _ posStrishOps) cc (busyMem _ _) unused).unwinding lookup).Careful Among where
  nextAccum {s a xs} H := by
    obtain ⟨o, s', a', b', h1, _, h3⟩ := (strishIterOps_lock
      (textVec_lock posStrishOps fun a (_ : Unit) => Among a xs)).nextAccum (b := ()) H s
    simp only [Env.unwinding, strishEnv, h1]
    exact h3
  accumDone {s a xs} H := by
    obtain ⟨o, s', a', b', h1, _, h3⟩ := (strishIterOps_lock
      (textVec_lock posStrishOps fun a (_ : Unit) => Among a xs)).accumDone (b := ()) H s
    simp only [Env.unwinding, strishEnv, h1]
    exact h3
  concat {t u a xs} H := by
    obtain ⟨o, a', b', h1, _, h3⟩ :=
      (textVec_lock posStrishOps fun a (_ : Unit) => Among a xs).concat (b := ()) H t u
    simp only [Env.unwinding, strishEnv, TextType.ops, h1]
    exact h3
  newDatum := among_newDatum
  lookup _ _ h := hl _ _ _ h
  strmPanics _ h := by cases h
  panics _ h := by cases h

/-- C87, for sources in memory: only combiners, and `lookup`, can panic, and only combiners need to respect ownership. -/
theorem C87_text (O : ChunkOps C CS P) (cc : Classifier) {unused}
    {lookup : Dat (TextVec C) ε → Busy (TextVec C) ε → Option (Option (UCombiner (TextVec C) ε (Busy (TextVec C) ε) P CE))}
    (hl : ∀ d h c, lookup d h = some (some c) → c.Careful Among) (src : TextIter C CS P (TextVec C))
    (script : List (Turn (TextVec C) ε)) {held s}
    (h : ((textEnv O (textVec _ O) cc (busyMem _ _) unused).unwinding lookup).UsesAmong (St.init src (Busy.start script))
      held s) :
    SoundAmong ((textEnv O (textVec _ O) cc (busyMem _ _) unused).unwinding lookup) held s :=
  C87_among rfl (among_text hl) src script h

/-- C87, the same for sources that are iterators of strings. -/
theorem C87_strings (cc : Classifier) {unused}
    {lookup : Dat (TextVec PosStrish) ε → Busy (TextVec PosStrish) ε →
      Option (Option (UCombiner (TextVec PosStrish) ε (Busy (TextVec PosStrish) ε) CharPos CE))}
    (hl : ∀ d h c, lookup d h = some (some c) → c.Careful Among) (src : StrishIter (TextVec PosStrish))
    (script : List (Turn (TextVec PosStrish) ε)) {held s}
    (h : ((strishEnv (textVec _ posStrishOps) cc (busyMem _ _) unused).unwinding lookup).UsesAmong
      (St.init src (Busy.start script)) held s) :
    SoundAmong ((strishEnv (textVec _ posStrishOps) cc (busyMem _ _) unused).unwinding lookup) held s :=
  C87_among rfl (among_strings hl) src script h

/-! ## Cases that meet the hypotheses -/

/-- What is done in a history, besides `UDo`: it is the others' turn; they are given the datum at a place in the list. -/
inductive UDoAmong (σ : Type) where
  | call
  | drop (k : Nat)
  | clone (k : Nat)
  | parse (src : σ)
  | turn
  | give (k : Nat)

def useUnwindAmong (U : UEnv σ P τ ε (Busy τ ε) CE) (n : Nat) :
    List (UDoAmong σ) → List Nat × List (Dat τ ε) × St σ (Busy τ ε) → Option (List Nat × List (Dat τ ε) × St σ (Busy τ ε))
  | [], x => some x
  | .call :: l, (os, held, s) =>
    match U.parseNext n .base s with
    | (.ok (some d), s') => useUnwindAmong U n l (os ++ [0], held ++ [d], s')
    | (.ok none, s') => useUnwindAmong U n l (os ++ [1], held, s')
    | (.err _, s') => useUnwindAmong U n l (os ++ [2], held, s')
    | (.panic, s') => useUnwindAmong U n l (os ++ [3], held, s')
    | (.fuel, _) => none
  | .drop k :: l, (os, held, s) =>
    match held.drop k with
    | d :: held' => useUnwindAmong U n l (os, held.take k ++ held', { s with alloc := U.env.alloc.dropDat d s.alloc })
    | [] => none
  | .clone k :: l, (os, held, s) =>
    match held[k]? with
    | some d =>
      match U.env.alloc.clone n d s.alloc with
      | some (d', a) => useUnwindAmong U n l (os, held ++ [d'], { s with alloc := a })
      | none => none
    | none => none
  | .parse src :: l, (os, held, s) => useUnwindAmong U n l (os, held, St.init src s.alloc)
  | .turn :: l, (os, held, s) => useUnwindAmong U n l (os, held, { s with alloc := s.alloc.turn })
  | .give k :: l, (os, held, s) =>
    match held.drop k with
    | d :: held' => useUnwindAmong U n l (os, held.take k ++ held', { s with alloc := s.alloc.give d.refs })
    | [] => none

theorem useUnwindAmong_uses {U : UEnv σ P τ ε (Busy τ ε) CE} (ha : U.env.alloc = busyMem τ ε) (H : U.Careful Among)
    {n : Nat} {src : σ} {script : List (Turn τ ε)} (l : List (UDoAmong σ)) : ∀ {x y},
      (∃ held, held.map (·.2) = x.2.1 ∧ U.UsesAmong (St.init src (Busy.start script)) held x.2.2) →
      useUnwindAmong U n l x = some y →
      ∃ held, held.map (·.2) = y.2.1 ∧ U.UsesAmong (St.init src (Busy.start script)) held y.2.2 := by
  induction l with
  | nil => intro x y h e; cases e; exact h
  | cons d l ih =>
    rintro ⟨os, ds, s⟩ y ⟨held, rfl, h⟩ e
    simp only at h
    cases d with
    | call =>
      simp only [useUnwindAmong] at e
      split at e
      · next hp =>
        obtain ⟨D, hD⟩ := (C87_among ha H src script h).returned _ _ ⟨n, hp, by simp⟩
        exact ih ⟨held ++ [(D, _)], by simp, .datum h ⟨n, hp, by simp⟩ hD⟩ e
      · next hp => exact ih ⟨held, rfl, .other h ⟨n, hp, by simp⟩ (by simp)⟩ e
      · next hp => exact ih ⟨held, rfl, .other h ⟨n, hp, by simp⟩ (by simp)⟩ e
      · next hp => exact ih ⟨held, rfl, .other h ⟨n, hp, by simp⟩ (by simp)⟩ e
      · cases e
    | drop k =>
      simp only [useUnwindAmong] at e
      split at e
      · next d held' hk =>
        rw [← List.map_drop] at hk
        obtain ⟨⟨D, d'⟩, l', h1, h2, h3⟩ := List.map_eq_cons_iff.mp hk
        cases h2
        subst h3
        refine ih ⟨held.take k ++ l', by simp, .drop (D := D) ?_⟩ e
        rw [← h1, List.take_append_drop]
        exact h
      · cases e
    | clone k =>
      simp only [useUnwindAmong] at e
      split at e
      · next d hk =>
        split at e
        · next d' a hc =>
          rw [List.getElem?_map] at hk
          obtain ⟨⟨D, d⟩, h1, h2⟩ := Option.map_eq_some_iff.mp hk
          cases h2
          exact ih ⟨held ++ [(D, d')], by simp, .clone (s := s) h (List.mem_of_getElem? h1) hc⟩ e
        · cases e
      · cases e
    | parse src' => exact ih ⟨held, rfl, .parse src' h⟩ e
    | turn => exact ih ⟨held, rfl, .turn h⟩ e
    | give k =>
      simp only [useUnwindAmong] at e
      split at e
      · next d held' hk =>
        rw [← List.map_drop] at hk
        obtain ⟨⟨D, d'⟩, l', h1, h2, h3⟩ := List.map_eq_cons_iff.mp hk
        cases h2
        subst h3
        refine ih ⟨held.take k ++ l', by simp, .give (D := D) ?_⟩ e
        rw [← h1, List.take_append_drop]
        exact h
      · cases e

/-- From a run to a history. -/
theorem usesUnwindAmong_of_view {V : Type} {U : UEnv σ P τ ε (Busy τ ε) CE} (ha : U.env.alloc = busyMem τ ε)
    (H : U.Careful Among) (n : Nat) (src : σ) (script : List (Turn τ ε)) (l : List (UDoAmong σ)) (v : V)
    (view : List (Dat τ ε) → Busy τ ε → V) (os : List Nat)
    (h : (useUnwindAmong U n l ([], [], St.init src (Busy.start script))).map (fun x => (x.1, view x.2.1 x.2.2.alloc)) =
      some (os, v)) :
    ∃ held s, U.UsesAmong (St.init src (Busy.start script)) held s ∧ view (held.map (·.2)) s.alloc = v := by
  cases hu : useUnwindAmong U n l ([], [], St.init src (Busy.start script)) with
  | none => rw [hu] at h; cases h
  | some y =>
    rw [hu] at h
    cases h
    obtain ⟨held, h1, h2⟩ := useUnwindAmong_uses ha H l ⟨[], rfl, .start⟩ hu
    exact ⟨held, _, h2, by rw [h1]⟩

private abbrev T := TextVec PosStrish

/-- An applicative that shares its first argument with the other threads and returns the list of arguments; it panics if there
is no argument. -/
private def share : UCombiner T Empty (Busy T Empty) CharPos Empty :=
  .applicative fun operator arguments a =>
    let a := (busyMem T Empty).dropDat operator a
    match arguments with
    | .list p q => (some (.ok (some (.list p q))), ({ a with heap := a.heap.clone p }.give [p]).turn)
    | d => (none, (busyMem T Empty).dropDat d a)

private theorem share_careful : share.Careful Among := by
  intro d D rs d' D' rs' a xs hp hp' H
  have H : Among ((busyMem T Empty).dropDat d a) (rs' ++ xs) := amongLaws.dropDat hp a () _ H
  have drop : Among ((busyMem T Empty).dropDat d' ((busyMem T Empty).dropDat d a)) xs := amongLaws.dropDat hp' _ () _ H
  cases hp' with
  | list => exact ⟨_, _, .list, ((BusyOwn.cloneRef H List.mem_cons_self).give (rs := [.ref _ _]) rfl).turn⟩
  | _ => exact drop

/-- Characters from an iterator, with the applicative `p`, where `get_mut` panics when there were seven allocations. -/
private def shaky : UEnv CharIter CharPos T Empty (Busy T Empty) Empty :=
  anyUEnv (charIterOps (textVec _ posStrishOps)) (textVec _ posStrishOps).ops defaultClassifier (busyMem _ _)
    (fun d _ => match d with
      | .text (.single c) => some (if c.val.strish = "p".toList then some share else none)
      | _ => some none)
    (fun _ _ _ => none) (fun _ _ => false) fun c a => c matches .getMut && a.heap.size == 7

private theorem shaky_careful : shaky.Careful Among := among_careful (fun d a c h => by
  split at h
  · split at h
    · cases h; exact share_careful
    · cases h
  · cases h) _ _ _

/-- Strong counts of what is live; what the others hold; and how many things they did. -/
private def whatIs (ds : List (Dat T Empty)) (a : Busy T Empty) : Nat × List (Addr × Nat) × Pool × Nat :=
  (ds.length, (List.range a.heap.size).filterMap fun p => (a.heap.cells p).map fun c => (p, c.strong), a.others, a.done.length)

/-- While `{p {}}` and `{a {}{} b}` are parsed, the others clone the argument that is shared with them, and make a datum. In the
end they drop all they have. -/
private def script : List (Turn T Empty) :=
  [⟨true, []⟩, ⟨true, []⟩, ⟨true, [.clone 0]⟩, ⟨true, [.make .emptyNest]⟩, ⟨true, [.close 3, .letGo 0, .takeOut 0]⟩,
   ⟨true, []⟩, ⟨true, [.clone 3]⟩, ⟨false, []⟩, ⟨true, []⟩, ⟨true, [.takeOut 5, .letGo 3, .takeOut 3]⟩, ⟨true, [.takeOut 0]⟩]

/-- C87: the first datum is held, and its part 0 is with the others, too, when `get_mut` panics in the second call; nothing that
this call had made is left. -/
example : ∃ held s, shaky.UsesAmong (St.init (.new "{p {}}{a {}{} b}".toList) (Busy.start script)) held s ∧
    whatIs (held.map (·.2)) s.alloc = (1, [(0, 2), (1, 1)], ⟨[0], [], []⟩, 7) :=
  usesUnwindAmong_of_view rfl shaky_careful 60 _ _ [.call, .call] _ _ [0, 3] (by decide +kernel)

/-- C87: then the datum is dropped, and a combiner panics when another source is parsed. Nothing is left: `C87_all_dropped`
applies. -/
example : ∃ held s, shaky.UsesAmong (St.init (.new "{p {}}{a {}{} b}".toList) (Busy.start script)) held s ∧
    whatIs (held.map (·.2)) s.alloc = (0, [], ⟨[], [], []⟩, 8) :=
  usesUnwindAmong_of_view rfl shaky_careful 60 _ _ [.call, .call, .drop 0, .parse (.new "{p}".toList), .call] _ _ [0, 3, 3]
    (by decide +kernel)

/-- C87: a datum that the others are given whole. -/
example : ∃ held s, shaky.UsesAmong (St.init (.new "{a}{p}".toList) (Busy.start [])) held s ∧
    whatIs (held.map (·.2)) s.alloc = (1, [(0, 2), (1, 2)], ⟨[0, 1], [], []⟩, 0) :=
  usesUnwindAmong_of_view rfl shaky_careful 60 _ _ [.call, .clone 0, .give 0, .call, .turn] _ _ [0, 3] (by decide +kernel)

/-- C87, for iterators of strings, with the combiner `p`, whatever the strings and the others. -/
example (strings : List Str) (script : List (Turn T Empty)) {held s}
    (h : ((strishEnv (textVec _ posStrishOps) defaultClassifier (busyMem _ _) (unbound _ _ _ _ _)).unwinding
      fun _ _ => some (some share)).UsesAmong (St.init (.new strings) (Busy.start script)) held s) :=
  (C87_strings defaultClassifier (fun _ _ _ h => by cases h; exact share_careful) _ script h).counts

end Kul.Mem
