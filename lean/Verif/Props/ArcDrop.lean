import Verif.Proof.ArcDepth

/-!
# C64: dropping of shared datums by several threads

`Comes w`: a program with any number of threads can come to `w`, by any interleaving of steps, where the threads
make datums, share them (`clone`, `downgrade`, `upgrade`, sending to other threads), take them apart or change them
as far as `Arc` allows, and drop references with the algorithm, all at the same time.
-/

namespace Kul.ArcDrop

open RcHeap (Reach)

variable {L : Type}

/-- C64, no failure. Whatever other threads have done and are doing, a thread that is dropping can go on: there is
no panic, and nothing is read or written that has been dropped or freed. All references held are to datums, and
all `Weak`s held can be dropped. -/
theorem C64_no_failure {w : World L} (h : Comes w) :
    (∀ th ∈ w.threads, ∀ t ts, th.tasks = t :: ts → ∃ ts' s', step t w.store = .ok (ts', s')) ∧
    (∀ k ∈ w.held, ∃ c, w.store.get k = some c) ∧
    (∀ k ∈ w.weaks, ∃ s', w.store.dropWeak k = some s') := by
  classical
  have g := h.good
  refine ⟨fun th hth t ts ht => ?_, fun k hk => ?_, fun k hk => ?_⟩
  · obtain ⟨pre, post, he⟩ := List.append_of_mem hth
    obtain ⟨s, threads⟩ := w
    simp only at he
    subst he
    have hm : t ∈ (World.mk s (pre ++ th :: post)).tasks :=
      (World.tasks_around _ _ _ _ _).mpr (Or.inl (by rw [ht]; exact List.mem_cons_self))
    have i : Inv s (t.refs ++ (ts.flatMap Task.refs ++ th.held ++ ((pre ++ post).flatMap (·.tasks)).flatMap Task.refs ++
        (pre ++ post).flatMap (·.held))) (World.mk s (pre ++ th :: post)).weaks
        (t.frees ++ (ts.flatMap Task.frees ++ ((pre ++ post).flatMap (·.tasks)).flatMap Task.frees)) :=
      g.inv.congr (fun j => by
        rw [(World.around s pre th post j).1, ht]
        simp only [List.flatMap_cons, List.append_assoc]) (fun _ => rfl) (fun j => by
        rw [(World.around s pre th post j).2.2, ht]
        simp only [List.flatMap_cons, List.append_assoc])
    obtain ⟨ts', s', h1, _⟩ := step_did i (g.ok t hm)
    exact ⟨ts', s', h1⟩
  · exact g.inv.got (List.mem_append_right _ hk)
  · obtain ⟨s', h1, _⟩ := g.inv.dropWeak (k := k) (W' := w.weaks.erase k) (F' := w.frees) (fun j => by
      have := (List.perm_cons_erase hk).count_eq j
      rw [this, List.count_cons]
      by_cases e : j = k
      · subst e
        simp
        omega
      · simp [e, Ne.symm e]) (fun j => (List.erase_sublist).count_le _) (fun _ => Nat.le_refl _)
    exact ⟨s', h1⟩

/-- C64, dropping ends. If the threads have just begun to drop references, at most quadratically many steps follow
in all, in any order; and it is over only when no thread has anything left to do. -/
theorem C64_ends {w : World L} (h : Comes w) (hb : ∀ th ∈ w.threads, ∀ t ∈ th.tasks, ∃ k, t = .drop k) {n : Nat}
    {w' : World L} (hs : DropSteps n w w') :
    n ≤ 20 * (w.store.size + 1) * (4 * (w.threads.flatMap (·.tasks)).length + 10 * w.store.size) ∧
    (w'.Idle ∨ ∃ w'', DropStep w' w'') := by
  classical
  have g := h.good
  obtain ⟨g', hn, -⟩ := g.dropSteps hs
  refine ⟨?_, ?_⟩
  · have h1 : ∀ ts : List (Task L), (∀ t ∈ ts, ∃ k, t = .drop k) →
        (ts.map Task.weight).sum = 4 * ts.length ∧ (ts.map (Task.steps w.store.live)).sum = 0 := by
      intro ts
      induction ts with
      | nil => exact fun _ => ⟨rfl, rfl⟩
      | cons t ts ih =>
        intro ht
        obtain ⟨k, rfl⟩ := ht t List.mem_cons_self
        obtain ⟨h1, h2⟩ := ih fun t h => ht t (List.mem_cons_of_mem _ h)
        refine ⟨?_, ?_⟩
        · rw [List.map_cons, List.sum_cons, h1, List.length_cons]
          simp only [Task.weight]
          omega
        · rw [List.map_cons, List.sum_cons, h2]
          rfl
    obtain ⟨h2, h3⟩ := h1 w.tasks fun t ht => by
      obtain ⟨th, h4, h5⟩ := List.mem_flatMap.mp ht
      exact hb th h4 t h5
    have h6 := kids_le w.store
    unfold World.bound at hn
    rw [h2, h3] at hn
    have h7 : (4 * w.tasks.length + 5 * total kidN w.store) * (20 * (w.store.size + 1)) ≤
        (4 * w.tasks.length + 10 * w.store.size) * (20 * (w.store.size + 1)) :=
      Nat.mul_le_mul_right _ (by omega)
    rw [Nat.mul_comm]
    change n ≤ (4 * w.tasks.length + 10 * w.store.size) * (20 * (w.store.size + 1))
    omega
  · by_cases hi : w'.Idle
    · exact Or.inl hi
    · right
      unfold World.Idle at hi
      push Not at hi
      obtain ⟨th, hth, hne⟩ := hi
      obtain ⟨t, ts, ht⟩ := List.exists_cons_of_ne_nil hne
      have hc : Comes w' := by
        clear hn g' g hb
        induction hs with
        | refl => exact h
        | step h1 _ ih => exact ih (.step h (.drop h1)) hth
      obtain ⟨ts', s', h1⟩ := (C64_no_failure hc).1 th hth t ts ht
      obtain ⟨pre, post, he⟩ := List.append_of_mem hth
      obtain ⟨s, threads⟩ := w'
      obtain ⟨tasks, held, weaks⟩ := th
      simp only at he ht h1
      subst he ht
      exact ⟨_, .run h1⟩

/-- C64, also in the midst of dropping, there is a bound for the number of steps that can follow. -/
theorem C64_ends_always {w : World L} (h : Comes w) : ∃ N, ∀ n w', DropSteps n w w' → n ≤ N := by
  classical
  exact ⟨w.bound, fun n w' hs => by
    have := (h.good.dropSteps hs).2.1
    omega⟩

/-- C64, what is held is left alone. While threads are dropping, the references that the program holds stay, and
all that can be reached from them is unchanged. -/
theorem C64_undisturbed {w : World L} (h : Comes w) {n : Nat} {w' : World L} (hs : DropSteps n w w') :
    w'.held = w.held ∧ w'.weaks = w.weaks ∧
    ∀ k, Reach w.store.live w.held k → w'.store.live.dat k = w.store.live.dat k ∧ (w.store.get k).isSome := by
  classical
  obtain ⟨-, -, h1, h2, h3, -⟩ := h.good.dropSteps hs
  refine ⟨h1, h2, fun k hk => ⟨h3.keep k hk, ?_⟩⟩
  have h4 : w.store.live k ≠ none := by
    cases hk with
    | out hk => exact h.good.inv.good.valid k (Or.inl (List.mem_append_right _ hk))
    | kid _ hk => exact h.good.inv.good.valid k (Or.inr ⟨_, hk⟩)
  unfold Store.live at h4
  cases hg : w.store.get k with
  | none => rw [hg] at h4; exact (h4 rfl).elim
  | some c => rfl

/-- C64, nothing is left over. When no thread is dropping, the cells with datums are those that can be reached from
references held, the only other cells are those of which a `Weak` is held, and the strong counts are right: once all
references and `Weak`s have been dropped, all memory has been freed. -/
theorem C64_nothing_left {w : World L} (h : Comes w) (hi : w.Idle) :
    (∀ k, (w.store.get k).isSome ↔ Reach w.store.live w.held k) ∧
    (∀ k, w.store.cells k ≠ none ↔ Reach w.store.live w.held k ∨ k ∈ w.weaks) ∧
    (∀ k c, w.store.get k = some c → c.strong = w.held.count k +
      ((List.range w.store.next).map fun j => (w.store.live.kids j).count k).sum) ∧
    (w.held = [] → w.weaks = [] → ∀ k, w.store.cells k = none) := by
  classical
  have g := h.good
  have ht : w.tasks = [] := by
    unfold World.tasks
    rw [List.flatMap_eq_nil_iff]
    exact hi
  have hr : w.refs = w.held := by simp [World.refs, ht]
  have hf : w.frees = [] := by simp [World.frees, ht]
  have i := g.inv
  rw [hr, hf] at i
  have live_iff : ∀ k, (w.store.get k).isSome ↔ w.store.live k ≠ none := fun k => by
    unfold Store.live
    cases w.store.get k <;> simp
  have a : ∀ k, (w.store.get k).isSome ↔ Reach w.store.live w.held k := fun k => by
    rw [live_iff]
    refine ⟨fun hk => i.good.reach hk, fun hk => ?_⟩
    cases hk with
    | out hk => exact i.good.valid k (Or.inl hk)
    | kid _ hk => exact i.good.valid k (Or.inr ⟨_, hk⟩)
  have b : ∀ k, w.store.cells k ≠ none ↔ Reach w.store.live w.held k ∨ k ∈ w.weaks := fun k => by
    constructor
    · intro hk
      obtain ⟨c, hc⟩ := Option.ne_none_iff_exists'.mp hk
      by_cases h0 : c.strong = 0
      · right
        have h1 := i.weak k c hc
        have h2 := i.wpos k c hc
        rw [if_pos h0, List.count_nil] at h1
        exact List.count_pos_iff.mp (by omega)
      · left
        rw [← a, Store.get_eq.mpr ⟨hc, h0⟩]
        rfl
    · rintro (hk | hk)
      · obtain ⟨c, hc⟩ := Option.isSome_iff_exists.mp ((a k).mpr hk)
        rw [(Store.get_eq.mp hc).1]
        simp
      · exact i.valid k hk
  refine ⟨a, b, fun k c hc => ?_, fun h1 h2 k => ?_⟩
  · have := i.good.count k _ (Store.live_of hc)
    simp only at this
    rw [this, Finset.sum_eq_multiset_sum]
    rfl
  · by_contra hk
    rcases (b k).mp hk with hk | hk
    · rw [h1] at hk
      have : ∀ k, ¬ Reach w.store.live [] k := by
        intro k hk
        induction hk with
        | out h => cases h
        | kid _ _ ih => exact ih
      exact this k hk
    · rw [h2] at hk
      cases hk

/-- C64, leaves. At any time, each leaf made was given back to the program, or disposed of, or is in a cell, and only
one of these: none is disposed of twice. When nothing is held and no thread is dropping, none is left. -/
theorem C64_leaves [DecidableEq L] {w : World L} (h : Comes w) (x : L) :
    w.store.made.count x = w.store.back.count x + w.store.log.count x +
      ((List.range w.store.next).map fun j => ((w.store.live.leaf j).toList).count x).sum ∧
    (w.Idle → w.held = [] → w.store.made.count x = w.store.back.count x + w.store.log.count x) := by
  have key : ((List.range w.store.next).map fun j => ((w.store.live.leaf j).toList).count x).sum =
      total (leafN x) w.store := by
    unfold total
    rw [Finset.sum_eq_multiset_sum]
    refine congrArg List.sum (List.map_congr_left fun j _ => ?_)
    unfold RcHeap.Heap.leaf leafN
    rcases w.store.live j with _ | ⟨n, _ | _⟩ <;> rfl
  have h1 := h.good.leaves x
  refine ⟨by rw [key]; exact h1, fun hi hh => ?_⟩
  have h2 : total (leafN x) w.store = 0 := by
    unfold total
    refine Finset.sum_eq_zero fun j _ => ?_
    have h3 : w.store.live j = none := by
      by_contra hn
      have h4 : (w.store.get j).isSome := by
        unfold Store.live at hn
        cases hg : w.store.get j with
        | none => rw [hg] at hn; exact (hn rfl).elim
        | some c => rfl
      have h5 := ((C64_nothing_left h hi).1 j).mp h4
      rw [hh] at h5
      have : ∀ k, ¬ Reach w.store.live [] k := by
        intro k hk
        induction hk with
        | out h => cases h
        | kid _ _ ih => exact ih
      exact this j h5
    rw [h3]
    rfl
  omega

/-- C64, recursion. A thread begins to drop a reference, to `k`, while the others are dropping what they like. The
number of things it has to come back to (of which each call of `drop` in which it is has at least one) is at most
four, plus four for each reference to a shared cell reached from `k`; `Q` are these cells. -/
theorem C64_depth {w : World L} (h : Comes w) {i k : Nat} {held weaks : List Nat}
    (ht : w.threads[i]? = some ⟨[.drop k], held, weaks⟩) {Q : List Nat} (hn : Q.Nodup)
    (hQ : ∀ j, Reach w.store.live [k] j → 2 ≤ w.store.strongOf j → j ∈ Q) {n : Nat} {w' : World L}
    (hs : DropSteps n w w') :
    ∃ th, w'.threads[i]? = some th ∧ th.tasks.length ≤ 4 + 4 * (Q.map w.store.strongOf).sum := by
  classical
  have g := h.good
  let P : Finset Nat := (Q.filter fun j => (w.store.get j).isSome).toFinset
  have hP : ∀ j, j ∈ P ↔ j ∈ Q ∧ (w.store.get j).isSome := fun j => by
    simp only [P, List.mem_toFinset, List.mem_filter]
  have hlow : Low P (counts P w.store) w.store [.drop k] := by
    refine ⟨fun q hq => ?_, fun j hj h2 => ?_, fun t ht => ?_, ?_⟩
    · obtain ⟨c, hc⟩ := Option.isSome_iff_exists.mp ((hP q).mp hq).2
      exact g.inv.dom q (by rw [(Store.get_eq.mp hc).1]; simp)
    · rw [← strongOf_eq] at h2
      refine (hP j).mpr ⟨hQ j (by simpa [Task.refs] using hj) h2, ?_⟩
      unfold Store.strongOf at h2
      cases hg : w.store.get j with
      | none => rw [hg] at h2; simp at h2
      | some c => rfl
    · rw [List.mem_singleton] at ht
      subst ht
      trivial
    · have : high w.store [Task.drop k] ≤ 4 := by
        simp only [high, Task.peak, List.length_nil]
        split <;> omega
      omega
  obtain ⟨th, h1, h2⟩ := g.lows hs ht hlow
  refine ⟨th, h1, ?_⟩
  have g' := (g.dropSteps hs).1
  have hp : pending P th.tasks ≤ counts P w'.store := by
    obtain ⟨s', threads⟩ := w'
    obtain ⟨pre, post, he⟩ := List.append_of_mem (List.mem_of_getElem? h1)
    simp only at he
    subst he
    refine pending_le (R := th.held ++ ((pre ++ post).flatMap (·.tasks)).flatMap Task.refs ++
      (pre ++ post).flatMap (·.held)) (W := (World.mk s' (pre ++ th :: post)).weaks)
      (F := (World.mk s' (pre ++ th :: post)).frees) (g'.inv.congr (fun j => ?_) (fun _ => rfl) (fun _ => rfl)) P
    rw [(World.around s' pre th post j).1]
    simp only [List.append_assoc]
  have hm : counts P w.store ≤ (Q.map w.store.strongOf).sum := by
    have e : (Q.map w.store.strongOf).sum = ∑ q ∈ Q.toFinset, w.store.strongOf q := by
      rw [Finset.sum_eq_multiset_sum, List.toFinset_val, hn.dedup]
      rfl
    rw [e]
    unfold counts
    simp only [← strongOf_eq]
    refine Finset.sum_le_sum_of_subset fun q hq => ?_
    exact List.mem_toFinset.mpr ((hP q).mp hq).1
  have h3 := length_le_high w'.store th.tasks
  have h4 := h2.le
  omega

/-- C64, no recursion if not shared. If all that is reached from `k` has a single reference, then dropping it needs no
more than a fixed amount of stack, whatever the other threads are dropping. -/
theorem C64_unshared_depth {w : World L} (h : Comes w) {i k : Nat} {held weaks : List Nat}
    (ht : w.threads[i]? = some ⟨[.drop k], held, weaks⟩)
    (h1 : ∀ j, Reach w.store.live [k] j → w.store.strongOf j = 1) {n : Nat} {w' : World L} (hs : DropSteps n w w') :
    ∃ th, w'.threads[i]? = some th ∧ th.tasks.length ≤ 4 := by
  obtain ⟨th, h2, h3⟩ := C64_depth h ht (Q := []) List.nodup_nil (fun j hj h2 => by
    rw [h1 j hj] at h2
    omega) hs
  exact ⟨th, h2, h3⟩

/-! ## Non-vacuity -/

/-- What a thread, of the given number, does. -/
inductive Act (L : Type) where
  | spawn
  | leaf (i : Nat) (x : L)
  | branch (i l r : Nat)
  | clone (i k : Nat)
  | downgrade (i k : Nat)
  | upgrade (i k : Nat)
  | dropWeak (i k : Nat)
  | send (i j k : Nat)
  | begin (i k : Nat)
  | go (i : Nat)

/-- One act. -/
def act (w : World L) : Act L → Option (World L)
  | .spawn => some ⟨w.store, w.threads ++ [⟨[], [], []⟩]⟩
  | .leaf i x => match w.threads.drop i with
    | ⟨[], held, weaks⟩ :: post => some ⟨{ w.store.new (.leaf (some x)) with made := x :: w.store.made },
        w.threads.take i ++ ⟨[], w.store.next :: held, weaks⟩ :: post⟩
    | _ => none
  | .branch i l r => match w.threads.drop i with
    | ⟨[], held, weaks⟩ :: post => if l ∈ held ∧ r ∈ held.erase l then
        some ⟨{ w.store.new (.branch l r) with made := w.store.made },
          w.threads.take i ++ ⟨[], w.store.next :: (held.erase l).erase r, weaks⟩ :: post⟩ else none
    | _ => none
  | .clone i k => match w.threads.drop i with
    | ⟨[], held, weaks⟩ :: post => match w.store.get k with
      | some c => if k ∈ held then some ⟨w.store.put k (some { c with strong := c.strong + 1 }),
          w.threads.take i ++ ⟨[], k :: held, weaks⟩ :: post⟩ else none
      | none => none
    | _ => none
  | .downgrade i k => match w.threads.drop i with
    | ⟨[], held, weaks⟩ :: post => match w.store.get k with
      | some c => if k ∈ held then some ⟨w.store.put k (some { c with weak := c.weak + 1 }),
          w.threads.take i ++ ⟨[], held, k :: weaks⟩ :: post⟩ else none
      | none => none
    | _ => none
  | .upgrade i k => match w.threads.drop i with
    | ⟨[], held, weaks⟩ :: post => match w.store.get k with
      | some c => if k ∈ weaks then some ⟨w.store.put k (some { c with strong := c.strong + 1 }),
          w.threads.take i ++ ⟨[], k :: held, weaks⟩ :: post⟩ else none
      | none => none
    | _ => none
  | .dropWeak i k => match w.threads.drop i with
    | ⟨[], held, weaks⟩ :: post => match w.store.dropWeak k with
      | some s => if k ∈ weaks then some ⟨s, w.threads.take i ++ ⟨[], held, weaks.erase k⟩ :: post⟩ else none
      | none => none
    | _ => none
  | .send i j k => match w.threads.drop i with
    | ⟨ts, held, weaks⟩ :: post => if k ∈ held then
        match (w.threads.take i ++ ⟨ts, held.erase k, weaks⟩ :: post).drop j with
        | ⟨ts', held', weaks'⟩ :: post' => some ⟨w.store,
            (w.threads.take i ++ ⟨ts, held.erase k, weaks⟩ :: post).take j ++ ⟨ts', k :: held', weaks'⟩ :: post'⟩
        | [] => none
      else none
    | [] => none
  | .begin i k => match w.threads.drop i with
    | ⟨[], held, weaks⟩ :: post => if k ∈ held then
        some ⟨w.store, w.threads.take i ++ ⟨[.drop k], held.erase k, weaks⟩ :: post⟩ else none
    | _ => none
  | .go i => match w.threads.drop i with
    | ⟨t :: ts, held, weaks⟩ :: post => match step t w.store with
      | .ok (ts', s) => some ⟨s, w.threads.take i ++ ⟨ts' ++ ts, held, weaks⟩ :: post⟩
      | .error _ => none
    | _ => none

theorem split {A : Type} {l : List A} {i : Nat} {a : A} {post : List A} (h : l.drop i = a :: post) :
    l = l.take i ++ a :: post := by
  rw [← h, List.take_append_drop]

theorem act_step {w w' : World L} {a : Act L} (h : act w a = some w') : Step w w' := by
  obtain ⟨s, threads⟩ := w
  cases a with
  | spawn => cases h; exact .spawn
  | leaf i x =>
    simp only [act] at h
    split at h
    · next held weaks post ht =>
      cases h
      have := Step.use (pre := threads.take i) (post := post) (Use.new (s := s) (held := held) (weaks := weaks)
        (d := .leaf (some x)) (held' := held) (List.Perm.refl _))
      rw [← split ht] at this
      exact this
    · cases h
  | branch i l r =>
    simp only [act] at h
    split at h
    · next held weaks post ht =>
      split at h
      · next hm =>
        cases h
        have := Step.use (pre := threads.take i) (post := post) (Use.new (s := s) (held := held) (weaks := weaks)
          (d := .branch l r) (held' := (held.erase l).erase r)
          ((List.perm_cons_erase hm.1).trans ((List.perm_cons_erase hm.2).cons l)))
        rw [← split ht] at this
        exact this
      · cases h
    · cases h
  | clone i k =>
    simp only [act] at h
    split at h
    · next held weaks post ht =>
      split at h
      · next c hc =>
        split at h
        · next hm =>
          cases h
          have := Step.use (pre := threads.take i) (post := post) (Use.clone (s := s) (held := held) (weaks := weaks)
            (.out hm) hc)
          rw [← split ht] at this
          exact this
        · cases h
      · cases h
    · cases h
  | downgrade i k =>
    simp only [act] at h
    split at h
    · next held weaks post ht =>
      split at h
      · next c hc =>
        split at h
        · next hm =>
          cases h
          have := Step.use (pre := threads.take i) (post := post) (Use.downgrade (s := s) (held := held)
            (weaks := weaks) (.out hm) hc)
          rw [← split ht] at this
          exact this
        · cases h
      · cases h
    · cases h
  | upgrade i k =>
    simp only [act] at h
    split at h
    · next held weaks post ht =>
      split at h
      · next c hc =>
        split at h
        · next hm =>
          cases h
          have := Step.use (pre := threads.take i) (post := post) (Use.upgrade (s := s) (held := held)
            (weaks := weaks) hm hc)
          rw [← split ht] at this
          exact this
        · cases h
      · cases h
    · cases h
  | dropWeak i k =>
    simp only [act] at h
    split at h
    · next held weaks post ht =>
      split at h
      · next s' hc =>
        split at h
        · next hm =>
          cases h
          have := Step.use (pre := threads.take i) (post := post) (Use.dropWeak (s := s) (held := held)
            (weaks := weaks) (List.perm_cons_erase hm) hc)
          rw [← split ht] at this
          exact this
        · cases h
      · cases h
    · cases h
  | send i j k =>
    simp only [act] at h
    split at h
    · next ts held weaks post ht =>
      split at h
      · next hm =>
        split at h
        · next ts' held' weaks' post' ht' =>
          cases h
          exact Step.send (ks := [k]) (ws := []) (split ht) (List.perm_cons_erase hm) (List.Perm.refl _) (split ht')
        · cases h
      · cases h
    · cases h
  | begin i k =>
    simp only [act] at h
    split at h
    · next held weaks post ht =>
      split at h
      · next hm =>
        cases h
        have := Step.begin (s := s) (pre := threads.take i) (post := post) (weaks := weaks) (List.perm_cons_erase hm)
        rw [← split ht] at this
        exact this
      · cases h
    · cases h
  | go i =>
    simp only [act] at h
    split at h
    · next t ts held weaks post ht =>
      split at h
      · next ts' s' hs =>
        cases h
        have := DropStep.run (pre := threads.take i) (ts := ts) (held := held) (weaks := weaks) (post := post) hs
        rw [← split ht] at this
        exact .drop this
      · cases h
    · cases h

def acts (w : World L) : List (Act L) → Option (World L)
  | [] => some w
  | a :: as => (act w a).bind fun w => acts w as

theorem acts_comes {w w' : World L} (hw : Comes w) {as : List (Act L)} (h : acts w as = some w') : Comes w' := by
  induction as generalizing w with
  | nil => cases h; exact hw
  | cons a as ih =>
    simp only [acts] at h
    cases ha : act w a with
    | none => rw [ha] at h; cases h
    | some w1 => rw [ha] at h; exact ih (.step hw (act_step ha)) h

/-- What is to be seen of a world: the threads, for each address so far the cell there, and the leaves disposed of. -/
def World.look (w : World L) : List (Thread L) × List (Option (Cell L)) × List L :=
  (w.threads, (List.range w.store.next).map w.store.cells, w.store.log)

theorem comes_of {as : List (Act L)} {v} (h : (acts .init as).map World.look = some v) :
    ∃ w, Comes w ∧ w.look = v := by
  cases ha : acts .init as with
  | none => rw [ha] at h; cases h
  | some w =>
    rw [ha] at h
    exact ⟨w, acts_comes .init ha, Option.some.inj h⟩

/-- Thread 0 makes a tree with the leaves 7, 8 and 9, and both threads get a reference to its top, cell 4, and the
first also to cell 2 in it. -/
def shared : List (Act Nat) :=
  [.spawn, .spawn, .leaf 0 7, .leaf 0 8, .branch 0 0 1, .leaf 0 9, .clone 0 2, .branch 0 2 3, .clone 0 4, .send 0 1 4]

def goes (is : List Nat) : List (Act Nat) := is.map .go

/-- C64: where the program is then. -/
example : ∃ w : World Nat, Comes w ∧ w.look =
    ([⟨[], [4, 2], []⟩, ⟨[], [4], []⟩],
     [some ⟨1, 1, .leaf (some 7)⟩, some ⟨1, 1, .leaf (some 8)⟩, some ⟨2, 1, .branch 0 1⟩, some ⟨1, 1, .leaf (some 9)⟩,
      some ⟨2, 1, .branch 2 3⟩], []) :=
  comes_of (as := shared) (by decide)

/-- C64: a race. Both threads drop their references to the top. Thread 0 cannot take the datum out, as thread 1 has
a reference too; nor can thread 1; then thread 1 gives up its reference, so that thread 0, which will not look
again, has the last one, and its dropping of the tree is by recursion. -/
example : ∃ w : World Nat, Comes w ∧ w.look =
    ([⟨[.drop 2, .drop 3, .free 4], [2], []⟩, ⟨[], [], []⟩],
     [some ⟨1, 1, .leaf (some 7)⟩, some ⟨1, 1, .leaf (some 8)⟩, some ⟨2, 1, .branch 0 1⟩, some ⟨1, 1, .leaf (some 9)⟩,
      some ⟨0, 1, .leaf none⟩], []) :=
  comes_of (as := shared ++ [.begin 0 4, .begin 1 4] ++ goes [0, 0, 1, 1, 1, 0]) (by decide)

/-- C64: and how it ends: what thread 0 still holds is there, and the rest is gone. -/
example : ∃ w : World Nat, Comes w ∧ w.look =
    ([⟨[], [2], []⟩, ⟨[], [], []⟩],
     [some ⟨1, 1, .leaf (some 7)⟩, some ⟨1, 1, .leaf (some 8)⟩, some ⟨1, 1, .branch 0 1⟩, none, none], [9]) :=
  comes_of (as := shared ++ [.begin 0 4, .begin 1 4] ++ goes ([0, 0, 1, 1, 1, 0] ++ List.replicate 7 0)) (by decide)

/-- C64: thread 1 gives up its reference first, so thread 0 takes the datum out of cell 4, for which there is a new
cell 5 with `TempLeaf`, and goes on with the loop. -/
example : ∃ w : World Nat, Comes w ∧ w.look =
    ([⟨[.seen none 2 3 .branch, .release 5], [2], []⟩, ⟨[], [], []⟩],
     [some ⟨1, 1, .leaf (some 7)⟩, some ⟨1, 1, .leaf (some 8)⟩, some ⟨2, 1, .branch 0 1⟩, some ⟨1, 1, .leaf (some 9)⟩,
      none, some ⟨1, 1, .leaf none⟩], []) :=
  comes_of (as := shared ++ [.begin 0 4, .begin 1 4] ++ goes [1, 1, 1, 0, 0, 0, 0]) (by decide)

/-- C64: nothing is held anymore, and all is gone, but for a cell of which thread 1 has a `Weak`. -/
example : ∃ w : World Nat, Comes w ∧ w.Idle ∧ w.held = [] ∧ w.look =
    ([⟨[], [], []⟩, ⟨[], [], [4]⟩], [none, none, none, none, some ⟨0, 1, .leaf none⟩, none, none], [7, 8, 9]) := by
  obtain ⟨w, h1, h2⟩ := comes_of (as := shared ++ [.downgrade 1 4, .begin 0 2] ++ goes [0, 0, 0] ++
    [.begin 0 4, .begin 1 4] ++ goes ([1, 1, 1] ++ List.replicate 24 0))
    (v := ([⟨[], [], []⟩, ⟨[], [], [4]⟩], [none, none, none, none, some ⟨0, 1, .leaf none⟩, none, none], [7, 8, 9]))
    (by decide)
  have h3 : w.threads = [⟨[], [], []⟩, ⟨[], [], [4]⟩] := congrArg Prod.fst h2
  refine ⟨w, h1, ?_, ?_, h2⟩
  · intro t ht
    rw [h3] at ht
    simp at ht
    rcases ht with rfl | rfl <;> rfl
  · simp [World.held, h3]

theorem comes_getD {as : List (Act L)} (h : (acts .init as).isSome) : Comes ((acts .init as).getD .init) := by
  obtain ⟨w, hw⟩ := Option.isSome_iff_exists.mp h
  rw [hw]
  exact acts_comes .init hw

theorem reach_sub {h : RcHeap.Heap L} {ks S : List Nat} (h1 : ∀ k ∈ ks, k ∈ S) (h2 : ∀ k ∈ S, ∀ j ∈ h.kids k, j ∈ S)
    {j : Nat} (hr : Reach h ks j) : j ∈ S := by
  induction hr with
  | out hk => exact h1 _ hk
  | kid _ hk ih => exact h2 _ ih _ hk

/-- Thread 0 has begun to drop a tree (cell 4, the leaves are 0, 1 and 3) that is not shared, while thread 1 has begun
to drop one that is (cell 7). -/
def apart : World Nat := (acts .init ([.spawn, .spawn, .leaf 0 7, .leaf 0 8, .branch 0 0 1, .leaf 0 9, .branch 0 2 3,
  .leaf 1 5, .leaf 1 6, .branch 1 5 6, .clone 1 7, .begin 0 4, .begin 1 7] ++ goes [1])).getD .init

/-- C64: the hypotheses of `C64_unshared_depth` are met. -/
example : Comes apart ∧ apart.threads[0]? = some ⟨[.drop 4], [], []⟩ ∧
    (∀ j, Reach apart.store.live [4] j → apart.store.strongOf j = 1) ∧ apart.store.strongOf 7 = 2 := by
  refine ⟨comes_getD (by decide), by decide, fun j hj => ?_, by decide⟩
  have := reach_sub (S := [4, 2, 3, 0, 1]) (by decide) (by decide) hj
  clear hj
  revert j
  decide

/-- C64: and those of `C64_depth`, with the shared cells 4 and 2. -/
def apart' : World Nat := (acts .init (shared ++ [.begin 0 4, .begin 1 4])).getD .init

example : Comes apart' ∧ apart'.threads[0]? = some ⟨[.drop 4], [2], []⟩ ∧
    (∀ j, Reach apart'.store.live [4] j → 2 ≤ apart'.store.strongOf j → j ∈ [4, 2]) ∧
    ([4, 2].map apart'.store.strongOf).sum = 4 := by
  refine ⟨comes_getD (by decide), by decide, fun j hj => ?_, by decide⟩
  have := reach_sub (S := [4, 2, 3, 0, 1]) (by decide) (by decide) hj
  clear hj
  revert j
  decide

end Kul.ArcDrop
