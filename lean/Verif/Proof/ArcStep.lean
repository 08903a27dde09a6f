import Verif.Proof.ArcDrop

/-! # A step of dropping keeps a store in order, and brings the end nearer -/

namespace Kul.ArcDrop

open Drop (Class Side)
open RcHeap (Dat Reach Good okids spine)

variable {L : Type}

/-- The strong references that a task has. -/
def Task.refs : Task L → List Nat
  | .drop k | .takeTop k | .release k => [k]
  | .free _ => []
  | .loop _ top => top.kids
  | .seen _ l r _ | .tryLeft _ l r _ _ | .tryRight _ l r _ => [l, r]
  | .taken _ _ selected reuse _ other => selected.kids ++ [reuse, other]

/-- The cell of which a task drops the `Weak` that the strong references had. -/
def Task.frees : Task L → List Nat
  | .free k => [k]
  | _ => []

/-- What is known when a task is to be done. -/
def Task.Ok (s : Store L) : Task L → Prop
  | .drop _ | .release _ | .free _ => True
  | .takeTop k => ∃ a b, s.live.dat k = some (.branch a b)
  | .loop _ top => ∃ l r, top = .branch l r
  | .seen _ l _ leftClass => ∃ d, s.live.dat l = some d ∧ d.cls = leftClass
  | .tryLeft lock l r rightClass orRight => (∃ a b, s.live.dat l = some (.branch a b)) ∧
    (∃ d, s.live.dat r = some d ∧ d.cls = rightClass) ∧ (rightClass = .branch → lock ≠ some .right) ∧
    (orRight = true → lock = none ∧ rightClass = .branch)
  | .tryRight lock l r leftClass => (∃ a b, s.live.dat r = some (.branch a b)) ∧
    (∃ d, s.live.dat l = some d ∧ d.cls = leftClass) ∧ (leftClass = .branch → lock ≠ some .left)
  | .taken lock mode selected reuse otherClass _ => (∃ a b, selected = .branch a b) ∧
    s.cells reuse = some ⟨1, 1, .leaf none⟩ ∧ (otherClass = .branch → lock = none ∨ lock = some mode)

/-- How far one can go on restructuring. -/
noncomputable def ahead (h : RcHeap.Heap L) (lock : Option Side) (l r : Nat) : Nat :=
  match lock with
  | none => spine h .left l + spine h .right r
  | some .left => spine h .left l
  | some .right => spine h .right r

/-- What remains to be done: of it there is never more. -/
def Task.weight : Task L → Nat
  | .drop _ => 4
  | .takeTop _ => 3
  | .release _ => 2
  | .free _ => 0
  | t => 5 * t.refs.length

/-- The steps until less remains to be done. -/
noncomputable def Task.steps (h : RcHeap.Heap L) : Task L → Nat
  | .drop _ | .takeTop _ | .release _ => 0
  | .free _ => 1
  | .loop lock (.branch l r) => 10 * ahead h lock l r + 6
  | .loop _ (.leaf _) => 0
  | .seen lock l r _ => 10 * ahead h lock l r + 5
  | .tryLeft lock l r _ _ => 10 * ahead h lock l r + 4
  | .tryRight lock l r _ => 10 * ahead h lock l r + 3
  | .taken _ .left (.branch a _) _ .branch _ => 10 * spine h .left a + 8
  | .taken _ .right (.branch _ b) _ .branch _ => 10 * spine h .right b + 8
  | .taken .. => 1

/-- What a step does. -/
structure Did [DecidableEq L] (R W F : List Nat) (t : Task L) (s : Store L) (ts : List (Task L)) (s' : Store L) :
    Prop where
  inv : Inv s' (ts.flatMap Task.refs ++ R) W (ts.flatMap Task.frees ++ F)
  ok : ∀ t' ∈ ts, t'.Ok s'
  frame : Frame R s s'
  size : s'.size ≤ s.size
  falls : ((ts.map Task.weight).sum + 5 * total kidN s' < t.weight + 5 * total kidN s ∧
      (ts.map (Task.steps s'.live)).sum ≤ 20 * s.size + 19) ∨
    ((ts.map Task.weight).sum + 5 * total kidN s' = t.weight + 5 * total kidN s ∧
      (ts.map (Task.steps s'.live)).sum < t.steps s.live)
  leaves : ∀ x, total (leafN x) s' + s'.log.count x = total (leafN x) s + s.log.count x
  made : s'.made = s.made
  back : s'.back = s.back

/-- What an attempt to take out a datum does. -/
inductive Took [DecidableEq L] (k a b : Nat) (R W F : List Nat) (s : Store L) : Prop where
  | yes {s'} : s.tryTake k = some (some (.branch a b, s.next), s') →
    Inv s' (s.next :: ([a, b] ++ R)) W (k :: F) → Frame ([a, b] ++ R) s s' →
    s'.cells s.next = some ⟨1, 1, .leaf none⟩ → s'.size = s.size → total kidN s' + 2 = total kidN s →
    (∀ x, total (leafN x) s' = total (leafN x) s) → s'.log = s.log → s'.made = s.made → s'.back = s.back →
    Took k a b R W F s
  | no : s.tryTake k = some (none, s) → Took k a b R W F s

theorem Inv.took [DecidableEq L] {s : Store L} {R W F : List Nat} {k a b : Nat} (i : Inv s (k :: R) W F)
    (hd : s.live.dat k = some (.branch a b)) : Took k a b R W F s := by
  obtain ⟨⟨st, wk, dat⟩, hc⟩ := i.got (k := k) (by simp)
  obtain rfl : dat = .branch a b := by
    rw [RcHeap.dat_of (Store.live_of hc)] at hd
    exact Option.some.inj hd
  have hk : k < s.next := i.dom k (by rw [(Store.get_eq.mp hc).1]; simp)
  by_cases h1 : st = 1
  · obtain ⟨i1, f1⟩ := i.unwrap hc h1
    set s1 := s.put k (some ⟨0, wk, .leaf none⟩) with hs1
    have hl1 : s1.live = s.live.put k none := Store.live_put_zero s k rfl
    have hlk : s.live k = some ⟨st, .branch a b⟩ := Store.live_of hc
    obtain ⟨i2, f2⟩ := i1.new (d := .leaf none) (R := [a, b] ++ R)
    have hl2 : (s1.new (.leaf none)).live = s1.live.put s1.next (some ⟨1, .leaf none⟩) := Store.live_new _ _
    have t1 := fun f : Option (RcHeap.Cell L) → Nat => total_put (f := f) hk (s' := s1) rfl hl1
    have t2 := fun f : Option (RcHeap.Cell L) → Nat =>
      total_new (f := f) (s := s1) (s' := s1.new (.leaf none)) rfl hl2
    refine .yes (s' := s1.new (.leaf none)) ?_ i2 (f1.trans f2) ?_ ?_ ?_ ?_ rfl rfl rfl
    · simp [Store.tryTake, hc, h1, hs1]
    · exact Store.put_same s1 _ _
    · rw [size_eq, size_eq, t2]
      have := t1 one
      rw [hlk] at this
      simp only [one] at *
      omega
    · rw [t2]
      have := t1 kidN
      rw [hlk] at this
      simp only [kidN, okids, Dat.kids, List.length_cons, List.length_nil] at *
      omega
    · intro x
      rw [t2]
      have := t1 (leafN x)
      rw [hlk] at this
      simp [leafN, leafOf] at *
      omega
  · exact .no (by simp [Store.tryTake, hc, h1])

theorem ahead_le {s : Store L} {R W F : List Nat} (i : Inv s R W F) (lock : Option Side) (l r : Nat) :
    ahead s.live lock l r ≤ 2 * s.size := by
  have key : ∀ (sd : Side) k, spine s.live sd k ≤ s.size := fun sd k => by
    refine RcHeap.spine_le sd k _ fun j hj => ?_
    rw [List.mem_filter, List.mem_range]
    unfold Store.live at hj
    cases hg : s.get j with
    | none => simp [hg] at hj
    | some c => exact ⟨i.dom j (by rw [(Store.get_eq.mp hg).1]; simp), rfl⟩
  unfold ahead
  have h1 := key .left l
  have h2 := key .right r
  split <;> omega

theorem cls_of {s : Store L} {k : Nat} {c : Cell L} (h : s.get k = some c) : s.live.dat k = some c.dat :=
  RcHeap.dat_of (Store.live_of h)

theorem Did.same [DecidableEq L] {R W F : List Nat} {t : Task L} {s : Store L} {ts : List (Task L)}
    (i : Inv s (t.refs ++ R) W (t.frees ++ F))
    (h1 : ∀ k, (ts.flatMap Task.refs).count k = t.refs.count k) (h2 : ts.flatMap Task.frees = t.frees)
    (ok : ∀ t' ∈ ts, t'.Ok s)
    (falls : ((ts.map Task.weight).sum < t.weight ∧ (ts.map (Task.steps s.live)).sum ≤ 20 * s.size + 19) ∨
      ((ts.map Task.weight).sum = t.weight ∧ (ts.map (Task.steps s.live)).sum < t.steps s.live)) :
    Did R W F t s ts s where
  inv := i.congr (fun k => by rw [List.count_append, List.count_append, h1]) (fun _ => rfl) fun k => by rw [h2]
  ok := ok
  frame := .refl _ _
  size := Nat.le_refl _
  falls := by omega
  leaves := fun _ => rfl
  made := rfl
  back := rfl

theorem step_did [DecidableEq L] {s : Store L} {R W F : List Nat} {t : Task L}
    (i : Inv s (t.refs ++ R) W (t.frees ++ F)) (ok : t.Ok s) :
    ∃ ts s', step t s = .ok (ts, s') ∧ Did R W F t s ts s' := by
  cases t with
  | drop k =>
    obtain ⟨c, hc⟩ := i.got (k := k) (by simp [Task.refs])
    rcases hd : c.dat.cls with _ | _
    · obtain ⟨a, b, hab⟩ := RcHeap.cls_branch hd
      refine ⟨[.takeTop k], s, by simp [step, hc, hd], .same i (fun _ => rfl) rfl ?_ ?_⟩
      · simp only [List.mem_singleton]
        rintro _ rfl
        exact ⟨a, b, by rw [cls_of hc, hab]⟩
      · left
        simp [Task.weight, Task.steps]
    · refine ⟨[.release k], s, by simp [step, hc, hd], .same i (fun _ => rfl) rfl ?_ ?_⟩
      · simp only [List.mem_singleton]
        rintro _ rfl
        trivial
      · left
        simp [Task.weight, Task.steps]
  | takeTop k =>
    obtain ⟨a, b, hd⟩ := ok
    cases i.took hd with
    | no h =>
      refine ⟨[.release k], s, by simp [step, h], .same i (fun _ => rfl) rfl ?_ ?_⟩
      · simp only [List.mem_singleton]
        rintro _ rfl
        trivial
      · left
        simp [Task.weight, Task.steps]
    | @yes s' h i' f _ hsize hkids hleaf hlog hmade hback =>
      refine ⟨[.free k, .loop none (.branch a b), .release s.next], s', by simp [step, h], ?_⟩
      refine ⟨i'.congr ?_ (fun _ => rfl) (fun _ => rfl), ?_, f.mono (by simp; tauto), Nat.le_of_eq hsize, Or.inl ?_, ?_, hmade, hback⟩
      · intro j
        simp [Task.refs, Dat.kids, List.count_cons]
        omega
      · simp only [List.mem_cons, List.not_mem_nil, or_false]
        rintro _ (rfl | rfl | rfl)
        · trivial
        · exact ⟨a, b, rfl⟩
        · trivial
      · have := ahead_le i' none a b
        simp [Task.weight, Task.steps, Task.refs, Dat.kids]
        omega
      · intro x
        rw [hleaf, hlog]
  | release k =>
    obtain ⟨⟨n, wk, d⟩, hc⟩ := i.got (k := k) (by simp [Task.refs])
    have hk : k < s.next := i.dom k (by rw [(Store.get_eq.mp hc).1]; simp)
    have hlk : s.live k = some ⟨n, d⟩ := Store.live_of hc
    by_cases h1 : n = 1
    · obtain ⟨i1, f1⟩ := Inv.unwrap i hc h1
      have hl1 : (s.put k (some ⟨0, wk, .leaf none⟩)).live = s.live.put k none := Store.live_put_zero s k rfl
      have t1 := fun f : Option (RcHeap.Cell L) → Nat =>
        total_put (f := f) hk (s' := s.put k (some ⟨0, wk, .leaf none⟩)) rfl hl1
      simp only [hlk] at t1
      cases d with
      | leaf x =>
        refine ⟨[.free k], { s.put k (some ⟨0, wk, .leaf none⟩) with log := x.toList ++ s.log },
          by simp [step, hc, h1], ⟨i1.leaves _ _ _, ?_, ?_, ?_, Or.inl ?_, ?_, rfl, rfl⟩⟩
        · simp only [List.mem_singleton]
          rintro _ rfl
          trivial
        · exact ⟨f1.keep, f1.sole⟩
        · rw [size_eq, size_eq]
          have := t1 one
          change total one (s.put k (some ⟨0, wk, .leaf none⟩)) ≤ _
          simp only [one] at *
          omega
        · have := t1 kidN
          change _ + 5 * total kidN (s.put k (some ⟨0, wk, .leaf none⟩)) < _ ∧ _
          simp [Task.weight, Task.steps, kidN, okids, Dat.kids] at *
          omega
        · intro y
          have := t1 (leafN y)
          change total (leafN y) (s.put k (some ⟨0, wk, .leaf none⟩)) + (x.toList ++ s.log).count y = _
          rw [List.count_append]
          simp only [leafN, leafOf] at this ⊢
          omega
      | branch a b =>
        refine ⟨[.drop a, .drop b, .free k], s.put k (some ⟨0, wk, .leaf none⟩), by simp [step, hc, h1],
          ⟨i1.congr ?_ (fun _ => rfl) (fun _ => rfl), ?_, f1.mono (by simp; tauto), ?_, Or.inl ?_, ?_, rfl, rfl⟩⟩
        · intro j
          simp [Task.refs, Dat.kids]
        · simp only [List.mem_cons, List.not_mem_nil, or_false]
          rintro _ (rfl | rfl | rfl) <;> trivial
        · rw [size_eq, size_eq]
          have := t1 one
          simp only [one] at *
          omega
        · have := t1 kidN
          simp [Task.weight, Task.steps, kidN, okids, Dat.kids] at *
          omega
        · intro y
          have := t1 (leafN y)
          simp [leafN, leafOf] at this
          exact congrArg (· + s.log.count y) this
    · obtain ⟨i1, f1⟩ := Inv.giveUp i hc h1
      have h2 : n - 1 ≠ 0 := by
        have := (Store.get_eq.mp hc).2
        simp only at this
        omega
      have hl1 : (s.put k (some ⟨n - 1, wk, d⟩)).live = s.live.put k (some ⟨n - 1, d⟩) :=
        Store.live_put_pos s k h2
      have t1 := fun f : Option (RcHeap.Cell L) → Nat =>
        total_put (f := f) hk (s' := s.put k (some ⟨n - 1, wk, d⟩)) rfl hl1
      simp only [hlk] at t1
      refine ⟨[], s.put k (some ⟨n - 1, wk, d⟩), by simp [step, hc, h1], ⟨i1, by simp, f1, ?_, Or.inl ?_, ?_, rfl, rfl⟩⟩
      · rw [size_eq, size_eq]
        have := t1 one
        simp only [one] at *
        omega
      · have := t1 kidN
        simp [Task.weight, kidN, okids] at *
        omega
      · intro y
        have := t1 (leafN y)
        simp only [leafN] at this
        change total (leafN y) (s.put k (some ⟨n - 1, wk, d⟩)) + s.log.count y = _
        omega
  | free k =>
    obtain ⟨s', h, i', hl, hn, f, h1, h2, h3⟩ := Inv.dropWeak (k := k) (W' := W) (F' := F) i (fun j => by
      by_cases e : j = k
      · subst e
        simp [Task.frees]
        omega
      · simp [Task.frees, e, List.count_cons_of_ne (Ne.symm e)]) (fun _ => Nat.le_refl _) (fun j => by simp [Task.frees, List.count_cons])
    refine ⟨[], s', by simp [step, h], ⟨i', by simp, f, ?_, Or.inr ?_, ?_, h1, h2⟩⟩
    · rw [size_eq, size_eq, total_congr hn hl]
    · rw [total_congr hn hl]
      simp [Task.weight, Task.steps]
    · intro x
      rw [total_congr hn hl, h3]
  | loop lock top =>
    obtain ⟨l, r, rfl⟩ := ok
    obtain ⟨c, hc⟩ := i.got (k := l) (by simp [Task.refs, Dat.kids])
    refine ⟨[.seen lock l r c.dat.cls], s, by simp [step, hc], .same i (fun _ => rfl) rfl ?_ ?_⟩
    · simp only [List.mem_singleton]
      rintro _ rfl
      exact ⟨_, cls_of hc, rfl⟩
    · right
      simp [Task.weight, Task.steps, Task.refs, Dat.kids]
  | seen lock l r lc =>
    obtain ⟨c, hc⟩ := i.got (k := r) (by simp [Task.refs])
    obtain ⟨dl, hdl, rfl⟩ := ok
    have hdr := cls_of hc
    rcases h1 : dl.cls with _ | _ <;> rcases h2 : c.dat.cls with _ | _
    · obtain ⟨a, b, hab⟩ := RcHeap.cls_branch h1
      obtain ⟨a', b', hab'⟩ := RcHeap.cls_branch h2
      rcases lock with _ | _ | _
      · refine ⟨[.tryLeft none l r .branch true], s, by simp [step, hc, h2], .same i (fun _ => rfl) rfl ?_ ?_⟩
        · simp only [List.mem_singleton]
          rintro _ rfl
          exact ⟨⟨a, b, by rw [hdl, hab]⟩, ⟨_, hdr, h2⟩, by simp, by simp⟩
        · right
          simp [Task.weight, Task.steps, Task.refs]
      · refine ⟨[.tryLeft (some .left) l r .branch false], s, by simp [step, hc, h2], .same i (fun _ => rfl) rfl ?_ ?_⟩
        · simp only [List.mem_singleton]
          rintro _ rfl
          exact ⟨⟨a, b, by rw [hdl, hab]⟩, ⟨_, hdr, h2⟩, by simp, by simp⟩
        · right
          simp [Task.weight, Task.steps, Task.refs]
      · refine ⟨[.tryRight (some .right) l r .branch], s, by simp [step, hc, h2], .same i (fun _ => rfl) rfl ?_ ?_⟩
        · simp only [List.mem_singleton]
          rintro _ rfl
          exact ⟨⟨a', b', by rw [hdr, hab']⟩, ⟨_, hdl, h1⟩, by simp⟩
        · right
          simp [Task.weight, Task.steps, Task.refs]
    · obtain ⟨a, b, hab⟩ := RcHeap.cls_branch h1
      refine ⟨[.tryLeft lock l r .leaf false], s, by simp [step, hc, h2], .same i (fun _ => rfl) rfl ?_ ?_⟩
      · simp only [List.mem_singleton]
        rintro _ rfl
        exact ⟨⟨a, b, by rw [hdl, hab]⟩, ⟨_, hdr, h2⟩, by simp, by simp⟩
      · right
        simp [Task.weight, Task.steps, Task.refs]
    · obtain ⟨a', b', hab'⟩ := RcHeap.cls_branch h2
      refine ⟨[.tryRight lock l r .leaf], s, by simp [step, hc, h2], .same i (fun _ => rfl) rfl ?_ ?_⟩
      · simp only [List.mem_singleton]
        rintro _ rfl
        exact ⟨⟨a', b', by rw [hdr, hab']⟩, ⟨_, hdl, h1⟩, by simp⟩
      · right
        simp [Task.weight, Task.steps, Task.refs]
    · refine ⟨[.drop r, .drop l], s, by simp [step, hc, h2], .same i ?_ rfl ?_ ?_⟩
      · intro j
        simp [Task.refs, List.count_cons]
        omega
      · simp only [List.mem_cons, List.not_mem_nil, or_false]
        rintro _ (rfl | rfl) <;> trivial
      · left
        simp [Task.weight, Task.steps, Task.refs]
  | tryLeft lock l r rc orRight =>
    obtain ⟨⟨a, b, hab⟩, ⟨dr, hdr, hrc⟩, hlock, hor⟩ := ok
    have i0 : Inv s (l :: (r :: R)) W F := i
    cases i0.took hab with
    | no h =>
      cases orRight with
      | true =>
        obtain ⟨rfl, rfl⟩ := hor rfl
        obtain ⟨a', b', hab'⟩ := RcHeap.cls_branch hrc
        refine ⟨[.tryRight none l r .branch], s, by simp [step, h], .same i (fun _ => rfl) rfl ?_ ?_⟩
        · simp only [List.mem_singleton]
          rintro _ rfl
          exact ⟨⟨a', b', by rw [hdr, hab']⟩, ⟨_, hab, rfl⟩, by simp⟩
        · right
          simp [Task.weight, Task.steps, Task.refs]
      | false =>
        refine ⟨[.drop r, .drop l], s, by simp [step, h], .same i ?_ rfl ?_ ?_⟩
        · intro j
          simp [Task.refs, List.count_cons]
          omega
        · simp only [List.mem_cons, List.not_mem_nil, or_false]
          rintro _ (rfl | rfl) <;> trivial
        · left
          simp [Task.weight, Task.steps, Task.refs]
    | @yes s' h i' f hnew hsize hkids hleaf hlog hmade hback =>
      refine ⟨[.free l, .taken lock .left (.branch a b) s.next rc r], s', by simp [step, h],
        ⟨i'.congr ?_ (fun _ => rfl) (fun _ => rfl), ?_, f.mono (by simp; tauto), Nat.le_of_eq hsize, Or.inr ⟨?_, ?_⟩,
          ?_, hmade, hback⟩⟩
      · intro j
        simp [Task.refs, Dat.kids, List.count_cons]
        omega
      · simp only [List.mem_cons, List.not_mem_nil, or_false]
        rintro _ (rfl | rfl)
        · trivial
        · refine ⟨⟨a, b, rfl⟩, hnew, fun h => ?_⟩
          have := hlock h
          rcases lock with _ | _ | _ <;> simp_all
      · simp [Task.weight, Task.refs, Dat.kids]
        omega
      · have h1 := RcHeap.spine_branch i.good (s := .left) hab
        have ha : s.live a ≠ none :=
          i.good.valid a (Or.inr ⟨l, by rw [RcHeap.kids_of_dat hab]; simp [Dat.kids]⟩)
        have h2 := RcHeap.spine_keep i.good f.keep ha (.out (by simp)) .left
        simp only at h1
        cases rc with
        | leaf => simp [Task.steps]
        | branch =>
          have h3 := hlock rfl
          simp only [List.map_cons, List.map_nil, Task.steps, List.sum_cons, List.sum_nil, h2]
          rcases lock with _ | _ | _
          · simp only [ahead]; omega
          · simp only [ahead]; omega
          · exact (h3 rfl).elim
      · intro x
        rw [hleaf, hlog]
  | tryRight lock l r lc =>
    obtain ⟨⟨a, b, hab⟩, ⟨dr, hdr, hrc⟩, hlock⟩ := ok
    have i0 : Inv s (r :: (l :: R)) W F := i.congr (fun j => by simp [Task.refs, List.count_cons]; omega)
      (fun _ => rfl) (fun _ => rfl)
    cases i0.took hab with
    | no h =>
      refine ⟨[.drop r, .drop l], s, by simp [step, h], .same i ?_ rfl ?_ ?_⟩
      · intro j
        simp [Task.refs, List.count_cons]
        omega
      · simp only [List.mem_cons, List.not_mem_nil, or_false]
        rintro _ (rfl | rfl) <;> trivial
      · left
        simp [Task.weight, Task.steps, Task.refs]
    | @yes s' h i' f hnew hsize hkids hleaf hlog hmade hback =>
      refine ⟨[.free r, .taken lock .right (.branch a b) s.next lc l], s', by simp [step, h],
        ⟨i'.congr ?_ (fun _ => rfl) (fun _ => rfl), ?_, f.mono (by simp; tauto), Nat.le_of_eq hsize, Or.inr ⟨?_, ?_⟩,
          ?_, hmade, hback⟩⟩
      · intro j
        simp [Task.refs, Dat.kids, List.count_cons]
        omega
      · simp only [List.mem_cons, List.not_mem_nil, or_false]
        rintro _ (rfl | rfl)
        · trivial
        · refine ⟨⟨a, b, rfl⟩, hnew, fun h => ?_⟩
          have := hlock h
          rcases lock with _ | _ | _ <;> simp_all
      · simp [Task.weight, Task.refs, Dat.kids]
        omega
      · have h1 := RcHeap.spine_branch i.good (s := .right) hab
        have ha : s.live b ≠ none :=
          i.good.valid b (Or.inr ⟨r, by rw [RcHeap.kids_of_dat hab]; simp [Dat.kids]⟩)
        have h2 := RcHeap.spine_keep i.good f.keep ha (.out (by simp)) .right
        simp only at h1
        cases lc with
        | leaf => simp [Task.steps]
        | branch =>
          have h3 := hlock rfl
          simp only [List.map_cons, List.map_nil, Task.steps, List.sum_cons, List.sum_nil, h2]
          rcases lock with _ | _ | _
          · simp only [ahead]; omega
          · exact (h3 rfl).elim
          · simp only [ahead]; omega
      · intro x
        rw [hleaf, hlog]
  | taken lock mode sel reuse oc other =>
    obtain ⟨⟨a, b, rfl⟩, hcell, hlock⟩ := ok
    have hc : s.get reuse = some ⟨1, 1, .leaf none⟩ := Store.get_eq.mpr ⟨hcell, by simp⟩
    have hk : reuse < s.next := i.dom reuse (by rw [hcell]; simp)
    have hlk : s.live reuse = some ⟨1, .leaf none⟩ := Store.live_of hc
    have hsole := (i.good.sole (k := reuse) (by simp [Task.refs, Dat.kids]) hlk rfl).1
    have hnot : reuse ∉ [a, b, other] ++ R := by
      rw [← List.count_eq_zero]
      simp only [Task.refs, Dat.kids, List.cons_append, List.nil_append, List.count_cons, beq_self_eq_true, if_true] at hsole ⊢
      omega
    cases oc with
    | leaf =>
      refine ⟨[.drop other, .drop reuse, .loop none (.branch a b)], s, by simp [step], .same i ?_ rfl ?_ ?_⟩
      · intro j
        simp [Task.refs, Dat.kids, List.count_cons]
        omega
      · simp only [List.mem_cons, List.not_mem_nil, or_false]
        rintro _ (rfl | rfl | rfl)
        · trivial
        · trivial
        · exact ⟨a, b, rfl⟩
      · left
        have := ahead_le i none a b
        simp [Task.weight, Task.steps, Task.refs, Dat.kids]
        omega
    | branch =>
      have hset : ∀ d, s.set reuse d = some (s.put reuse (some ⟨1, 1, d⟩)) := fun d => by simp [Store.set, hc]
      cases mode with
      | left =>
        have hl : lock.getD .left = .left := by
          rcases hlock rfl with rfl | rfl <;> rfl
        obtain ⟨i1, f1⟩ := Inv.exchange (d := .branch b other) (R' := [a, reuse] ++ R) i hc rfl
          (by simp [Task.refs, Dat.kids]) (by simp) (by
            intro j
            simp [Task.refs, Dat.kids, List.count_cons]
            omega)
        have hl1 : (s.put reuse (some ⟨1, 1, .branch b other⟩)).live =
            s.live.put reuse (some ⟨1, .branch b other⟩) := Store.live_put_pos s reuse (by simp)
        have t1 := fun f : Option (RcHeap.Cell L) → Nat =>
          total_put (f := f) hk (s' := s.put reuse (some ⟨1, 1, .branch b other⟩)) rfl hl1
        simp only [hlk] at t1
        have f2 := f1 _ hnot
        refine ⟨[.loop (some .left) (.branch a reuse)], s.put reuse (some ⟨1, 1, .branch b other⟩),
          by simp [step, hset, hl], ⟨i1.congr ?_ (fun _ => rfl) (fun _ => rfl), ?_, f2.mono (by simp; tauto), ?_,
            Or.inr ⟨?_, ?_⟩, ?_, rfl, rfl⟩⟩
        · intro j
          simp [Task.refs, Dat.kids]
        · simp only [List.mem_singleton]
          rintro _ rfl
          exact ⟨a, reuse, rfl⟩
        · rw [size_eq, size_eq]
          have := t1 one
          simp only [one] at *
          omega
        · have := t1 kidN
          simp [Task.weight, Task.refs, kidN, okids, Dat.kids] at *
          omega
        · have ha : s.live a ≠ none := i.good.valid a (Or.inl (by simp [Task.refs, Dat.kids]))
          have := RcHeap.spine_keep i.good f2.keep ha (.out (by simp)) .left
          simp only [List.map_cons, List.map_nil, Task.steps, List.sum_cons, List.sum_nil, ahead, this]
          omega
        · intro y
          have := t1 (leafN y)
          simp [leafN, leafOf] at this
          exact congrArg (· + s.log.count y) this
      | right =>
        have hl : lock.getD .right = .right := by
          rcases hlock rfl with rfl | rfl <;> rfl
        obtain ⟨i1, f1⟩ := Inv.exchange (d := .branch other a) (R' := [reuse, b] ++ R) i hc rfl
          (by simp [Task.refs, Dat.kids]) (by simp) (by
            intro j
            simp [Task.refs, Dat.kids, List.count_cons]
            omega)
        have hl1 : (s.put reuse (some ⟨1, 1, .branch other a⟩)).live =
            s.live.put reuse (some ⟨1, .branch other a⟩) := Store.live_put_pos s reuse (by simp)
        have t1 := fun f : Option (RcHeap.Cell L) → Nat =>
          total_put (f := f) hk (s' := s.put reuse (some ⟨1, 1, .branch other a⟩)) rfl hl1
        simp only [hlk] at t1
        have f2 := f1 _ hnot
        refine ⟨[.loop (some .right) (.branch reuse b)], s.put reuse (some ⟨1, 1, .branch other a⟩),
          by simp [step, hset, hl], ⟨i1.congr ?_ (fun _ => rfl) (fun _ => rfl), ?_, f2.mono (by simp; tauto), ?_,
            Or.inr ⟨?_, ?_⟩, ?_, rfl, rfl⟩⟩
        · intro j
          simp [Task.refs, Dat.kids]
        · simp only [List.mem_singleton]
          rintro _ rfl
          exact ⟨reuse, b, rfl⟩
        · rw [size_eq, size_eq]
          have := t1 one
          simp only [one] at *
          omega
        · have := t1 kidN
          simp [Task.weight, Task.refs, kidN, okids, Dat.kids] at *
          omega
        · have ha : s.live b ≠ none := i.good.valid b (Or.inl (by simp [Task.refs, Dat.kids]))
          have := RcHeap.spine_keep i.good f2.keep ha (.out (by simp)) .right
          simp only [List.map_cons, List.map_nil, Task.steps, List.sum_cons, List.sum_nil, ahead, this]
          omega
        · intro y
          have := t1 (leafN y)
          simp [leafN, leafOf] at this
          exact congrArg (· + s.log.count y) this

end Kul.ArcDrop
