import Verif.Proof.ArcStep

/-! # All threads together -/

namespace Kul.ArcDrop

open Drop (Class Side)
open RcHeap (Dat Reach Good okids spine)

variable {L : Type}

/-- What the threads have to do. -/
def World.tasks (w : World L) : List (Task L) := w.threads.flatMap (·.tasks)

/-- The strong references from outside of the store. -/
def World.refs (w : World L) : List Nat := w.tasks.flatMap Task.refs ++ w.held

def World.frees (w : World L) : List Nat := w.tasks.flatMap Task.frees

/-- All is in order. -/
structure World.Good [DecidableEq L] (w : World L) : Prop where
  inv : Inv w.store w.refs w.weaks w.frees
  ok : ∀ t ∈ w.tasks, t.Ok w.store
  leaves : ∀ x, w.store.made.count x = w.store.back.count x + w.store.log.count x + total (leafN x) w.store

theorem Task.Ok.frame {s s' : Store L} {R : List Nat} (f : Frame R s s') {t : Task L} (hr : ∀ k ∈ t.refs, k ∈ R)
    (ok : t.Ok s) : t.Ok s' := by
  have key : ∀ k ∈ t.refs, s'.live.dat k = s.live.dat k := fun k hk => f.keep k (.out (hr k hk))
  cases t with
  | drop | release | free => trivial
  | takeTop k =>
    obtain ⟨a, b, h⟩ := ok
    exact ⟨a, b, by rw [key k (by simp [Task.refs]), h]⟩
  | loop => exact ok
  | seen lock l r lc =>
    obtain ⟨d, h1, h2⟩ := ok
    exact ⟨d, by rw [key l (by simp [Task.refs]), h1], h2⟩
  | tryLeft lock l r rc o =>
    obtain ⟨⟨a, b, h1⟩, ⟨d, h2, h3⟩, h4⟩ := ok
    exact ⟨⟨a, b, by rw [key l (by simp [Task.refs]), h1]⟩, ⟨d, by rw [key r (by simp [Task.refs]), h2], h3⟩, h4⟩
  | tryRight lock l r lc =>
    obtain ⟨⟨a, b, h1⟩, ⟨d, h2, h3⟩, h4⟩ := ok
    exact ⟨⟨a, b, by rw [key r (by simp [Task.refs]), h1]⟩, ⟨d, by rw [key l (by simp [Task.refs]), h2], h3⟩, h4⟩
  | taken lock mode sel reuse oc other =>
    obtain ⟨h1, h2, h3⟩ := ok
    exact ⟨h1, f.sole reuse (hr _ (by simp [Task.refs])) _ h2, h3⟩

theorem Task.steps_frame {s s' : Store L} {R R' W F : List Nat} (i : Inv s R' W F) (f : Frame R s s') {t : Task L}
    (hr : ∀ k ∈ t.refs, k ∈ R) (hr' : ∀ k ∈ t.refs, k ∈ R') : t.steps s'.live = t.steps s.live := by
  have key : ∀ k ∈ t.refs, ∀ sd, spine s'.live sd k = spine s.live sd k := fun k hk sd =>
    RcHeap.spine_keep i.good f.keep (i.good.valid k (Or.inl (hr' k hk))) (.out (hr k hk)) sd
  have key2 : ∀ l r lock, l ∈ t.refs → r ∈ t.refs → ahead s'.live lock l r = ahead s.live lock l r := by
    intro l r lock hl hr
    unfold ahead
    rw [key l hl, key r hr]
  cases t with
  | drop | release | free | takeTop => rfl
  | loop lock top =>
    cases top with
    | leaf => rfl
    | branch l r =>
      simp only [Task.steps]
      rw [key2 l r _ (by simp [Task.refs, Dat.kids]) (by simp [Task.refs, Dat.kids])]
  | seen lock l r _ | tryLeft lock l r _ _ | tryRight lock l r _ =>
    simp only [Task.steps]
    rw [key2 l r _ (by simp [Task.refs]) (by simp [Task.refs])]
  | taken lock mode sel reuse oc other =>
    cases sel with
    | leaf => cases mode <;> rfl
    | branch a b =>
      cases oc with
      | leaf => cases mode <;> rfl
      | branch =>
        cases mode
        · simp only [Task.steps]
          rw [key a (by simp [Task.refs, Dat.kids])]
        · simp only [Task.steps]
          rw [key b (by simp [Task.refs, Dat.kids])]

/-! ## Use of references -/

theorem Inv.shared {s : Store L} {held R W F : List Nat} (i : Inv s (held ++ R) W F) {k : Nat} {c : Cell L}
    (hr : Reach s.live held k) (hc : s.get k = some c) (h1 : c.strong = 1) : k ∉ R := by
  intro hk
  have hl : s.live k = some ⟨1, c.dat⟩ := by rw [Store.live_of hc, h1]
  obtain ⟨h2, h3⟩ := i.good.sole (List.mem_append_right _ hk) hl rfl
  cases hr with
  | out h =>
    rw [List.count_append] at h2
    have := List.count_pos_iff.mpr h
    have := List.count_pos_iff.mpr hk
    omega
  | kid _ h => exact h3 _ h

theorem total_same {f : Option (RcHeap.Cell L) → Nat} {s s' : Store L} {k : Nat} (hk : k < s.next) {v}
    (h1 : s'.next = s.next) (h2 : s'.live = s.live.put k v) (h3 : f v = f (s.live k)) : total f s' = total f s := by
  have := total_put (f := f) hk h1 h2
  omega

theorem use_did [DecidableEq L] {s s' : Store L} {held weaks held' weaks' R W F : List Nat}
    (u : Use s held weaks s' held' weaks') (i : Inv s (held ++ R) (weaks ++ W) F)
    (hl : ∀ x, s.made.count x = s.back.count x + s.log.count x + total (leafN x) s) :
    Inv s' (held' ++ R) (weaks' ++ W) F ∧ Frame R s s' ∧
      ∀ x, s'.made.count x = s'.back.count x + s'.log.count x + total (leafN x) s' := by
  cases u with
  | @clone k c hr hc =>
    obtain ⟨hcc, h0⟩ := Store.get_eq.mp hc
    have hk : k < s.next := i.dom k (by rw [hcc]; simp)
    have hlive : (s.put k (some { c with strong := c.strong + 1 })).live = s.live.put k (some ⟨c.strong + 1, c.dat⟩) :=
      Store.live_put_pos s k (by simp)
    refine ⟨i.cloned hc, ?_, fun x => ?_⟩
    · refine Frame.counts hcc (fun h _ => i.shared hr hc h) ?_ fun j hj => Store.put_ne s hj _
      rw [hlive, RcHeap.dat_put, if_pos rfl, cls_of hc]
      rfl
    · refine (hl x).trans (congrArg _ ?_)
      exact (total_same (s' := s.put k (some { c with strong := c.strong + 1 })) hk rfl hlive (by rw [Store.live_of hc]; rfl)).symm
  | @downgrade k c hr hc =>
    obtain ⟨hcc, h0⟩ := Store.get_eq.mp hc
    have hlive := live_put_weak s hcc (c.weak + 1)
    refine ⟨i.moreWeak hcc, ?_, fun x => ?_⟩
    · exact Frame.counts hcc (fun h _ => i.shared hr hc h) (by rw [hlive]) fun j hj => Store.put_ne s hj _
    · refine (hl x).trans (congrArg _ ?_)
      exact (total_congr (s := s) (s' := s.put k (some { c with weak := c.weak + 1 })) rfl hlive).symm
  | @upgrade k c hw hc =>
    obtain ⟨hcc, h0⟩ := Store.get_eq.mp hc
    have hk : k < s.next := i.dom k (by rw [hcc]; simp)
    have hlive : (s.put k (some { c with strong := c.strong + 1 })).live = s.live.put k (some ⟨c.strong + 1, c.dat⟩) :=
      Store.live_put_pos s k (by simp)
    refine ⟨i.cloned hc, ?_, fun x => ?_⟩
    · refine Frame.counts hcc (fun h h1 => ?_) ?_ fun j hj => Store.put_ne s hj _
      · have := i.weak k c hcc
        rw [if_neg h0, List.count_append] at this
        have := List.count_pos_iff.mpr hw
        omega
      · rw [hlive, RcHeap.dat_put, if_pos rfl, cls_of hc]
        rfl
    · refine (hl x).trans (congrArg _ ?_)
      exact (total_same (s' := s.put k (some { c with strong := c.strong + 1 })) hk rfl hlive (by rw [Store.live_of hc]; rfl)).symm
  | @cloneWeak k c hw hc =>
    have hlive := live_put_weak s hc (c.weak + 1)
    refine ⟨i.moreWeak hc, ?_, fun x => ?_⟩
    · refine Frame.counts hc (fun h h1 => ?_) (by rw [hlive]) fun j hj => Store.put_ne s hj _
      have := i.weak k c hc
      rw [if_neg (by omega), List.count_append] at this
      have := List.count_pos_iff.mpr hw
      omega
    · refine (hl x).trans (congrArg _ ?_)
      exact (total_congr (s := s) (s' := s.put k (some { c with weak := c.weak + 1 })) rfl hlive).symm
  | dropWeak hp hd =>
    rename_i k
    obtain ⟨s₁, h1, h2, h3, h4, h5, h6, h7, h8⟩ := i.dropWeak (k := k) (W' := weaks' ++ W) (F' := F) (fun j => by
      rw [List.count_append, hp.count_eq, List.count_append]
      by_cases e : j = k
      · subst e
        rw [List.count_cons_self, if_pos rfl]
        omega
      · rw [List.count_cons_of_ne (Ne.symm e), if_neg e]
        omega) (fun j => by
      rw [List.count_append, List.count_append, hp.count_eq, List.count_cons]
      omega) (fun _ => Nat.le_refl _)
    rw [h1] at hd
    cases hd
    refine ⟨h2, h5.mono (fun j hj => List.mem_append_right _ hj), fun x => ?_⟩
    rw [h6, h7, h8, total_congr h4 h3]
    exact hl x
  | @new d held₁ hp =>
    have i1 : Inv s (d.kids ++ (held₁ ++ R)) (weaks ++ W) F := i.congr (fun j => by
      rw [List.count_append, List.count_append (l₁ := held), hp.count_eq, List.count_append, List.count_append]
      omega) (fun _ => rfl) (fun _ => rfl)
    obtain ⟨i2, f2⟩ := i1.new
    have f3 : Frame R s (s.new d) := f2.mono (fun j hj => by simp [hj])
    refine ⟨i2.leaves _ _ _, ⟨f3.keep, f3.sole⟩, fun x => ?_⟩
    have := total_new (f := leafN x) (s := s) (s' := s.new d) rfl (Store.live_new s d)
    change (leafOf d ++ s.made).count x = s.back.count x + s.log.count x + total (leafN x) (s.new d)
    rw [this, List.count_append, hl x]
    simp only [leafN]
    omega
  | @unwrap k held₁ c s₁ hp hc h1 hd =>
    obtain ⟨hcc, h0⟩ := Store.get_eq.mp hc
    have hk : k < s.next := i.dom k (by rw [hcc]; simp)
    have i1 : Inv s (k :: (held₁ ++ R)) (weaks ++ W) F := i.congr (fun j => by
      rw [List.count_append, hp.count_eq, ← List.cons_append, List.count_append]) (fun _ => rfl) (fun _ => rfl)
    obtain ⟨i2, f2⟩ := i1.unwrap hc h1
    obtain ⟨s₂, g1, g2, g3, g4, g5, g6, g7, g8⟩ := i2.dropWeak (k := k) (W' := weaks ++ W) (F' := F) (fun j => by
      by_cases e : j = k
      · subst e
        rw [List.count_cons_self, if_pos rfl]
        omega
      · rw [List.count_cons_of_ne (Ne.symm e), if_neg e]
        omega) (fun _ => Nat.le_refl _) (fun j => by rw [List.count_cons]; omega)
    rw [g1] at hd
    cases hd
    have i3 := i2
    have f3 : Frame R s s₁ := (f2.trans g5).mono (fun j hj => by simp [hj])
    refine ⟨(g2.congr (fun j => by rw [List.append_assoc]) (fun _ => rfl) (fun _ => rfl)).leaves _ _ _,
      ⟨f3.keep, f3.sole⟩, fun x => ?_⟩
    have hlive : (s.put k (some { c with strong := 0, dat := .leaf none })).live = s.live.put k none :=
      Store.live_put_zero s k rfl
    have := total_put (f := leafN x) (s' := s.put k (some { c with strong := 0, dat := .leaf none })) hk rfl hlive
    rw [Store.live_of hc] at this
    change s₁.made.count x = (leafOf c.dat ++ s.back).count x + s₁.log.count x + total (leafN x) s₁
    rw [total_congr g4 g3, g6, g8, List.count_append]
    have h2 := hl x
    change s.made.count x = _ + s.log.count x + _
    simp only [leafN] at this
    omega
  | @write k held₁ c d hp hc h1 hw =>
    obtain ⟨hcc, h0⟩ := Store.get_eq.mp hc
    have hk : k < s.next := i.dom k (by rw [hcc]; simp)
    have hlk : s.live k = some ⟨1, c.dat⟩ := by rw [Store.live_of hc, h1]
    have i1 : Inv s (k :: (d.kids ++ held₁ ++ R)) (weaks ++ W) F := i.congr (fun j => by
      rw [List.count_append, hp.count_eq, ← List.count_append]
      simp only [List.cons_append]) (fun _ => rfl) (fun _ => rfl)
    have hnot : k ∉ R := by
      have := (i1.good.sole (by simp) hlk rfl).1
      rw [List.count_cons_self, List.count_append] at this
      rw [← List.count_eq_zero]
      omega
    obtain ⟨i2, f2⟩ := i1.exchange (R' := k :: (c.dat.kids ++ held₁ ++ R)) (d := d) hc h1 (by simp) (by simp) (by
      intro j
      simp only [List.count_cons, List.count_append]
      omega)
    have f3 := f2 R hnot
    have hlive : (s.put k (some { c with dat := d })).live = s.live.put k (some ⟨c.strong, d⟩) :=
      Store.live_put_pos s k (c := { c with dat := d }) h0
    refine ⟨(i2.congr (fun j => rfl) (fun _ => rfl) (fun _ => rfl)).leaves _ _ _, ⟨f3.keep, f3.sole⟩, fun x => ?_⟩
    have := total_put (f := leafN x) (s' := s.put k (some { c with dat := d })) hk rfl hlive
    rw [Store.live_of hc] at this
    change (leafOf d ++ s.made).count x = (leafOf c.dat ++ s.back).count x + s.log.count x +
      total (leafN x) (s.put k (some { c with dat := d }))
    rw [List.count_append, List.count_append, hl x]
    simp only [leafN] at this
    omega

/-! ## Steps of the world -/

theorem World.Good.dropStep [DecidableEq L] {w w' : World L} (g : w.Good) (h : DropStep w w') :
    w'.Good ∧ w'.held = w.held ∧ w'.weaks = w.weaks ∧ Frame w.held w.store w'.store ∧
      w'.store.made = w.store.made ∧ w'.store.back = w.store.back ∧ w'.store.size ≤ w.store.size ∧
      (((w'.tasks.map Task.weight).sum + 5 * total kidN w'.store < (w.tasks.map Task.weight).sum + 5 * total kidN w.store ∧
        (w'.tasks.map (Task.steps w'.store.live)).sum ≤ (w.tasks.map (Task.steps w.store.live)).sum + 20 * w.store.size + 19) ∨
      ((w'.tasks.map Task.weight).sum + 5 * total kidN w'.store = (w.tasks.map Task.weight).sum + 5 * total kidN w.store ∧
        (w'.tasks.map (Task.steps w'.store.live)).sum < (w.tasks.map (Task.steps w.store.live)).sum)) := by
  obtain @⟨s, pre, t, ts, held, weaks, post, ts', s', h⟩ := h
  -- the other tasks
  let rest : List (Task L) := pre.flatMap (·.tasks) ++ ts ++ post.flatMap (·.tasks)
  let hs : List Nat := pre.flatMap (·.held) ++ held ++ post.flatMap (·.held)
  have htasks : ∀ (u : List (Task L)), (World.mk s (pre ++ ⟨u ++ ts, held, weaks⟩ :: post)).tasks =
      pre.flatMap (·.tasks) ++ (u ++ ts) ++ post.flatMap (·.tasks) := fun u => by
    simp [World.tasks, List.flatMap_append, List.flatMap_cons]
  have hperm : ∀ (u : List (Task L)), (pre.flatMap (·.tasks) ++ (u ++ ts) ++ post.flatMap (·.tasks)).Perm (u ++ rest) := by
    intro u
    simp only [rest, ← List.append_assoc]
    refine List.Perm.append_right _ (List.Perm.append_right _ ?_)
    exact List.perm_append_comm
  have hheld : ∀ (u : List (Task L)), (World.mk s (pre ++ ⟨u, held, weaks⟩ :: post)).held = hs := fun u => by
    simp [World.held, hs, List.flatMap_append, List.flatMap_cons]
  have hweaks : ∀ (u : List (Task L)), (World.mk s (pre ++ ⟨u, held, weaks⟩ :: post)).weaks =
      pre.flatMap (·.weaks) ++ weaks ++ post.flatMap (·.weaks) := fun u => by
    simp [World.weaks, List.flatMap_append, List.flatMap_cons]
  have pt : (World.mk s (pre ++ ⟨t :: ts, held, weaks⟩ :: post)).tasks.Perm ([t] ++ rest) := by
    have := htasks [t]
    rw [List.singleton_append] at this
    rw [this]
    exact hperm [t]
  have pt' : (World.mk s' (pre ++ ⟨ts' ++ ts, held, weaks⟩ :: post)).tasks.Perm (ts' ++ rest) := by
    change (World.mk s (pre ++ ⟨ts' ++ ts, held, weaks⟩ :: post)).tasks.Perm _
    rw [htasks]
    exact hperm ts'
  have i : Inv s (t.refs ++ (rest.flatMap Task.refs ++ hs)) (pre.flatMap (·.weaks) ++ weaks ++ post.flatMap (·.weaks))
      (t.frees ++ rest.flatMap Task.frees) := g.inv.congr (fun k => by
      simp only [World.refs]
      rw [hheld, List.count_append (l₁ := List.flatMap _ _), (List.Perm.flatMap_right Task.refs pt).count_eq]
      simp only [List.flatMap_append, List.flatMap_cons, List.flatMap_nil, List.append_nil, List.count_append]
      omega) (fun k => by rw [hweaks]) (fun k => by
      simp only [World.frees]
      rw [(List.Perm.flatMap_right Task.frees pt).count_eq]
      simp only [List.flatMap_append, List.flatMap_cons, List.flatMap_nil, List.append_nil])
  obtain ⟨ts₁, s₁, h1, d⟩ := step_did i (g.ok t (pt.mem_iff.mpr (by simp)))
  rw [h] at h1
  cases h1
  have hok : ∀ u ∈ rest, u.Ok s' := fun u hu =>
    (g.ok u (pt.mem_iff.mpr (List.mem_append_right _ hu))).frame d.frame fun k hk =>
      List.mem_append_left _ (List.mem_flatMap.mpr ⟨u, hu, hk⟩)
  have hsteps : rest.map (Task.steps s'.live) = rest.map (Task.steps s.live) := by
    refine List.map_congr_left fun u hu => Task.steps_frame i d.frame ?_ ?_
    · exact fun k hk => List.mem_append_left _ (List.mem_flatMap.mpr ⟨u, hu, hk⟩)
    · exact fun k hk => List.mem_append_right _ (List.mem_append_left _ (List.mem_flatMap.mpr ⟨u, hu, hk⟩))
  refine ⟨⟨d.inv.congr (fun k => ?_) (fun k => ?_) (fun k => ?_), ?_, ?_⟩, ?_, ?_, ?_, d.made, d.back, d.size, ?_⟩
  · simp only [World.refs]
    rw [List.count_append (l₁ := List.flatMap _ _), (List.Perm.flatMap_right Task.refs pt').count_eq]
    change _ + List.count k (World.mk s (pre ++ ⟨ts' ++ ts, held, weaks⟩ :: post)).held = _
    rw [hheld]
    simp only [List.flatMap_append, List.count_append]
    omega
  · change List.count k (World.mk s (pre ++ ⟨ts' ++ ts, held, weaks⟩ :: post)).weaks = _
    rw [hweaks]
  · simp only [World.frees]
    rw [(List.Perm.flatMap_right Task.frees pt').count_eq]
    simp only [List.flatMap_append]
  · intro u hu
    rcases List.mem_append.mp (pt'.mem_iff.mp hu) with hu | hu
    · exact d.ok u hu
    · exact hok u hu
  · intro x
    have h2 := g.leaves x
    have h3 := d.leaves x
    change s.made.count x = s.back.count x + s.log.count x + total (leafN x) s at h2
    change s'.made.count x = s'.back.count x + s'.log.count x + total (leafN x) s'
    rw [d.made, d.back]
    omega
  · exact (hheld (ts' ++ ts)).trans (hheld (t :: ts)).symm
  · exact (hweaks (ts' ++ ts)).trans (hweaks (t :: ts)).symm
  · rw [hheld]
    exact d.frame.mono fun k hk => List.mem_append_right _ hk
  · have e1 := (pt.map Task.weight).sum_eq
    have e2 := (pt'.map Task.weight).sum_eq
    have e3 := (pt.map (Task.steps s.live)).sum_eq
    have e4 := (pt'.map (Task.steps s'.live)).sum_eq
    change (_ + 5 * total kidN s' < _ + 5 * total kidN s ∧
      List.sum (List.map (Task.steps s'.live) _) ≤ List.sum (List.map (Task.steps s.live) _) + 20 * s.size + 19) ∨
      (_ + 5 * total kidN s' = _ + 5 * total kidN s ∧
      List.sum (List.map (Task.steps s'.live) _) < List.sum (List.map (Task.steps s.live) _))
    rw [e1, e2, e3, e4]
    simp only [List.map_append, List.sum_append, List.map_cons, List.map_nil, List.sum_cons, List.sum_nil, hsteps]
    have := d.falls
    omega

/-- The parts of the world, around one thread. -/
theorem World.around (s : Store L) (pre : List (Thread L)) (t : Thread L) (post : List (Thread L)) (k : Nat) :
    (World.mk s (pre ++ t :: post)).refs.count k =
        (t.tasks.flatMap Task.refs ++ t.held ++ ((pre ++ post).flatMap (·.tasks)).flatMap Task.refs ++
          (pre ++ post).flatMap (·.held)).count k ∧
      (World.mk s (pre ++ t :: post)).weaks.count k = (t.weaks ++ (pre ++ post).flatMap (·.weaks)).count k ∧
      (World.mk s (pre ++ t :: post)).frees.count k =
        (t.tasks.flatMap Task.frees ++ ((pre ++ post).flatMap (·.tasks)).flatMap Task.frees).count k := by
  simp only [World.refs, World.tasks, World.held, World.weaks, World.frees, List.flatMap_append, List.flatMap_cons,
    List.count_append]
  omega

theorem World.tasks_around (s : Store L) (pre : List (Thread L)) (t : Thread L) (post : List (Thread L)) (u : Task L) :
    u ∈ (World.mk s (pre ++ t :: post)).tasks ↔ u ∈ t.tasks ∨ u ∈ (pre ++ post).flatMap (·.tasks) := by
  simp only [World.tasks, List.flatMap_append, List.flatMap_cons, List.mem_append]
  tauto

theorem World.Good.step [DecidableEq L] {w w' : World L} (g : w.Good) (h : Step w w') : w'.Good := by
  cases h with
  | drop h => exact (g.dropStep h).1
  | @begin s pre held weaks k held' post hp =>
    refine ⟨g.inv.congr (fun j => ?_) (fun j => ?_) (fun j => ?_), ?_, g.leaves⟩
    · rw [(World.around s pre _ post j).1, (World.around s pre _ post j).1]
      simp only [List.count_append, hp.count_eq]
      simp [Task.refs, List.count_cons]
      omega
    · rw [(World.around s pre _ post j).2.1, (World.around s pre _ post j).2.1]
    · rw [(World.around s pre _ post j).2.2, (World.around s pre _ post j).2.2]
      rfl
    · intro u hu
      rcases (World.tasks_around _ _ _ _ _).mp hu with hu | hu
      · rw [List.mem_singleton.mp hu]
        trivial
      · exact g.ok u ((World.tasks_around _ _ _ _ _).mpr (Or.inr hu))
  | @use s pre held weaks post s' held' weaks' hu =>
    obtain ⟨i, f, hl⟩ := use_did (R := ((pre ++ post).flatMap (·.tasks)).flatMap Task.refs ++
        (pre ++ post).flatMap (·.held)) (W := (pre ++ post).flatMap (·.weaks))
      (F := ((pre ++ post).flatMap (·.tasks)).flatMap Task.frees) hu
      (g.inv.congr (fun j => by
        rw [(World.around s pre _ post j).1]
        simp only [List.flatMap_nil, List.nil_append, List.append_assoc])
        (fun j => by rw [(World.around s pre _ post j).2.1])
        (fun j => by
          rw [(World.around s pre _ post j).2.2]
          simp only [List.flatMap_nil, List.nil_append])) g.leaves
    refine ⟨i.congr (fun j => ?_) (fun j => ?_) (fun j => ?_), ?_, hl⟩
    · rw [(World.around s' pre _ post j).1]
      simp only [List.flatMap_nil, List.nil_append, List.append_assoc]
    · rw [(World.around s' pre _ post j).2.1]
    · rw [(World.around s' pre _ post j).2.2]
      simp only [List.flatMap_nil, List.nil_append]
    · intro u hu
      rcases (World.tasks_around _ _ _ _ _).mp hu with hu | hu
      · cases hu
      · exact (g.ok u ((World.tasks_around _ _ _ _ _).mpr (Or.inr hu))).frame f fun k hk =>
          List.mem_append_left _ (List.mem_flatMap.mpr ⟨u, hu, hk⟩)
  | @spawn s threads =>
    refine ⟨g.inv.congr (fun j => ?_) (fun j => ?_) (fun j => ?_), ?_, g.leaves⟩
    · simp [World.refs, World.tasks, World.held]
    · simp [World.weaks]
    · simp [World.frees, World.tasks]
    · intro u hu
      exact g.ok u (by simpa [World.tasks] using hu)
  | @send s threads pre ts held weaks post ks ws held' weaks' pre' ts' held₂ weaks₂ post' ht hk hw he =>
    subst ht
    have a := fun j => World.around s pre ⟨ts, held, weaks⟩ post j
    have b := fun j => World.around s pre ⟨ts, held', weaks'⟩ post j
    have c := fun j => World.around s pre' ⟨ts', held₂, weaks₂⟩ post' j
    have d := fun j => World.around s pre' ⟨ts', ks ++ held₂, ws ++ weaks₂⟩ post' j
    rw [he] at b
    refine ⟨g.inv.congr (fun j => ?_) (fun j => ?_) (fun j => ?_), ?_, g.leaves⟩
    · have h1 := (a j).1
      have h2 := (b j).1
      have h3 := (c j).1
      have h4 := (d j).1
      simp only [List.count_append, hk.count_eq] at *
      omega
    · have h1 := (a j).2.1
      have h2 := (b j).2.1
      have h3 := (c j).2.1
      have h4 := (d j).2.1
      simp only [List.count_append, hw.count_eq] at *
      omega
    · have h1 := (a j).2.2
      have h2 := (b j).2.2
      have h3 := (c j).2.2
      have h4 := (d j).2.2
      simp only at *
      omega
    · intro u hu
      have h1 := (World.tasks_around _ _ _ _ _).mp hu
      have h2 := (World.tasks_around s pre' ⟨ts', held₂, weaks₂⟩ post' u).mpr h1
      rw [← he] at h2
      have h3 := (World.tasks_around _ _ _ _ _).mp h2
      exact g.ok u ((World.tasks_around _ _ _ _ _).mpr h3)

theorem Comes.good [DecidableEq L] {w : World L} (h : Comes w) : w.Good := by
  induction h with
  | init =>
    refine ⟨⟨⟨?_, ?_, ?_, ?_, ?_⟩, ?_, ?_, ?_, ?_, ?_⟩, ?_, ?_⟩
    · intro k hk; exact (hk rfl).elim
    · intro k c hc; cases hc
    · intro k c hc; cases hc
    · rintro k (hk | ⟨j, hk⟩)
      · cases hk
      · cases hk
    · intro k
      exact .mk fun j hj => by cases hj
    · intro k hk; exact (hk rfl).elim
    · intro k c hc; cases hc
    · intro k c hc; cases hc
    · intro k hk; cases hk
    · intro k hk; cases hk
    · intro t ht; cases ht
    · intro x; rfl
  | step _ h ih => exact ih.step h

/-- How many steps of dropping there can be. -/
noncomputable def World.bound (w : World L) : Nat :=
  ((w.tasks.map Task.weight).sum + 5 * total kidN w.store) * (20 * (w.store.size + 1)) +
    (w.tasks.map (Task.steps w.store.live)).sum

theorem World.Good.falls [DecidableEq L] {w w' : World L} (g : w.Good) (h : DropStep w w') : w'.bound < w.bound := by
  obtain ⟨-, -, -, -, -, -, hs, hf⟩ := g.dropStep h
  unfold World.bound
  generalize (w'.tasks.map Task.weight).sum + 5 * total kidN w'.store = a' at *
  generalize (w.tasks.map Task.weight).sum + 5 * total kidN w.store = a at *
  generalize (w'.tasks.map (Task.steps w'.store.live)).sum = b' at *
  generalize (w.tasks.map (Task.steps w.store.live)).sum = b at *
  have h1 : a' * (20 * (w'.store.size + 1)) ≤ a' * (20 * (w.store.size + 1)) :=
    Nat.mul_le_mul_left _ (by omega)
  rcases hf with ⟨h2, h3⟩ | ⟨rfl, h3⟩
  · have h4 : (a' + 1) * (20 * (w.store.size + 1)) ≤ a * (20 * (w.store.size + 1)) :=
      Nat.mul_le_mul_right _ (by omega)
    rw [Nat.add_mul] at h4
    omega
  · omega

theorem World.Good.dropSteps [DecidableEq L] {w w' : World L} {n : Nat} (g : w.Good) (h : DropSteps n w w') :
    w'.Good ∧ n + w'.bound ≤ w.bound ∧ w'.held = w.held ∧ w'.weaks = w.weaks ∧ Frame w.held w.store w'.store ∧
      w'.store.made = w.store.made ∧ w'.store.back = w.store.back := by
  induction h with
  | refl => exact ⟨g, by omega, rfl, rfl, .refl _ _, rfl, rfl⟩
  | step h _ ih =>
    have h0 := g.falls h
    obtain ⟨h1, h2, h3, h4, h5, h6, -⟩ := g.dropStep h
    obtain ⟨g1, g2, g3, g4, g5, g6, g7⟩ := ih h1
    exact ⟨g1, by omega, g3.trans h2, g4.trans h3, h4.trans (h2 ▸ g5), g6.trans h5, g7.trans h6⟩

theorem kids_le (s : Store L) : total kidN s ≤ 2 * s.size := by
  rw [size_eq]
  unfold total
  rw [two_mul, ← Finset.sum_add_distrib]
  refine Finset.sum_le_sum fun j _ => ?_
  rcases s.live j with _ | ⟨n, _ | _⟩ <;> simp [kidN, okids, one, Dat.kids]

end Kul.ArcDrop
