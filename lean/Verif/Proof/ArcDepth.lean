import Verif.Proof.ArcWorld
import Mathlib.Algebra.BigOperators.Group.Finset.Piecewise

/-! # How much a thread has to do at a time -/

namespace Kul.ArcDrop

open Drop (Class Side)
open RcHeap (Dat Reach Good okids spine)

variable {L : Type}

/-- The strong count in a cell. -/
def strongIn : Option (RcHeap.Cell L) → Nat
  | some c => c.strong
  | none => 0

theorem strongOf_eq (s : Store L) (k : Nat) : s.strongOf k = strongIn (s.live k) := by
  unfold Store.strongOf Store.live
  cases s.get k <;> rfl

/-- Whether a cell has a leaf. -/
def isLeaf (s : Store L) (k : Nat) : Bool :=
  match s.live.dat k with
  | some (.leaf _) => true
  | _ => false

theorem isLeaf_leaf {s : Store L} {k : Nat} {d : Dat L} (h : s.live.dat k = some d) (hd : d.cls = .leaf) :
    isLeaf s k = true := by
  unfold isLeaf
  rw [h]
  cases d with
  | leaf => rfl
  | branch => cases hd

theorem isLeaf_branch {s : Store L} {k a b : Nat} (h : s.live.dat k = some (.branch a b)) : isLeaf s k = false := by
  unfold isLeaf
  rw [h]

/-! ## What a step does to the store -/

/-- The effect of a step by a thread that has the references `T`. -/
structure Eff (T : List Nat) (s s' : Store L) : Prop where
  next : s.next ≤ s'.next
  strong : ∀ j, j ≠ s.next → strongIn (s'.live j) ≤ strongIn (s.live j)
  strongNew : strongIn (s'.live s.next) ≤ 1
  kids : ∀ k j, j ∈ s'.live.kids k → j ∈ s.live.kids k ∨ j ∈ T

theorem Eff.same {T : List Nat} {s s' : Store L} (h0 : s.live s.next = none) (hn : s'.next = s.next)
    (hl : s'.live = s.live) : Eff T s s' :=
  ⟨by rw [hn], fun j _ => by rw [hl], by rw [hl, h0]; exact Nat.zero_le _, fun k j h => Or.inl (by rwa [hl] at h)⟩

theorem Eff.put {T : List Nat} {s s' : Store L} (h0 : s.live s.next = none) (hn : s'.next = s.next) {k : Nat} {v}
    (hl : s'.live = s.live.put k v) (hk : s.live k ≠ none) (h1 : strongIn v ≤ strongIn (s.live k))
    (h2 : ∀ j, j ∈ okids v → j ∈ s.live.kids k ∨ j ∈ T) : Eff T s s' := by
  have e : s.next ≠ k := by rintro rfl; exact hk h0
  refine ⟨by rw [hn], fun j _ => ?_, ?_, fun i j h => ?_⟩
  · rw [hl]
    unfold RcHeap.Heap.put
    split
    · next e => rw [e]; exact h1
    · exact Nat.le_refl _
  · rw [hl]
    unfold RcHeap.Heap.put
    rw [if_neg e, h0]
    exact Nat.zero_le _
  · rw [hl, RcHeap.kids_put] at h
    split at h
    · next e => rw [e]; exact h2 j h
    · exact Or.inl h

theorem Eff.take {T : List Nat} {s s' : Store L} (hn : s'.next = s.next + 1) {k : Nat}
    (hl : s'.live = (s.live.put k none).put s.next (some ⟨1, .leaf none⟩)) : Eff T s s' := by
  refine ⟨by omega, fun j hj => ?_, ?_, fun i j h => ?_⟩
  · rw [hl, RcHeap.put_ne _ hj]
    unfold RcHeap.Heap.put
    split
    · exact Nat.zero_le _
    · exact Nat.le_refl _
  · rw [hl, RcHeap.put_same]
    exact Nat.le_refl _
  · rw [hl, RcHeap.kids_put] at h
    split at h
    · cases h
    · rw [RcHeap.kids_put] at h
      split at h
      · cases h
      · exact Or.inl h

/-- The sum of the strong counts of some cells. -/
def counts (Q : Finset Nat) (s : Store L) : Nat := ∑ q ∈ Q, strongIn (s.live q)

theorem Eff.counts {T : List Nat} {s s' : Store L} (e : Eff T s s') {Q : Finset Nat} (hQ : ∀ q ∈ Q, q < s.next) :
    counts Q s' ≤ counts Q s :=
  Finset.sum_le_sum fun q hq => e.strong q (Nat.ne_of_lt (hQ q hq))

theorem counts_less {T : List Nat} {s s' : Store L} (e : Eff T s s') {Q : Finset Nat} (hQ : ∀ q ∈ Q, q < s.next)
    {k : Nat} (hk : k ∈ Q) (h : strongIn (s'.live k) + 1 ≤ strongIn (s.live k)) : counts Q s' + 1 ≤ counts Q s := by
  unfold ArcDrop.counts
  rw [← Finset.sum_erase_add _ _ hk, ← Finset.sum_erase_add _ _ hk]
  have : ∑ q ∈ Q.erase k, strongIn (s'.live q) ≤ ∑ q ∈ Q.erase k, strongIn (s.live q) :=
    Finset.sum_le_sum fun q hq => e.strong q (Nat.ne_of_lt (hQ q (Finset.mem_of_mem_erase hq)))
  omega

/-! ## Tasks -/

/-- How many tasks there can be of what follows from a task, unless it has to do with shared cells. -/
def Task.peak (s : Store L) : Task L → Nat
  | .drop k | .release k => if isLeaf s k then 1 else 4
  | .takeTop _ => 4
  | .free _ => 1
  | _ => 3

/-- How many tasks there can be, unless it has to do with shared cells. -/
def high (s : Store L) : List (Task L) → Nat
  | [] => 0
  | t :: ts => max (t.peak s + ts.length) (high s ts)

theorem length_le_high (s : Store L) (ts : List (Task L)) : ts.length ≤ high s ts := by
  cases ts with
  | nil => exact Nat.le_refl _
  | cons t ts =>
    have : 1 ≤ t.peak s := by
      unfold Task.peak
      split <;> (try split) <;> omega
    simp only [high, List.length_cons]
    omega

theorem high_append (s : Store L) (ts us : List (Task L)) :
    high s (ts ++ us) ≤ max (high s ts + us.length) (high s us) := by
  induction ts with
  | nil => simp [high]
  | cons t ts ih =>
    simp only [List.cons_append, high, List.length_append]
    omega

/-- The cell that a task is to give up a reference to. -/
def Task.drops : Task L → List Nat
  | .drop k | .takeTop k | .release k => [k]
  | _ => []

/-- The references to cells of `Q` that are to be given up. -/
def pending (Q : Finset Nat) (ts : List (Task L)) : Nat := ((ts.flatMap Task.drops).filter (· ∈ Q)).length

theorem pending_append (Q : Finset Nat) (ts us : List (Task L)) : pending Q (ts ++ us) = pending Q ts + pending Q us := by
  simp [pending]

/-- What is known of leaves. -/
def Task.Leafy (Q : Finset Nat) (s : Store L) : Task L → Prop
  | .release k => k ∈ Q ∨ isLeaf s k = true
  | .taken _ _ _ _ .leaf other => isLeaf s other = true
  | _ => True

/-- What a step of a thread does for how much it has to do. -/
structure Less (Q : Finset Nat) (t : Task L) (s : Store L) (ts : List (Task L)) (s' : Store L) : Prop where
  eff : Eff t.refs s s'
  refs : ∀ j ∈ ts.flatMap Task.refs, j ∈ t.refs ∨ (∃ k ∈ t.refs, j ∈ s.live.kids k) ∨ j = s.next
  leafy : ∀ t' ∈ ts, t'.Leafy Q s'
  high : high s' ts + 4 * counts Q s' + 2 * pending Q [t] ≤ t.peak s + 4 * counts Q s + 2 * pending Q ts
  rest : 4 * counts Q s' + 2 * pending Q [t] ≤ 4 * counts Q s + 2 * pending Q ts

theorem tryTake_yes {s s' : Store L} {k k' : Nat} {d : Dat L} (h : s.tryTake k = some (some (d, k'), s')) :
    k' = s.next ∧ s.live k = some ⟨1, d⟩ ∧ s'.next = s.next + 1 ∧
      s'.live = (s.live.put k none).put s.next (some ⟨1, .leaf none⟩) := by
  unfold Store.tryTake at h
  split at h
  · cases h
  · next c hc =>
    split at h
    · next h1 =>
      cases h
      refine ⟨rfl, by rw [Store.live_of hc, h1], rfl, ?_⟩
      rw [Store.live_new, Store.live_put_zero s k rfl]
      rfl
    · cases h

theorem tryTake_no {s s' : Store L} {k : Nat} (h : s.tryTake k = some (none, s')) :
    s' = s ∧ 2 ≤ strongIn (s.live k) := by
  unfold Store.tryTake at h
  split at h
  · cases h
  · next c hc =>
    split at h
    · cases h
    · next h1 =>
      cases h
      refine ⟨rfl, ?_⟩
      rw [Store.live_of hc]
      have := (Store.get_eq.mp hc).2
      simp only [strongIn]
      omega

theorem set_some {s s' : Store L} {k : Nat} {d : Dat L} (h : s.set k d = some s') :
    (∃ d', s.live k = some ⟨1, d'⟩) ∧ s'.next = s.next ∧ s'.live = s.live.put k (some ⟨1, d⟩) := by
  unfold Store.set at h
  split at h
  · next c hc =>
    split at h
    · next h1 =>
      cases h
      refine ⟨⟨c.dat, by rw [Store.live_of hc, h1.1]⟩, rfl, ?_⟩
      rw [Store.live_put_pos s k (c := { c with dat := d }) (by simp [h1.1])]
      simp [h1.1]
    · cases h
  · cases h

theorem dropWeak_live {s s' : Store L} {k : Nat} (h : s.dropWeak k = some s') : s'.next = s.next ∧ s'.live = s.live := by
  unfold Store.dropWeak at h
  split at h
  · next c hc =>
    split at h
    · split at h
      · next h0 =>
        cases h
        refine ⟨rfl, ?_⟩
        rw [Store.live_put_none]
        funext j
        unfold RcHeap.Heap.put
        split
        · next e => rw [e]; simp [Store.live, Store.get, hc, h0]
        · rfl
      · cases h
    · cases h
      exact ⟨rfl, live_put_weak s hc _⟩
  · cases h

theorem pending_drop (Q : Finset Nat) (k : Nat) : pending Q [Task.drop (L := L) k] = if k ∈ Q then 1 else 0 := by
  by_cases h : k ∈ Q <;> simp [pending, Task.drops, h]

theorem pending_takeTop (Q : Finset Nat) (k : Nat) : pending Q [Task.takeTop (L := L) k] = if k ∈ Q then 1 else 0 := by
  by_cases h : k ∈ Q <;> simp [pending, Task.drops, h]

theorem pending_release (Q : Finset Nat) (k : Nat) : pending Q [Task.release (L := L) k] = if k ∈ Q then 1 else 0 := by
  by_cases h : k ∈ Q <;> simp [pending, Task.drops, h]

theorem pending_cons (Q : Finset Nat) (t : Task L) (ts : List (Task L)) :
    pending Q (t :: ts) = pending Q [t] + pending Q ts := pending_append Q [t] ts

/-- Nothing is changed. -/
theorem Less.same {Q : Finset Nat} {t : Task L} {s : Store L} {ts : List (Task L)} (h0 : s.live s.next = none)
    (hr : ∀ j ∈ ts.flatMap Task.refs, j ∈ t.refs) (hl : ∀ t' ∈ ts, t'.Leafy Q s)
    (h1 : ArcDrop.high s ts + 2 * pending Q [t] ≤ t.peak s + 2 * pending Q ts)
    (h2 : pending Q [t] ≤ pending Q ts) : Less Q t s ts s :=
  ⟨.same h0 rfl rfl, fun j hj => Or.inl (hr j hj), hl, by omega, by omega⟩

theorem step_less {Q : Finset Nat} {t : Task L} {s : Store L} {ts : List (Task L)} {s' : Store L}
    (h0 : s.live s.next = none) (hQ : ∀ q ∈ Q, q < s.next) (hs : ∀ k ∈ t.refs, 2 ≤ strongIn (s.live k) → k ∈ Q)
    (ok : t.Ok s) (lf : t.Leafy Q s) (h : step t s = .ok (ts, s')) : Less Q t s ts s' := by
  have hnew : s.next ∉ Q := fun h => Nat.lt_irrefl _ (hQ _ h)
  have took : ∀ {k k' : Nat} {d : Dat L} {s' : Store L}, s.tryTake k = some (some (d, k'), s') → ∀ T,
      k' = s.next ∧ Eff T s s' ∧ isLeaf s' s.next = true ∧ s.live.kids k = d.kids ∧ k ≠ s.next ∧
      (counts Q s' + (if k ∈ Q then 1 else 0) ≤ counts Q s) ∧
      ∀ j, isLeaf s j = true → j ≠ k → isLeaf s' j = true := by
    intro k k' d s' h T
    obtain ⟨h1, h2, h3, h4⟩ := tryTake_yes h
    have e : Eff T s s' := .take h3 h4
    have hk : k ≠ s.next := by rintro rfl; rw [h0] at h2; cases h2
    refine ⟨h1, e, ?_, RcHeap.kids_of h2, hk, ?_, ?_⟩
    · refine isLeaf_leaf (d := .leaf none) ?_ rfl
      rw [h4, RcHeap.dat_put, if_pos rfl]
      rfl
    · split
      · next hm =>
        refine counts_less e hQ hm ?_
        rw [h4, RcHeap.put_ne _ hk, RcHeap.put_same, h2]
        exact Nat.le_refl _
      · exact e.counts hQ
    · intro j hj hjk
      unfold isLeaf at hj ⊢
      rw [h4, RcHeap.dat_put]
      by_cases e : j = s.next
      · subst e
        simp [RcHeap.Heap.dat, h0] at hj
      · rw [if_neg e, RcHeap.dat_put, if_neg hjk]
        exact hj
  cases t with
  | drop k =>
    simp only [step] at h
    split at h
    · cases h
    · next c hc =>
      have hd := cls_of hc
      split at h
      · next hl =>
        cases h
        have hk := isLeaf_leaf hd hl
        refine .same h0 (by simp [Task.refs]) ?_ ?_ ?_
        · simp only [List.mem_singleton]
          rintro _ rfl
          exact Or.inr hk
        · simp [high, Task.peak, hk, pending_drop, pending_release]
        · simp [pending_drop, pending_release]
      · next hb =>
        cases h
        obtain ⟨a, b, hab⟩ := RcHeap.cls_branch hb
        rw [hab] at hd
        refine .same h0 (by simp [Task.refs]) ?_ ?_ ?_
        · simp only [List.mem_singleton]
          rintro _ rfl
          trivial
        · simp [high, Task.peak, isLeaf_branch hd, pending_drop, pending_takeTop]
        · simp [pending_drop, pending_takeTop]
  | takeTop k =>
    simp only [step] at h
    split at h
    · cases h
    · next s1 ht =>
      cases h
      obtain ⟨rfl, h2⟩ := tryTake_no ht
      have hm := hs k (by simp [Task.refs]) h2
      obtain ⟨a, b, hab⟩ := ok
      refine .same h0 (by simp [Task.refs]) ?_ ?_ ?_
      · simp only [List.mem_singleton]
        rintro _ rfl
        exact Or.inl hm
      · simp [high, Task.peak, isLeaf_branch hab, pending_takeTop, pending_release]
      · simp [pending_takeTop, pending_release]
    · next top k' s1 ht =>
      cases h
      obtain ⟨rfl, e, h1, h2, -, h3, -⟩ := took ht [k]
      have hp : pending Q [Task.free k, .loop none top, .release s.next] = 0 := by
        simp [pending, Task.drops, hnew]
      have hp' := pending_takeTop (L := L) Q k
      refine ⟨e, ?_, ?_, ?_, ?_⟩
      · intro j hj
        simp only [List.flatMap_cons, List.flatMap_nil, Task.refs, List.append_nil, List.nil_append, List.mem_append,
          List.mem_singleton] at hj
        rcases hj with hj | hj
        · exact Or.inr (Or.inl ⟨k, by simp [Task.refs], by rwa [h2]⟩)
        · exact Or.inr (Or.inr hj)
      · simp only [List.mem_cons, List.not_mem_nil, or_false]
        rintro _ (rfl | rfl | rfl)
        · trivial
        · trivial
        · exact Or.inr h1
      · rw [hp, hp']
        simp only [high, Task.peak, h1, List.length_cons, List.length_nil, if_true]
        split at h3 <;> simp_all <;> omega
      · rw [hp, hp']
        split at h3 <;> simp_all <;> omega
  | release k =>
    simp only [step] at h
    split at h
    · cases h
    · next c hc =>
      have hlk := Store.live_of hc
      have hd := cls_of hc
      have hp := pending_release (L := L) Q k
      have hkn : s.live k ≠ none := by rw [hlk]; simp
      split at h
      · next h1 =>
        have hl : (s.put k (some { c with strong := 0, dat := .leaf none })).live = s.live.put k none :=
          Store.live_put_zero s k rfl
        split at h
        · next x hx =>
          cases h
          have e : Eff [k] s { s.put k (some { c with strong := 0, dat := .leaf none }) with log := x.toList ++ s.log } :=
            .put h0 rfl hl hkn (Nat.zero_le _) (by simp [okids])
          have hc' : counts Q { s.put k (some { c with strong := 0, dat := .leaf none }) with log := x.toList ++ s.log } +
              (if k ∈ Q then 1 else 0) ≤ counts Q s := by
            split
            · next hm =>
              refine counts_less e hQ hm ?_
              change strongIn ((s.put k (some { c with strong := 0, dat := .leaf none })).live k) + 1 ≤ _
              rw [hl, RcHeap.put_same, hlk]
              simp [strongIn, h1]
            · exact e.counts hQ
          refine ⟨e, by simp [Task.refs], ?_, ?_, ?_⟩
          · simp only [List.mem_singleton]
            rintro _ rfl
            trivial
          · rw [hp]
            have : pending Q [Task.free (L := L) k] = 0 := by simp [pending, Task.drops]
            rw [this]
            have : 1 ≤ (Task.release (L := L) k).peak s := by
              simp only [Task.peak]
              split <;> omega
            have : high { s.put k (some { c with strong := 0, dat := .leaf none }) with log := x.toList ++ s.log }
              [Task.free (L := L) k] = 1 := by simp [high, Task.peak]
            rw [this]
            split at hc' <;> simp_all <;> omega
          · rw [hp]
            split at hc' <;> simp_all <;> omega
        · next l r hx =>
          cases h
          rw [hx] at hd
          have hm : k ∈ Q := by
            rcases lf with lf | lf
            · exact lf
            · rw [isLeaf_branch hd] at lf
              cases lf
          have e : Eff [k] s (s.put k (some { c with strong := 0, dat := .leaf none })) :=
            .put h0 rfl hl hkn (Nat.zero_le _) (by simp [okids])
          have hc' : counts Q (s.put k (some { c with strong := 0, dat := .leaf none })) + 1 ≤ counts Q s := by
            refine counts_less e hQ hm ?_
            rw [hl, RcHeap.put_same, hlk]
            simp [strongIn, h1]
          refine ⟨e, ?_, ?_, ?_, ?_⟩
          · intro j hj
            refine Or.inr (Or.inl ⟨k, by simp [Task.refs], ?_⟩)
            rw [RcHeap.kids_of hlk, hx]
            simpa [Task.refs, Dat.kids] using hj
          · simp only [List.mem_cons, List.not_mem_nil, or_false]
            rintro _ (rfl | rfl | rfl) <;> trivial
          · rw [hp, if_pos hm]
            have h4 : ∀ j, (if isLeaf (s.put k (some { c with strong := 0, dat := .leaf none })) j = true then 1 else 4) ≤ 4 :=
              fun j => by split <;> omega
            have h5 := h4 l
            have h6 := h4 r
            simp only [high, Task.peak, List.length_cons, List.length_nil, isLeaf_branch hd]
            simp only [Bool.false_eq_true, if_false]
            omega
          · rw [hp, if_pos hm]
            omega
      · next h1 =>
        cases h
        have h2 := (Store.get_eq.mp hc).2
        have h3 : c.strong - 1 ≠ 0 := by omega
        have hl : (s.put k (some { c with strong := c.strong - 1 })).live = s.live.put k (some ⟨c.strong - 1, c.dat⟩) :=
          Store.live_put_pos s k h3
        have hm := hs k (by simp [Task.refs]) (by rw [hlk]; simp only [strongIn]; omega)
        have e : Eff [k] s (s.put k (some { c with strong := c.strong - 1 })) :=
          .put h0 rfl hl hkn (by rw [hlk]; simp [strongIn]) (fun j hj => Or.inl (by rw [RcHeap.kids_of hlk]; exact hj))
        have hc' : counts Q (s.put k (some { c with strong := c.strong - 1 })) + 1 ≤ counts Q s := by
          refine counts_less e hQ hm ?_
          rw [hl, RcHeap.put_same, hlk]
          simp only [strongIn]
          omega
        have hp0 : pending Q ([] : List (Task L)) = 0 := rfl
        refine ⟨e, by simp, by simp, ?_, ?_⟩
        · rw [hp, if_pos hm, hp0]
          simp only [high]
          omega
        · rw [hp, if_pos hm, hp0]
          omega
  | free k =>
    simp only [step] at h
    split at h
    · cases h
    · next s1 hd =>
      cases h
      obtain ⟨h1, h2⟩ := dropWeak_live hd
      have hc : counts Q s' = counts Q s := by unfold counts; rw [h2]
      refine ⟨.same h0 h1 h2, by simp, by simp, ?_, ?_⟩
      · rw [hc]
        simp [high, Task.peak, pending, Task.drops]
      · rw [hc]
        simp [pending, Task.drops]
  | loop lock top =>
    obtain ⟨l, r, rfl⟩ := ok
    simp only [step] at h
    split at h
    · cases h
    · cases h
      refine .same h0 (by simp [Task.refs, Dat.kids]) ?_ ?_ ?_
      · simp only [List.mem_singleton]
        rintro _ rfl
        trivial
      · simp [high, Task.peak, pending, Task.drops]
      · simp [pending, Task.drops]
  | seen lock l r lc =>
    simp only [step] at h
    obtain ⟨dl, hdl, hlc⟩ := ok
    split at h
    · cases h
    · next c hc =>
      have hd := cls_of hc
      have key : ∀ t' : Task L, t'.refs = [l, r] → t'.Leafy Q s → t'.peak s = 3 → t'.drops = [] →
          Less Q (.seen lock l r lc) s [t'] s := by
        intro t' h1 h2 h3 h4
        have h5 : (Task.seen (L := L) lock l r lc).peak s = 3 := rfl
        have h6 : (Task.seen (L := L) lock l r lc).drops = [] := rfl
        refine .same h0 (fun j hj => ?_) ?_ ?_ ?_
        · rw [List.flatMap_cons, h1] at hj
          simpa [Task.refs] using hj
        · simp only [List.mem_singleton]
          rintro _ rfl
          exact h2
        · simp [high, h3, pending, h4, h5, h6]
        · simp [pending, h6]
      split at h
      · cases h; exact key _ rfl trivial rfl rfl
      · cases h; exact key _ rfl trivial rfl rfl
      · cases h; exact key _ rfl trivial rfl rfl
      · cases h; exact key _ rfl trivial rfl rfl
      · cases h; exact key _ rfl trivial rfl rfl
      · next hcl =>
        cases h
        have h1 := isLeaf_leaf hdl hlc
        have h2 := isLeaf_leaf hd hcl
        refine .same h0 (by simp [Task.refs]) ?_ ?_ ?_
        · simp only [List.mem_cons, List.not_mem_nil, or_false]
          rintro _ (rfl | rfl) <;> trivial
        · simp only [high, Task.peak, h1, h2, pending, Task.drops, List.length_cons, List.length_nil, List.flatMap_cons,
            List.flatMap_nil, List.append_nil, List.filter_nil, if_true]
          omega
        · simp [pending, Task.drops]
  | tryLeft lock l r rc orRight =>
    obtain ⟨⟨a, b, hab⟩, ⟨dr, hdr, hrc⟩, hlock, hor⟩ := ok
    simp only [step] at h
    split at h
    · cases h
    · next d l' s1 ht =>
      cases h
      obtain ⟨rfl, e, h1, h2, -, h3, h4⟩ := took ht [l, r]
      have hp : pending Q [Task.free l, .taken lock .left d s.next rc r] = 0 := by simp [pending, Task.drops]
      have hp' : pending Q [Task.tryLeft (L := L) lock l r rc orRight] = 0 := by simp [pending, Task.drops]
      refine ⟨e, ?_, ?_, ?_, ?_⟩
      · intro j hj
        simp only [List.flatMap_cons, List.flatMap_nil, Task.refs, List.append_nil, List.nil_append, List.mem_append,
          List.mem_cons, List.not_mem_nil, or_false] at hj
        rcases hj with hj | hj | hj
        · exact Or.inr (Or.inl ⟨l, by simp [Task.refs], by rwa [h2]⟩)
        · exact Or.inr (Or.inr hj)
        · exact Or.inl (by simp [Task.refs, hj])
      · simp only [List.mem_cons, List.not_mem_nil, or_false]
        rintro _ (rfl | rfl)
        · trivial
        · cases rc with
          | branch => trivial
          | leaf =>
            have h5 := isLeaf_leaf hdr hrc
            exact h4 r h5 (by rintro rfl; rw [isLeaf_branch hab] at h5; cases h5)
      · rw [hp, hp']
        simp only [high, Task.peak, List.length_cons, List.length_nil]
        omega
      · rw [hp, hp']
        omega
    · next s1 ht =>
      obtain ⟨rfl, h2⟩ := tryTake_no ht
      have hm := hs l (by simp [Task.refs]) h2
      split at h
      · cases h
        refine .same h0 (by simp [Task.refs]) ?_ ?_ ?_
        · simp only [List.mem_singleton]
          rintro _ rfl
          trivial
        · simp [high, Task.peak, pending, Task.drops]
        · simp [pending, Task.drops]
      · cases h
        have hp' : pending Q [Task.tryLeft (L := L) lock l r rc orRight] = 0 := by simp [pending, Task.drops]
        have hp : pending Q [Task.drop (L := L) r, .drop l] = (if r ∈ Q then 1 else 0) + 1 := by
          rw [pending_cons, pending_drop, pending_drop, if_pos hm]
        refine .same h0 (by simp [Task.refs]) ?_ ?_ ?_
        · simp only [List.mem_cons, List.not_mem_nil, or_false]
          rintro _ (rfl | rfl) <;> trivial
        · have h4 : ∀ (s : Store L) j, (if isLeaf s j = true then 1 else 4) ≤ 4 := fun s j => by split <;> omega
          have h5 := h4 s' l
          have h6 := h4 s' r
          rw [hp, hp']
          simp only [high, Task.peak, List.length_cons, List.length_nil]
          omega
        · rw [hp']
          exact Nat.zero_le _
  | tryRight lock l r lc =>
    obtain ⟨⟨a, b, hab⟩, ⟨dl, hdl, hlc⟩, hlock⟩ := ok
    simp only [step] at h
    split at h
    · cases h
    · next d l' s1 ht =>
      cases h
      obtain ⟨rfl, e, h1, h2, -, h3, h4⟩ := took ht [l, r]
      have hp : pending Q [Task.free r, .taken lock .right d s.next lc l] = 0 := by simp [pending, Task.drops]
      have hp' : pending Q [Task.tryRight (L := L) lock l r lc] = 0 := by simp [pending, Task.drops]
      refine ⟨e, ?_, ?_, ?_, ?_⟩
      · intro j hj
        simp only [List.flatMap_cons, List.flatMap_nil, Task.refs, List.append_nil, List.nil_append, List.mem_append,
          List.mem_cons, List.not_mem_nil, or_false] at hj
        rcases hj with hj | hj | hj
        · exact Or.inr (Or.inl ⟨r, by simp [Task.refs], by rwa [h2]⟩)
        · exact Or.inr (Or.inr hj)
        · exact Or.inl (by simp [Task.refs, hj])
      · simp only [List.mem_cons, List.not_mem_nil, or_false]
        rintro _ (rfl | rfl)
        · trivial
        · cases lc with
          | branch => trivial
          | leaf =>
            have h5 := isLeaf_leaf hdl hlc
            exact h4 l h5 (by rintro rfl; rw [isLeaf_branch hab] at h5; cases h5)
      · rw [hp, hp']
        simp only [high, Task.peak, List.length_cons, List.length_nil]
        omega
      · rw [hp, hp']
        omega
    · next s1 ht =>
      obtain ⟨rfl, h2⟩ := tryTake_no ht
      have hm := hs r (by simp [Task.refs]) h2
      cases h
      have hp' : pending Q [Task.tryRight (L := L) lock l r lc] = 0 := by simp [pending, Task.drops]
      have hp : pending Q [Task.drop (L := L) r, .drop l] = 1 + (if l ∈ Q then 1 else 0) := by
        rw [pending_cons, pending_drop, pending_drop, if_pos hm]
      refine .same h0 (by simp [Task.refs]) ?_ ?_ ?_
      · simp only [List.mem_cons, List.not_mem_nil, or_false]
        rintro _ (rfl | rfl) <;> trivial
      · have h4 : ∀ (s : Store L) j, (if isLeaf s j = true then 1 else 4) ≤ 4 := fun s j => by split <;> omega
        have h5 := h4 s' l
        have h6 := h4 s' r
        rw [hp, hp']
        simp only [high, Task.peak, List.length_cons, List.length_nil]
        omega
      · rw [hp']
        exact Nat.zero_le _
  | taken lock mode sel reuse oc other =>
    obtain ⟨⟨a, b, rfl⟩, hre, hlock⟩ := ok
    have hlr : s.live reuse = some ⟨1, .leaf none⟩ := by
      have : s.get reuse = some ⟨1, 1, .leaf none⟩ := Store.get_eq.mpr ⟨hre, by simp⟩
      exact Store.live_of this
    cases oc with
    | branch =>
      have key : ∀ {s1 : Store L} {d : Dat L} (top : Dat L) (lock' : Option Side), s.set reuse d = some s1 →
          (∀ j ∈ d.kids, j ∈ [a, b, reuse, other]) → (∀ j ∈ top.kids, j ∈ [a, b, reuse, other]) →
          Less Q (.taken lock mode (.branch a b) reuse .branch other) s [.loop lock' top] s1 := by
        intro s1 d top lock' h1 h2 h3
        obtain ⟨-, h4, h5⟩ := set_some h1
        have e : Eff (Task.taken (L := L) lock mode (.branch a b) reuse .branch other).refs s s1 :=
          .put h0 h4 h5 (by rw [hlr]; simp) (by rw [hlr]; exact Nat.le_refl _) fun j hj => Or.inr (h2 j hj)
        have hc := e.counts hQ
        refine ⟨e, fun j hj => Or.inl ?_, ?_, ?_, ?_⟩
        · simp only [List.flatMap_cons, List.flatMap_nil, Task.refs, List.append_nil] at hj
          exact h3 j hj
        · simp only [List.mem_singleton]
          rintro _ rfl
          trivial
        · simp only [high, Task.peak, pending, Task.drops, List.flatMap_cons, List.flatMap_nil, List.append_nil,
            List.filter_nil, List.length_nil]
          omega
        · simp only [pending, Task.drops, List.flatMap_cons, List.flatMap_nil, List.append_nil,
            List.filter_nil, List.length_nil]
          omega
      simp only [step] at h
      cases mode with
      | left =>
        simp only at h
        split at h
        · cases h
        · next s1 h1 =>
          cases h
          exact key _ _ h1 (by simp [Dat.kids]) (by simp [Dat.kids])
      | right =>
        simp only at h
        split at h
        · cases h
        · next s1 h1 =>
          cases h
          exact key _ _ h1 (by simp [Dat.kids]) (by simp [Dat.kids])
    | leaf =>
      simp only [step] at h
      cases h
      have h1 : isLeaf s other = true := lf
      have h2 : isLeaf s reuse = true := isLeaf_leaf (RcHeap.dat_of hlr) rfl
      refine .same h0 ?_ ?_ ?_ ?_
      · simp [Task.refs, Dat.kids]
      · simp only [List.mem_cons, List.not_mem_nil, or_false]
        rintro _ (rfl | rfl | rfl) <;> trivial
      · simp [high, Task.peak, h1, h2, pending, Task.drops]
      · simp [pending, Task.drops]

/-- The effect on the store of any step. -/
theorem step_eff {t : Task L} {s : Store L} {ts : List (Task L)} {s' : Store L}
    (h0 : s.live s.next = none) (ok : t.Ok s) (h : step t s = .ok (ts, s')) : Eff t.refs s s' := by
  cases t with
  | drop k =>
    simp only [step] at h
    split at h
    · cases h
    · split at h <;> (cases h; exact .same h0 rfl rfl)
  | takeTop k =>
    simp only [step] at h
    split at h
    · cases h
    · next ht =>
      cases h
      obtain ⟨rfl, -⟩ := tryTake_no ht
      exact .same h0 rfl rfl
    · next ht =>
      cases h
      obtain ⟨-, -, h1, h2⟩ := tryTake_yes ht
      exact .take h1 h2
  | release k =>
    simp only [step] at h
    split at h
    · cases h
    · next c hc =>
      have hlk := Store.live_of hc
      have hkn : s.live k ≠ none := by rw [hlk]; simp
      split at h
      · have hl : (s.put k (some { c with strong := 0, dat := .leaf none })).live = s.live.put k none :=
          Store.live_put_zero s k rfl
        split at h
        · cases h
          exact .put h0 rfl hl hkn (Nat.zero_le _) (by simp [okids])
        · cases h
          exact .put h0 rfl hl hkn (Nat.zero_le _) (by simp [okids])
      · next h1 =>
        cases h
        have h2 := (Store.get_eq.mp hc).2
        have h3 : c.strong - 1 ≠ 0 := by omega
        have hl : (s.put k (some { c with strong := c.strong - 1 })).live = s.live.put k (some ⟨c.strong - 1, c.dat⟩) :=
          Store.live_put_pos s k h3
        exact .put h0 rfl hl hkn (by rw [hlk]; simp [strongIn]) (fun j hj => Or.inl (by rw [RcHeap.kids_of hlk]; exact hj))
  | free k =>
    simp only [step] at h
    split at h
    · cases h
    · next s1 hd =>
      cases h
      obtain ⟨h1, h2⟩ := dropWeak_live hd
      exact .same h0 h1 h2
  | loop lock top =>
    obtain ⟨l, r, rfl⟩ := ok
    simp only [step] at h
    split at h
    · cases h
    · cases h
      exact .same h0 rfl rfl
  | seen lock l r lc =>
    simp only [step] at h
    split at h
    · cases h
    · split at h <;> (cases h; exact .same h0 rfl rfl)
  | tryLeft lock l r rc orRight =>
    simp only [step] at h
    split at h
    · cases h
    · next ht =>
      cases h
      obtain ⟨-, -, h1, h2⟩ := tryTake_yes ht
      exact .take h1 h2
    · next ht =>
      obtain ⟨rfl, -⟩ := tryTake_no ht
      split at h <;> (cases h; exact .same h0 rfl rfl)
  | tryRight lock l r lc =>
    simp only [step] at h
    split at h
    · cases h
    · next ht =>
      cases h
      obtain ⟨-, -, h1, h2⟩ := tryTake_yes ht
      exact .take h1 h2
    · next ht =>
      obtain ⟨rfl, -⟩ := tryTake_no ht
      cases h
      exact .same h0 rfl rfl
  | taken lock mode sel reuse oc other =>
    obtain ⟨⟨a, b, rfl⟩, hre, hlock⟩ := ok
    have hlr : s.live reuse = some ⟨1, .leaf none⟩ := by
      have : s.get reuse = some ⟨1, 1, .leaf none⟩ := Store.get_eq.mpr ⟨hre, by simp⟩
      exact Store.live_of this
    have key : ∀ {s1 : Store L} {d : Dat L}, s.set reuse d = some s1 → (∀ j ∈ d.kids, j ∈ [a, b, reuse, other]) →
        Eff [a, b, reuse, other] s s1 := by
      intro s1 d h1 h2
      obtain ⟨-, h4, h5⟩ := set_some h1
      exact .put h0 h4 h5 (by rw [hlr]; simp) (by rw [hlr]; exact Nat.le_refl _) fun j hj => Or.inr (h2 j hj)
    cases oc with
    | branch =>
      simp only [step] at h
      cases mode with
      | left =>
        simp only at h
        split at h
        · cases h
        · next s1 h1 => cases h; exact key h1 (by simp [Dat.kids])
      | right =>
        simp only at h
        split at h
        · cases h
        · next s1 h1 => cases h; exact key h1 (by simp [Dat.kids])
    | leaf =>
      simp only [step] at h
      cases h
      exact .same h0 rfl rfl

/-! ## A thread among others -/

/-- What is true of a thread all the while. `m` is how many references there were to the cells of `Q` when it began. -/
structure Low (Q : Finset Nat) (m : Nat) (s : Store L) (ts : List (Task L)) : Prop where
  dom : ∀ q ∈ Q, q < s.next
  shared : ∀ j, Reach s.live (ts.flatMap Task.refs) j → 2 ≤ strongIn (s.live j) → j ∈ Q
  leafy : ∀ t ∈ ts, t.Leafy Q s
  le : high s ts + 4 * counts Q s ≤ 4 + 4 * m + 2 * pending Q ts

theorem Low.own {Q : Finset Nat} {m : Nat} {s s' : Store L} {t : Task L} {ts ts' : List (Task L)}
    (h : Low Q m s (t :: ts)) (h0 : s.live s.next = none) (ok : t.Ok s) (hs : step t s = .ok (ts', s'))
    (f : Frame (ts.flatMap Task.refs) s s') : Low Q m s' (ts' ++ ts) := by
  have l := step_less h0 h.dom (fun k hk => h.shared k (.out (List.mem_flatMap.mpr ⟨t, List.mem_cons_self, hk⟩))) ok
    (h.leafy t List.mem_cons_self) hs
  have hleaf : ∀ k ∈ ts.flatMap Task.refs, isLeaf s' k = isLeaf s k := fun k hk => by
    unfold isLeaf
    rw [f.keep k (.out hk)]
  have hhigh : ∀ us : List (Task L), (∀ k ∈ us.flatMap Task.refs, k ∈ ts.flatMap Task.refs) → high s' us = high s us := by
    intro us
    induction us with
    | nil => exact fun _ => rfl
    | cons u us ih =>
      intro hu
      simp only [high]
      rw [ih fun k hk => hu k (by rw [List.flatMap_cons]; exact List.mem_append_right _ hk)]
      have : u.peak s' = u.peak s := by
        have hk := fun k hk => hleaf k (hu k (by rw [List.flatMap_cons]; exact List.mem_append_left _ hk))
        cases u with
        | drop k | release k => simp only [Task.peak]; rw [hk k (by simp [Task.refs])]
        | _ => rfl
      rw [this]
  refine ⟨fun q hq => Nat.lt_of_lt_of_le (h.dom q hq) l.eff.next, ?_, ?_, ?_⟩
  · have key : ∀ j, Reach s'.live ((ts' ++ ts).flatMap Task.refs) j →
        Reach s.live ((t :: ts).flatMap Task.refs) j ∨ j = s.next := by
      intro j hj
      have ht : ∀ k ∈ t.refs, Reach s.live ((t :: ts).flatMap Task.refs) k := fun k hk =>
        .out (List.mem_flatMap.mpr ⟨t, List.mem_cons_self, hk⟩)
      induction hj with
      | out hk =>
        rw [List.flatMap_append, List.mem_append] at hk
        rcases hk with hk | hk
        · rcases l.refs _ hk with hk | ⟨i, hi, hk⟩ | hk
          · exact Or.inl (ht _ hk)
          · exact Or.inl (.kid (ht i hi) hk)
          · exact Or.inr hk
        · exact Or.inl (.out (by rw [List.flatMap_cons]; exact List.mem_append_right _ hk))
      | @kid i j _ hk ih =>
        rcases l.eff.kids i j hk with hk | hk
        · rcases ih with ih | rfl
          · exact Or.inl (.kid ih hk)
          · simp [RcHeap.Heap.kids, h0] at hk
        · exact Or.inl (ht _ hk)
    intro j hj h2
    by_cases e : j = s.next
    · subst e
      have := l.eff.strongNew
      omega
    · exact h.shared j ((key j hj).resolve_right e) (Nat.le_trans h2 (l.eff.strong j e))
  · intro u hu
    rcases List.mem_append.mp hu with hu | hu
    · exact l.leafy u hu
    · have h1 := h.leafy u (List.mem_cons_of_mem _ hu)
      have h2 : ∀ k ∈ u.refs, isLeaf s' k = isLeaf s k := fun k hk => hleaf k (List.mem_flatMap.mpr ⟨u, hu, hk⟩)
      cases u with
      | release k =>
        simp only [Task.Leafy] at *
        rwa [h2 k (by simp [Task.refs])]
      | taken _ _ _ _ oc other =>
        cases oc with
        | leaf =>
          simp only [Task.Leafy] at *
          rwa [h2 other (by simp [Task.refs])]
        | branch => trivial
      | _ => trivial
  · have h1 := high_append s' ts' ts
    rw [hhigh ts fun _ h => h] at h1
    have h2 := h.le
    have h3 := l.high
    have h4 := l.rest
    rw [pending_cons] at h2
    rw [pending_append]
    simp only [high] at h2
    omega

theorem Low.other {Q : Finset Nat} {m : Nat} {s s' : Store L} {ts : List (Task L)} {T : List Nat}
    (h : Low Q m s ts) (e : Eff T s s')
    (f : Frame (ts.flatMap Task.refs) s s') : Low Q m s' ts := by
  have hleaf : ∀ k ∈ ts.flatMap Task.refs, isLeaf s' k = isLeaf s k := fun k hk => by
    unfold isLeaf
    rw [f.keep k (.out hk)]
  have hhigh : ∀ us : List (Task L), (∀ k ∈ us.flatMap Task.refs, k ∈ ts.flatMap Task.refs) → high s' us = high s us := by
    intro us
    induction us with
    | nil => exact fun _ => rfl
    | cons u us ih =>
      intro hu
      simp only [high]
      rw [ih fun k hk => hu k (by rw [List.flatMap_cons]; exact List.mem_append_right _ hk)]
      have : u.peak s' = u.peak s := by
        have hk := fun k hk => hleaf k (hu k (by rw [List.flatMap_cons]; exact List.mem_append_left _ hk))
        cases u with
        | drop k | release k => simp only [Task.peak]; rw [hk k (by simp [Task.refs])]
        | _ => rfl
      rw [this]
  refine ⟨fun q hq => Nat.lt_of_lt_of_le (h.dom q hq) e.next, ?_, ?_, ?_⟩
  · have key : ∀ j, Reach s'.live (ts.flatMap Task.refs) j → Reach s.live (ts.flatMap Task.refs) j := by
      intro j hj
      induction hj with
      | out hk => exact .out hk
      | @kid i j _ hk ih =>
        refine .kid ih ?_
        have h1 := f.keep i ih
        unfold RcHeap.Heap.kids at hk ⊢
        unfold RcHeap.Heap.dat at h1
        cases hc : s'.live i with
        | none => rw [hc] at hk; cases hk
        | some c' =>
          rw [hc] at hk h1
          cases hc' : s.live i with
          | none => rw [hc'] at h1; cases h1
          | some c =>
            rw [hc'] at h1
            have : c'.dat = c.dat := Option.some.inj h1
            simp only at hk ⊢
            rwa [this] at hk
    intro j hj h2
    by_cases e' : j = s.next
    · subst e'
      have := e.strongNew
      omega
    · exact h.shared j (key j hj) (Nat.le_trans h2 (e.strong j e'))
  · intro u hu
    have h1 := h.leafy u hu
    have h2 : ∀ k ∈ u.refs, isLeaf s' k = isLeaf s k := fun k hk => hleaf k (List.mem_flatMap.mpr ⟨u, hu, hk⟩)
    cases u with
    | release k =>
      simp only [Task.Leafy] at *
      rwa [h2 k (by simp [Task.refs])]
    | taken _ _ _ _ oc other =>
      cases oc with
      | leaf =>
        simp only [Task.Leafy] at *
        rwa [h2 other (by simp [Task.refs])]
      | branch => trivial
    | _ => trivial
  · rw [hhigh ts fun _ h => h]
    have h2 := h.le
    have h3 := e.counts h.dom
    omega

/-- What is to be given up there is. -/
theorem pending_le {s : Store L} {R W F : List Nat} {ts : List (Task L)} (i : Inv s (ts.flatMap Task.refs ++ R) W F)
    (Q : Finset Nat) : pending Q ts ≤ counts Q s := by
  have h1 : ∀ l : List Nat, (l.filter (· ∈ Q)).length = ∑ q ∈ Q, l.count q := by
    intro l
    induction l with
    | nil => simp
    | cons a l ih =>
      have : ∑ q ∈ Q, (a :: l).count q = ∑ q ∈ Q, l.count q + ∑ q ∈ Q, if q = a then 1 else 0 := by
        rw [← Finset.sum_add_distrib]
        refine Finset.sum_congr rfl fun q _ => ?_
        rw [List.count_cons]
        by_cases e : q = a
        · subst e; simp
        · simp [e, Ne.symm e]
      rw [this, Finset.sum_ite_eq' Q a (fun _ => 1)]
      by_cases ha : a ∈ Q <;> simp [ha, ih]
  unfold pending
  rw [h1]
  refine Finset.sum_le_sum fun q _ => ?_
  have h2 : ∀ us : List (Task L), (us.flatMap Task.drops).count q ≤ (us.flatMap Task.refs).count q := by
    intro us
    induction us with
    | nil => exact Nat.le_refl _
    | cons u us ih =>
      rw [List.flatMap_cons, List.flatMap_cons, List.count_append, List.count_append]
      have : u.drops.count q ≤ u.refs.count q := by
        cases u <;> simp [Task.drops, Task.refs]
      omega
  refine Nat.le_trans (h2 ts) ?_
  by_cases hq : q ∈ ts.flatMap Task.refs
  · obtain ⟨c, hc⟩ := i.good.live (List.mem_append_left R hq)
    have := i.good.count q c hc
    rw [hc, List.count_append] at *
    simp only [strongIn]
    omega
  · rw [List.count_eq_zero.mpr hq]
    exact Nat.zero_le _

theorem World.Good.low [DecidableEq L] {w w' : World L} (g : w.Good) (h : DropStep w w') {Q : Finset Nat} {m i : Nat}
    {th : Thread L} (ht : w.threads[i]? = some th) (hl : Low Q m w.store th.tasks) :
    ∃ th', w'.threads[i]? = some th' ∧ Low Q m w'.store th'.tasks := by
  obtain @⟨s, pre, t, ts, held, weaks, post, ts', s', h⟩ := h
  have i1 : Inv s (t.refs ++ (ts.flatMap Task.refs ++ held ++ ((pre ++ post).flatMap (·.tasks)).flatMap Task.refs ++
      (pre ++ post).flatMap (·.held))) (World.mk s (pre ++ ⟨t :: ts, held, weaks⟩ :: post)).weaks
      (t.frees ++ (ts.flatMap Task.frees ++ ((pre ++ post).flatMap (·.tasks)).flatMap Task.frees)) :=
    g.inv.congr (fun j => by
      rw [(World.around s pre ⟨t :: ts, held, weaks⟩ post j).1]
      simp only [List.flatMap_cons, List.append_assoc]) (fun _ => rfl) (fun j => by
      rw [(World.around s pre ⟨t :: ts, held, weaks⟩ post j).2.2]
      simp only [List.flatMap_cons, List.append_assoc])
  have ok : t.Ok s := g.ok t ((World.tasks_around _ _ _ _ _).mpr (Or.inl List.mem_cons_self))
  obtain ⟨ts₁, s₁, h1, d⟩ := step_did i1 ok
  rw [h] at h1
  cases h1
  have h0 := i1.freshLive
  rcases Nat.lt_trichotomy i pre.length with hi | hi | hi
  · have e1 : (pre ++ ⟨t :: ts, held, weaks⟩ :: post)[i]? = pre[i]? := List.getElem?_append_left hi
    have e2 : (pre ++ ⟨ts' ++ ts, held, weaks⟩ :: post)[i]? = pre[i]? := List.getElem?_append_left hi
    change (pre ++ ⟨t :: ts, held, weaks⟩ :: post)[i]? = _ at ht
    rw [e1] at ht
    have hm : th ∈ pre := List.mem_of_getElem? ht
    refine ⟨th, e2.trans ht, hl.other (step_eff h0 ok h) (d.frame.mono fun k hk => ?_)⟩
    simp only [List.mem_append, List.mem_flatMap] at hk ⊢
    obtain ⟨u, hu, hk⟩ := hk
    exact Or.inl (Or.inr ⟨u, ⟨th, Or.inl hm, hu⟩, hk⟩)
  · subst hi
    have e1 : (pre ++ ⟨t :: ts, held, weaks⟩ :: post)[pre.length]? = some ⟨t :: ts, held, weaks⟩ := by simp
    have e2 : (pre ++ ⟨ts' ++ ts, held, weaks⟩ :: post)[pre.length]? = some ⟨ts' ++ ts, held, weaks⟩ := by simp
    change (pre ++ ⟨t :: ts, held, weaks⟩ :: post)[pre.length]? = _ at ht
    rw [e1] at ht
    cases ht
    refine ⟨_, e2, Low.own hl h0 ok h (d.frame.mono fun k hk => ?_)⟩
    simp only [List.mem_append]
    tauto
  · obtain ⟨n, rfl⟩ : ∃ n, i = pre.length + (n + 1) := ⟨i - pre.length - 1, by omega⟩
    have e1 : (pre ++ ⟨t :: ts, held, weaks⟩ :: post)[pre.length + (n + 1)]? = post[n]? := by
      rw [List.getElem?_append_right (by omega)]
      simp
    have e2 : (pre ++ ⟨ts' ++ ts, held, weaks⟩ :: post)[pre.length + (n + 1)]? = post[n]? := by
      rw [List.getElem?_append_right (by omega)]
      simp
    change (pre ++ ⟨t :: ts, held, weaks⟩ :: post)[pre.length + (n + 1)]? = _ at ht
    rw [e1] at ht
    have hm : th ∈ post := List.mem_of_getElem? ht
    refine ⟨th, e2.trans ht, hl.other (step_eff h0 ok h) (d.frame.mono fun k hk => ?_)⟩
    simp only [List.mem_append, List.mem_flatMap] at hk ⊢
    obtain ⟨u, hu, hk⟩ := hk
    exact Or.inl (Or.inr ⟨u, ⟨th, Or.inr hm, hu⟩, hk⟩)

theorem World.Good.lows [DecidableEq L] {w w' : World L} {n : Nat} (g : w.Good) (h : DropSteps n w w') {Q : Finset Nat}
    {m i : Nat} {th : Thread L} (ht : w.threads[i]? = some th) (hl : Low Q m w.store th.tasks) :
    ∃ th', w'.threads[i]? = some th' ∧ Low Q m w'.store th'.tasks := by
  induction h generalizing th with
  | refl => exact ⟨th, ht, hl⟩
  | step h _ ih =>
    obtain ⟨th1, h1, h2⟩ := g.low h ht hl
    exact ih (g.dropStep h).1 h1 h2

end Kul.ArcDrop
