import Verif.Props.DropAgree
import Verif.Props.DropShared
import Verif.Proof.RcSteady

/-!
# Dropping references that count, when sharing is from outside only

C86: C82 and C83 are about sharing that stays as it is during a drop. This is so for references that count, unless
two of the references that are dropped are to the same branch datum. And with references that count, the depth is
not bounded either.
-/

namespace Kul.RcHeap

open Drop (Ref)

variable {L : Type} {D : Finset Nat}

theorem Rep.leaf_cells {h : Heap L} {t : Ref Nat L} (ht : Rep h t) (shared : Nat → Bool) :
    (∀ k ∈ lc shared t, h.isBranch k = false) ∧ ∀ k ∈ sharedMet shared t, h.isBranch k = true := by
  induction t with
  | leaf k x =>
    obtain ⟨s, hc⟩ := dat_eq ht
    exact ⟨fun j hj => by simp [lc] at hj; simp [hj, Heap.isBranch, hc], nofun⟩
  | branch k l r ihl ihr =>
    obtain ⟨h1, h2, h3⟩ := ht
    obtain ⟨s, hc⟩ := dat_eq h1
    have hb : h.isBranch k = true := by simp [Heap.isBranch, hc]
    have := ihl h2
    have := ihr h3
    cases hk : shared k with
    | true => exact ⟨by simp [lc, hk], by simp [sharedMet, hk, hb]⟩
    | false =>
      simp only [lc, sharedMet, hk, Bool.false_eq_true, if_false, List.mem_append]
      exact ⟨fun j hj => hj.elim ((ihl h2).1 j) ((ihr h3).1 j), fun j hj => hj.elim ((ihl h2).2 j) ((ihr h3).2 j)⟩

theorem sees_strong (h : Heap L) (t : Ref Nat L) : Sees h.shared h.strong t := by
  induction t with
  | leaf => trivial
  | branch k l r ihl ihr => exact ⟨rfl, fun _ => ⟨ihl, ihr⟩⟩

/-- C86. A reference to a datum in a heap in order, none of whose shared branch datums is met twice (but other references
to them may be anywhere else, and leaves may be shared in any way), is dropped with calls of `drop` that are nested as
deep as there are shared branch datums met, or up to two deeper; and in time that is linear in the number of branch
datums freed, for each shared one that is met. -/
theorem C86_shared_from_outside {h : Heap L} {t : Ref Nat L} {outs : List Nat} (g : Good D h (t.cell :: outs))
    (ht : Rep h t) (hn : (sharedMet h.shared t).Nodup) :
    ∃ N h' evs steps depth, (∀ n, N ≤ n → drop n t.cell h = .done h' evs steps depth) ∧
      (sharedMet h.shared t).length ≤ depth ∧ depth ≤ (sharedMet h.shared t).length + 2 ∧
      steps ≤ 2 * t.ownBranches h.shared * (2 * (sharedMet h.shared t).length + 1) := by
  classical
  obtain ⟨N, h', evs, s, d, ω', _, hr⟩ := C69_agree g ht
  have hl := ht.leaf_cells h.shared
  have key : ∀ n, N ≤ n → ∃ e', Drop.drop (.steady h.shared) n t () = .done e' s d () := fun n hn' =>
    ((steady_run n).1 t h.strong evs s d ω' hn (fun k h1 h2 => by
      have := hl.1 k h1
      rw [hl.2 k h2] at this
      cases this) (sees_strong h t) (hr n hn').2).1
  obtain ⟨e', he⟩ := key N (Nat.le_refl _)
  have hd : Drop.Drops (.steady h.shared) t () e' s d := ⟨(), N, fun n hn => Drop.drop_mono hn he⟩
  have hlen : (sharedMet h.shared t).length = t.sharedBranches h.shared := by
    clear hr hd he key hn hl ht g
    induction t with
    | leaf => rfl
    | branch k l r ihl ihr =>
      simp only [sharedMet, Ref.sharedBranches]
      split
      · rfl
      · rw [List.length_append, ihl, ihr]
  rw [hlen]
  obtain ⟨h1, h2⟩ := Drop.C82_depth_is_number_shared _ h.shared (fun _ _ => ⟨rfl, rfl⟩) t () hd
  exact ⟨N, h', _, s, d, fun n hn => (hr n hn).1, h1, h2,
    Drop.C83_time_with_sharing _ h.shared (fun _ _ => ⟨rfl, rfl⟩) t () hd⟩

/-! ## The depth is not bounded -/

/-- A new cell is made, with references from outside put into it, and `m + 1` references to it. -/
theorem Good.add {h : Heap L} {outs : List Nat} {c : Nat} {d : Dat L} (m : Nat) (g : Good D h (d.kids ++ outs))
    (hc : c ∉ D) : Good (insert c D) (h.put c (some ⟨m + 1, d⟩)) (List.replicate (m + 1) c ++ outs) := by
  have h0 : h c = none := by
    by_contra h1
    exact hc (g.dom c h1)
  have hout : c ∉ d.kids ++ outs := fun h1 => g.valid c (Or.inl h1) h0
  have hkid : ∀ j, c ∉ h.kids j := fun j h1 => g.valid c (Or.inr ⟨j, h1⟩) h0
  have hsum : ∀ x, ∑ j ∈ insert c D, ((h.put c (some ⟨m + 1, d⟩)).kids j).count x =
      d.kids.count x + ∑ j ∈ D, (h.kids j).count x := by
    intro x
    rw [Finset.sum_insert hc, kids_put, if_pos rfl]
    refine congrArg _ (Finset.sum_congr rfl fun j hj => ?_)
    rw [kids_put, if_neg (by rintro rfl; exact hc hj)]
  have hzero : ∑ j ∈ D, (h.kids j).count c = 0 :=
    Finset.sum_eq_zero fun j _ => List.count_eq_zero.mpr (hkid j)
  have hdc : d.kids.count c = 0 ∧ outs.count c = 0 := by
    rw [List.mem_append, not_or] at hout
    exact ⟨List.count_eq_zero.mpr hout.1, List.count_eq_zero.mpr hout.2⟩
  have hfin : ∀ j, Finite h j → j ≠ c → Finite (h.put c (some ⟨m + 1, d⟩)) j := by
    intro j hj
    induction hj with
    | @mk j _ ih =>
      intro hne
      refine .mk fun i hi => ?_
      rw [kids_put, if_neg hne] at hi
      exact ih i hi fun e => hkid j (e ▸ hi)
  refine ⟨fun k hk => ?_, fun k x hk => ?_, fun k x hk => ?_, fun k hk => ?_, fun k => ?_⟩
  · by_cases e : k = c
    · simp [e]
    · rw [put_ne h e] at hk
      simp [g.dom k hk]
  · rw [hsum]
    by_cases e : k = c
    · subst e
      rw [put_same] at hk
      cases hk
      rw [List.count_append, List.count_replicate_self]
      dsimp only
      omega
    · rw [put_ne h e] at hk
      have := g.count k x hk
      rw [List.count_append] at this
      rw [List.count_append, List.count_replicate, if_neg (by simpa using fun h => e h.symm)]
      omega
  · by_cases e : k = c
    · subst e
      rw [put_same] at hk
      cases hk
      exact Nat.succ_pos m
    · rw [put_ne h e] at hk
      exact g.pos k x hk
  · by_cases e : k = c
    · rw [e, put_same]; simp
    · rw [put_ne h e]
      rcases hk with hk | ⟨j, hj⟩
      · rcases List.mem_append.mp hk with hk | hk
        · exact absurd (List.eq_of_mem_replicate hk) e
        · exact g.valid k (Or.inl (by simp [hk]))
      · rw [kids_put] at hj
        split at hj
        · exact g.valid k (Or.inl (List.mem_append.mpr (Or.inl hj)))
        · exact g.valid k (Or.inr ⟨j, hj⟩)
  · by_cases e : k = c
    · refine .mk fun i hi => ?_
      rw [e, kids_put, if_pos rfl] at hi
      exact hfin i (g.finite i) fun e' => hout (e' ▸ List.mem_append.mpr (Or.inl hi))
    · exact hfin k (g.finite k) e

theorem Rep.put {h : Heap L} {t : Ref Nat L} (ht : Rep h t) {c : Nat} (hc : h c = none) (v) : Rep (h.put c v) t := by
  have key : ∀ k d, h.dat k = some d → (h.put c v).dat k = some d := by
    intro k d hk
    have : k ≠ c := by
      rintro rfl
      simp [Heap.dat, hc] at hk
    simpa [Heap.dat, put_ne h this] using hk
  induction t with
  | leaf k x => exact key _ _ ht
  | branch k l r ihl ihr => exact ⟨key _ _ ht.1, ihl ht.2.1, ihr ht.2.2⟩

theorem Rep.met_put {h : Heap L} {t : Ref Nat L} (ht : Rep h t) {c : Nat} (hc : h c = none) (v) :
    sharedMet (h.put c v).shared t = sharedMet h.shared t := by
  have key : ∀ k d, h.dat k = some d → (h.put c v).shared k = h.shared k := by
    intro k d hk
    have : k ≠ c := by
      rintro rfl
      simp [Heap.dat, hc] at hk
    simp [Heap.shared, Heap.strong, put_ne h this]
  induction t with
  | leaf k x => rfl
  | branch k l r ihl ihr =>
    simp only [sharedMet]
    rw [key k _ ht.1, ihl ht.2.1, ihr ht.2.2]

theorem Good.empty : Good ∅ (fun _ => none : Heap L) [] :=
  ⟨fun _ hk => absurd rfl hk, nofun, nofun, fun k hk => by rcases hk with hk | ⟨j, hj⟩ <;> [cases hk; cases hj],
    fun k => .mk fun j hj => by cases hj⟩

/-- A datum 2 with the branch 1, which is also held from outside; the leaf 0 is in both. -/
def heldHeap : Heap Char :=
  ((Heap.put (fun _ => none) 0 (some ⟨3, .leaf (some 'a')⟩)).put 1 (some ⟨2, .branch 0 0⟩)).put 2
    (some ⟨1, .branch 1 0⟩)

def heldTree : Ref Nat Char := .branch 2 (.branch 1 (.leaf 0 (some 'a')) (.leaf 0 (some 'a'))) (.leaf 0 (some 'a'))

theorem heldHeap_good : Good {2, 1, 0} heldHeap [2, 1] := by
  have g1 := Good.add (c := 0) (d := .leaf (some 'a')) (outs := []) 2 Good.empty (by simp)
  have g2 := Good.add (c := 1) (d := .branch 0 0) (outs := [0]) 1 g1 (by decide)
  exact Good.add (c := 2) (d := .branch 1 0) (outs := [1]) 0
    (g2.congr (outs' := [1, 0, 1]) fun k => (show [1, 0, 1].Perm [1, 1, 0] by decide).count_eq k) (by decide)

/-- The calls are nested 1 to 3 deep (in fact 2), and the loop is iterated once. -/
example : sharedMet heldHeap.shared heldTree = [1] ∧ heldTree.ownBranches heldHeap.shared = 1 ∧
    ∃ N h' evs steps depth, (∀ n, N ≤ n → drop n 2 heldHeap = .done h' evs steps depth) ∧
      1 ≤ depth ∧ depth ≤ 3 ∧ steps ≤ 6 := by
  have hm : sharedMet heldHeap.shared heldTree = [1] := by decide +kernel
  have ho : heldTree.ownBranches heldHeap.shared = 1 := by decide +kernel
  have := C86_shared_from_outside (t := heldTree) heldHeap_good ⟨rfl, ⟨rfl, rfl, rfl⟩, rfl⟩ (by rw [hm]; decide)
  rw [hm, ho] at this
  exact ⟨hm, ho, this⟩

/-- A list of `n` pairs, which are all shared from outside. -/
theorem shared_list (x : L) (n : Nat) : ∃ (D : Finset Nat) (h : Heap L) (t : Ref Nat L) (outs : List Nat),
    Good D h (t.cell :: outs) ∧ Rep h t ∧ (sharedMet h.shared t).Nodup ∧ (sharedMet h.shared t).length = n := by
  have fresh : ∀ D : Finset Nat, ∃ c, c ∉ D := fun D => ⟨D.sup id + 1, fun h => by
    exact Nat.not_succ_le_self _ (Finset.le_sup (f := id) h)⟩
  have none_of : ∀ {D : Finset Nat} {h : Heap L} {outs c}, Good D h outs → c ∉ D → h c = none := by
    intro D h outs c g hc
    by_contra h1
    exact hc (g.dom c h1)
  induction n with
  | zero =>
    have g1 := Good.add (c := 0) (d := .leaf (some x)) (outs := []) 0 Good.empty (by simp)
    exact ⟨_, _, .leaf 0 (some x), [], g1, by simp [Rep, Heap.dat, Heap.put], .nil, rfl⟩
  | succ n ih =>
    obtain ⟨D, h, t, outs, g, ht, hn, hl⟩ := ih
    obtain ⟨a, ha⟩ := fresh D
    have ha0 := none_of g ha
    have g1 := Good.add (c := a) (d := .leaf (some x)) (outs := t.cell :: outs) 1 g ha
    have t1 := ht.put ha0 (some ⟨1 + 1, .leaf (some x)⟩)
    have m1 := ht.met_put ha0 (some ⟨1 + 1, .leaf (some x)⟩)
    have la : Rep (h.put a (some ⟨1 + 1, .leaf (some x)⟩)) (.leaf a (some x)) := by simp [Rep, Heap.dat, Heap.put]
    generalize h.put a (some ⟨1 + 1, .leaf (some x)⟩) = h1 at g1 t1 m1 la
    obtain ⟨b, hb⟩ := fresh (insert a D)
    have hb0 := none_of g1 hb
    have g2 := Good.add (c := b) (d := .branch a a) (outs := t.cell :: outs) 1 g1 hb
    have t2 := t1.put hb0 (some ⟨1 + 1, .branch a a⟩)
    have m2 := t1.met_put hb0 (some ⟨1 + 1, .branch a a⟩)
    have lb : Rep (h1.put b (some ⟨1 + 1, .branch a a⟩)) (.branch b (.leaf a (some x)) (.leaf a (some x))) :=
      ⟨by simp [Heap.dat, Heap.put, Ref.cell], la.put hb0 _, la.put hb0 _⟩
    have sb : (h1.put b (some ⟨1 + 1, .branch a a⟩)).shared b = true := by simp [Heap.shared, Heap.strong, Heap.put]
    have nb : b ∉ sharedMet (h1.put b (some ⟨1 + 1, .branch a a⟩)).shared t := by
      intro hm
      rw [m2] at hm
      have := (t1.leaf_cells h1.shared).2 b hm
      simp [Heap.isBranch, hb0] at this
    generalize h1.put b (some ⟨1 + 1, .branch a a⟩) = h2 at g2 t2 m2 lb sb nb
    obtain ⟨c, hc⟩ := fresh (insert b (insert a D))
    have hc0 := none_of g2 hc
    have g3 := Good.add (c := c) (d := .branch b t.cell) (outs := b :: outs) 0
      (g2.congr (outs' := (Dat.branch b t.cell : Dat L).kids ++ b :: outs) fun k => by
        simp only [Dat.kids, List.replicate, List.cons_append, List.nil_append, List.count_cons]
        omega) hc
    have t3 := t2.put hc0 (some ⟨0 + 1, .branch b t.cell⟩)
    have m3 := t2.met_put hc0 (some ⟨0 + 1, .branch b t.cell⟩)
    have lb' := lb.put hc0 (some ⟨0 + 1, .branch b t.cell⟩)
    have mb := lb.met_put hc0 (some ⟨0 + 1, .branch b t.cell⟩)
    have hmb : sharedMet h2.shared (.branch b (.leaf a (some x)) (.leaf a (some x))) = [b] := by simp [sharedMet, sb]
    have sc : (h2.put c (some ⟨0 + 1, .branch b t.cell⟩)).shared c = false := by
      simp [Heap.shared, Heap.strong, Heap.put]
    have met : sharedMet (h2.put c (some ⟨0 + 1, .branch b t.cell⟩)).shared
        (.branch c (.branch b (.leaf a (some x)) (.leaf a (some x))) t) = b :: sharedMet h.shared t := by
      rw [sharedMet, sc, if_neg (by decide), mb, hmb, m3, m2, m1]
      rfl
    refine ⟨_, _, .branch c (.branch b (.leaf a (some x)) (.leaf a (some x))) t, b :: outs, g3,
      ⟨by simp [Heap.dat, Heap.put, Ref.cell], lb', t3⟩, ?_, ?_⟩
    · rw [met, List.nodup_cons]
      refine ⟨?_, hn⟩
      rw [m2, m1] at nb
      exact nb
    · rw [met, List.length_cons, hl]

/-- C86, and C44 does not hold, for references that count: there are heaps in order such that calls of `drop` are nested
as deep as one likes. -/
theorem C86_not_bounded (x : L) (n : Nat) : ∃ (D : Finset Nat) (h : Heap L) (k : Nat) (outs : List Nat),
    Good D h (k :: outs) ∧ ∃ N h' evs steps depth, (∀ m, N ≤ m → drop m k h = .done h' evs steps depth) ∧ n ≤ depth := by
  obtain ⟨D, h, t, outs, g, ht, hn, hl⟩ := shared_list x n
  obtain ⟨N, h', evs, s, d, h1, h2, _⟩ := C86_shared_from_outside g ht hn
  exact ⟨D, h, t.cell, outs, g, N, h', evs, s, d, h1, hl ▸ h2⟩

example : ∃ (D : Finset Nat) (h : Heap Char) (k : Nat) (outs : List Nat), Good D h (k :: outs) ∧
    ∃ N h' evs steps depth, (∀ m, N ≤ m → drop m k h = .done h' evs steps depth) ∧ 1000000 ≤ depth :=
  C86_not_bounded 'a' 1000000

end Kul.RcHeap
