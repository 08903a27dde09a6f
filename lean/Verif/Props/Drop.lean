import Verif.Proof.Drop
import Verif.Spec.Drop
import Mathlib.Data.List.Count
import Mathlib.Data.List.Induction
import Mathlib.Data.List.Perm.Basic

/-! # Dropping of datum trees: C41-C44 -/

namespace Kul.Drop

variable {K L Ω : Type}

theorem branches_eq (t : Ref K L) : t.branches = t.size := by
  induction t with
  | leaf => rfl
  | branch k l r ihl ihr => simp [Ref.branches, Ref.size, ihl, ihr]

/-- C41: whatever the answers about sharing are each time, dropping ends without panic, after a
number of iterations at most quadratic in the number of branches. -/
theorem C41_terminates (O : Oracle Ω K) (t : Ref K L) (ω : Ω) :
    ∃ evs steps depth, Drops O t ω evs steps depth ∧ steps ≤ t.branches * (t.branches + 2) := by
  obtain ⟨e, s, d, ω', h, hs⟩ := (within (L := L) O _).1 t ω (Nat.le_refl _)
  refine ⟨e, s, d, ⟨ω', _, fun m hm => drop_mono hm h⟩, ?_⟩
  rw [branches_eq]
  unfold dropSteps at hs
  rw [Nat.mul_add]
  omega

/-- The outcome is the only one. -/
theorem C41_determined (O : Oracle Ω K) (t : Ref K L) (ω : Ω) {e s d e' s' d'}
    (h : Drops O t ω e s d) (h' : Drops O t ω e' s' d') : e = e' ∧ s = s' ∧ d = d' := by
  obtain ⟨ω₁, n, h⟩ := h
  obtain ⟨ω₂, n', h'⟩ := h'
  have h1 := h (max n n') (Nat.le_max_left _ _)
  have h2 := h' (max n n') (Nat.le_max_right _ _)
  rw [h1] at h2
  cases h2
  exact ⟨rfl, rfl, rfl⟩

theorem Drops.ind {O : Oracle Ω K} {PD : Ref K L → List (Ev K L) → Nat → Prop}
    (H : ∀ n, ∀ t ω e s d ω', drop O n t ω = .done e s d ω' → PD t e d) {t : Ref K L} {ω e s d}
    (h : Drops O t ω e s d) : PD t e d := by
  obtain ⟨ω', n, h⟩ := h
  exact H n _ _ _ _ _ _ (h n (Nat.le_refl _))

/-! ## Accounting -/

section Count

variable [DecidableEq K] [DecidableEq L]

omit [DecidableEq L] in
theorem account_cells (O : Oracle Ω K) (k : K) (n : Nat) :
    (∀ (t : Ref K L) ω e s d ω', drop O n t ω = .done e s d ω' →
      t.cells.count k = (freed e).count k + ((givenUp e).flatMap Ref.cells).count k) ∧
    (∀ lock (l r : Ref K L) ω e s d ω', loop O n lock (.branch l r) ω = .done e s d ω' →
      l.cells.count k + r.cells.count k =
        (freed e).count k + ((givenUp e).flatMap Ref.cells).count k) := by
  refine drop_ind O
    (PD := fun t e _ =>
      t.cells.count k = (freed e).count k + ((givenUp e).flatMap Ref.cells).count k)
    (PL := fun l r e _ =>
      l.cells.count k + r.cells.count k =
        (freed e).count k + ((givenUp e).flatMap Ref.cells).count k)
    ?_ ?_ ?_ ?_ ?_ ?_ ?_ ?_ ?_ n
  · intro k' y ω ω' h
    simp [freed, givenUp, Ref.cells]
  · intro k' y ω ω' h
    simp [freed, givenUp, Ref.cells]
  · intro k' l r e d ω ω' h hl
    simp [freed, givenUp, Ref.cells, List.count_cons] at hl ⊢
    omega
  · intro k' l r e d e' d' ω ω' ω'' h h' hl hr
    simp [freed, givenUp, Ref.cells, List.count_cons] at hl hr ⊢
    omega
  · intro k' l r ω ω' ω'' h h'
    simp [freed, givenUp, Ref.cells]
  · intro l r e d e' d' h hr hl
    simp [freed, givenUp] at hl hr ⊢
    omega
  · intro k' a b r e d ω ω' h hc hl
    simp [Ref.cells, List.count_cons] at hl ⊢
    omega
  · intro k' l a b e d ω ω' h hc hl
    simp [Ref.cells, List.count_cons] at hl ⊢
    omega
  · intro k' a b y l r e d e' d' e'' d'' ω ω' h hc hlr h1 h2 h3
    rcases hlr with ⟨rfl, rfl⟩ | ⟨rfl, rfl⟩ <;>
    · simp [freed, givenUp, Ref.cells, List.count_cons] at h1 h2 h3 ⊢
      omega

omit [DecidableEq K] in
theorem account_leaves (O : Oracle Ω K) (x : L) (n : Nat) :
    (∀ (t : Ref K L) ω e s d ω', drop O n t ω = .done e s d ω' →
      t.leaves.count x = (disposed e).count x + ((givenUp e).flatMap Ref.leaves).count x) ∧
    (∀ lock (l r : Ref K L) ω e s d ω', loop O n lock (.branch l r) ω = .done e s d ω' →
      l.leaves.count x + r.leaves.count x =
        (disposed e).count x + ((givenUp e).flatMap Ref.leaves).count x) := by
  refine drop_ind O
    (PD := fun t e _ =>
      t.leaves.count x = (disposed e).count x + ((givenUp e).flatMap Ref.leaves).count x)
    (PL := fun l r e _ =>
      l.leaves.count x + r.leaves.count x =
        (disposed e).count x + ((givenUp e).flatMap Ref.leaves).count x)
    ?_ ?_ ?_ ?_ ?_ ?_ ?_ ?_ ?_ n
  · intro k' y ω ω' h
    cases y <;> simp [disposed, givenUp, Ref.leaves]
  · intro k' y ω ω' h
    cases y <;> simp [disposed, givenUp, Ref.leaves]
  · intro k' l r e d ω ω' h hl
    simp [disposed, givenUp, Ref.leaves] at hl ⊢
    omega
  · intro k' l r e d e' d' ω ω' ω'' h h' hl hr
    simp [disposed, givenUp, Ref.leaves] at hl hr ⊢
    omega
  · intro k' l r ω ω' ω'' h h'
    simp [disposed, givenUp, Ref.leaves]
  · intro l r e d e' d' h hr hl
    simp [disposed, givenUp] at hl hr ⊢
    omega
  · intro k' a b r e d ω ω' h hc hl
    simp [Ref.leaves] at hl ⊢
    omega
  · intro k' l a b e d ω ω' h hc hl
    simp [Ref.leaves] at hl ⊢
    omega
  · intro k' a b y l r e d e' d' e'' d'' ω ω' h hc hlr h1 h2 h3
    rcases hlr with ⟨rfl, rfl⟩ | ⟨rfl, rfl⟩ <;>
    · simp [disposed, givenUp, Ref.leaves] at h1 h2 h3 ⊢
      omega

end Count

/-- C42, whatever the answers about sharing are: nothing is lost and nothing disposed of twice.
Each cell that can be reached, once for each way to reach it, is either freed or is behind one of the
references given up; and each leaf is either disposed of or behind one of these. -/
theorem C42_accounting (O : Oracle Ω K) (t : Ref K L) (ω : Ω) {evs steps depth}
    (h : Drops O t ω evs steps depth) :
    t.cells.Perm (freed evs ++ (givenUp evs).flatMap Ref.cells) ∧
    t.leaves.Perm (disposed evs ++ (givenUp evs).flatMap Ref.leaves) := by
  classical
  obtain ⟨ω', n, h⟩ := h
  have h := h n (Nat.le_refl _)
  constructor
  · rw [List.perm_iff_count]
    intro k
    rw [List.count_append]
    exact (account_cells O k n).1 _ _ _ _ _ _ h
  · rw [List.perm_iff_count]
    intro x
    rw [List.count_append]
    exact (account_leaves O x n).1 _ _ _ _ _ _ h

/-! ## Steady sharing -/

theorem steady_take {O : Oracle Ω K} {shared : K → Bool} (hO : O.Steady shared) {ω ω' : Ω} {k : K} {b : Bool}
    (h : O.take ω k = (b, ω')) : shared k = !b := by
  have := (hO ω k).1
  rw [h] at this
  simp only at this
  rw [this, Bool.not_not]

theorem steady_last {O : Oracle Ω K} {shared : K → Bool} (hO : O.Steady shared) {ω ω' : Ω} {k : K} {b : Bool}
    (h : O.last ω k = (b, ω')) : shared k = !b := by
  have := (hO ω k).2
  rw [h] at this
  simp only at this
  rw [this, Bool.not_not]

theorem account_steady [DecidableEq K] [DecidableEq L] {O : Oracle Ω K} {shared : K → Bool}
    (hO : O.Steady shared) (k : K) (ref : Ref K L) (n : Nat) :
    (∀ (t : Ref K L) ω e s d ω', drop O n t ω = .done e s d ω' →
      (t.ownCells shared).count k = (freed e).count k ∧
      (t.sharedRefs shared).count ref = (givenUp e).count ref) ∧
    (∀ lock (l r : Ref K L) ω e s d ω', loop O n lock (.branch l r) ω = .done e s d ω' →
      (l.ownCells shared).count k + (r.ownCells shared).count k = (freed e).count k ∧
      (l.sharedRefs shared).count ref + (r.sharedRefs shared).count ref = (givenUp e).count ref) := by
  refine drop_ind O
    (PD := fun t e _ =>
      (t.ownCells shared).count k = (freed e).count k ∧
      (t.sharedRefs shared).count ref = (givenUp e).count ref)
    (PL := fun l r e _ =>
      (l.ownCells shared).count k + (r.ownCells shared).count k = (freed e).count k ∧
      (l.sharedRefs shared).count ref + (r.sharedRefs shared).count ref = (givenUp e).count ref)
    ?_ ?_ ?_ ?_ ?_ ?_ ?_ ?_ ?_ n
  · intro k' y ω ω' h
    simp [freed, givenUp, Ref.ownCells, Ref.sharedRefs, steady_last hO h]
  · intro k' y ω ω' h
    simp [freed, givenUp, Ref.ownCells, Ref.sharedRefs, steady_last hO h]
  · intro k' l r e d ω ω' h hl
    simp [freed, givenUp, Ref.ownCells, Ref.sharedRefs, List.count_cons, steady_take hO h] at hl ⊢
    omega
  · intro k' l r e d e' d' ω ω' ω'' h h' hl hr
    have := steady_take hO h
    rw [steady_last hO h'] at this
    cases this
  · intro k' l r ω ω' ω'' h h'
    simp [freed, givenUp, Ref.ownCells, Ref.sharedRefs, steady_take hO h]
  · intro l r e d e' d' h hr hl
    simp [freed, givenUp] at hl hr ⊢
    omega
  · intro k' a b r e d ω ω' h hc hl
    simp [Ref.ownCells, Ref.sharedRefs, List.count_cons, steady_take hO h] at hl ⊢
    omega
  · intro k' l a b e d ω ω' h hc hl
    simp [Ref.ownCells, Ref.sharedRefs, List.count_cons, steady_take hO h] at hl ⊢
    omega
  · intro k' a b y l r e d e' d' e'' d'' ω ω' h hc hlr h1 h2 h3
    rcases hlr with ⟨rfl, rfl⟩ | ⟨rfl, rfl⟩ <;>
    · simp [freed, givenUp, Ref.ownCells, Ref.sharedRefs, List.count_cons, steady_take hO h]
        at h1 h2 h3 ⊢
      omega

theorem account_steady_leaves [DecidableEq L] {O : Oracle Ω K} {shared : K → Bool}
    (hO : O.Steady shared) (x : L) (n : Nat) :
    (∀ (t : Ref K L) ω e s d ω', drop O n t ω = .done e s d ω' →
      (t.ownLeaves shared).count x = (disposed e).count x) ∧
    (∀ lock (l r : Ref K L) ω e s d ω', loop O n lock (.branch l r) ω = .done e s d ω' →
      (l.ownLeaves shared).count x + (r.ownLeaves shared).count x = (disposed e).count x) := by
  refine drop_ind O
    (PD := fun t e _ => (t.ownLeaves shared).count x = (disposed e).count x)
    (PL := fun l r e _ =>
      (l.ownLeaves shared).count x + (r.ownLeaves shared).count x = (disposed e).count x)
    ?_ ?_ ?_ ?_ ?_ ?_ ?_ ?_ ?_ n
  · intro k' y ω ω' h
    cases y <;> simp [disposed, Ref.ownLeaves, steady_last hO h]
  · intro k' y ω ω' h
    simp [disposed, Ref.ownLeaves, steady_last hO h]
  · intro k' l r e d ω ω' h hl
    simp [disposed, Ref.ownLeaves, steady_take hO h] at hl ⊢
    omega
  · intro k' l r e d e' d' ω ω' ω'' h h' hl hr
    have := steady_take hO h
    rw [steady_last hO h'] at this
    cases this
  · intro k' l r ω ω' ω'' h h'
    simp [disposed, Ref.ownLeaves, steady_take hO h]
  · intro l r e d e' d' h hr hl
    simp [disposed] at hl hr ⊢
    omega
  · intro k' a b r e d ω ω' h hc hl
    simp [Ref.ownLeaves, steady_take hO h] at hl ⊢
    omega
  · intro k' l a b e d ω ω' h hc hl
    simp [Ref.ownLeaves, steady_take hO h] at hl ⊢
    omega
  · intro k' a b y l r e d e' d' e'' d'' ω ω' h hc hlr h1 h2 h3
    rcases hlr with ⟨rfl, rfl⟩ | ⟨rfl, rfl⟩ <;>
    · simp [disposed, Ref.ownLeaves, steady_take hO h] at h1 h2 h3 ⊢
      omega

/-- C42, while others hold on to what is shared: exactly the cells reached through references that
are not shared are freed, each once, with the leaves in them; and exactly the references to shared
cells are given up, each once. Nothing inside shared cells is touched. -/
theorem C42_exactly_once (O : Oracle Ω K) (shared : K → Bool) (hO : O.Steady shared) (t : Ref K L) (ω : Ω)
    {evs steps depth} (h : Drops O t ω evs steps depth) :
    (freed evs).Perm (t.ownCells shared) ∧ (disposed evs).Perm (t.ownLeaves shared) ∧
    (givenUp evs).Perm (t.sharedRefs shared) := by
  classical
  obtain ⟨ω', n, h⟩ := h
  have h := h n (Nat.le_refl _)
  refine ⟨?_, ?_, ?_⟩
  · rw [List.perm_iff_count]
    intro k
    have := (account_steady hO k t n).1 _ _ _ _ _ _ h
    exact this.1.symm
  · rw [List.perm_iff_count]
    intro x
    exact ((account_steady_leaves hO x n).1 _ _ _ _ _ _ h).symm
  · rw [List.perm_iff_count]
    intro r
    exact ((account_steady hO t.cell r n).1 _ _ _ _ _ _ h).2.symm

/-! ## Depth -/

theorem depth_steady {O : Oracle Ω K} {shared : K → Bool} (hO : O.Steady shared) (n : Nat) :
    (∀ (t : Ref K L) ω e s d ω', drop O n t ω = .done e s d ω' →
      d ≤ t.sharedBranches shared + 2 ∧ (t.cls = .leaf ∨ shared t.cell → d ≤ 1)) ∧
    (∀ lock (l r : Ref K L) ω e s d ω', loop O n lock (.branch l r) ω = .done e s d ω' →
      d ≤ l.sharedBranches shared + r.sharedBranches shared + 1) := by
  refine drop_ind O
    (PD := fun t e d => d ≤ t.sharedBranches shared + 2 ∧ (t.cls = .leaf ∨ shared t.cell → d ≤ 1))
    (PL := fun l r e d => d ≤ l.sharedBranches shared + r.sharedBranches shared + 1)
    ?_ ?_ ?_ ?_ ?_ ?_ ?_ ?_ ?_ n
  · intro k' y ω ω' h
    exact ⟨by omega, fun _ => Nat.le_refl _⟩
  · intro k' y ω ω' h
    exact ⟨by omega, fun _ => Nat.le_refl _⟩
  · intro k' l r e d ω ω' h hl
    have hk := steady_take hO h
    simp [Ref.sharedBranches, hk, Ref.cls, Ref.cell] at hl ⊢
    omega
  · intro k' l r e d e' d' ω ω' ω'' h h' hl hr
    have := steady_take hO h
    rw [steady_last hO h'] at this
    cases this
  · intro k' l r ω ω' ω'' h h'
    exact ⟨by omega, fun _ => Nat.le_refl _⟩
  · intro l r e d e' d' h hr hl
    rcases h with ⟨h1, h2⟩ | ⟨k, a, b, ω, ω', rfl | rfl, h⟩
    · have := hr.2 (Or.inl h2)
      have := hl.2 (Or.inl h1)
      omega
    · have hk := steady_take hO h
      have := hl.2 (Or.inr (by simp [Ref.cell, hk]))
      simp only [Ref.sharedBranches, hk, Bool.not_false, if_true] at hl ⊢
      omega
    · have hk := steady_take hO h
      have := hr.2 (Or.inr (by simp [Ref.cell, hk]))
      simp only [Ref.sharedBranches, hk, Bool.not_false, if_true] at hr ⊢
      omega
  · intro k' a b r e d ω ω' h hc hl
    simp [Ref.sharedBranches, steady_take hO h] at hl ⊢
    omega
  · intro k' l a b e d ω ω' h hc hl
    simp [Ref.sharedBranches, steady_take hO h] at hl ⊢
    omega
  · intro k' a b y l r e d e' d' e'' d'' ω ω' h hc hlr h1 h2 h3
    have h1 := h1.2 (Or.inl hc)
    have h2 := h2.2 (Or.inl rfl)
    rcases hlr with ⟨rfl, rfl⟩ | ⟨rfl, rfl⟩ <;>
    · simp [Ref.sharedBranches, steady_take hO h] at h3 ⊢
      omega

theorem sharedBranches_none (t : Ref K L) : t.sharedBranches (fun _ => false) = 0 := by
  induction t with
  | leaf => rfl
  | branch k l r ihl ihr => simp [Ref.sharedBranches, ihl, ihr]

/-- C43: a tree of which nothing is shared is dropped without recursion: calls of `drop` are nested
at most two deep, for the tree itself and for single leaves, no matter how deep the tree is. -/
theorem C43_no_recursion (O : Oracle Ω K) (hO : O.Steady fun _ => false) (t : Ref K L) (ω : Ω)
    {evs steps depth} (h : Drops O t ω evs steps depth) : depth ≤ 2 := by
  obtain ⟨ω', n, h⟩ := h
  have := ((depth_steady hO n).1 _ _ _ _ _ _ (h n (Nat.le_refl _))).1
  rwa [sharedBranches_none] at this

/-- C44, in part: with sharing, the depth of nested calls is bounded by the number of references to
shared branch datums (plus two), whatever the depth of the tree is. Missing: a bound that does not
depend on how many references are shared; there is none, see `C44_not_bounded`. -/
theorem C44_depth_partial (O : Oracle Ω K) (shared : K → Bool) (hO : O.Steady shared) (t : Ref K L) (ω : Ω)
    {evs steps depth} (h : Drops O t ω evs steps depth) : depth ≤ t.sharedBranches shared + 2 := by
  obtain ⟨ω', n, h⟩ := h
  exact ((depth_steady hO n).1 _ _ _ _ _ _ (h n (Nat.le_refl _))).1

theorem depth_least {O : Oracle Ω K} {shared : K → Bool} (hO : O.Steady shared) (n : Nat) :
    (∀ (t : Ref K L) ω e s d ω', drop O n t ω = .done e s d ω' → t.sharedBranches shared ≤ d) ∧
    (∀ lock (l r : Ref K L) ω e s d ω', loop O n lock (.branch l r) ω = .done e s d ω' →
      l.sharedBranches shared + r.sharedBranches shared ≤ d + 1) := by
  refine drop_ind O
    (PD := fun t e d => t.sharedBranches shared ≤ d)
    (PL := fun l r e d => l.sharedBranches shared + r.sharedBranches shared ≤ d + 1)
    ?_ ?_ ?_ ?_ ?_ ?_ ?_ ?_ ?_ n
  · intro k' y ω ω' h
    exact Nat.zero_le _
  · intro k' y ω ω' h
    exact Nat.zero_le _
  · intro k' l r e d ω ω' h hl
    simpa [Ref.sharedBranches, steady_take hO h] using hl
  · intro k' l r e d e' d' ω ω' ω'' h h' hl hr
    have := steady_take hO h
    rw [steady_last hO h'] at this
    cases this
  · intro k' l r ω ω' ω'' h h'
    simp [Ref.sharedBranches, steady_take hO h]
  · intro l r e d e' d' h hr hl
    rcases h with ⟨h1, h2⟩ | ⟨k, a, b, ω, ω', rfl | rfl, h⟩
    · cases l with
      | branch => cases h1
      | leaf =>
        cases r with
        | branch => cases h2
        | leaf => exact Nat.zero_le _
    · simp only [Ref.sharedBranches, steady_take hO h, Bool.not_false, if_true]
      omega
    · simp only [Ref.sharedBranches, steady_take hO h, Bool.not_false, if_true]
      omega
  · intro k' a b r e d ω ω' h hc hl
    simp [Ref.sharedBranches, steady_take hO h] at hl ⊢
    omega
  · intro k' l a b e d ω ω' h hc hl
    simp [Ref.sharedBranches, steady_take hO h] at hl ⊢
    omega
  · intro k' a b y l r e d e' d' e'' d'' ω ω' h hc hlr h1 h2 h3
    cases y with
    | branch => cases hc
    | leaf =>
      rcases hlr with ⟨rfl, rfl⟩ | ⟨rfl, rfl⟩ <;>
      · simp [Ref.sharedBranches, steady_take hO h] at h3 ⊢
        omega

/-- C82: with sharing, for every tree whatever its shape, how deep the calls of `drop` are nested is the
number of references to shared branch datums that the tree has, up to two more. So each reference to
a shared branch datum costs a level of recursion, and nothing else does. -/
theorem C82_depth_is_number_shared (O : Oracle Ω K) (shared : K → Bool) (hO : O.Steady shared)
    (t : Ref K L) (ω : Ω) {evs steps depth} (h : Drops O t ω evs steps depth) :
    t.sharedBranches shared ≤ depth ∧ depth ≤ t.sharedBranches shared + 2 := by
  have h' := C44_depth_partial O shared hO t ω h
  obtain ⟨ω', n, h⟩ := h
  exact ⟨(depth_least hO n).1 _ _ _ _ _ _ (h n (Nat.le_refl _)), h'⟩

/-! ## The depth is not bounded with sharing -/

/-- A list (chain to the right) of elements, with the cells for its links, ending in `last`. -/
def rlist (last : Ref K L) : List (K × Ref K L) → Ref K L
  | [] => last
  | (k, x) :: ps => .branch k x (rlist last ps)

/-- A nest (chain to the left). -/
def llist (a : Ref K L) : List (K × Ref K L) → Ref K L
  | [] => a
  | (k, x) :: ps => llist (.branch k a x) ps

theorem llist_append (a : Ref K L) (ps : List (K × Ref K L)) (k : K) (x : Ref K L) :
    llist a (ps ++ [(k, x)]) = .branch k (llist a ps) x := by
  induction ps generalizing a with
  | nil => rfl
  | cons p ps ih => exact ih _

theorem rlist_append (last : Ref K L) (ps : List (K × Ref K L)) (k : K) (x : Ref K L) :
    rlist last (ps ++ [(k, x)]) = rlist (.branch k x last) ps := by
  induction ps with
  | nil => rfl
  | cons q ps ih => simp only [rlist, List.cons_append, ih]

/-- Dropping `t` nests calls at least `m` deep. -/
def Deep (O : Oracle Ω K) (m : Nat) (t : Ref K L) : Prop :=
  ∀ n ω e s d ω', drop O n t ω = .done e s d ω' → m ≤ d

def DeepL (O : Oracle Ω K) (m : Nat) (lock : Option Side) (l r : Ref K L) : Prop :=
  ∀ n ω e s d ω', loop O n lock (.branch l r) ω = .done e s d ω' → m ≤ d

section Deep

variable {shared : K → Bool}

/-- A reference to a shared branch. -/
def SharedBranch (shared : K → Bool) (x : Ref K L) : Prop := ∃ k a b, x = .branch k a b ∧ shared k = true

theorem choose_right {lock : Option Side} {k : K} {l a b : Ref K L} (hl : l.cls = .branch)
    (hk : shared k = false) (h : lock = some .right ∨ lock = none ∧ SharedBranch shared l) (ω : Unit) :
    choose (.steady shared) lock l (.branch k a b) ω =
      (.side .right (.branch a b) (.leaf k none) .branch l, ω) := by
  rcases h with rfl | ⟨rfl, k', a', b', rfl, hk'⟩
  · cases l with
    | leaf => cases hl
    | branch => simp [choose, Ref.cls, tryTake, Oracle.steady, Ref.cell, hk, Ref.datum, Ref.of, tempLeaf]
  · simp [choose, Ref.cls, tryTake, Oracle.steady, Ref.cell, hk, hk', Ref.datum, Ref.of, tempLeaf]

theorem choose_left {lock : Option Side} {k : K} {r a b : Ref K L} (hr : r.cls = .branch)
    (hk : shared k = false) (h : lock = some .left ∨ lock = none) (ω : Unit) :
    choose (.steady shared) lock (.branch k a b) r ω =
      (.side .left (.branch a b) (.leaf k none) .branch r, ω) := by
  cases r with
  | leaf => cases hr
  | branch =>
    rcases h with rfl | rfl <;>
    simp [choose, Ref.cls, tryTake, Oracle.steady, Ref.cell, hk, Ref.datum, Ref.of, tempLeaf]

theorem DeepL.right {m : Nat} {lock : Option Side} {k : K} {l a b : Ref K L} (hl : l.cls = .branch)
    (hk : shared k = false) (h : lock = some .right ∨ lock = none ∧ SharedBranch shared l)
    (hd : DeepL (.steady shared) m (some .right) (.branch k l a) b) :
    DeepL (.steady shared) m lock l (.branch k a b) := by
  intro n ω e s d ω' hn
  cases n with
  | zero => unfold loop at hn; cases hn
  | succ n =>
    rw [loop_succ, choose_right hl hk h, Res.step_done] at hn
    obtain ⟨s', hn, _⟩ := hn
    have : lock.getD .right = .right := by rcases h with rfl | ⟨rfl, _⟩ <;> rfl
    simp only [this, Ref.cell] at hn
    exact hd _ _ _ _ _ _ hn

theorem DeepL.left {m : Nat} {lock : Option Side} {k : K} {r a b : Ref K L} (hr : r.cls = .branch)
    (hk : shared k = false) (h : lock = some .left ∨ lock = none)
    (hd : DeepL (.steady shared) m (some .left) a (.branch k b r)) :
    DeepL (.steady shared) m lock (.branch k a b) r := by
  intro n ω e s d ω' hn
  cases n with
  | zero => unfold loop at hn; cases hn
  | succ n =>
    rw [loop_succ, choose_left hr hk h, Res.step_done] at hn
    obtain ⟨s', hn, _⟩ := hn
    have : lock.getD .left = .left := by rcases h with rfl | rfl <;> rfl
    simp only [this, Ref.cell] at hn
    exact hd _ _ _ _ _ _ hn

/-- The loop ends. -/
theorem DeepL.abort {m : Nat} {lock : Option Side} {l r : Ref K L} (hl : l.cls = .branch) (hr : r.cls = .branch)
    (h : lock = some .right ∧ SharedBranch shared r ∨ lock = some .left ∧ SharedBranch shared l ∨
      SharedBranch shared l ∧ SharedBranch shared r)
    (hd : Deep (.steady shared) m l ∨ Deep (.steady shared) m r) :
    DeepL (.steady shared) m lock l r := by
  intro n ω e s d ω' hn
  cases n with
  | zero => unfold loop at hn; cases hn
  | succ n =>
    have hc : choose (.steady shared) lock l r ω = (.abort l r, ω) := by
      cases l with
      | leaf => cases hl
      | branch kl _ _ =>
        cases r with
        | leaf => cases hr
        | branch kr _ _ =>
          rcases h with ⟨rfl, k', a', b', h, hk'⟩ | ⟨rfl, k', a', b', h, hk'⟩ |
            ⟨⟨k', a', b', h, hk'⟩, k'', a'', b'', h', hk''⟩
          · cases h
            simp [choose, Ref.cls, tryTake, Oracle.steady, Ref.cell, hk']
          · cases h
            simp [choose, Ref.cls, tryTake, Oracle.steady, Ref.cell, hk']
          · cases h
            cases h'
            rcases lock with _ | _ | _ <;>
              simp [choose, Ref.cls, tryTake, Oracle.steady, Ref.cell, hk', hk'']
    rw [loop_succ, hc, Res.step_done] at hn
    obtain ⟨s', hn, _⟩ := hn
    obtain ⟨_, _, _, _, _, _, _, h4, h5, rfl, rfl, rfl⟩ := Res.andThen_done.mp hn
    rcases hd with hd | hd
    · exact Nat.le_trans (hd _ _ _ _ _ _ h5) (Nat.le_max_right _ _)
    · exact Nat.le_trans (hd _ _ _ _ _ _ h4) (Nat.le_max_left _ _)

/-- The right side is a leaf. -/
theorem DeepL.down {m : Nat} {lock : Option Side} {k : K} {r a b : Ref K L} (hr : r.cls = .leaf)
    (hk : shared k = false) (hd : DeepL (.steady shared) m none a b) :
    DeepL (.steady shared) m lock (.branch k a b) r := by
  intro n ω e s d ω' hn
  cases n with
  | zero => unfold loop at hn; cases hn
  | succ n =>
    have hc : choose (.steady shared) lock (.branch k a b) r ω =
        (.side .left (.branch a b) (.leaf k none) .leaf r, ω) := by
      cases r with
      | branch => cases hr
      | leaf =>
        rcases lock with _ | _ | _ <;>
        simp [choose, Ref.cls, tryTake, Oracle.steady, Ref.cell, hk, Ref.datum, Ref.of, tempLeaf]
    rw [loop_succ, hc, Res.step_done] at hn
    obtain ⟨s', hn, _⟩ := hn
    obtain ⟨_, _, _, _, _, _, _, h4, h5, rfl, rfl, rfl⟩ := Res.andThen_done.mp hn
    exact Nat.le_trans (hd _ _ _ _ _ _ h5) (Nat.le_max_right _ _)

theorem Deep.branch {m : Nat} {k : K} {l r : Ref K L} (hk : shared k = false)
    (hd : DeepL (.steady shared) m none l r) : Deep (.steady shared) (m + 1) (.branch k l r) := by
  intro n ω e s d ω' hn
  cases n with
  | zero => unfold drop at hn; cases hn
  | succ n =>
    unfold drop at hn
    simp only [tryTake, Oracle.steady, Ref.cell, hk, Ref.datum, Bool.not_false] at hn
    obtain ⟨d', hn', rfl⟩ := Res.call_done.mp hn
    obtain ⟨_, _, _, _, _, _, _, h4, h5, rfl, rfl, rfl⟩ := Res.andThen_done.mp hn'
    have := hd _ _ _ _ _ _ h4
    omega

theorem Deep.one (O : Oracle Ω K) (t : Ref K L) : Deep O 1 t := by
  intro n ω e s d ω' hn
  cases n with
  | zero => unfold drop at hn; cases hn
  | succ n =>
    unfold drop at hn
    obtain ⟨d', hn, rfl⟩ := Res.call_done.mp hn
    omega

/-- Elements are shared branches and links are not shared. -/
def Pairs (shared : K → Bool) (ps : List (K × Ref K L)) : Prop :=
  ∀ p ∈ ps, shared p.1 = false ∧ SharedBranch shared p.2

theorem SharedBranch.cls {x : Ref K L} (h : SharedBranch shared x) : x.cls = .branch := by
  obtain ⟨k, a, b, rfl, _⟩ := h; rfl

/-- Going down the right chain makes it a left chain. -/
theorem deepL_right {m : Nat} {last : Ref K L} (ps : List (K × Ref K L)) (hp : Pairs shared ps)
    (l : Ref K L) (hl : l.cls = .branch)
    (hd : DeepL (.steady shared) m (some .right) (llist l ps) last) :
    DeepL (.steady shared) m (some .right) l (rlist last ps) := by
  induction ps generalizing l with
  | nil => exact hd
  | cons p ps ih =>
    exact .right hl (hp p (by simp)).1 (Or.inl rfl)
      (ih (fun q hq => hp q (by simp [hq])) (.branch p.1 l p.2) rfl hd)

/-- Going down the left chain makes it a right chain. -/
theorem deepL_left {m : Nat} {a : Ref K L} (ps : List (K × Ref K L)) (hp : Pairs shared ps)
    (r : Ref K L) (hr : r.cls = .branch)
    (hd : DeepL (.steady shared) m (some .left) a (rlist r ps)) :
    DeepL (.steady shared) m (some .left) (llist a ps) r := by
  induction ps using List.reverseRecOn generalizing r with
  | nil => exact hd
  | append_singleton ps p ih =>
    obtain ⟨k, x⟩ := p
    rw [llist_append]
    refine .left hr (hp (k, x) (by simp)).1 (Or.inl rfl)
      (ih (fun q hq => hp q (by simp [hq])) (.branch k x r) rfl ?_)
    rwa [← rlist_append]

theorem rlist_cls {last : Ref K L} (h : last.cls = .branch) (ps : List (K × Ref K L)) :
    (rlist last ps).cls = .branch := by
  cases ps with
  | nil => exact h
  | cons p ps => rfl

theorem llist_cls {a : Ref K L} (h : a.cls = .branch) (ps : List (K × Ref K L)) :
    (llist a ps).cls = .branch := by
  induction ps generalizing a with
  | nil => exact h
  | cons p ps ih => exact ih rfl

theorem deepL_none_left {m : Nat} {a x : Ref K L} (ha : SharedBranch shared a) (hx : SharedBranch shared x)
    (ps : List (K × Ref K L)) (hp : Pairs shared ps) (hne : ps ≠ [])
    (hd : Deep (.steady shared) m (rlist x ps)) : DeepL (.steady shared) m none (llist a ps) x := by
  induction ps using List.reverseRecOn with
  | nil => exact absurd rfl hne
  | append_singleton ps p _ =>
    obtain ⟨k, y⟩ := p
    rw [llist_append]
    refine .left hx.cls (hp (k, y) (by simp)).1 (Or.inr rfl)
      (deepL_left ps (fun q hq => hp q (by simp [hq])) _ rfl ?_)
    rw [← rlist_append]
    exact .abort ha.cls (rlist_cls hx.cls _) (Or.inr (Or.inl ⟨rfl, ha⟩)) (Or.inr hd)

theorem deep_chains (m : Nat) :
    (∀ (last : Ref K L) (ps : List (K × Ref K L)), SharedBranch shared last → Pairs shared ps →
      ps.length = m → Deep (.steady shared) (m + 1) (rlist last ps)) ∧
    (∀ (a : Ref K L) (ps : List (K × Ref K L)), SharedBranch shared a → Pairs shared ps →
      ps.length = m → Deep (.steady shared) (m + 1) (llist a ps)) := by
  induction m with
  | zero => exact ⟨fun _ _ _ _ _ => Deep.one _ _, fun _ _ _ _ _ => Deep.one _ _⟩
  | succ m ih =>
    constructor
    · intro last ps hl hp hm
      cases ps with
      | nil => cases hm
      | cons p ps =>
        obtain ⟨k, x⟩ := p
        have hx := (hp (k, x) (by simp)).2
        have hp' : Pairs shared ps := fun q hq => hp q (by simp [hq])
        refine .branch (hp (k, x) (by simp)).1 ?_
        have hd := ih.2 x ps hx hp' (by simpa using hm)
        cases ps with
        | nil =>
          have : m = 0 := by simpa using hm.symm
          subst this
          exact .abort hx.cls hl.cls (Or.inr (Or.inr ⟨hx, hl⟩)) (Or.inl hd)
        | cons q ps =>
          obtain ⟨k', y⟩ := q
          refine .right hx.cls (hp' (k', y) (by simp)).1 (Or.inr ⟨rfl, hx⟩)
            (deepL_right ps (fun q hq => hp' q (by simp [hq])) _ rfl ?_)
          exact .abort (llist_cls rfl _) hl.cls (Or.inl ⟨rfl, hl⟩) (Or.inl hd)
    · intro a ps ha hp hm
      induction ps using List.reverseRecOn with
      | nil => cases hm
      | append_singleton ps p _ =>
        obtain ⟨k, x⟩ := p
        have hx := (hp (k, x) (by simp)).2
        have hp' : Pairs shared ps := fun q hq => hp q (by simp [hq])
        have hd := ih.1 x ps hx hp' (by simpa using hm)
        rw [llist_append]
        refine .branch (hp (k, x) (by simp)).1 ?_
        rcases ps with _ | ⟨q, ps⟩
        · have : m = 0 := by simpa using hm.symm
          subst this
          exact .abort ha.cls hx.cls (Or.inr (Or.inr ⟨ha, hx⟩)) (Or.inl (Deep.one _ _))
        · exact deepL_none_left ha hx _ hp' (by simp) hd

end Deep

/-- A list of `n` elements, the `i`-th of which is a datum with two leaves in cell `(true, i)`. The
links of the list are in cells `(false, i)`. -/
def pairsList (from_ : Nat) : Nat → Ref (Bool × Nat) Nat
  | 0 => .leaf (false, from_) none
  | n + 1 => .branch (false, from_)
      (.branch (true, from_) (.leaf (true, from_) (some from_)) (.leaf (true, from_) (some from_)))
      (pairsList (from_ + 1) n)

theorem pairsList_eq (i n : Nat) : ∃ ps last, pairsList i n = rlist last ps ∧
    Pairs Prod.fst ps ∧ ps.length = n ∧ last.cls = .leaf := by
  induction n generalizing i with
  | zero => exact ⟨[], _, rfl, (by intro p hp; cases hp), rfl, rfl⟩
  | succ n ih =>
    obtain ⟨ps, last, h1, h2, h3, h4⟩ := ih (i + 1)
    refine ⟨((false, i), .branch (true, i) (.leaf (true, i) (some i)) (.leaf (true, i) (some i))) :: ps, last,
      by simp only [pairsList, h1, rlist], ?_, by simp [h3], h4⟩
    intro p hp
    rcases List.mem_cons.mp hp with rfl | hp
    · exact ⟨rfl, _, _, _, rfl, rfl⟩
    · exact h2 p hp

/-- C44 does not hold: when the elements of a list are branch datums that are shared, and the links
of the list are not, then dropping the list nests calls of `drop` about as deep as the list is long:
each call aborts on a shared element and drops the rest of the list by recursion. -/
theorem C44_not_bounded (n : Nat) : ∃ evs steps depth,
    Drops (.steady Prod.fst) (pairsList 0 (n + 1)) () evs steps depth ∧ n ≤ depth := by
  obtain ⟨evs, steps, depth, h, _⟩ := C41_terminates (.steady Prod.fst) (pairsList 0 (n + 1)) ()
  refine ⟨evs, steps, depth, h, ?_⟩
  suffices hd : Deep (.steady Prod.fst) n (pairsList 0 (n + 1)) by
    obtain ⟨ω', m, h⟩ := h
    exact hd _ _ _ _ _ _ (h m (Nat.le_refl _))
  obtain ⟨ps, last, h1, h2, h3, h4⟩ := pairsList_eq 0 (n + 1)
  rw [h1]
  match n, ps, h3 with
  | 0, _, _ => exact fun _ _ _ _ _ _ _ => Nat.zero_le _
  | n + 1, p :: q :: ps, h3 =>
    obtain ⟨k, x⟩ := p
    obtain ⟨k', y⟩ := q
    have hx := h2 (k, x) (by simp)
    have hy := h2 (k', y) (by simp)
    have hp : Pairs Prod.fst ps := fun q hq => h2 q (by simp [hq])
    have hlen : ps.length = n := by simpa using h3
    refine .branch hx.1 (.right hx.2.cls hy.1 (Or.inr ⟨rfl, hx.2⟩) (deepL_right ps hp _ rfl ?_))
    induction ps using List.reverseRecOn with
    | nil =>
      subst hlen
      exact fun _ _ _ _ _ _ _ => Nat.zero_le _
    | append_singleton ps r _ =>
      obtain ⟨k'', z⟩ := r
      have hz := h2 (k'', z) (by simp)
      rw [llist_append]
      refine .down h4 hz.1 ?_
      have := deepL_none_left (m := n) hx.2 hz.2 ((k', y) :: ps)
        (fun q hq => h2 q (by simp only [List.mem_cons, List.mem_append] at hq ⊢; tauto)) (by simp) ?_
      · exact this
      · have := (deep_chains (shared := (Prod.fst : Bool × Nat → Bool)) (L := Nat) n).1 z ((k', y) :: ps) hz.2
          (fun q hq => h2 q (by simp only [List.mem_cons, List.mem_append] at hq ⊢; tauto))
          (by simpa using hlen)
        exact fun _ _ _ _ _ _ h => Nat.le_of_succ_le (this _ _ _ _ _ _ h)

/-! ## Examples -/

/-- A tree with branches on both sides at more than one level. -/
def exTree : Ref Nat Nat :=
  .branch 0 (.branch 1 (.branch 2 (.leaf 3 (some 3)) (.leaf 4 (some 4))) (.leaf 5 (some 5)))
    (.branch 6 (.branch 7 (.leaf 8 (some 8)) (.leaf 9 none)) (.branch 10 (.leaf 11 (some 11)) (.leaf 12 none)))

/-- An oracle whose answers change with each question: taking out fails each third time, and every
second time a reference turns out to be the last although it was not before. -/
def exRace : Oracle Nat Nat := ⟨fun n _ => (n % 3 ≠ 0, n + 1), fun n _ => (n % 2 ≠ 0, n + 1)⟩

theorem Drops.of_fuel {O : Oracle Ω K} {t : Ref K L} {ω e s d ω'} (n : Nat)
    (h : drop O n t ω = .done e s d ω') : Drops O t ω e s d := ⟨ω', n, fun _ hm => drop_mono hm h⟩

/-- The events of a drop. -/
def exEvs {Ω : Type} (O : Oracle Ω Nat) (ω : Ω) : List (Ev Nat Nat) :=
  match drop O 100 exTree ω with
  | .done e _ _ _ => e
  | _ => []

/-- C41, C42: the answers differ during the run, some cells are freed and some references given up. -/
example : Drops exRace exTree 1 (exEvs exRace 1) 8 4 ∧
    freed (exEvs exRace 1) = [6, 10, 11, 7, 1, 3, 2, 0] ∧ disposed (exEvs exRace 1) = [11, 3] ∧
    (givenUp (exEvs exRace 1)).flatMap Ref.cells = [5, 9, 12, 8, 4] ∧ exTree.branches = 6 :=
  ⟨.of_fuel (ω' := 20) 100 (by decide +kernel), by decide +kernel, by decide +kernel, by decide +kernel,
    by decide +kernel⟩

/-- C42, C44: cells 2 and 7 are shared. -/
example : (Oracle.steady fun k : Nat => k == 2 || k == 7).Steady (fun k => k == 2 || k == 7) ∧
    Drops (.steady fun k => k == 2 || k == 7) exTree () (exEvs (.steady fun k => k == 2 || k == 7) ()) 6 3 ∧
    exTree.ownCells (fun k => k == 2 || k == 7) = [0, 1, 5, 6, 10, 11, 12] ∧
    exTree.sharedRefs (fun k => k == 2 || k == 7) =
      [.branch 2 (.leaf 3 (some 3)) (.leaf 4 (some 4)), .branch 7 (.leaf 8 (some 8)) (.leaf 9 none)] :=
  ⟨fun _ _ => ⟨rfl, rfl⟩, .of_fuel (ω' := ()) 100 (by decide +kernel), by decide +kernel, by decide +kernel⟩

/-- C82: two references to shared branch datums, three levels; everything shared, one
reference and one level; no sharing, two levels. -/
example : exTree.sharedBranches (fun k => k == 2 || k == 7) = 2 ∧
    exTree.sharedBranches (fun _ => true) = 1 ∧
    Drops (.steady fun _ => true) exTree () [.giveUp exTree] 0 1 ∧
    exTree.sharedBranches (fun _ => false) = 0 ∧
    Drops (.steady fun _ => false) exTree () (exEvs (.steady fun _ => false) ()) 9 2 :=
  ⟨by decide +kernel, by decide +kernel, .of_fuel (ω' := ()) 100 (by decide +kernel), by decide +kernel,
    .of_fuel (ω' := ()) 100 (by decide +kernel)⟩

/-- C43: nothing is shared. -/
example : (Oracle.sole (K := Nat)).Steady (fun _ => false) ∧
    Drops .sole exTree () (exEvs .sole ()) 9 2 ∧ disposed (exEvs .sole ()) = [3, 4, 5, 8, 11] :=
  ⟨fun _ _ => ⟨rfl, rfl⟩, .of_fuel (ω' := ()) 100 (by decide +kernel), by decide +kernel⟩

/-- C44: ten shared elements, calls nested ten deep. -/
example : ∃ evs, Drops (.steady Prod.fst) (pairsList 0 10) () evs 55 10 := by
  refine ⟨_, .of_fuel (ω' := ()) 400 (e := (match drop (.steady Prod.fst) 400 (pairsList 0 10) () with
    | .done e _ _ _ => e
    | _ => [])) ?_⟩
  decide +kernel

end Kul.Drop
