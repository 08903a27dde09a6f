import Verif.Props.RcHeap
import Verif.Proof.DropSole

/-!
# The two models of dropping agree, and what follows for heaps

`Model/Drop.lean` has what is dropped as a tree, by value, and answers whether a reference is the only one come from
outside. `Model/RcHeap.lean` has cells in memory with counts. Both model the same code. Here: they do the same.
-/

namespace Kul.RcHeap

open Drop (Ref)

variable {L : Type} [DecidableEq L] {D : Finset Nat}

/-- C69, the models agree. When a reference to a datum in a heap in order is dropped, the same happens, in the same
order, with the same number of iterations and the same depth of calls, as when the tree that can be reached from it is
dropped, and the answers are given by the counts; and the counts left are right. -/
theorem C69_agree {h : Heap L} {t : Ref Nat L} {outs : List Nat} (g : Good D h (t.cell :: outs)) (ht : Rep h t) :
    ∃ N h' evs steps depth ω', Agree ω' h' ∧ ∀ n, N ≤ n →
      drop n t.cell h = .done h' (evs.map plain) steps depth ∧
      Drop.drop counts n t h.strong = .done evs steps depth ω' := by
  obtain ⟨h', evs, s, d, ω', h1, h2, o, _⟩ := (drop_ends _).1 t h outs h.strong (le_refl _) g ht h.strong_agree
  exact ⟨_, h', evs, s, d, ω', o, fun n hn => ⟨drop_mono h1 hn, Drop.drop_mono hn h2⟩⟩

/-- C69. When nothing that can be reached is shared, a reference is dropped in linear time and without recursion: the
loop is iterated at most twice for each branch datum, and calls of `drop` are nested at most two deep. -/
theorem C69_sole {h : Heap L} {t : Ref Nat L} {outs : List Nat} (g : Good D h (t.cell :: outs)) (ht : Rep h t)
    (h1 : ∀ k ∈ t.cells, ∀ c, h k = some c → c.strong = 1) :
    ∃ N h' evs steps depth, (∀ n, N ≤ n → drop n t.cell h = .done h' evs steps depth) ∧
      depth ≤ 2 ∧ steps ≤ 2 * t.branches := by
  obtain ⟨N, h', evs, s, d, ω', _, hr⟩ := C69_agree g ht
  have hω : ∀ k ∈ t.cells, h.strong k = 1 := by
    intro k hk
    obtain ⟨c, hc⟩ := ht.live k hk
    rw [Heap.strong, hc]
    exact h1 k hk c hc
  have hd : Drop.Drops ones t h.strong evs s d := ⟨ω', N, fun n hn => by
    rw [← ((drop_ones n).1 t h.strong hω).1]
    exact (hr n hn).2⟩
  exact ⟨N, h', _, s, d, fun n hn => (hr n hn).1, Drop.C43_no_recursion ones ones_steady t _ hd,
    Drop.C58_linear_time ones ones_steady t _ hd⟩

/-- What a heap with sharing has, as a tree: what is shared is there more than once. -/
def exTree : Ref Nat Char :=
  let one : Ref Nat Char := .branch 1 (.leaf 3 'a') (.leaf 4 'b')
  .branch 0 one (.branch 2 one (.branch 5 (.leaf 6 'c') (.leaf 6 'c')))

theorem exTree_rep : Rep exHeap exTree := by simp [exTree, Rep, Heap.dat, exHeap, Ref.cell]

example : ∃ N h' evs steps depth ω', Agree ω' h' ∧ ∀ n, N ≤ n →
      drop n 0 exHeap = .done h' (evs.map plain) steps depth ∧
      Drop.drop counts n exTree exHeap.strong = .done evs steps depth ω' :=
  C69_agree exHeap_good exTree_rep

/-- A datum of which nothing is shared: `{{a b} c}` in a list. -/
def soleHeap : Heap Char
  | 0 => some ⟨1, .branch 1 2⟩
  | 1 => some ⟨1, .branch 3 4⟩
  | 2 => some ⟨1, .leaf (some 'c')⟩
  | 3 => some ⟨1, .leaf (some 'a')⟩
  | 4 => some ⟨1, .leaf (some 'b')⟩
  | _ => none

theorem soleHeap_good : Good (Finset.range 5) soleHeap [0] := by
  have leaf : ∀ k, soleHeap.kids k = [] → Finite soleHeap k := fun k h => .mk fun j hj => by rw [h] at hj; cases hj
  have f1 : Finite soleHeap 1 := .mk fun j hj => by
    simp [Heap.kids, soleHeap, Dat.kids] at hj; rcases hj with rfl | rfl <;> exact leaf _ rfl
  refine ⟨fun k hk => ?_, fun k c hk => ?_, fun k c hk => ?_, fun k hk => ?_, fun k => ?_⟩
  · match k with
    | 0 | 1 | 2 | 3 | 4 => decide
    | _ + 5 => exact absurd rfl hk
  · match k with
    | 0 | 1 | 2 | 3 | 4 => cases hk; decide +kernel
    | _ + 5 => cases hk
  · match k with
    | 0 | 1 | 2 | 3 | 4 => cases hk; decide
    | _ + 5 => cases hk
  · match k with
    | 0 | 1 | 2 | 3 | 4 => simp [soleHeap]
    | _ + 5 =>
      exfalso
      rcases hk with hk | ⟨j, hj⟩
      · simp at hk
      · match j with
        | 0 | 1 | 2 | 3 | 4 => simp [Heap.kids, soleHeap, Dat.kids] at hj
        | _ + 5 => cases hj
  · match k with
    | 0 =>
      refine .mk fun j hj => ?_
      simp [Heap.kids, soleHeap, Dat.kids] at hj; rcases hj with rfl | rfl
      · exact f1
      · exact leaf _ rfl
    | 1 => exact f1
    | 2 | 3 | 4 => exact leaf _ rfl
    | _ + 5 => exact leaf _ rfl

example : ∃ N h' evs steps depth, (∀ n, N ≤ n → drop n 0 soleHeap = .done h' evs steps depth) ∧
      depth ≤ 2 ∧ steps ≤ 2 * 2 :=
  C69_sole (t := .branch 0 (.branch 1 (.leaf 3 'a') (.leaf 4 'b')) (.leaf 2 'c')) soleHeap_good
    (by simp [Rep, Heap.dat, soleHeap, Ref.cell]) fun k hk c hc => by
      simp [Ref.cells] at hk
      rcases hk with rfl | rfl | rfl | rfl | rfl <;> cases hc <;> rfl

end Kul.RcHeap
