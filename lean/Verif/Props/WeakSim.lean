import Verif.Proof.WeakSim
import Verif.Props.RcHeap
import Verif.Props.WeakDrop

/-!
# Weak references do not matter for dropping (C95)
-/

namespace Kul.WeakDrop

open RcCell (Heap)

/-- C95. Every heap has one without weak references that it stands for. -/
theorem C95_forget {g : Heap Dat} (w : Formed g) : Stands id g (forget g) := by
  refine ⟨fun k d s v e => ⟨by simp [forget, e], w.live k d s v e⟩, fun _ _ _ _ e => e, fun j hj => ⟨j, fun e => hj ?_, rfl⟩, w.free⟩
  rcases hc : g.cell j with _ | ⟨_ | d, s, v⟩
  · simp [forget, hc]
  · simp [forget, hc]
  · simp [RcCell.get, hc] at e

/-- C95. Dropping a reference, with `DatumRc` or `DatumArc`, in a heap with weak references gives what it gives without them, unless
something is accessed that is not there: it panics only if it panics without them, it takes as many iterations and nested calls, and what is left are the same data with
the same strong counts, at other addresses perhaps. -/
theorem C95_agree (arc : Bool) (n : Nat) {f : Nat → Nat} {g : Heap Dat} {h : RcHeap.Heap Unit} {k : Nat} (S : Stands f g h) (hk : k < g.next) :
    Agree f g (drop arc n k g) (RcHeap.drop n (f k) h) := (agree arc n).1 f g h k S hk

/-- C95. If the strong references are in order, dropping one of them ends without a panic, unless something is accessed that is not there; the
data that the other strong references reach are left, and no others, whatever weak references there are. -/
theorem C95_shared (arc : Bool) {f : Nat → Nat} {g : Heap Dat} {h : RcHeap.Heap Unit} {k : Nat} {D : Finset Nat} {outs : List Nat}
    (S : Stands f g h) (hk : k < g.next) (o : RcHeap.Good D h (f k :: outs)) :
    ∃ N h' s d, RcHeap.Good D h' outs ∧ (∀ j, RcHeap.Reach h outs j → h'.dat j = h.dat j) ∧ (∀ j, ¬ RcHeap.Reach h outs j → h' j = none) ∧
      ∀ n, N ≤ n → drop arc n k g = .bad ∨
        ∃ g' f', drop arc n k g = .done g' s d ∧ Stands f' g' h' ∧ ∀ j, j < g.next → f' j = f j := by
  obtain ⟨N, h', evs, s, d, e, o', r1, r2, _⟩ := RcHeap.C42_shared o
  refine ⟨N, h', s, d, o', fun j hj => (r1 j hj).1, fun j hj => (r2 j hj).1, fun n hn => ?_⟩
  rcases C95_agree arc n S hk with A | ⟨_, A⟩ | ⟨_, A⟩ | ⟨g', h2, f', evs2, s2, d2, A, B, C, E, _⟩
  · exact .inl A
  · rw [e n hn] at A; cases A
  · rw [e n hn] at A; cases A
  · rw [e n hn] at B; cases B
    exact .inr ⟨g', f', A, C, E⟩

theorem made_formed (len : Nat) : Formed (makeRcWeakList len).2 := by
  obtain ⟨_, h2, h3⟩ := C94_made len
  constructor
  · intro k d s w e
    rw [h3, weakCells] at e
    grind [Dat.Below]
  · intro k hk
    rw [h3, weakCells]
    grind

/-- The lists of C94 are such heaps, nothing is accessed there that is not, and so without their weak references they are dropped in the same way. -/
example (len : Nat) (hl : 0 < len) : ∃ h' evs, RcHeap.drop (len + 3) (2 * len) (forget (makeRcWeakList len).2) = .done h' evs len 2 ∧
    ∀ j, h' j = none := by
  obtain ⟨h1, h2, _⟩ := C94_made len
  obtain ⟨g', e, _, c⟩ := C94_drop true hl (Nat.le_refl (len + 3))
  rw [h1] at e
  rcases C95_agree true (len + 3) (k := 2 * len) (C95_forget (made_formed len)) (by omega) with A | ⟨A, _⟩ | ⟨A, _⟩ | ⟨g2, h2, f2, evs, s, d, A, B, C, _⟩
  · rw [e] at A; cases A
  · rw [e] at A; cases A
  · rw [e] at A; cases A
  · rw [e] at A; cases A
    refine ⟨h2, evs, B, fun j => ?_⟩
    rcases hj : h2 j with _ | x
    · rfl
    · obtain ⟨k, hk, _⟩ := C.onto j (by simp [hj])
      simp [RcCell.get, c] at hk

end Kul.WeakDrop
