import Verif.Proof.WeakDrop

/-!
# Dropping of lists whose elements have weak references to their nodes (C94)
-/

namespace Kul.WeakDrop

open RcCell (Heap)

/-- C94. `make_rc_weak_list` and `make_arc_weak_list` make a list of `len` elements, each of which has a weak reference to the node that has it. -/
theorem C94_made (len : Nat) : (makeRcWeakList len).1 = 2 * len ∧ (makeRcWeakList len).2.next = 2 * len + 1 ∧
    ∀ k, (makeRcWeakList len).2.cell k = weakCells (fun _ => 0) len k := made_spec len

/-- C94. Dropping it, with `DatumRc` or `DatumArc`, takes one iteration for each node, and two nested calls, however long it is; it does not panic; one cell is allocated
for each node; and in the end no memory remains, that of the nodes to which there were weak references included. -/
theorem C94_drop (arc : Bool) {len n : Nat} (hl : 0 < len) (hn : len + 3 ≤ n) :
    ∃ h', drop arc n (makeRcWeakList len).1 (makeRcWeakList len).2 = .done h' len 2 ∧
      h'.next = (makeRcWeakList len).2.next + len ∧ ∀ k, h'.cell k = none := by
  obtain ⟨h1, h2, h3⟩ := made_spec len
  obtain ⟨i, rfl⟩ : ∃ i, len = i + 1 := ⟨len - 1, by omega⟩
  obtain ⟨h', d, x, c⟩ := drop_weak (arc := arc) (n := n) h3 (by omega) (by omega)
  rw [h1]
  exact ⟨h', d, by omega, fun k => by rw [c]; simp [husks, husk]⟩

/-- C94. Whatever other weak references to nodes of such a list there are, the same happens, but that the memory of these nodes remains,
without datum and with these references, none of which can be upgraded any more. -/
theorem C94_outside (arc : Bool) {len n : Nat} (w : Nat → Nat) {h : Heap Dat} (hl : 0 < len) (hc : ∀ k, h.cell k = weakCells w len k)
    (hx : 2 * len < h.next) (hn : len + 3 ≤ n) :
    ∃ h', drop arc n (2 * len) h = .done h' len 2 ∧ h'.next = h.next + len ∧
      (∀ k, h'.cell k = if k ≤ 2 * len then husks w k else none) ∧ ∀ k, RcCell.canUpgrade k h' = false := by
  obtain ⟨i, rfl⟩ : ∃ i, len = i + 1 := ⟨len - 1, by omega⟩
  obtain ⟨h', d, x, c⟩ := drop_weak (arc := arc) (n := n) hc (by omega) (by omega)
  refine ⟨h', d, by omega, c, fun k => ?_⟩
  simp only [RcCell.canUpgrade, c, husks, husk]
  grind

/-- C94. Of a list without weak references all is dropped in the same way; `DatumArc` allocates one cell for each node even so, `DatumRc`
none. -/
theorem C94_allocates (arc : Bool) {len n : Nat} {h : Heap Dat} (hl : 0 < len) (hc : ∀ k, h.cell k = plainCells len k)
    (hx : 2 * len < h.next) (hn : len + 3 ≤ n) :
    ∃ h', drop arc n (2 * len) h = .done h' len 2 ∧ h'.next = h.next + (if arc then len else 0) ∧ ∀ k, h'.cell k = none := by
  obtain ⟨i, rfl⟩ : ∃ i, len = i + 1 := ⟨len - 1, by omega⟩
  obtain ⟨h', d, x, c⟩ := drop_list (arc := arc) (n := n) hc (by omega) (by omega)
  refine ⟨h', d, ?_, c⟩
  rw [x]
  cases arc <;> simp [perTake]

/-- There is such a heap for every length. -/
example (len : Nat) : ∃ h : Heap Dat, (∀ k, h.cell k = plainCells len k) ∧ 2 * len < h.next := ⟨⟨plainCells len, 2 * len + 1⟩, fun _ => rfl, by simp⟩

/-- The list of two elements, with a weak reference outside to its head, is such a heap; what remains is one cell. -/
example : (∀ k, (RcCell.downgrade 4 (makeRcWeakList 2).2).cell k = weakCells (fun c => if c = 2 then 1 else 0) 2 k) ∧
    2 * 2 < (RcCell.downgrade 4 (makeRcWeakList 2).2).next ∧
    (List.range 6).map (husks fun c => if c = 2 then 1 else 0) = [none, none, none, none, some ⟨none, 0, 1⟩, none] := by
  refine ⟨fun k => ?_, by decide, by decide⟩
  match k with
  | 0 | 1 | 2 | 3 | 4 => rfl
  | k + 5 =>
    rw [weakCells, if_neg (by omega), if_pos (by omega)]
    rfl

end Kul.WeakDrop
