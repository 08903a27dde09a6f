import Verif.Proof.MultiStrong

/-!
# Dropping of lists with additional strong references (C93)
-/

namespace Kul.Shapes

open RcHeap (Heap Cell Ev Res)

/-- C93. `make_rc_multi_strong_list` makes a list of `len` elements, with a second reference to every `step`th node but not to the last
one, and gives these references, those to shorter tails first. It panics when `step` is zero. -/
theorem C93_made (len step : Nat) : makeRcMultiStrongList len step =
    if step = 0 then none
    else some (2 * len, ((List.range (len + 1)).filter fun c => decide (Kept len step c)).map (2 * ·), listHeap len (strongs len step)) := by
  split
  · rw [makeRcMultiStrongList, if_pos ‹_›]
  · exact made (by omega)

/-- C93. Dropping the list disposes of the nodes above the last one that has another reference, each once, with one iteration for each and
no more than two nested calls; the rest of the heap stays, and that node now has one reference. -/
theorem C93_first {len step n : Nat} (hl : 0 < len) (hs : 0 < step) (hn : len - lastKept len step + 3 ≤ n) :
    RcHeap.drop n (2 * len) (listHeap len (strongs len step))
      = .done (rest len step) (listEvs (lastKept len step) (len - lastKept len step)) (len - lastKept len step) 2 :=
  first hl hs hn

/-- C93. Dropping the additional references then disposes of all the rest, with one iteration for each node but one, and no more than two
nested calls. -/
theorem C93_rest {len step n : Nat} (hl : 0 < len) (hs : 0 < step) (hn : lastKept len step + 3 ≤ n) :
    dropVec n (((List.range (len + 1)).filter fun c => decide (Kept len step c)).map (2 * ·)) (rest len step)
      = .done (fun _ => none) (restEvs len step) (lastKept len step - 1) (min (lastKept len step) 2) :=
  then_rest hl hs hn

/-- C93. In the test `deep_rc_multi_strong_list` (`src/drop.rs` 711-722), where `step` is one: dropping the list "only drops the top node"
with its element, in one iteration; every other cell stays, and only the count of the next node changes. The rest takes `len - 2`
iterations and two nested calls, however long the list is, and nothing remains. -/
theorem C93_test {len n : Nat} (hl : 3 ≤ len) (hn : len + 3 ≤ n) :
    ∃ v h h1 evs, makeRcMultiStrongList len 1 = some (2 * len, v, h) ∧ v.length = len - 1 ∧
      RcHeap.drop n (2 * len) h = .done h1
        [.giveUp (2 * len - 2), .leaf (some (.extra len)), .free (2 * len - 1), .leaf none, .free (2 * len)] 1 2 ∧
      (∀ j, h1 j = if 2 * len - 1 ≤ j then none else if j = 2 * len - 2 then (h j).map fun c => ⟨1, c.dat⟩ else h j) ∧
      dropVec n v h1 = .done (fun _ => none) evs (len - 2) 2 := by
  have lk : lastKept len 1 = len - 1 := by simp [lastKept]
  have f := C93_first (len := len) (step := 1) (n := n) (by omega) (by omega) (by omega)
  have r := C93_rest (len := len) (step := 1) (n := n) (by omega) (by omega) (by omega)
  have l : ((List.range (len + 1)).filter fun c => decide (Kept len 1 c)) = (List.range (len - 1)).map (· + 1) := by
    have e : ∀ m, ((List.range (m + 1)).filter fun c => decide (Kept len 1 c)) = (List.range (min m (len - 1))).map (· + 1) := by
      intro m
      induction m with
      | zero => simp [Kept]
      | succ m ih =>
        rw [List.range_succ, List.filter_append, ih]
        by_cases q : m + 1 < len
        · rw [show min (m + 1) (len - 1) = min m (len - 1) + 1 by omega, List.range_succ]
          simp [Kept, q]; omega
        · rw [show min (m + 1) (len - 1) = min m (len - 1) by omega]
          simp [Kept, q]
    rw [e, Nat.min_eq_right (by omega)]
  refine ⟨_, _, rest len 1, restEvs len 1, made (by omega), by simp [l], ?_, fun j => ?_, ?_⟩
  · rw [f, lk, show len - (len - 1) = 1 by omega]
    simp only [listEvs, tailEvs, Res.done.injEq]
    refine ⟨trivial, ?_, trivial, trivial⟩
    rw [if_neg (by omega), if_neg (by omega)]
    simp only [List.cons_append, List.nil_append, List.cons.injEq, Ev.giveUp.injEq, Ev.leaf.injEq, Option.some.injEq, Dat.extra.injEq,
      Ev.free.injEq, and_true, true_and]
    omega
  · rw [rest, if_neg (by omega), lk]
    simp only [listHeap]
    by_cases j0 : j = 0
    · subst j0
      rw [if_pos rfl, if_neg (by omega), if_neg (by omega), if_pos rfl]
    · rw [if_neg j0, if_neg j0]
      by_cases j1 : 2 * len - 1 ≤ j
      · rw [if_pos (by omega), if_pos j1]
      · rw [if_neg (show ¬ 2 * (len - 1) < j by omega), if_neg j1, if_neg (show ¬ 2 * len < j by omega)]
        by_cases od : j % 2 = 1
        · rw [if_pos od, if_pos od, if_neg (by omega)]
        · rw [if_neg od, if_neg od]
          by_cases j2 : j = 2 * len - 2
          · rw [if_pos (show j / 2 = len - 1 by omega), if_pos j2]; rfl
          · rw [if_neg (show ¬ j / 2 = len - 1 by omega), if_neg j2]
  · rw [r, lk, show len - 1 - 1 = len - 2 by omega, show min (len - 1) 2 = 2 by omega]

/-- Of a list of seven elements with references to every third node, node `7` goes first. -/
example : lastKept 7 3 = 6 ∧ listEvs 6 1 = [.giveUp 12, .leaf (some (.extra 7)), .free 13, .leaf none, .free 14] ∧
    (makeRcMultiStrongList 7 3).map (fun x => x.2.1) = some [6, 12] := by
  refine ⟨by decide, by decide, ?_⟩
  rw [C93_made]
  decide

/-- Not every such list loses only its top: of one without other references, nothing remains. -/
example : lastKept 3 4 = 0 ∧ rest 3 4 = fun _ => none := ⟨by decide, rfl⟩

end Kul.Shapes
