import Verif.Model.MultiStrong

/-!
# Lists with additional strong references, seen from outside

Cell `0` has the empty list, and for `c` from `1` to `len`, cell `2 * c - 1` has the element `c` and cell `2 * c` the list node that
has it.
-/

namespace Kul.Shapes

open RcHeap (Heap Cell Ev)

/-- The heap with a list of `len` elements whose node `c` has `strong c` references to it. -/
def listHeap (len : Nat) (strong : Nat → Nat) : Heap (Dat Empty) := fun k =>
  if k = 0 then some ⟨1, .leaf (some .emptyList)⟩
  else if 2 * len < k then none
  else if k % 2 = 1 then some ⟨1, .leaf (some (.extra ((k + 1) / 2)))⟩
  else some ⟨strong (k / 2), .branch (k - 1) (k - 2)⟩

/-- The nodes to which there is an additional reference: every `step`th, without the last. -/
def Kept (len step c : Nat) : Prop := 0 < c ∧ c < len ∧ step ∣ c

instance (len step c : Nat) : Decidable (Kept len step c) := by unfold Kept; infer_instance

/-- The number of references to node `c`. -/
def strongs (len step c : Nat) : Nat := if Kept len step c then 2 else 1

/-- The last node to which there is an additional reference, or `0`. -/
def lastKept (len step : Nat) : Nat := (len - 1) / step * step

/-- What happens when nodes `m + 1` to `m + i` are given up, the last of them having been taken apart, and node `m` is kept by another
reference if it is not `0`. -/
def tailEvs (m : Nat) : Nat → List (Ev (Dat Empty))
  | 0 => []
  | 1 => (if m = 0 then [.leaf (some .emptyList), .free 0] else [.giveUp (2 * m)])
      ++ [.leaf (some (.extra (m + 1))), .free (2 * m + 1)]
  | i + 2 => [.leaf (some (.extra (m + i + 2))), .free (2 * (m + i) + 3), .leaf none, .free (2 * (m + i) + 2)] ++ tailEvs m (i + 1)

/-- What happens when a reference to node `m + i` is dropped. -/
def listEvs (m i : Nat) : List (Ev (Dat Empty)) :=
  if i = 0 then [.leaf (some .emptyList), .free 0] else tailEvs m i ++ [.leaf none, .free (2 * (m + i))]

/-- The heap when the list has been dropped and the additional references have not. -/
def rest (len step : Nat) : Heap (Dat Empty) :=
  if lastKept len step = 0 then fun _ => none
  else listHeap (lastKept len step) fun c => if c = lastKept len step then 1 else strongs len step c

/-- What happens when the additional references are dropped after the list: all but the last are given up, and with the last the rest of
the list goes. -/
def restEvs (len step : Nat) : List (Ev (Dat Empty)) :=
  (((List.range (lastKept len step)).filter fun c => decide (Kept len step c)).map fun c => .giveUp (2 * c))
    ++ if lastKept len step = 0 then []
      else [.leaf (some (.extra (lastKept len step))), .free (2 * lastKept len step - 1)] ++ listEvs 0 (lastKept len step - 1)
        ++ [.free (2 * lastKept len step)]

end Kul.Shapes
