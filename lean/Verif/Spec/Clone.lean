import Verif.Spec.MemUse
import Verif.Spec.Memory
import Verif.Model.DatumFns

/-! # Cloning and hashing of datums. Specification only. -/

namespace Kul

variable {τ ε : Type}

/-- How many levels the tree of a datum has, also along the rest of a list: the number of datums on the longest way
from it along references. -/
def Datum.levels : Datum τ ε → Nat
  | .combination f a => 1 + max f.levels a.levels
  | .list e n => 1 + max e.levels n.levels
  | _ => 1

/-- The source `{{{}{}{}…}}`, with `n` empty nests after the first. It nests three deep. -/
def flatHead (n : Nat) : Str := '{' :: '{' :: '{' :: '}' :: ((List.replicate n ['{', '}']).flatten ++ ['}', '}'])

namespace Mem

/-- There is nothing yet where the next allocations will be. -/
def Heap.Tidy (h : Heap τ ε) : Prop := ∀ k, h.size ≤ k → h.cells k = none

/-- Reading of memory. -/
def Heap.read (h : Heap τ ε) : Addr → Option (Dat τ ε) := fun p => (h.cells p).map (·.dat)

end Mem

end Kul
