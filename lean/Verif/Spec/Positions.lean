import Verif.Spec.Provided

/-!
# Places of characters and texts in a string

Specification only.
-/

namespace Kul

variable {τ α : Type}

/-- A character position and a position in a string are the same place. -/
def SamePlace (c : CharPos) (p : StrPos) : Prop := c.n = p.charPos

/-- `it` is the character of string `s` that stands at its position: the character index is
the number of characters before it, and the byte offset their length in UTF-8. -/
def StandsIn (it : Item StrPos) (s : Str) : Prop :=
  ∃ pre post, s = pre ++ it.ch :: post ∧ it.pos = ⟨s, Str.len pre, pre.length⟩

/-- `c` is exactly the sub-slice of string `s` at its position. -/
def IsSliceOf (c : PosStr) (s : Str) : Prop :=
  c.pos.src = s ∧ Str.slice s c.pos.bytePos (c.pos.bytePos + Str.len c.val) = some c.val ∧
  ∃ pre post, s = pre ++ c.val ++ post ∧ c.pos = ⟨s, Str.len pre, pre.length⟩

/-- The text can be iterated, each of its characters stands in `s` at its position, and each of its
non-empty chunks is the sub-slice of `s` at its position. -/
def Exact (T : TextType PosStr τ α) (s : Str) (u : τ) : Prop :=
  ∃ cs ls, T.chunks u = .ok cs ∧ List.Forall₂ PosStr.Means cs ls ∧ (∀ it ∈ ls.flatten, StandsIn it s) ∧
    ∀ c ∈ cs, c.val ≠ [] → IsSliceOf c s

end Kul
