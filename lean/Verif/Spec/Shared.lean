import Verif.Model.Shared
import Verif.Spec.Text

/-!
# What is shared with the source

Reference-counted strings are values of a type `R`, which tells strings with the same contents apart.
Specification only.
-/

namespace Kul

variable {R C τ α : Type}

/-- A string made from some contents has these contents. -/
def StrishOps.Lawful (A : StrishOps R) : Prop := ∀ s, A.asStr (A.fromStr s) = s

/-- The contents of several strings, one after another. -/
def StrishOps.contents (A : StrishOps R) (rs : List R) : Str := (rs.map A.asStr).flatten

/-- The number of characters of several strings. -/
def StrishOps.size (A : StrishOps R) (rs : List R) : Nat := (A.contents rs).length

/-- The slice is the part `v` of its string, after `pre` and before `post`. -/
def SharedSlice.Is (A : StrishOps R) (s : SharedSlice R) (pre v post : Str) : Prop :=
  A.asStr s.strish = pre ++ v ++ post ∧ s.start = Str.len pre ∧ s.end = Str.len pre + Str.len v

/-- The chunk is the part `v` of its string, and it is an empty string of its own, or it is cut from one of
the chunks `O`: it refers to the same string, and is at the right position. -/
def SharedChunk.Origin (A : StrishOps R) (O : List (SharedChunk R)) (c : SharedChunk R) (pre v post : Str) : Prop :=
  c.val.strish = A.empty ∨ ∃ o ∈ O, ∃ pre' u w post', pre = pre' ++ u ∧ post = w ++ post' ∧
    o.val.Is A pre' (u ++ v ++ w) post' ∧ c.val.strish = o.val.strish ∧ c.pos.n = o.pos.n + u.length

/-- What a chunk stands for, when the chunks of the source are `O`. -/
def SharedChunk.Means (A : StrishOps R) (O : List (SharedChunk R)) (c : SharedChunk R)
    (l : List (Item CharPos)) : Prop :=
  ∃ pre v post, c.val.Is A pre v post ∧ l = itemsFrom CharPos.adv c.pos v ∧ c.Origin A O pre v post

/-- The strings, each as a whole and at its position, `k` characters being before the first. -/
def wholes (A : StrishOps R) : Nat → List R → List (SharedChunk R)
  | _, [] => []
  | k, r :: rs => .new A r ⟨k⟩ :: wholes A (k + (A.asStr r).length) rs

/-- The chunk is empty, or refers to one of the strings `rs` itself (not to a copy), delimits a part of it, and
has as its position the number of characters before it in all the strings. -/
def SharedChunk.CutFrom (A : StrishOps R) (rs : List R) (c : SharedChunk R) : Prop :=
  A.asStr c.val.strish = [] ∨ ∃ before after pre v post, rs = before ++ c.val.strish :: after ∧
    c.val.Is A pre v post ∧ c.pos.n = A.size before + pre.length

/-- The chunk is empty, or cut from one of the chunks `O`: it refers to the same string, delimits a part of the
part that the other chunk delimits, and has the position of this part. -/
def SharedChunk.CutFromChunks (A : StrishOps R) (O : List (SharedChunk R)) (c : SharedChunk R) : Prop :=
  A.asStr c.val.strish = [] ∨ ∃ o ∈ O, c.val.strish = o.val.strish ∧ ∃ pre u v w post,
    o.val.Is A pre (u ++ v ++ w) post ∧ c.val.Is A (pre ++ u) v (w ++ post) ∧ c.pos.n = o.pos.n + u.length

/-- All chunks of the text have the property. -/
def TextType.AllChunks (T : TextType C τ α) (Q : C → Prop) (t : τ) : Prop :=
  ∃ cs, T.chunks t = .ok cs ∧ ∀ c ∈ cs, Q c

/-- The strings that the stream refers to, other than those that its iterator will still yield and those
that an accumulated text refers to. -/
def SharedStream.strings (it : SharedStream R τ) : List R :=
  (it.cur.toList ++ it.peekedStrm.toList).map fun i => i.chunk.val.strish

end Kul
