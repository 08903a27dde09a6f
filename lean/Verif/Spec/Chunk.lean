import Verif.Model.Chunk
import Verif.Spec.Seq

/-!
# What a chunk of text means

A chunk is a piece of some string, at some position; it stands for the items (its
characters, each with its own position). The contract of `TextChunk` and
`chunk::SourceStream` (`core/src/text.rs` 41-98) against lists of items.
Specification only.
-/

namespace Kul

/-- The items of a string whose first character is at position `p`; `adv` gives the
position after a character. -/
def itemsFrom {P : Type} (adv : P → Char → P) : P → Str → List (Item P)
  | _, [] => []
  | p, c :: s => ⟨c, p⟩ :: itemsFrom adv (adv p c) s

/-- Position after a string. -/
def advs {P : Type} (adv : P → Char → P) : P → Str → P
  | p, [] => p
  | p, c :: s => advs adv (adv p c) s

/-- Positions in a string in memory: byte and character offsets both advance. -/
def StrPos.adv (p : StrPos) (c : Char) : StrPos :=
  { p with bytePos := p.bytePos + Str.lenUtf8 c, charPos := p.charPos + 1 }

/-- Positions in a stream: the number of characters before. -/
def CharPos.adv (p : CharPos) (_ : Char) : CharPos := ⟨p.n + 1⟩

/-- The contract of a chunk type and its stream: `RC c l` says that chunk `c` stands
for the items `l`, and `RCS s q` that chunk stream `s` stands for the sequence state
`q`. Nothing panics. -/
structure ChunkConf {C CS P : Type} (O : ChunkOps C CS P) (RC : C → List (Item P) → Prop)
    (RCS : CS → Seq P → Prop) : Prop where
  empty : RC O.empty []
  isEmpty : ∀ c l, RC c l → O.isEmpty c = .ok l.isEmpty
  srcStrm : ∀ c l, RC c l → RCS (O.srcStrm c) ⟨[], l⟩
  peek : ∀ s q, RCS s q → ∃ s', O.peek s = (.ok q.rest.head?, s') ∧ RCS s' q
  next : ∀ s q, RCS s q → ∃ s', O.next s = (.ok q.rest.head?, s') ∧ RCS s' ⟨[], q.rest.tail⟩
  nextAccum : ∀ s q, RCS s q → ∃ s', O.nextAccum s = (.ok q.rest.head?, s') ∧
    RCS s' ⟨q.pending ++ q.rest.head?.toList, q.rest.tail⟩
  accumDone : ∀ s q, RCS s q → ∃ c s', O.accumDone s = (.ok c, s') ∧ RC c q.pending ∧
    RCS s' ⟨[], q.rest⟩

/-- A `PosStr` stands for `l`: it is the piece of its source string that starts at
its position, and `l` are the characters of that piece with their positions. -/
def PosStr.Means (c : PosStr) (l : List (Item StrPos)) : Prop :=
  l = itemsFrom StrPos.adv c.pos c.val ∧
  ∃ pre post, c.pos.src = pre ++ c.val ++ post ∧ c.pos.bytePos = Str.len pre

/-- A `PosStrish` stands for `l`: its byte range delimits a piece of its string, and
`l` are the characters of that piece, numbered from its position on. -/
def PosStrish.Means (c : PosStrish) (l : List (Item CharPos)) : Prop :=
  ∃ pre v post, c.val.strish = pre ++ v ++ post ∧ c.val.start = Str.len pre ∧
    c.val.end = Str.len pre + Str.len v ∧ l = itemsFrom CharPos.adv c.pos v

end Kul
