import Verif.Model.Str

/-!
# Chunks of text

Models `core/src/text.rs` 56-98 (traits `chunk::SourceStream` and `TextChunk`),
`core/src/text/chunk/premade/pos_str.rs` and `src/text/chunk/pos_strish.rs`.
-/

namespace Kul

/-- `core/src/text.rs` 56-98: a chunk type `C` with its traits `TextBase`
(`empty`, `is_empty`), `TextChunk` (`src_strm`), and its stream type `CS` with
`Iterator::next`, `chunk::SourceStream::{peek, next_accum, accum_done}`. All of them
can only panic, not fail. -/
structure ChunkOps (C CS P : Type) where
  empty : C
  isEmpty : C → Outcome Empty Bool
  srcStrm : C → CS
  peek : CS → Outcome Empty (Option (Item P)) × CS
  next : CS → Outcome Empty (Option (Item P)) × CS
  nextAccum : CS → Outcome Empty (Option (Item P)) × CS
  accumDone : CS → Outcome Empty C × CS

/-! ## `PosStr` -/

/-- `core/src/text/chunk/premade/pos_str.rs` 16-25 `StrPos`. -/
structure StrPos where
  src : Str
  bytePos : Nat
  charPos : Nat
deriving DecidableEq, Repr

/-- `pos_str.rs` 27-35 `SourcePosition::empty`. -/
def StrPos.empty : StrPos := ⟨[], 0, 0⟩

/-- `pos_str.rs` 45-50 `PosStr`. -/
structure PosStr where
  val : Str
  pos : StrPos
deriving DecidableEq, Repr

/-- `pos_str.rs` 52-59, 79-84 `PosStr::empty`. -/
def PosStr.empty : PosStr := ⟨[], .empty⟩

/-- `pos_str.rs` 63-76 `From<&str> for PosStr`. -/
def PosStr.ofStr (val : Str) : PosStr := ⟨val, ⟨val, 0, 0⟩⟩

/-- `pos_str.rs` 107-110 `PosStrIter`. The peekable iterator `pei_iter` is
represented by the list of the items that it will still yield. -/
structure PosStrIter where
  pei : List (Item StrPos)
  accum : Option PosStr
deriving DecidableEq, Repr

/-- `pos_str.rs` 119-134 `PosStrIter::new`: `char_indices().enumerate()`, shifted by
the chunk's own position. -/
def PosStrIter.new (ps : PosStr) : PosStrIter where
  pei := (Str.charIndices ps.val).zipIdx.map fun ((bytePos, ch), charPos) =>
    ⟨ch, { ps.pos with bytePos := ps.pos.bytePos + bytePos, charPos := ps.pos.charPos + charPos }⟩
  accum := none

namespace PosStrIter

/-- `pos_str.rs` 146-149 `Iterator::next`. -/
def next (it : PosStrIter) : Option (Item StrPos) × PosStrIter :=
  (it.pei.head?, ⟨it.pei.tail, none⟩)

/-- `pos_str.rs` 160-162 `peek`. -/
def peek (it : PosStrIter) : Option (Item StrPos) × PosStrIter := (it.pei.head?, it)

/-- `pos_str.rs` 164-180 `next_accum`. -/
def nextAccum (it : PosStrIter) : Outcome Empty (Option (Item StrPos)) × PosStrIter :=
  match it.pei with
  | [] => (.ok none, it)
  | next :: rest =>
    let «end» := next.pos.bytePos + Str.lenUtf8 next.ch
    match it.accum with
    | some accum =>
      match Str.slice accum.pos.src accum.pos.bytePos «end» with
      | some val => (.ok (some next), ⟨rest, some { accum with val := val }⟩)
      | none => (.panic, ⟨rest, it.accum⟩)
    | none =>
      match Str.slice next.pos.src next.pos.bytePos «end» with
      | some val => (.ok (some next), ⟨rest, some ⟨val, next.pos⟩⟩)
      | none => (.panic, ⟨rest, it.accum⟩)

/-- `pos_str.rs` 182-184 `accum_done`. -/
def accumDone (it : PosStrIter) : PosStr × PosStrIter :=
  (it.accum.getD .empty, { it with accum := none })

end PosStrIter

/-- `PosStr` as a chunk type: `pos_str.rs` 79-98 (`TextBase`, `TextChunk`) and the
stream above. -/
def posStrOps : ChunkOps PosStr PosStrIter StrPos where
  empty := .empty
  isEmpty c := .ok (c.val.len == 0)
  srcStrm := .new
  peek it := match it.peek with | (o, it) => (.ok o, it)
  next it := match it.next with | (o, it) => (.ok o, it)
  nextAccum it := it.nextAccum
  accumDone it := match it.accumDone with | (c, it) => (.ok c, it)

/-! ## `PosStrish` -/

/-- `src/text/chunk/pos_strish.rs` 17 `CharPos`. -/
structure CharPos where
  n : Nat
deriving DecidableEq, Repr

/-- `pos_strish.rs` 110-115 `RefCntSlice`: a shared string and a byte range. The
reference-counted string types (`Rc<str>`, `Arc<String>`, ...) are all represented
by their contents. -/
structure RefCntSlice where
  strish : Str
  start : Nat
  «end» : Nat
deriving DecidableEq, Repr

/-- `pos_strish.rs` 124-137 `RefCntSlice::slice`; `none` is a failed
`debug_assert!` (or an arithmetic underflow). -/
def RefCntSlice.slice (s : RefCntSlice) (start «end» : Nat) : Option RefCntSlice :=
  if start ≤ «end» ∧ s.start ≤ s.end ∧ «end» ≤ s.end - s.start then
    some ⟨s.strish, s.start + start, s.start + «end»⟩
  else none

/-- `pos_strish.rs` 143-148 `RefCntSlice::as_str`; `none` is a panic. -/
def RefCntSlice.asStr (s : RefCntSlice) : Option Str := Str.slice s.strish s.start s.end

/-- `pos_strish.rs` 192-200 `PosStrish`. -/
structure PosStrish where
  val : RefCntSlice
  pos : CharPos
deriving DecidableEq, Repr

/-- `pos_strish.rs` 209-215 `PosStrish::new`. -/
def PosStrish.new (strish : Str) (pos : CharPos) : PosStrish := ⟨⟨strish, 0, strish.len⟩, pos⟩

/-- `pos_strish.rs` 219-225 `From<&str>`. -/
def PosStrish.ofStr (val : Str) : PosStrish := .new val ⟨0⟩

/-- `pos_strish.rs` 233 `TextBase::empty`. -/
def PosStrish.empty : PosStrish := .new [] ⟨0⟩

/-- `pos_strish.rs` 256-262 `PosStrishIter`. -/
structure PosStrishIter where
  chunk : PosStrish
  byteIdx : Nat
  charIdx : Nat
  peeked : Option (Item CharPos)
  accum : Option (Nat × Nat × CharPos)
deriving DecidableEq, Repr

namespace PosStrishIter

/-- `pos_strish.rs` 267-275 `PosStrishIter::new`. -/
def new (ps : PosStrish) : PosStrishIter := ⟨ps, 0, 0, none, none⟩

/-- `pos_strish.rs` 277-285 `do_next_no_peeked`. -/
def doNextNoPeeked (it : PosStrishIter) : Outcome Empty (Option (Item CharPos)) × PosStrishIter :=
  match it.chunk.val.asStr.bind (Str.sliceFrom · it.byteIdx) with
  | none => (.panic, it)
  | some [] => (.ok none, it)
  | some (ch :: _) =>
    (.ok (some ⟨ch, ⟨it.chunk.pos.n + it.charIdx⟩⟩),
      { it with charIdx := it.charIdx + 1, byteIdx := it.byteIdx + Str.lenUtf8 ch })

/-- `pos_strish.rs` 287-293 `do_next`. -/
def doNext (it : PosStrishIter) : Outcome Empty (Option (Item CharPos)) × PosStrishIter :=
  match it.peeked with
  | some x => (.ok (some x), { it with peeked := none })
  | none => it.doNextNoPeeked

/-- `pos_strish.rs` 306-309 `Iterator::next`. -/
def next (it : PosStrishIter) : Outcome Empty (Option (Item CharPos)) × PosStrishIter :=
  doNext { it with accum := none }

/-- `pos_strish.rs` 322-329 `peek`. -/
def peek (it : PosStrishIter) : Outcome Empty (Option (Item CharPos)) × PosStrishIter :=
  match it.peeked with
  | some x => (.ok (some x), it)
  | none =>
    match it.doNextNoPeeked with
    | (.ok o, it) => (.ok o, { it with peeked := o })
    | (e, it) => (e, it)

/-- `pos_strish.rs` 331-344 `next_accum`. The subtractions would panic on underflow. -/
def nextAccum (it : PosStrishIter) : Outcome Empty (Option (Item CharPos)) × PosStrishIter :=
  match it.doNext with
  | (.ok (some x), it) =>
    match it.accum with
    | some (start, _, pos) =>
      (.ok (some x), { it with accum := some (start, it.byteIdx, pos) })
    | none =>
      if Str.lenUtf8 x.ch ≤ it.byteIdx ∧ 1 ≤ it.charIdx then
        (.ok (some x), { it with accum := some (it.byteIdx - Str.lenUtf8 x.ch, it.byteIdx,
          ⟨it.chunk.pos.n + (it.charIdx - 1)⟩) })
      else (.panic, it)
  | (o, it) => (o, it)

/-- `pos_strish.rs` 346-353 `accum_done`. -/
def accumDone (it : PosStrishIter) : Outcome Empty PosStrish × PosStrishIter :=
  match it.accum with
  | none => (.ok .empty, it)
  | some (start, «end», pos) =>
    match it.chunk.val.slice start «end» with
    | some val => (.ok ⟨val, pos⟩, { it with accum := none })
    | none => (.panic, { it with accum := none })

end PosStrishIter

/-- `PosStrish` as a chunk type: `pos_strish.rs` 228-246 (`TextBase`, `TextChunk`) and
the stream above. -/
def posStrishOps : ChunkOps PosStrish PosStrishIter CharPos where
  empty := .empty
  isEmpty c := match c.val.asStr with
    | some s => .ok (s.len == 0)
    | none => .panic
  srcStrm := .new
  peek it := it.peek
  next it := it.next
  nextAccum it := it.nextAccum
  accumDone it := it.accumDone

end Kul
