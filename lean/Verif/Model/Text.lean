import Verif.Model.Chunk

/-!
# Text types

Models `core/src/text.rs` 27-38, 128-145, 254-307 (`TextBase`, `Text`,
`TextConcat`), `core/src/text/iter/chunks.rs` (iteration of chunks),
`src/text/vec.rs` (`TextVec`) and `core/src/text/premade/datum_list.rs`
(`TextDatumList`).
-/

namespace Kul

/-! ## Iteration of chunks -/

/-- `core/src/text/iter/chunks.rs` 15-22 trait `State`: `next` gives the current
chunk and the state for the rest; it may panic. -/
abbrev ChunksState (C S : Type) := S → Outcome Empty (Option (C × Option S))

/-- `core/src/text/iter/chunks.rs` 63-70 `Iterator::next` of `chunks::Iter`, whose
only field is an `Option` of a state. -/
def ChunksState.iterNext {C S : Type} (next : ChunksState C S) : Option S →
    Outcome Empty (Option C) × Option S
  | none => (.ok none, none)
  | some s =>
    match next s with
    | .ok none => (.ok none, none)
    | .ok (some (c, s')) => (.ok (some c), s')
    | .err e => nomatch e
    | .panic => (.panic, none)
    | .fuel => (.fuel, none)

/-- `core/src/text/iter/chunks.rs` 85-102 `State for [C]`. -/
def sliceState (C : Type) : ChunksState C (List C)
  | [] => .ok none
  | [c] => .ok (some (c, none))
  | c :: c' :: cs => .ok (some (c, some (c' :: cs)))

/-! ## The interface -/

/-- A text type: `core/src/text.rs` 27-38 `TextBase`, 128-145 `Text` (its
`iter_chunks_state` is given by what the iteration of chunks yields, `chunks`), 300-307
`TextConcat`; `ofChunk` is its `From<Chunk>`. A simplification: an iteration of
chunks that would panic at some point (never the case, see `Proof/Texts.lean`) is
taken to panic at once. -/
structure TextType (C τ α : Type) where
  chunks : τ → Outcome Empty (List C)
  ofChunk : C → τ
  empty : τ
  concat : τ → τ → α → Outcome AllocErr τ × α

/-- The text operations that the parser uses. -/
def TextType.ops {C τ α : Type} (T : TextType C τ α) : TextOps τ α := ⟨T.empty, T.concat⟩

/-- `Iterator::all`. -/
def allChunks {C : Type} (p : C → Outcome Empty Bool) : List C → Outcome Empty Bool
  | [] => .ok true
  | c :: cs =>
    match p c with
    | .ok true => allChunks p cs
    | .ok false => .ok false
    | .err e => nomatch e
    | .panic => .panic
    | .fuel => .fuel

/-! ## `TextVec` -/

/-- `src/text/vec.rs` 20-26 `TextVec(Repr)`. -/
inductive TextVec (C : Type) where
  | single (c : C)
  | multi (cs : List C)
deriving DecidableEq, Repr

namespace TextVec

/-- `src/text/vec.rs` 98-103 `iter_chunks_state`. -/
def state {C : Type} : TextVec C → Option (List C)
  | single c => some [c]
  | multi cs => some cs

/-- What iterating `iter_chunks_state` with `State for [C]` yields. -/
def chunks {C : Type} : TextVec C → List C
  | single c => [c]
  | multi cs => cs

/-- `src/text/vec.rs` 121-139, the second part of `concat`. -/
def link {C : Type} : TextVec C → TextVec C → TextVec C
  | single c, single c' => multi [c, c']
  | single c, multi cs' => multi (c :: cs')
  | multi cs, single c' => multi (cs ++ [c'])
  | multi cs, multi cs' => multi (cs ++ cs')

/-- `src/text/vec.rs` 86-88 `is_empty`. -/
def isEmpty {C CS P : Type} (O : ChunkOps C CS P) (t : TextVec C) : Outcome Empty Bool :=
  allChunks O.isEmpty t.chunks

/-- `src/text/vec.rs` 113-140 `concat`. -/
def concat {C CS P α : Type} (O : ChunkOps C CS P) (t u : TextVec C) (a : α) :
    Outcome AllocErr (TextVec C) × α :=
  match t.isEmpty O with
  | .ok true => (.ok u, a)
  | .ok false =>
    match u.isEmpty O with
    | .ok true => (.ok t, a)
    | .ok false => (.ok (link t u), a)
    | _ => (.panic, a)
  | _ => (.panic, a)

end TextVec

/-- `TextVec` as a text type: `src/text/vec.rs` 29-35, 77-140. -/
def textVec {C CS P : Type} (α : Type) (O : ChunkOps C CS P) : TextType C (TextVec C) α where
  chunks t := .ok t.chunks
  ofChunk := .single
  empty := .multi []
  concat := TextVec.concat O

/-! ## `TextDatumList` -/

/-- `core/src/text/premade/datum_list.rs` 31-34 `TextDatumList { chunk, next }`:
`next` refers to a datum. -/
inductive TextDatumList (C ε : Type) where
  | mk (chunk : C) (next : Option (Datum (TextDatumList C ε) ε))

namespace TextDatumList

/-- `datum_list.rs` 94-111 `State::next`: `unreachable!` if the link is not a text. -/
def stateNext {C ε : Type} : ChunksState C (TextDatumList C ε)
  | .mk c none => .ok (some (c, none))
  | .mk c (some (.text t)) => .ok (some (c, some t))
  | .mk _ (some _) => .panic

/-- What iterating with `stateNext` yields. -/
def chunks {C ε : Type} : TextDatumList C ε → Outcome Empty (List C)
  | .mk c none => .ok [c]
  | .mk c (some (.text t)) =>
    match chunks t with
    | .ok cs => .ok (c :: cs)
    | e => e
  | .mk _ (some _) => .panic

/-- `datum_list.rs` 122-124 `is_empty`. -/
def isEmpty {C CS P ε : Type} (O : ChunkOps C CS P) (t : TextDatumList C ε) : Outcome Empty Bool :=
  match t.chunks with
  | .ok cs => allChunks O.isEmpty cs
  | _ => .panic

/-- `datum_list.rs` 162-180, the second part of `concat`: find the end of the
linked list and link `other` from it. -/
def link {C ε α : Type} (al : AllocOps (TextDatumList C ε) ε α) : TextDatumList C ε →
    TextDatumList C ε → α → Outcome AllocErr (TextDatumList C ε) × α
  | .mk c none, other, a =>
    match al.newDatum (.text other) a with
    | (.ok _, a) => (.ok (.mk c (some (.text other))), a)
    | (.error e, a) => (.err e, a)
  | .mk c (some (.text t)), other, a =>
    match link al t other a with
    | (.ok t', a) => (.ok (.mk c (some (.text t'))), a)
    | (e, a) => (e, a)
  | .mk _ (some _), _, a => (.panic, a)

/-- `datum_list.rs` 153-181 `concat`. -/
def concat {C CS P ε α : Type} (O : ChunkOps C CS P) (al : AllocOps (TextDatumList C ε) ε α)
    (t u : TextDatumList C ε) (a : α) : Outcome AllocErr (TextDatumList C ε) × α :=
  match t.isEmpty O with
  | .ok true => (.ok u, a)
  | .ok false =>
    match u.isEmpty O with
    | .ok true => (.ok t, a)
    | .ok false => link al t u a
    | _ => (.panic, a)
  | _ => (.panic, a)

end TextDatumList

/-- `TextDatumList` as a text type: `datum_list.rs` 37-47, 114-181. -/
def textDatumList {C CS P ε α : Type} (O : ChunkOps C CS P)
    (al : AllocOps (TextDatumList C ε) ε α) : TextType C (TextDatumList C ε) α where
  chunks := TextDatumList.chunks
  ofChunk c := .mk c none
  empty := .mk O.empty none
  concat := TextDatumList.concat O al

end Kul
