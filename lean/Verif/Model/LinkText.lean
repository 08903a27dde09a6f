import Verif.Model.MemAlloc

/-!
# Texts whose chunks are linked through slots of the slice

Models `core/src/text/premade/datum_list.rs` (`TextDatumList`) with its links as they are: a link is a `DatumMutRef`
to a slot of the slice, which holds a `Datum::Text` with the rest of the chunks. In `Model/MemAlloc.lean` the list that a
text refers to is by value; here everything that is in memory is in the slice.
-/

namespace Kul.Linked

open Mem (Addr Dat)

variable {C CS P ε CE : Type}

/-- `core/src/text/premade/datum_list.rs` 31-34 `TextDatumList { chunk, next }`: `next` is a slot. -/
structure LText (C : Type) where
  chunk : C
  next : Option Addr
deriving DecidableEq, Repr

/-- The slice, of datums with such texts. -/
abbrev Slice (C ε : Type) := SliceAlloc (Dat (LText C) ε)

/-- `datum_list.rs` 94-111 `State::next`: gives the chunk, and the text in the slot that the link refers to;
`unreachable!` if that is not a text. -/
def stateNext (m : List (Dat (LText C) ε)) : ChunksState C (LText C)
  | ⟨c, none⟩ => .ok (some (c, none))
  | ⟨c, some p⟩ =>
    match m[p]? with
    | some (.text t) => .ok (some (c, some t))
    | _ => .panic

/-- What iterating with `stateNext` yields; the number is a budget of steps. -/
def chunksFrom (m : List (Dat (LText C) ε)) : Nat → LText C → Outcome Empty (List C)
  | 0, _ => .fuel
  | n + 1, t =>
    match stateNext m t with
    | .ok none => .ok []
    | .ok (some (c, none)) => .ok [c]
    | .ok (some (c, some t)) =>
      match chunksFrom m n t with
      | .ok cs => .ok (c :: cs)
      | o => o
    | .err e => nomatch e
    | .panic => .panic
    | .fuel => .fuel

/-- `datum_list.rs` 126-135 `iter_chunks_state`, iterated. The budget, one more than there are slots, is proved to
suffice. -/
def chunks (m : List (Dat (LText C) ε)) (t : LText C) : Outcome Empty (List C) := chunksFrom m (m.length + 1) t

/-- `datum_list.rs` 122-124 `is_empty`. -/
def isEmpty (O : ChunkOps C CS P) (m : List (Dat (LText C) ε)) (t : LText C) : Outcome Empty Bool :=
  match chunks m t with
  | .ok cs => allChunks O.isEmpty cs
  | _ => .panic

/-- `datum_list.rs` 163-180, the loop of `concat` from where `cur` is the text in slot `p` on: find the end of the
linked list, and link `other` from it, by writing to the last slot. `get_mut` of a `DatumMutRef` always succeeds. The
number is a budget of steps. -/
def linkAt : Nat → Addr → LText C → Slice C ε → Outcome AllocErr Unit × Slice C ε
  | 0, _, _, a => (.fuel, a)
  | n + 1, p, other, a =>
    match a.mem[p]? with
    | some (.text ⟨c, none⟩) =>
      match a.newDatum (.text other) with
      | (.ok q, a) => (.ok (), { a with mem := a.mem.set p (.text ⟨c, some q⟩) })
      | (.error e, a) => (.err e, a)
    | some (.text ⟨_, some q⟩) => linkAt n q other a
    | _ => (.panic, a)

/-- `datum_list.rs` 162-180, the second part of `concat`; the first `cur` is the local variable `self`. -/
def link (t other : LText C) (a : Slice C ε) : Outcome AllocErr (LText C) × Slice C ε :=
  match t with
  | ⟨c, none⟩ =>
    match a.newDatum (.text other) with
    | (.ok q, a) => (.ok ⟨c, some q⟩, a)
    | (.error e, a) => (.err e, a)
  | ⟨c, some p⟩ =>
    match linkAt (a.mem.length + 1) p other a with
    | (.ok _, a) => (.ok ⟨c, some p⟩, a)
    | (.err e, a) => (.err e, a)
    | (.panic, a) => (.panic, a)
    | (.fuel, a) => (.fuel, a)

/-- `datum_list.rs` 153-181 `concat`. -/
def concat (O : ChunkOps C CS P) (t u : LText C) (a : Slice C ε) : Outcome AllocErr (LText C) × Slice C ε :=
  match isEmpty O a.mem t with
  | .ok true => (.ok u, a)
  | .ok false =>
    match isEmpty O a.mem u with
    | .ok true => (.ok t, a)
    | .ok false => link t u a
    | _ => (.panic, a)
  | _ => (.panic, a)

/-- `TextDatumList` as a text type: `datum_list.rs` 37-47, 114-181. The field for the chunks of a text, which cannot look
at memory, is used neither by parsers nor by streams; `chunks` above is what gives them. -/
def linkedText (O : ChunkOps C CS P) : TextType C (LText C) (Slice C ε) where
  chunks t := .ok [t.chunk]
  ofChunk c := ⟨c, none⟩
  empty := ⟨O.empty, none⟩
  concat := concat O

/-- A parser with texts of chunks of type `C`, in a slice, with the stream `text::Iter`. -/
abbrev linkedEnv (O : ChunkOps C CS P) (cc : Classifier)
    (lookup : Dat (LText C) ε → Slice C ε → Option (Mem.Combiner (LText C) ε (Slice C ε) P CE)) :
    Mem.Env (TextIter C CS P (LText C)) P (LText C) ε (Slice C ε) CE :=
  Mem.textEnv O (linkedText O) cc (Mem.sliceMem _ _) lookup

/-- `core/src/premade/inmem.rs` 187-200 `parser`: `TextDatumList` of `PosStr`, a slice allocator. -/
abbrev coreLinked (lookup : Dat (LText PosStr) ε → Slice PosStr ε →
    Option (Mem.Combiner (LText PosStr) ε (Slice PosStr ε) StrPos CE)) :
    Mem.Env (TextIter PosStr PosStrIter StrPos (LText PosStr)) StrPos (LText PosStr) ε (Slice PosStr ε) CE :=
  linkedEnv posStrOps defaultClassifier lookup

/-- `core/src/premade/inmem.rs` 264: the stream of `parse_text_with`, for a text made with `Text::from_str`. -/
def coreSource (s : Str) : TextIter PosStr PosStrIter StrPos (LText PosStr) := .ofChunks posStrOps [.ofStr s]

end Kul.Linked
