import Verif.Model.Alloc
import Verif.Model.Classifier
import Verif.Model.Streams
import Verif.Model.Api

/-!
# The parsers that the library puts together

Models the type choices of `src/common/inmem.rs`, `src/common/stream.rs` and
`core/src/premade/inmem.rs`, with the bindings left open (`Model/Bindings.lean` models
the provided ones), and the use of `CharIterSourceStream` as in
`tests/stream_char_source.rs`.
-/

namespace Kul

/-- `Text::from_str` (`core/src/text.rs` 138-151) for `TextVec`: a single chunk. -/
def TextVec.fromStr {C : Type} (ofStr : Str → C) (s : Str) : TextVec C := .single (ofStr s)

/-- A parser with the stream `text::Iter` of a text type. -/
def textEnv {C CS P τ ε α CE : Type} (O : ChunkOps C CS P) (T : TextType C τ α) (cc : Classifier)
    (al : AllocOps τ ε α) (lookup : Datum τ ε → Option (Combiner τ ε α P CE)) :
    Env (TextIter C CS P τ) P τ ε α CE where
  cc := cc
  strm := textIterOps O T
  text := T.ops
  alloc := al
  lookup := lookup

/-- `src/common/inmem.rs` 113-127 `parser`: `TextVec` of `PosStr`, `Box`es. -/
def inmemEnv {ε α CE : Type}
    (lookup : Datum (TextVec PosStr) ε → Option (Combiner (TextVec PosStr) ε α StrPos CE)) :
    Env (TextIter PosStr PosStrIter StrPos (TextVec PosStr)) StrPos (TextVec PosStr) ε α CE :=
  textEnv posStrOps (textVec α posStrOps) defaultClassifier (boxAlloc _ _ _) lookup

/-- `src/common/inmem.rs` 152-153: the stream of `parse_str_with`. -/
def inmemSource (s : Str) : TextIter PosStr PosStrIter StrPos (TextVec PosStr) :=
  .ofChunks posStrOps (TextVec.fromStr .ofStr s).chunks

/-- A parser with the stream `StrishIterSourceStream`. -/
def strishEnv {τ ε α CE : Type} (T : TextType PosStrish τ α) (cc : Classifier)
    (al : AllocOps τ ε α) (lookup : Datum τ ε → Option (Combiner τ ε α CharPos CE)) :
    Env (StrishIter τ) CharPos τ ε α CE where
  cc := cc
  strm := strishIterOps T
  text := T.ops
  alloc := al
  lookup := lookup

/-- `src/common/stream.rs` 117-131 `parser`: `TextVec` of `PosStrish`, `Box`es. -/
def streamEnv {ε α CE : Type}
    (lookup : Datum (TextVec PosStrish) ε → Option (Combiner (TextVec PosStrish) ε α CharPos CE)) :
    Env (StrishIter (TextVec PosStrish)) CharPos (TextVec PosStrish) ε α CE :=
  strishEnv (textVec α posStrishOps) defaultClassifier (boxAlloc _ _ _) lookup

/-- A parser with the stream `CharIterSourceStream`. -/
def charEnv {τ ε α CE : Type} (T : TextType PosStrish τ α) (cc : Classifier)
    (al : AllocOps τ ε α) (lookup : Datum τ ε → Option (Combiner τ ε α CharPos CE)) :
    Env CharIter CharPos τ ε α CE where
  cc := cc
  strm := charIterOps T
  text := T.ops
  alloc := al
  lookup := lookup

/-- The datums of `core/src/premade/inmem.rs`. -/
abbrev CoreText (ε : Type) := TextDatumList PosStr ε

/-- The memory of `core/src/premade/inmem.rs`: a slice of datums. -/
abbrev CoreMem (ε : Type) := SliceAlloc (Datum (CoreText ε) ε)

/-- `core/src/premade/inmem.rs` 187-200 `parser`: `TextDatumList` of `PosStr`, a slice
allocator. -/
def coreEnv {ε CE : Type}
    (lookup : Datum (CoreText ε) ε → Option (Combiner (CoreText ε) ε (CoreMem ε) StrPos CE)) :
    Env (TextIter PosStr PosStrIter StrPos (CoreText ε)) StrPos (CoreText ε) ε (CoreMem ε) CE :=
  textEnv posStrOps (textDatumList posStrOps (sliceAlloc _ _)) defaultClassifier (sliceAlloc _ _) lookup

/-- `core/src/premade/inmem.rs` 264: the stream of `parse_text_with`, for a text made with
`Text::from_str`. -/
def coreSource {ε : Type} (s : Str) : TextIter PosStr PosStrIter StrPos (CoreText ε) :=
  .ofChunks posStrOps [.ofStr s]

end Kul
