import Verif.Model.Premade
import Verif.Spec.Shared
import Verif.Spec.ChunkIter
import Verif.Spec.Concrete

/-!
# The parsers made of what the library provides

`Provided E s r X`: the parser `E`, reading from `s`, is made of a stream and a text type of the
library; its source has the characters and positions `r`; and `X` says what its texts stand for.
The classifier, the datum allocator and the bindings are arbitrary. Specification only.
-/

namespace Kul

/-- The items of a string in memory: each character with its byte and character offsets. -/
def strItems (s : Str) : List (Item StrPos) := itemsFrom StrPos.adv ⟨s, 0, 0⟩ s

/-- The items of a stream of characters: each character with the number of those before. -/
def charItems (s : Str) : List (Item CharPos) := itemsFrom CharPos.adv ⟨0⟩ s

/-- The chunk types of the library, with what their chunks stand for: slices of strings, and slices
of reference-counted strings. -/
inductive LibChunk : {C CS P : Type} → ChunkOps C CS P → (C → List (Item P) → Prop) → Prop where
  | posStr : LibChunk posStrOps PosStr.Means
  | posStrish : LibChunk posStrishOps PosStrish.Means
  | shared {R : Type} {A : StrishOps R} (hA : A.Lawful) (O : List (SharedChunk R)) :
    LibChunk (sharedChunkOps A) (SharedChunk.Means A O)

/-- The text types of the library, over chunks with operations `O` whose items `RC` gives:
vectors of chunks, and lists of chunks linked by datums from an allocator `al`. -/
inductive LibText {C CS P : Type} (O : ChunkOps C CS P) (RC : C → List (Item P) → Prop) :
    {τ α : Type} → TextType C τ α → TextSem P τ α → Prop where
  | vec {α : Type} : LibText O RC (textVec α O) ((textVec α O).sem RC Eq False)
  | datumList {ε α : Type} (al : AllocOps (TextDatumList C ε) ε α) :
    LibText O RC (textDatumList O al) ((textDatumList O al).sem RC al.Steps al.CanFail)

/-- The streams of the library: a string or any text in memory, an iterator of strings, an
iterator of characters. -/
inductive Provided : {σ P τ ε α CE : Type} → Env σ P τ ε α CE → σ → List (Item P) → TextSem P τ α → Prop where
  /-- A string in memory. -/
  | str {τ ε α CE : Type} {T : TextType PosStr τ α} {X} (hT : LibText posStrOps PosStr.Means T X) (cc : Classifier)
    (al : AllocOps τ ε α) (lookup : Datum τ ε → Option (Combiner τ ε α StrPos CE)) (s : Str) :
    Provided (textEnv posStrOps T cc al lookup) (.ofChunks posStrOps [.ofStr s]) (strItems s) X
  /-- A text whose chunks are slices of strings. -/
  | text {τ ε α CE : Type} {T : TextType PosStr τ α} {X} (hT : LibText posStrOps PosStr.Means T X) (cc : Classifier)
    (al : AllocOps τ ε α) (lookup : Datum τ ε → Option (Combiner τ ε α StrPos CE)) {cs : List PosStr}
    {ls : List (List (Item StrPos))} (h : List.Forall₂ PosStr.Means cs ls) :
    Provided (textEnv posStrOps T cc al lookup) (.ofChunks posStrOps cs) ls.flatten X
  /-- A text whose chunks are slices of reference-counted strings. -/
  | textish {τ ε α CE : Type} {T : TextType PosStrish τ α} {X} (hT : LibText posStrishOps PosStrish.Means T X) (cc : Classifier)
    (al : AllocOps τ ε α) (lookup : Datum τ ε → Option (Combiner τ ε α CharPos CE)) {cs : List PosStrish}
    {ls : List (List (Item CharPos))} (h : List.Forall₂ PosStrish.Means cs ls) :
    Provided (textEnv posStrishOps T cc al lookup) (.ofChunks posStrishOps cs) ls.flatten X
  /-- An iterator of strings. -/
  | strs {τ ε α CE : Type} {T : TextType PosStrish τ α} {X} (hT : LibText posStrishOps PosStrish.Means T X) (cc : Classifier)
    (al : AllocOps τ ε α) (lookup : Datum τ ε → Option (Combiner τ ε α CharPos CE)) (ss : List Str) :
    Provided (strishEnv T cc al lookup) (.new ss) (charItems ss.flatten) X
  /-- An iterator of characters. -/
  | chars {τ ε α CE : Type} {T : TextType PosStrish τ α} {X} (hT : LibText posStrishOps PosStrish.Means T X) (cc : Classifier)
    (al : AllocOps τ ε α) (lookup : Datum τ ε → Option (Combiner τ ε α CharPos CE)) (s : Str) :
    Provided (charEnv T cc al lookup) (.new s) (charItems s) X
  /-- As `textish`, with strings that are told apart even if they have the same contents. -/
  | sharedText {R τ ε α CE : Type} {A : StrishOps R} (hA : A.Lawful) {T : TextType (SharedChunk R) τ α} {X} (O : List (SharedChunk R))
    (hT : LibText (sharedChunkOps A) (SharedChunk.Means A O) T X) (cc : Classifier)
    (al : AllocOps τ ε α) (lookup : Datum τ ε → Option (Combiner τ ε α CharPos CE)) {cs : List (SharedChunk R)}
    {ls : List (List (Item CharPos))} (h : List.Forall₂ (SharedChunk.Means A O) cs ls) :
    Provided (textEnv (sharedChunkOps A) T cc al lookup) (.ofChunks (sharedChunkOps A) cs) ls.flatten X
  /-- As `strs`, with strings that are told apart even if they have the same contents. -/
  | shared {R τ ε α CE : Type} {A : StrishOps R} (hA : A.Lawful) {T : TextType (SharedChunk R) τ α} {X} (rs : List R)
    (hT : LibText (sharedChunkOps A) (SharedChunk.Means A (wholes A 0 rs)) T X) (cc : Classifier)
    (al : AllocOps τ ε α) (lookup : Datum τ ε → Option (Combiner τ ε α CharPos CE)) :
    Provided (sharedEnv A T cc al lookup) (.new A rs) (charItems (A.contents rs)) X
  /-- Any text of the library, its chunks iterated by the states of its own that the library has for it. `fuel`
  bounds the chunks that are passed over in one call. -/
  | byStates {C CS P τ ε α S CE : Type} {O : ChunkOps C CS P} {RC : C → List (Item P) → Prop} (hC : LibChunk O RC)
    {T : TextType C τ α} {X} (hT : LibText O RC T X) {state : τ → Option S} {N : ChunksState C S}
    (hN : LibIteration O T state N) (cc : Classifier) (al : AllocOps τ ε α)
    (lookup : Datum τ ε → Option (Combiner τ ε α P CE)) {t : τ} {r : List (Item P)} (h : T.Means RC t r) {fuel : Nat}
    (hf : ∀ cs, T.chunks t = .ok cs → cs.length + 1 < fuel) {it : StateIter S CS P τ}
    (hi : StateIter.new N O (state t) = .ok it) :
    Provided (stateEnv N O T fuel cc al lookup) it r X

/-- Calling the stream's `next` again and again gives the items `r`, and then `None`. -/
inductive ToCome {σ P τ α : Type} (S : StreamOps σ P τ α) : σ → List (Item P) → Prop where
  | nil {s s'} : S.next s = (.ok none, s') → ToCome S s []
  | cons {s x s' r} : S.next s = (.ok (some x), s') → ToCome S s' r → ToCome S s (x :: r)

/-- A call of the parser at a nest, when the combiner of the nest gives `o` and leaves the state
`a'`, and `rest` follows the nest: a datum or error of the combiner is the result and the parser is
at `rest`; if the combiner gave nothing, the call is the same as one at `rest`. -/
def CallLeads {σ P τ ε α CE : Type} (E : Env σ P τ ε α CE) (s : St σ α)
    (o : Except (Err P CE) (Option (Datum τ ε))) (a' : α) (rest : List (Item P)) : Prop :=
  ∃ s', ToCome E.strm s' rest ∧
    match o with
    | .ok (some d) => E.Call s (.ok (some d)) (St.init s' a')
    | .error e => E.Call s (.err e) (St.init s' a')
    | .ok none => ∀ x t, E.Call s x t ↔ E.Call (St.init s' a') x t

/-- What the chunks of a text of `PosStr`s mean. -/
abbrev vecSem (α : Type) : TextSem StrPos (TextVec PosStr) α :=
  (textVec α posStrOps).sem PosStr.Means Eq False

/-- What the chunks of a text of `PosStrish`s mean. -/
abbrev vecishSem (α : Type) : TextSem CharPos (TextVec PosStrish) α :=
  (textVec α posStrishOps).sem PosStrish.Means Eq False

/-- What the chunks of a text of core's in-memory parser mean. -/
abbrev coreSem (ε : Type) : TextSem StrPos (CoreText ε) (CoreMem ε) :=
  (textDatumList posStrOps (sliceAlloc _ _)).sem PosStr.Means (sliceAlloc _ _).Steps
    (sliceAlloc (CoreText ε) ε).CanFail

end Kul
