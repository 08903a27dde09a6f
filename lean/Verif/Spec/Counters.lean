import Verif.Model.CountersShared
import Verif.Model.Counters
import Verif.Spec.Release

/-!
# Sources that finite counters suffice for

Specification only.
-/

namespace Kul

/-- `LimitChunk M O O' RC ok`: the chunk type `O` of the library, whose chunks stand for what `RC` says, is `O'` if no position,
index or length may be above `M`; and `ok` says of a chunk that its string has at most `M` bytes and that it ends at a position
of at most `M`. As `LibChunk`. -/
inductive LimitChunk (M : Nat) : {C CS P : Type} → ChunkOps C CS P → ChunkOps C CS P → (C → List (Item P) → Prop) →
    (C → Prop) → Prop where
  | posStr : LimitChunk M posStrOps (posStrM M) PosStr.Means
      fun c => Str.len c.pos.src ≤ M ∧ c.pos.charPos + c.val.length ≤ M
  | posStrish : LimitChunk M posStrishOps (posStrishM M) PosStrish.Means
      fun c => Str.len c.val.strish ≤ M ∧ ∀ v, c.val.asStr = some v → c.pos.n + v.length ≤ M
  | shared {R : Type} {A : StrishOps R} (hA : A.Lawful) (O : List (SharedChunk R)) :
    LimitChunk M (sharedChunkOps A) (sharedChunkM M A) (SharedChunk.Means A O)
      fun c => Str.len (A.asStr c.val.strish) ≤ M ∧ ∀ v, c.val.asStr A = some v → c.pos.n + v.length ≤ M

/-- `WithinLimit M E s r X R`: the library's parser `E`, started on the source `s` with the items `r`, has the stream `R` if no
position, index or length may be above `M`; and `M` is not less than any string is long, in bytes, and any character's number
from 1 on. As in `Provided`. -/
inductive WithinLimit (M : Nat) : {σ P τ ε α CE : Type} → Env σ P τ ε α CE → σ → List (Item P) → TextSem P τ α →
    StreamOps σ P τ α → Prop where
  /-- A string in memory, of at most `M` bytes. -/
  | str {τ ε α CE : Type} {T : TextType PosStr τ α} {X} (hT : LibText posStrOps PosStr.Means T X) (cc : Classifier)
    (al : AllocOps τ ε α) (lookup : Datum τ ε → Option (Combiner τ ε α StrPos CE)) {s : Str} (h : Str.len s ≤ M) :
    WithinLimit M (textEnv posStrOps T cc al lookup) (.ofChunks posStrOps [.ofStr s]) (strItems s) X (textIterOps (posStrM M) T)
  /-- A text whose chunks are slices of strings of at most `M` bytes, and end at a position of at most `M`. -/
  | text {τ ε α CE : Type} {T : TextType PosStr τ α} {X} (hT : LibText posStrOps PosStr.Means T X) (cc : Classifier)
    (al : AllocOps τ ε α) (lookup : Datum τ ε → Option (Combiner τ ε α StrPos CE)) {cs : List PosStr}
    {ls : List (List (Item StrPos))} (h : List.Forall₂ PosStr.Means cs ls)
    (hM : ∀ c ∈ cs, Str.len c.pos.src ≤ M ∧ c.pos.charPos + c.val.length ≤ M) :
    WithinLimit M (textEnv posStrOps T cc al lookup) (.ofChunks posStrOps cs) ls.flatten X (textIterOps (posStrM M) T)
  /-- A text whose chunks are slices of reference-counted strings of at most `M` bytes, and end at a position of at most
  `M`. -/
  | textish {τ ε α CE : Type} {T : TextType PosStrish τ α} {X} (hT : LibText posStrishOps PosStrish.Means T X) (cc : Classifier)
    (al : AllocOps τ ε α) (lookup : Datum τ ε → Option (Combiner τ ε α CharPos CE)) {cs : List PosStrish}
    {ls : List (List (Item CharPos))} (h : List.Forall₂ PosStrish.Means cs ls)
    (hM : ∀ c ∈ cs, Str.len c.val.strish ≤ M ∧ ∀ v, c.val.asStr = some v → c.pos.n + v.length ≤ M) :
    WithinLimit M (textEnv posStrishOps T cc al lookup) (.ofChunks posStrishOps cs) ls.flatten X (textIterOps (posStrishM M) T)
  /-- An iterator of strings of at most `M` bytes each, and at most `M` characters together. -/
  | strs {τ ε α CE : Type} {T : TextType PosStrish τ α} {X} (hT : LibText posStrishOps PosStrish.Means T X) (cc : Classifier)
    (al : AllocOps τ ε α) (lookup : Datum τ ε → Option (Combiner τ ε α CharPos CE)) {ss : List Str}
    (h : ∀ s ∈ ss, Str.len s ≤ M) (hM : ss.flatten.length ≤ M) :
    WithinLimit M (strishEnv T cc al lookup) (.new ss) (charItems ss.flatten) X (strishIterM M T)
  /-- An iterator of at most `M` characters. -/
  | chars {τ ε α CE : Type} {T : TextType PosStrish τ α} {X} (hT : LibText posStrishOps PosStrish.Means T X) (cc : Classifier)
    (al : AllocOps τ ε α) (lookup : Datum τ ε → Option (Combiner τ ε α CharPos CE)) {s : Str} (h : s.length ≤ M) :
    WithinLimit M (charEnv T cc al lookup) (.new s) (charItems s) X (charIterM M T)
  /-- As `textish`, with strings that are told apart even if they have the same contents. -/
  | sharedText {R τ ε α CE : Type} {A : StrishOps R} (hA : A.Lawful) {T : TextType (SharedChunk R) τ α} {X} (O : List (SharedChunk R))
    (hT : LibText (sharedChunkOps A) (SharedChunk.Means A O) T X) (cc : Classifier)
    (al : AllocOps τ ε α) (lookup : Datum τ ε → Option (Combiner τ ε α CharPos CE)) {cs : List (SharedChunk R)}
    {ls : List (List (Item CharPos))} (h : List.Forall₂ (SharedChunk.Means A O) cs ls)
    (hM : ∀ c ∈ cs, Str.len (A.asStr c.val.strish) ≤ M ∧ ∀ v, c.val.asStr A = some v → c.pos.n + v.length ≤ M) :
    WithinLimit M (textEnv (sharedChunkOps A) T cc al lookup) (.ofChunks (sharedChunkOps A) cs) ls.flatten X
      (textIterOps (sharedChunkM M A) T)
  /-- As `strs`, with strings that are told apart even if they have the same contents. -/
  | shared {R τ ε α CE : Type} {A : StrishOps R} (hA : A.Lawful) {T : TextType (SharedChunk R) τ α} {X} {rs : List R}
    (hT : LibText (sharedChunkOps A) (SharedChunk.Means A (wholes A 0 rs)) T X) (cc : Classifier)
    (al : AllocOps τ ε α) (lookup : Datum τ ε → Option (Combiner τ ε α CharPos CE))
    (h : ∀ r ∈ rs, Str.len (A.asStr r) ≤ M) (hM : (A.contents rs).length ≤ M) :
    WithinLimit M (sharedEnv A T cc al lookup) (.new A rs) (charItems (A.contents rs)) X (sharedStreamM M A T)
  /-- A text `t` with the chunks `cs`, iterated by the states of its own that the library has for it. -/
  | byStates {C CS P τ ε α S CE : Type} {O O' : ChunkOps C CS P} {RC : C → List (Item P) → Prop} {ok : C → Prop}
    (hC : LimitChunk M O O' RC ok) {T : TextType C τ α} {X} (hT : LibText O RC T X) {state : τ → Option S} {N : ChunksState C S}
    (hN : LibIteration O T state N) (cc : Classifier) (al : AllocOps τ ε α)
    (lookup : Datum τ ε → Option (Combiner τ ε α P CE)) {t : τ} {cs : List C} {ls : List (List (Item P))}
    (ht : T.chunks t = .ok cs) (h : List.Forall₂ RC cs ls) (hM : ∀ c ∈ cs, ok c) {fuel : Nat} (hf : cs.length + 1 < fuel)
    {it : StateIter S CS P τ} (hi : StateIter.new N O (state t) = .ok it) :
    WithinLimit M (stateEnv N O T fuel cc al lookup) it ls.flatten X (stateIterOps N O' T fuel)

end Kul
