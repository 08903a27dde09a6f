import Verif.Model.Wrap
import Verif.Spec.Counters

/-!
# What a release build with wrapping arithmetic has to do with a debug build

Specification only.
-/

namespace Kul

variable {σ P τ ε α CE : Type}

/-- `WrapChunk M O O'`: the chunk type `O` of a debug build in which no sum may be above `M` is `O'` in a release build in which
sums wrap around above `M`. -/
inductive WrapChunk (M : Nat) : {C CS P : Type} → ChunkOps C CS P → ChunkOps C CS P → Prop where
  | posStr : WrapChunk M (posStrM M) (posStrWrap (M + 1))
  | posStrish : WrapChunk M (posStrishM M) (posStrishWrap (M + 1))
  | shared {R : Type} (A : StrishOps R) : WrapChunk M (sharedChunkM M A) (sharedChunkWrap (M + 1) A)

/-- `WrapOf M S R`: the same of source streams, for texts in memory, for iterators of strings, and for iterators of characters;
`shared` is as `strs`, and `byStates` as `text`, as in `Provided`. -/
inductive WrapOf (M : Nat) : {σ P τ α : Type} → StreamOps σ P τ α → StreamOps σ P τ α → Prop where
  | text {C CS P τ α : Type} {O O' : ChunkOps C CS P} (hO : WrapChunk M O O') (T : TextType C τ α) :
    WrapOf M (textIterOps O T) (textIterOps O' T)
  | strs {τ α : Type} (T : TextType PosStrish τ α) : WrapOf M (strishIterM M T) (strishIterWrap (M + 1) T)
  | chars {τ α : Type} (T : TextType PosStrish τ α) : WrapOf M (charIterM M T) (charIterWrap (M + 1) T)
  | shared {R τ α : Type} (A : StrishOps R) (T : TextType (SharedChunk R) τ α) :
    WrapOf M (sharedStreamM M A T) (sharedStreamWrap (M + 1) A T)
  | byStates {C CS P τ α S : Type} {O O' : ChunkOps C CS P} (hO : WrapChunk M O O') (T : TextType C τ α)
    (N : ChunksState C S) (fuel : Nat) : WrapOf M (stateIterOps N O T fuel) (stateIterOps N O' T fuel)

end Kul
