import Verif.Model.Release
import Verif.Spec.Provided

/-!
# What a release build has to do with a debug build

Specification only.
-/

namespace Kul

variable {σ P τ ε α CE : Type}

/-- Of a source stream: when one has peeked, peeking again shows the same and changes nothing. -/
def StreamOps.Repeats (S : StreamOps σ P τ α) : Prop :=
  ∀ s o s', S.peek s = (.ok o, s') → S.peek s' = (.ok o, s')

/-- `R` does what `S` does, wherever that does not panic. -/
structure StreamOps.SameUnlessPanic (S R : StreamOps σ P τ α) : Prop where
  peek : ∀ s, (S.peek s).1 = .panic ∨ R.peek s = S.peek s
  next : ∀ s, (S.next s).1 = .panic ∨ R.next s = S.next s
  nextAccum : ∀ s a, (S.nextAccum s a).1 = .panic ∨ R.nextAccum s a = S.nextAccum s a
  accumDone : ∀ s a, (S.accumDone s a).1 = .panic ∨ R.accumDone s a = S.accumDone s a

/-- The parser `E` with the stream `R`. -/
abbrev Env.withStream (E : Env σ P τ ε α CE) (R : StreamOps σ P τ α) : Env σ P τ ε α CE := { E with strm := R }

/-- What the chunk types of the library are in a release build. -/
inductive ReleaseChunk (W : Nat) : {C CS P : Type} → ChunkOps C CS P → ChunkOps C CS P → Prop where
  | posStr : ReleaseChunk W posStrOps posStrOps
  | posStrish : ReleaseChunk W posStrishOps (posStrishRel W)
  | shared {R : Type} (A : StrishOps R) : ReleaseChunk W (sharedChunkOps A) (sharedChunkRel W A)

/-- `ReleaseOf W E R`: the parser `E` of a debug build has the stream `R` in a release build. For texts in memory, for
iterators of strings, and for iterators of characters; `shared` is as `strs`, and `byStates` as `text`, as in `Provided`. -/
inductive ReleaseOf (W : Nat) : {σ P τ ε α CE : Type} → Env σ P τ ε α CE → StreamOps σ P τ α → Prop where
  | text {C CS P τ ε α CE : Type} {O O' : ChunkOps C CS P} (hO : ReleaseChunk W O O') (T : TextType C τ α)
    (cc : Classifier) (al : AllocOps τ ε α) (lookup : Datum τ ε → Option (Combiner τ ε α P CE)) :
    ReleaseOf W (textEnv O T cc al lookup) (textIterOps O' T)
  | strs {τ ε α CE : Type} (T : TextType PosStrish τ α) (cc : Classifier) (al : AllocOps τ ε α)
    (lookup : Datum τ ε → Option (Combiner τ ε α CharPos CE)) :
    ReleaseOf W (strishEnv T cc al lookup) (strishIterRel W T)
  | chars {τ ε α CE : Type} (T : TextType PosStrish τ α) (cc : Classifier) (al : AllocOps τ ε α)
    (lookup : Datum τ ε → Option (Combiner τ ε α CharPos CE)) :
    ReleaseOf W (charEnv T cc al lookup) (charIterOps T)
  | shared {R τ ε α CE : Type} (A : StrishOps R) (T : TextType (SharedChunk R) τ α) (cc : Classifier) (al : AllocOps τ ε α)
    (lookup : Datum τ ε → Option (Combiner τ ε α CharPos CE)) :
    ReleaseOf W (sharedEnv A T cc al lookup) (sharedStreamRel W A T)
  | byStates {C CS P τ ε α S CE : Type} {O O' : ChunkOps C CS P} (hO : ReleaseChunk W O O') (T : TextType C τ α)
    (N : ChunksState C S) (fuel : Nat) (cc : Classifier) (al : AllocOps τ ε α)
    (lookup : Datum τ ε → Option (Combiner τ ε α P CE)) :
    ReleaseOf W (stateEnv N O T fuel cc al lookup) (stateIterOps N O' T fuel)

end Kul
