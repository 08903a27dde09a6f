import Verif.Model.MemAlloc
import Verif.Model.MemUnwind

/-!
# Source streams and texts that allocate no datums

A source stream and a text type, chosen by the user (`core/src/lib.rs` 145-195 `SourceStream`, `core/src/text.rs` 27-38,
300-307), whose functions leave the datum allocator that they are given alone, and give the same with every allocator. All
streams of the two crates are so if the texts are `TextVec`s.
-/

namespace Kul

variable {σ P τ ε α CE : Type}

/-- The stream used with an allocator (`core/src/lib.rs` 158-195: `next_accum` and `accum_done` are given one). -/
def StreamOps.within (S : StreamOps σ P τ Unit) (α : Type) : StreamOps σ P τ α where
  peek := S.peek
  next := S.next
  nextAccum s a := match S.nextAccum s () with | (o, s, _) => (o, s, a)
  accumDone s a := match S.accumDone s () with | (o, s, _) => (o, s, a)

/-- The texts used with an allocator (`core/src/text.rs` 300-307: `concat` is given one). -/
def TextOps.within (T : TextOps τ Unit) (α : Type) : TextOps τ α where
  empty := T.empty
  concat t u a := match T.concat t u () with | (o, _) => (o, a)

/-- `core/src/lib.rs` 202-228 `Parser` with such a stream and such texts; datums by value. -/
def anyEnv (S : StreamOps σ P τ Unit) (T : TextOps τ Unit) (cc : Classifier) (al : AllocOps τ ε α)
    (lookup : Datum τ ε → Option (Combiner τ ε α P CE)) : Env σ P τ ε α CE where
  cc := cc
  strm := S.within α
  text := T.within α
  alloc := al
  lookup := lookup

namespace Mem

/-- The same with datums in memory. -/
def anyEnv (S : StreamOps σ P τ Unit) (T : TextOps τ Unit) (cc : Classifier) (al : AllocOps τ ε α)
    (lookup : Dat τ ε → α → Option (Combiner τ ε α P CE)) : Env σ P τ ε α CE where
  cc := cc
  strm := S.within α
  text := T.within α
  alloc := al
  lookup := lookup

/-- A parser with the stream `CharIterSourceStream` (`src/source_stream/char_iter_src_strm.rs` 158-220), datums in memory. -/
def charEnv (T : TextType PosStrish τ α) (cc : Classifier) (al : AllocOps τ ε α)
    (lookup : Dat τ ε → α → Option (Combiner τ ε α CharPos CE)) : Env CharIter CharPos τ ε α CE where
  cc := cc
  strm := charIterOps T
  text := T.ops
  alloc := al
  lookup := lookup

/-- The same parser, but in which also any call, of the stream, of texts, of the classifier, of `new_datum`, of `get_mut`, of
`lookup`, or of a combiner, may panic. When one that is not a combiner panics it leaves the memory alone, but for `new_datum`, which drops
the datum that it was given. -/
def anyUEnv (S : StreamOps σ P τ Unit) (T : TextOps τ Unit) (cc : Classifier) (al : AllocOps τ ε α)
    (lookup : Dat τ ε → α → Option (Option (UCombiner τ ε α P CE))) (strmPanics : StreamCall → σ → α → Option σ)
    (newPanics : Dat τ ε → α → Bool) (panics : UserCall τ ε → α → Bool) : UEnv σ P τ ε α CE where
  env := anyEnv S T cc al fun _ _ => none
  newDatum d a := if newPanics d a then (none, al.dropDat d a) else match al.newDatum d a with | (r, a') => (some r, a')
  lookup := lookup
  strmPanics c s a := (strmPanics c s a).map fun s' => (s', a)
  panics c a := if panics c a then some a else none

end Mem

end Kul
