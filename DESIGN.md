# Formal model of kul (DerickEddington/kul) in Lean 4

## 1. What is modelled

`/repo` is read as text; nothing in it is built or run. The model is a set of
Lean definitions, one for each function of the library code, each with a comment
citing file and lines.

| Lean module (`lean/Verif/Model/`) | Rust |
|---|---|
| `Base` | `Datum`, `Error`, `AllocError`, `SourceIterItem`, `Combiner`, the traits `CharClassifier`, `SourceStream`, `DatumAllocator`, `OperatorBindings`, `TextBase`/`TextConcat` as records of operations |
| `Parser` | `core/src/lib.rs` 276-590: all of `ParseIter` |
| `Api` | `core/src/lib.rs` 244-259: calls of `Iterator::next`, also after errors |
| `Classifier` | `core/src/parser/premade/default_classifier.rs` |
| `Str` | `&str`: scalar values with UTF-8 byte offsets; slicing panics off boundaries |
| `Chunk` | `core/src/text/chunk/premade/pos_str.rs`, `src/text/chunk/pos_strish.rs` |
| `Text` | `core/src/text/iter/chunks.rs`, `src/text/vec.rs`, `core/src/text/premade/datum_list.rs` |
| `Streams` | `core/src/text/iter.rs`, `src/source_stream/*.rs` |
| `TextFns` | the provided methods of trait `Text` in `core/src/text.rs`: `eq`, `cmp`, `hash`, `chars`, `encode_utf8` |
| `DatumFns` | `core/src/datum.rs` `PartialEq`, `Hash` (with the depth of their recursion); `core/src/error.rs` `PartialEq` |
| `DatumEq` | `core/src/datum.rs` `PartialEq` again, with comparisons of texts and extras that are any actions, and datums in memory |
| `Bindings` | `empty_bindings.rs`, `pair_bindings.rs`, `hashmap_bindings.rs` |
| `Alloc` | `slice_alloc.rs`, `box_alloc.rs`, `rc_alloc.rs`, `arc_alloc.rs`, and `DerefTryMut` of the references |
| `Premade` | the type choices of `src/common/*.rs` and `core/src/premade/inmem.rs` |
| `Common` | `collect_up_to_first_err`, `parse_text_with`, `parse_str(_with)`, `parse_stream(_with)` |
| `Drop` | `src/drop.rs` `algo1` on trees, with an oracle for the reference counts |
| `RcHeap` | `src/drop.rs` `algo1` on cells with counts, any sharing (`DatumRc`) |
| `MemAlloc` | `slice_alloc.rs`, `box_alloc.rs`, `rc_alloc.rs`, `arc_alloc.rs` with datums at addresses and reference counts; derived `Clone` of datums |
| `MemParser` | `core/src/lib.rs` 276-590 again, with datums in memory: writing of list tails through references, drops of local values on early returns |
| `Stack` | `core/src/lib.rs` 299-557 again, with a limited number of stack frames and limited counters |
| `Live` | `src/source_stream/char_iter_src_strm.rs` again, over any iterator; `Peekable`, `Enumerate` of the standard library |
| `LiveStrish` | `src/source_stream/strish_iter_src_strm.rs` again, over any iterator |
| `Shared` | `src/text/chunk/pos_strish.rs`, `src/source_stream/strish_iter_src_strm.rs` again, over any type of reference-counted strings, so that strings with the same contents can be told apart |
| `ChunkIter` | `core/src/text/iter.rs` again, with the iterator of chunks going from state to state (`core/src/text/iter/chunks.rs`) |
| `RcCell` | `src/drop.rs` `RcLike`, `RcLikeAtomicCounts`: `try_replace`, `try_replace_optim`, `set`, with weak references and, for `Arc`, other threads |
| `ArcDrop` | `src/drop.rs` `algo1` with `DatumArc`, run by any number of threads on shared cells with strong and weak counts, step by step |
| `TreeShapes` | `shared_tests/src/utils/tree_shapes.rs` 34-233, the trees that dropping is tested with |
| `MultiStrong` | `shared_tests/src/utils/tree_shapes.rs` 281-301, `src/drop.rs` 711-722, the lists with additional strong references |
| `WeakDrop` | `src/drop.rs` `algo1` with `DatumRc` and `DatumArc` (one thread) in cells with weak counts too, `shared_tests/src/utils/tree_shapes.rs` 235-275, the lists with weak references |
| `Unwind` | `core/src/lib.rs` `parse_next`, `parse_nested`, `parse_all` again, with combiners that may panic, and the iterator used on after the panic was caught |
| `MemUnwind` | `core/src/lib.rs`, as in `MemParser`, with user-supplied code (combiners, `lookup`, `new_datum`, the source stream, `concat`) that may panic, and what is dropped while unwinding |
| `Threads` | `src/parser/arc_alloc.rs` with `DatumArc`: the memory of `MemAlloc`, which other threads use in between the parser's accesses to it |
| `Counters`, `CountersShared` | `pos_str.rs`, `pos_strish.rs`, `strish_iter_src_strm.rs` and `char_iter_src_strm.rs` again, with a largest value of their integers |
| `AnyUser` | `core/src/lib.rs` 308-589 again, with nothing assumed of the user's types: every method gets, changes and answers anything |
| `Release` | `core/src/lib.rs` 308-589, `pos_strish.rs` and `strish_iter_src_strm.rs` again, without debug assertions and with subtractions that wrap |
| `Wrap` | the same and `pos_str.rs`, `char_iter_src_strm.rs`, with additions that wrap too |
| `Dynamic` | `core/src/lib.rs` 308-557 again, with bindings whose `lookup` sees and may change the state |
| `AnyStream` | any `SourceStream` and text type (`core/src/lib.rs` 145-195, `core/src/text.rs` 300-307) that allocate no datums, also ones that keep no contract; with datums in memory |
| `LinkText` | `core/src/text/premade/datum_list.rs` with its links in slots of the slice; the parsers of `MemParser` with such texts |
| `Panics` | `core/src/lib.rs` 308-589 again, with every call of user-supplied code (source stream, classifier, bindings, allocator, text type, combiners) free to panic, and the stream, allocator and iterator used on after that |
| `Delims` | `core/src/lib.rs` 308-589 again, with a classifier whose answers depend on the state |

`lean/Verif/Spec/` has the specifications, which do not use the model's helpers: a
grammar with rendering and meaning (`Grammar`, `Bound`), a scanner for balance
(`Balance`), first failures (`Failing`), both again for bindings that change (`Dynamic`) and for delimiters that change (`Delims`), everything a source yields (`Results`, and for strings and the provided parsers `Concrete`), shapes (`Shape`), contracts of streams
(`Contract`, `Seq`), texts (`Text`, `TextFns`), datums (`DatumFns`), memory (`Memory`,
`Alloc`), histories (`History`), drops (`Drop`, `RcHeap` and how the two agree, how long exactly `TreeShapes`, lists with additional references `MultiStrong`, with weak ones `WeakDrop` and, for all heaps, `WeakSim`, and by several threads `ArcDrop`), memory in use (`MemUse`), how texts are cut (`Slices`), steps of concatenating them (`ConcatCost`) inside of the source streams (`StreamWork`) and of comparing and hashing (`CompareWork`), operatives that parse (`Defer`), combiners that panic (`Unwind`), sizes of datums (`Size`), parsing among other threads (`Threads`, and with panics `ThreadsUnwind`), panics of any user-supplied code and memory (`MemUnwind`), one nest in place of another (`Replace`), operators of combinations (`Unbound`), builds without debug assertions (`Release`, and with wrapping integers `Wrap`), what comes after a panic of any user-supplied code (`Panics`), texts linked through memory (`LinkText`), sources that finite integers suffice for (`Counters`), any user code (`AnyUser`).
`lean/Verif/Proof/` has lemmas. `lean/Verif/Props/` has the theorems of the manifest,
each with examples of concrete cases that meet its hypotheses.

`lean/Verif/Conformance/` is not part of the proofs. It validates the model by running it on
the 151 cases of the library's own test suite (`shared_tests/src/suites.rs`), in each of the
ways in which the library's integration tests run it (source streams, allocators, memory
sizes), and checks that the results are those that the library's tests expect. `Units` does
the same with the library's unit tests of the functions that are modelled: scripts of calls of
the source streams, slices and their panics, texts, bindings, and the functions that parse a
whole source. `Examples` does the same with the example programs of both crates.

### Modelling conventions

* **Errors and panics are values.** Every parser action returns
  `ok a | err e | panic | fuel` together with the new state, also on error,
  because the Rust iterator can be resumed after an error. Every `unwrap`,
  `unreachable!`, slice index, `debug_assert!` and underflowing subtraction is a
  `panic` outcome.
* **Loops** of the parser recurse on a step budget (`fuel`), an explicit outcome
  when it runs out. It is proved that a budget linear in the source length
  suffices (C09) and that the result does not depend on the budget.
* **Generic parameters** (`CC`, `DA`, `OB`, `S`, `TT`) are records of operations.
  Combiners are arbitrary state-transforming functions on the allocator state,
  so interior effects, logs etc. can be put there. Bindings are fixed, except in `Dynamic` (C76) and `Delims` (C77); the classifier is fixed, except in `Delims`, where it depends on the state but asking it changes nothing, and where allocating alone does not change its answers (a classifier that answers differently without anything having happened can make `debug_assert!`s of the parser fail).
* **References** (`DatumRef`) are modelled by value (a datum tree) in `Parser`, `Text`
  and `DatumFns`. Aliasing is modelled explicitly in `Drop`, `RcCell`,
  `RcHeap`, in the slots of `Alloc`, and in `MemAlloc` and `MemParser`, where a reference is an
  address. `MemParser` is proved to agree with `Parser` (C50). The links inside of a text are by value there, and slots in `LinkText` (C79).
* **usize** counters are natural numbers; `Stack` gives the parser's a largest value (C56), `Counters` the source streams' (C80); in `Wrap` all of them wrap around (C91).
* **Iterators given by the user** are the list of what they will still yield: finite
  and fused; except in `Live` and `LiveStrish`, where they are arbitrary state machines (C54, C55).

### Not modelled

Lifetimes and type-level generics; `Debug` output; what is parsed after panics if bindings or delimiters change too (C81 says what holds for any user code; C68, C78 what is parsed with fixed ones; what becomes of memory after a panic is in C72, and among other threads in C87); memory exhaustion of the Rust
heap; `usize` overflow other than of the parser's counters (C56) and of the source streams' (C80; release builds, where it wraps, are modelled in `Model/Release.lean` for subtractions, C75, and in `Model/Wrap.lean` for additions too, C91; the other modules model debug builds); exhaustion of the machine stack (nesting
of calls is counted where a property is about it: C39, C43, C44, C56, C63); memory orderings of `Arc` (its operations are
atomic steps that other threads' steps can come between); that memory of a dropped datum remains allocated, empty, while `Weak` references to it exist (other than in C94); infinite or
non-fused source iterators other than in C54 and C55; the conversions of `char_iter_src_strm.rs` 40-84
(`to_rc_string` etc.) other than as keeping the contents; the test utilities other than the trees of `Model/TreeShapes.lean`, `Model/MultiStrong.lean` and `Model/WeakDrop.lean`.

## 2. Trusted base

* Lean 4.33.0's kernel.
* Axioms: `propext`, `Classical.choice`, `Quot.sound` at most; section 5 lists them for
  each theorem of the manifest. No own axioms, no `sorry`, no
  `native_decide`/`bv_decide`.
* That the definitions under `Verif/Model` say what the Rust says (comments cite
  lines). The Rust standard library pieces used are modelled by their documented
  contract: `char`/`str` UTF-8 layout, `char::is_whitespace` (Unicode
  White_Space), `Peekable`, `TakeWhile`, `Iterator::{eq, cmp, map, all}`,
  `slice::split_first_mut`, `Vec`, `HashMap` (entries found by hash, then by `==`),
  `Rc`/`Arc`/`Weak` counts, drop order of local variables.

## 3. How each property is proved

The parser is proved equal, for every environment that meets a small contract
(`Spec/Contract.lean`), to a big-step evaluation on the list of remaining
characters (`Proof/Eval*.lean`); all concrete streams and texts are
proved to meet the contract (C37). The properties then are inductions on the
evaluation.

Theorems whose names end in `_provided` (`Props/Provided.lean`) state the same of the library's
own streams and text types (`Spec/Provided.lean`), with no contract in the statement; so a bug
in a stream or a text makes them fail too.

* C01, C02, C03, C04, C08, C20, C21, C22, C23: an independent grammar (`Spec/Grammar.lean`:
  forms, rendering, meaning, printer). Completeness by induction on forms,
  soundness by induction on the evaluation; the others are corollaries or
  inductions of their own.
* C05, C06, C07: independent scanner (`Spec/Balance.lean`).
* C09, C10, C11, C14, C15, C26: inductions on the evaluation; histories of calls.
* C12, C13, C24, C25, C28, C37: each concrete source stream refines
  a sequence of items; a relational theorem about the parser (`Proof/Sim*.lean`) carries
  results from one stream, text or allocator to another.
* C16–C19: meaning of forms with bound heads (`Spec/Bound.lean`, `Spec/Failing.lean`), for
  arbitrary combiners acting on an arbitrary state.
* C27, C29, C30: number of allocations of the evaluation (`Proof/Cost*.lean`); slots.
* C31–C36: text operations against lists of characters.
* C38–C40: datum comparison loop against structural relation; hash feeds; lookup.
* C41–C44: `algo1` on trees with an adaptive oracle; quadratic measure; counting of
  events; call depth. C42 also on heaps of counted cells with any sharing, by
  an invariant relating counts, held references and reachability.
* C45: histories of operations on counted cells; for `Arc` with steps of other threads
  between any two steps.
* C46: shape of the collected list. C47: relational theorem with a renaming as the
  relation. C48, C49: case analysis.
* C50, C51: the parser with datums in memory; a simulation by the parser by value, and an
  invariant: counts are the numbers of references held, and what is live is reachable.
* C52: `Spec/Results.lean`. Soundness by C16-C19, completeness by induction on the rules
  (`Proof/FailComplete.lean`); without bindings, rules in terms of grammar and balance only. `Props/Concrete.lean` puts
  this together with the streams, texts and convenience functions of the library.
* C53: a Hoare logic with credits (`Proof/Fits*.lean`): twice the free slots and five stay
  at least three times the characters to come; a family of strings that needs as many.
* C54: two streams in step under the same parser (`Proof/Track.lean`), one over an iterator,
  the other over a list, until the end of the list is met.
* C55: the same, and an invariant: all but the last of the strings asked for are consumed.
* C56: a second version of the parser (`Model/Stack.lean`) with a number of frames and a largest
  counter. Equal to the first for every budget if the limits suffice, by induction over the budget with
  the rules of `Proof/Eval.lean` saying what is left after each completed part; a part returns to
  its level, so what follows nests no deeper (`Eval.deepest`). Two families of sources for the
  converse.
* C57: the stream with a counter of calls (`Spec/Work.lean`); the counted parser does the same (lock step,
  `Proof/Track.lean`); a potential of five per character left, by induction over the budget of all
  three recursive functions together, with the outcome deciding what is left over (`Proof/Work.lean`).
* C58: a potential, twice the branches less those on the right spine, decreases with each iteration; for the
  converse, lower bounds along the chains that C44's counterexample goes through (`Props/DropTime.lean`, `Props/DropShared.lean`).
* C59: induction over the rules of `Proof/Eval.lean`: a completed text is a subsequence of what was consumed
  for it, which is part of what the call consumed; everything else is made by combiners or of such parts.
* C60: `Spec/Append.lean` says when two sources do not run into one another. Induction over the rules of the
  grammar: what is read to the end of `s` is also read when `t` follows (`Proof/Append.lean`); then C52, by which
  every source has exactly one list of results, and lock step with the reference parser.
* C61: `Model/Shared.lean`; the stream fulfils the contract even if chunks mean more: that they refer to strings of
  the source, at their place (`Spec/Shared.lean`, `Proof/Shared.lean`). Then C59. Which strings the stream refers
  to is part of the relation between the stream and the characters to come. The `_provided` theorems also range over
  these streams and texts.
* C62: lock step of `text::Iter` over states and over the list of the chunks to come (`Proof/ChunkIter.lean`); so
  the former fulfils the contract too, and the `_provided` theorems range over it.
* C63: induction over the tree that is read; that later allocations change nothing that was there before
  (`Proof/Clone.lean`). Histories of C50 and C51 have clones. Memory is determined by what is held (`Heap.Exact.unique`),
  so that a clone that is dropped leaves no trace.
* C64: the steps of all threads, dropping or using references as `Arc` allows, are interleaved in any way
  (`Spec/ArcDrop.lean` `Comes`). An invariant says what the counts are, in terms of the references held, those in the
  hands of the algorithm in each thread, and those in cells (`Proof/ArcDrop.lean`); every step keeps it
  (`Proof/ArcStep.lean`, `Proof/ArcWorld.lean`), and makes a measure over all threads smaller. How much a thread has to come back to is bounded by charging it to the
  references to shared cells that it has given up or has pending (`Proof/ArcDepth.lean`).
* C65: what texts mean is made more: their chunks are slices of the source, cut where they must be (`Spec/Slices.lean`).
  The streams and texts are proved to fulfil the contract with this meaning (`Proof/Slices.lean`), for joins at the
  places where the parser joins (`ConfJ` in `Proof/EvalRun.lean`). If all items differ, two ways of cutting the same
  text can be compared, place by place.
* C66: the counts are kept beside the state of the allocator; the parser with counts and the one without are run
  side by side (`Proof/Beside.lean`), with an invariant that charges concatenations to calls on the stream, and moved
  chunks to concatenations (`Proof/ConcatCost.lean`). That lists are no longer than the source comes from C65. The slow
  source is run step by step, by induction (`Proof/ConcatLower.lean`).
* C67: inductions on the meaning of sources with bindings (`Spec/Bound.lean`): without escape characters, a sequence of
  forms means inside a nest what it means as a source, and replacing applicatives by operatives that parse
  (`Spec/Defer.lean`) keeps the meaning. By induction on the length too, as operatives may parse with their own bindings.
* C68: the parser with combiners that may panic and the one whose combiners return an error instead are related step by
  step (`Proof/Unwind.lean`): same state but for the nest depth. That a greater depth matters only at the end of the source
  and at end delimiters without start is an invariant of every function of the parser.
* C69: the proof of C42 on heaps is a joint induction with the model on trees: both do the same events with the same
  iterations and depth (`C69_agree`). So C43 and C58 hold of heaps in which counts are one, which is an
  invariant of what parsing with `Box`es, or without cloning, leads to (the `HeapOwn` of C50 and C51).
* C70: induction on the rules of `Proof/Eval.lean`: twice the datums given (and one more for each) and three times the items left are
  at most three times the items before, and one more where a text can start (`owed`): two texts are never next to each other. In memory, what is live is what can be reached from the datums held (C51), which are what
  was returned; so the allocations are counted by the datums.
* C71: the parser's relation to the parser by value (C50) is shown for any memory with laws of ownership (`Laws`). That what the
  others own is apart from what the parser owns is an invariant (`BusyOwn`) of what all threads do, since a thread can act only
  with references it holds; so the laws hold of memory that others use, too.
* C72: each function of the parser keeps, for whatever others own, an ownership of memory: on every way out (result,
  error, panic) it owns exactly its result. By induction on the budget, from the laws of ownership of the memory only
  (`OwnLaws`), so without any contract on the source stream. The ownership then holds along every history, and by that
  of `Box`/`Rc`/`Arc` memory, what is held can be read and what is live is what is held. That a call that does not panic
  is that of the parser without panics is a simulation.
* C73: two parses of sources that differ in one nest are run side by side, by induction on the rules of `Proof/Eval.lean`
  (`Eval.swap`): before the nest both do the same; the nest is reached by both at the same rule, because nothing but an
  escape or a text can run into it, and a text stops before it; after it both do the same again. With bindings this is done
  for the reference parser, whose state after a nest is given by the meaning of the nest, and carried over as for C52.
* C74: induction on the budget (`Proof/Unbound.lean`), for any parser: the parser with bindings does what the one without
  does as long as `lookup` of what is an operator in the result gives nothing. Errors for missing end delimiters are left out
  since there the combiner of a nest within may have been called.
* C75: `Model/Release.lean` has the functions with `debug_assert!`s and with subtractions again, as they are in a release
  build, and those that call them. By induction on the budget (`Proof/Release.lean`) a debug build's function panics or gives the
  same as the release build's: assertions that only look are passed, and one that peeks leaves what the peek before it left. That
  the debug build does not panic is C15.
* C76: `Model/Dynamic.lean` has the functions that look heads up again, with a `lookup` that takes the state and gives one. The
  rules of `Proof/Eval.lean` and what is proved from them (`Proof/Dynamic*.lean`) is done again with one more state between
  a head and its operands. With a `lookup` that leaves the state alone the two models agree (`C76_fixed`).
* C77: `Model/Delims.lean` has the functions that ask the classifier again, asking it in the current state; `Spec/Delims.lean` says
  for every character in which state it is classified. `Proof/Delims*.lean` is `Proof/Dynamic*.lean` with these states. With a
  classifier that ignores the state the model is that of C76 (`C77_fixed`).
* C78: `Model/Panics.lean` puts a possible panic before every call of user-supplied code. By induction on the budget
  (`Proof/Panics.lean`, `CutOff`) each of its functions panics with what the panicking function left, or does as the parser without
  panics, and keeps any invariant of stream and allocator that user code keeps; "somewhere in the source, with the items directly
  before accumulated" is one. `Proof/Leftover.lean` then follows a call from a stream with items already accumulated.
* C79: `Spec/LinkText.lean` says what a datum in memory reads back as, with its slots, and what owning something means: the
  slots of all that is owned are distinct and not free. Each operation of `TextDatumList` (`Proof/LinkText.lean`), the streams
  (`Proof/LinkUse.lean`, `Proof/LinkStreams.lean`) and the parser (`Proof/LinkParser.lean`, by induction on the budget) keep that,
  and do by value the same. The budget of the loops over links, the number of slots, suffices because slots are distinct.
* C80: `Model/Counters.lean` and `Model/CountersShared.lean` have the source streams again, with every addition checked against a largest value.
  `Proof/CountersParser.lean` shows that a parser whose stream does the same as another on all states it gets to does the same
  as with that other; `Proof/Counters.lean`, `CountersStrs`, `CountersShared` and `CountersStates` that the streams with a largest value do so as long as
  the positions of what is to come are less, by the invariants that show the streams' contract.
* C81: `Model/AnyUser.lean` has the parser over one world that every method of the user's types and every combiner reads and
  changes as it likes. Four triples on the parser's functions, each with its rules for sequencing and proved by induction
  on the budget: `Fine` (`Proof/AnyUser.lean`: depth, worlds reached, causes of errors), `Ends` (`Proof/AnyUserEnds.lean`: with a
  measure of the source, budget `3 μ + 2`), `Safe` (`Proof/AnyUserPanic.lean`: no assertion fails), and `Gives` (`Proof/AnyUserMade.lean`: what the datums are made of). `Proof/AnyUserMono.lean`: more
  budget changes nothing. `Proof/AnyUserAgree.lean`: a simulation with the models of C78 and of C77, which are instances. That the conditions
  on the classifier are needed is proved by two witnesses.
* C82: the induction of C44 the other way round: the loop with `l` and `r` in its hands is nested at least `sharedBranches l + sharedBranches r - 1`
  deep, since it ends at a shared branch datum (or at two leaves) and drops what it has collected by a nested call. With C44's bound this settles the depth up to two for every tree.
* C83: one call's loop goes through three phases: to the left until a leaf or a shared branch datum is met, to the right if it is shared, and to the
  left again up to the shared one; the lengths of the left and right chains are the potential. What is left is dropped by a nested call with one reference to a shared datum less.
* C84: in the tree model with the counts as answers, by induction over the calls and iterations: counts go down by what is given up, a cell whose count is one stays so,
  and each level of nesting is charged to one reference to a branch datum that was shared at first, for which there is an event (given up, or freed as the last one).
  Then `C69_agree` and `C42_shared` carry it to the heap, where each cell is freed at most once (`Proof/RcDepth.lean`, `Props/RcDepth.lean`).
* C85: the same kind of induction. The loop restructures at most as often as the chain of unshared branch datums on its side is long, and all of that chain is freed by it; then
  it goes on with one branch datum less, or ends with two nested calls that free different datums (`Proof/RcTime.lean`, `Props/RcTime.lean`).
* C86: simulation: as long as no shared branch datum is met twice, a run with counts (`RcHeap.counts`) and a run with steady answers go through the same iterations, because a count that is one stays, and a count that changes is not asked for again; then C82 and C83. The unbounded family of heaps is built cell by cell (`Good.add`).
* C87: the laws of ownership among other threads (C71, `BusyOwn`) are those that the proof of C72 needs, so that each call keeps them on every way out; then induction on the history.
* C88: `Proof/Format.lean`: a text of the library stands for one list of items (byte ranges determine the part), so datums are written out in one way; with C04 the same is parsed again; `writeSource` is injective on the shapes of C21, since what is written is in the grammar (C04) and the grammar is unambiguous (C03); the length is by induction on the grammar (C02).
* C89: the steps inside of the streams are counted beside their state (`Spec/StreamWork.lean`), which changes nothing. A potential bounds them (`Proof/StreamTurns.lean`): each chunk pays for being passed by taking, by looking ahead, and by a failed accumulation; only looking ahead when nothing is left pays for itself each time. How often the parser does that is counted with the contract of C57 (`Proof/StreamWork.lean`): twice and once for each call.
* C90: `Proof/CompareWork.lean`: comparing sequences that begin with the parts of two datums is comparing the datums and then the rest (induction on the datum, in any lawful monad), since no datum's parts are the beginning of another's. Counting is the same function in the monad of a counter. For texts, iterators that may be asked only so many times are compared (induction on what they give). Linear in the source by C08 and C70.
* C91: `Proof/Wrap.lean`: by induction on the budget, the parser with checked counters and a limited stack (C56) panics, or the wrapping one does the same; `Proof/WrapStreams.lean` the same for each stream with checked integers (C80). C56 and C80 say that those do not panic within the limits.
* C92: induction on the budget (`Proof/TreeShapes.lean`): with nothing shared the loop restructures only at the left, and only when both sides are branch datums; then every branch datum of the left side gets to the right, each at the cost of one iteration.
* C93: induction on the number of nodes above the kept one (`Proof/MultiStrong.lean`); the heaps are given cell by cell, so every step is a computation.
* C94: as C93 (`Proof/WeakDrop.lean`); a reference has a new address after its datum was taken out, so the heaps are described by what is at each address.
* C95: a simulation (`Proof/WeakSim.lean`): each live cell has an address in the heap without weak references, and when a datum is taken out of a cell with weak references the new address takes the place of the old one. An access to what is not there (`bad`) is excepted; that there is none is proved only for the lists of C94.

## 4. Where the code disagrees with what is said about it

* **C44 is false.** `src/drop.rs` says that the recursion for shared datums
  "should not" be deep. `Drop.C44_not_bounded` proves that dropping a list of `n` elements each
  of which is a shared branch datum nests calls linearly in `n`. What holds is
  `Drop.C44_depth_partial`: at most the number of references to shared branches plus two; and
  `Drop.C82_depth_is_number_shared` shows that this is the depth, up to two, for every tree, not for these lists only. `RcHeap.C86_not_bounded` is the negation
  with the reference counts of `DatumRc` themselves. The same lists take quadratic time (`Drop.C58_quadratic_when_shared`).
* **C46, "immediately aborted" is false.** `take_while` pulls one more item from the
  parser after the error, so one more form is parsed, and its combiners are called
  (`C46_not_immediately`); the result is dropped. The returned items are right.
* **C39 holds for long lists and deep heads only**, as the code's comments say; nesting in
  elements recurses without bound (`C39_deep_elements`).
* **The parser has no limit on depth.** A source of `L` start delimiters needs more than `2 L`
  frames (`C56_deep_sources_abort_provided`), so a short hostile source can overflow the stack of a
  program, which aborts it. The dropping of datums was made non-recursive for this reason, the parsing not.
* **An escape character at the very end** of the source is dropped silently
  (`C23_dangling_escape`).
* **After `UnbalancedEndChar`**, text before the unmatched delimiter in the same form is
  gone: the error takes its place (C06, C26).
* **A stream of strings does not remember the end.** `StrishIterSourceStream` asks its iterator
  again after `None`, so over an iterator that is not fused the parser returns `None` and
  then datums (`C55_none_not_final`); `CharIterSourceStream`, whose iterator is `Peekable`, does not
  (`C54_none_is_final`). `StrishIterSourceStream::new` already asks for the first string, and skips
  empty ones without bound.
* **Hashing and cloning recurse along lists.** Comparing and dropping were made non-recursive along lists, but
  `Hash` and, for boxes, `Clone` are derived, and nest calls as deep as a list is long (`C63_hash_depth`, `Mem.C63_box`). So
  a flat source can overflow the stack of a parser whose bindings are a `HashMap`, which hashes the heads
  (`C63_flat_source`).
* **Escapes take quadratic time with `TextDatumList`.** Each concatenation walks to the end of the list of chunks, and
  there is one for each escape character: `\a\a…` of `2 k` characters takes `k (k - 1) / 2` turns
  (`C66_list_quadratic`, `C66_core_quadratic`). With `TextVec` it is linear (`C66_vec_moves`).
* **Operatives cannot tell escaped delimiters from delimiters.** The text they get has no escape characters, so if it
  is parsed, escaped delimiters become delimiters (`C67_not_with_escapes`). (With positions a gap shows.)
* **A panic inside a text is remembered by the stream.** What `parse_text` had accumulated when user code panicked stays
  accumulated in the source stream. Also a new `ParseIter` on that stream prepends it to the next text, if the source goes
  on with a text, and drops it otherwise (C78 `Resumed`, with examples). Nothing in the crate's documentation says so.
* **The iterator is not usable after a panic of a combiner.** A panic skips the statement that restores the nest depth, so
  an iterator that is used on after the panic was caught never comes to the end of its source: it gives
  `Err(MissingEndChar)` again and again (`C68_never_none`), or, at an end delimiter, `None` with source left
  (`C68_stuck`). A new iterator over the same source stream is right (`C68_new_iterator`).
* **A classifier that contradicts itself can make the parser hang.** Nothing in `CharClassifier` says that a character must be classified
  the same on being asked again. If it is not, `parse_all` can read empty texts for ever at the same place of a finite source, allocating
  each (`C81_hangs`), or a debug assertion fails (`C81_wavering`). A classifier that only changes when combiners are called is safe
  (`C81_ends`, `C81_no_panic`).
* **Looking ahead at the end of a text starts again each time.** `text::Iter::peek` remembers an item but not the end, and does not
  advance over chunks that are at their end. If a text ends with `k` empty chunks, every call there goes through all of them (`C89_end_is_sought_again`). A whole parse does
  this at most four times, so it stays linear (`C89_whole_text`).
* **Comparing and hashing shared datums can take exponential time.** The documentation of `Datum` says that it can be used for DAGs, but `==` and `Hash`
  follow every reference anew, also when both sides are the same reference: `n + 1` datums can take `2^(n+1) - 1` turns (`C90_shared_exponential`). The parser itself shares nothing, so what it gives is compared in
  linear time (`C90_parsed`); combiners may share.
## 5. Theorems and the axioms they depend on

p = `propext`, c = `Classical.choice`, q = `Quot.sound`.

| Property | Theorem | Module | Axioms |
|---|---|---|---|
| C01 | `C01_plain_text_preserved` | `Props/Grammar.lean` | p, c, q |
| C01 | `C01_parse_str` | `Props/Concrete.lean` | p, c, q |
| C01 | `C01_plain_text_preserved_provided` | `Props/Provided.lean` | p, c, q |
| C02 | `C02_accepted_is_written` | `Props/Grammar.lean` | p, c, q |
| C02 | `C02_C03_accepts_exactly_the_grammar` | `Props/Grammar.lean` | p, c, q |
| C02 | `C02_accepted_is_written_provided` | `Props/Provided.lean` | p, c, q |
| C02 | `C02_C03_accepts_exactly_the_grammar_provided` | `Props/Provided.lean` | p, c, q |
| C03 | `C03_written_is_accepted` | `Props/Grammar.lean` | p, c, q |
| C03 | `C03_grammar_unambiguous` | `Props/Grammar.lean` | p, q |
| C03 | `C02_C03_accepts_exactly_the_grammar` | `Props/Grammar.lean` | p, c, q |
| C03 | `C02_C03_accepts_exactly_the_grammar_provided` | `Props/Provided.lean` | p, c, q |
| C03 | `C03_written_is_accepted_provided` | `Props/Provided.lean` | p, c, q |
| C04 | `C04_write_then_parse` | `Props/Forms.lean` | p, c, q |
| C04 | `C04_parsed_can_be_written` | `Props/Forms.lean` | p, c, q |
| C04 | `C04_parse_str` | `Props/Concrete.lean` | p, c, q |
| C04 | `C04_parse_stream` | `Props/Concrete.lean` | p, c, q |
| C04 | `C04_write_then_parse_provided` | `Props/Provided.lean` | p, c, q |
| C04 | `C04_parsed_can_be_written_provided` | `Props/Provided.lean` | p, c, q |
| C05 | `C05_no_error_iff_balanced` | `Props/Balance.lean` | p, c, q |
| C05 | `C05_parse_str` | `Props/Concrete.lean` | p, c, q |
| C05 | `C05_parse_stream` | `Props/Concrete.lean` | p, c, q |
| C05 | `C05_no_error_iff_balanced_provided` | `Props/Provided.lean` | p, c, q |
| C06 | `C06_reported_is_unmatched` | `Props/Balance.lean` | p, c, q |
| C06 | `C06_unmatched_is_reported` | `Props/Balance.lean` | p, c, q |
| C06 | `C06_reported_is_unmatched_provided` | `Props/Provided.lean` | p, c, q |
| C06 | `C06_unmatched_is_reported_provided` | `Props/Provided.lean` | p, c, q |
| C07 | `C07_reported_is_open` | `Props/Balance.lean` | p, c, q |
| C07 | `C07_open_is_reported` | `Props/Balance.lean` | p, c, q |
| C07 | `C07_reported_is_open_provided` | `Props/Provided.lean` | p, c, q |
| C07 | `C07_open_is_reported_provided` | `Props/Provided.lean` | p, c, q |
| C08 | `C08_no_character_lost` | `Props/Forms.lean` | p, c, q |
| C08 | `C08_no_character_lost_provided` | `Props/Provided.lean` | p, c, q |
| C09 | `C09_call_returns_and_progresses` | `Props/Iteration.lean` | p, c, q |
| C09 | `C09_parse_ends` | `Props/Iteration.lean` | p, c, q |
| C09 | `C09_history` | `Props/Iteration.lean` | p, c, q |
| C09 | `C09_parse_ends_provided` | `Props/Provided.lean` | p, c, q |
| C09 | `C09_call_returns_and_progresses_provided` | `Props/Provided.lean` | p, c, q |
| C09 | `C09_history_provided` | `Props/Provided.lean` | p, c, q |
| C10 | `C10_end_is_stable` | `Props/Iteration.lean` | p, c, q |
| C10 | `C10_end_is_stable_provided` | `Props/Provided.lean` | p, c, q |
| C11 | `C11_resumes_at_top_level` | `Props/Iteration.lean` | p, c, q |
| C11 | `C11_same_as_fresh` | `Props/Iteration.lean` | p, c, q |
| C11 | `C11_after_unbalanced` | `Props/Iteration.lean` | p, c, q |
| C11 | `C11_resumes_at_top_level_provided` | `Props/Provided.lean` | p, c, q |
| C11 | `C11_same_as_fresh_provided` | `Props/Provided.lean` | p, c, q |
| C11 | `C11_after_unbalanced_provided` | `Props/Provided.lean` | p, c, q |
| C12 | `C12_splitting_does_not_matter` | `Props/Streams.lean` | p, c, q |
| C12 | `C12_two_splittings` | `Props/Streams.lean` | p, c, q |
| C12 | `C12_stream_as_inmem` | `Props/Streams.lean` | p, c, q |
| C12 | `C12_C13_C25_C47_provided` | `Props/Provided.lean` | p, c, q |
| C12 | `C12_C13_C25_plain_provided` | `Props/Provided.lean` | p, c, q |
| C13 | `C13_char_iter_as_str` | `Props/Streams.lean` | p, c, q |
| C13 | `C12_C13_C25_C47_provided` | `Props/Provided.lean` | p, c, q |
| C13 | `C12_C13_C25_plain_provided` | `Props/Provided.lean` | p, c, q |
| C14 | `C14_only_consumed_and_next_matter` | `Props/Iteration.lean` | p, c, q |
| C14 | `C14_only_consumed_and_next_matter_provided` | `Props/Provided.lean` | p, c, q |
| C15 | `C15_no_panic` | `Props/Iteration.lean` | p, c, q |
| C15 | `C15_inmem` | `Props/Streams.lean` | p, c, q |
| C15 | `C15_stream` | `Props/Streams.lean` | p, c, q |
| C15 | `C15_core` | `Props/Streams.lean` | p, c, q |
| C15 | `C15_char_iter` | `Props/Streams.lean` | p, c, q |
| C15 | `C15_no_panic_provided` | `Props/Provided.lean` | p, c, q |
| C16 | `C16_C17_C18_meaning` | `Props/Bound.lean` | p, c, q |
| C16 | `C16_C17_C18_total` | `Props/Bound.lean` | p, c, q |
| C16 | `C16_C17_C18_exact` | `Props/Bound.lean` | p, c, q |
| C16 | `C16_operative_call` | `Props/Bound.lean` | p, c, q |
| C16 | `C16_operative_any_head` | `Props/Bound.lean` | p, c, q |
| C16 | `C16_C17_C18_meaning_provided` | `Props/Provided.lean` | p, c, q |
| C16 | `C16_C17_C18_total_provided` | `Props/Provided.lean` | p, c, q |
| C16 | `C16_operative_call_provided` | `Props/Provided.lean` | p, c, q |
| C17 | `C16_C17_C18_meaning` | `Props/Bound.lean` | p, c, q |
| C17 | `C16_C17_C18_total` | `Props/Bound.lean` | p, c, q |
| C17 | `C16_C17_C18_exact` | `Props/Bound.lean` | p, c, q |
| C17 | `C17_same_list` | `Props/Bound.lean` | p, c, q |
| C17 | `C16_C17_C18_meaning_provided` | `Props/Provided.lean` | p, c, q |
| C17 | `C16_C17_C18_total_provided` | `Props/Provided.lean` | p, c, q |
| C18 | `C16_C17_C18_meaning` | `Props/Bound.lean` | p, c, q |
| C18 | `C16_C17_C18_total` | `Props/Bound.lean` | p, c, q |
| C18 | `C16_C17_C18_exact` | `Props/Bound.lean` | p, c, q |
| C18 | `C18_removed` | `Props/Bound.lean` | p, c, q |
| C18 | `C16_C17_C18_meaning_provided` | `Props/Provided.lean` | p, c, q |
| C18 | `C16_C17_C18_total_provided` | `Props/Provided.lean` | p, c, q |
| C18 | `C18_removed_in_source` | `Props/Bound.lean` | p, c, q |
| C18 | `C18_removed_operand` | `Props/Bound.lean` | p, c, q |
| C18 | `C18_removed_head` | `Props/Bound.lean` | p, c, q |
| C19 | `C19_first_error` | `Props/Bound.lean` | p, c, q |
| C19 | `C19_at_most_one_call_per_nest` | `Props/Bound.lean` | p, c, q |
| C19 | `C19_at_most_one_call_per_nest_provided` | `Props/Provided.lean` | p, c, q |
| C19 | `C19_first_error_provided` | `Props/Provided.lean` | p, c, q |
| C19 | `C19_no_call_before_end` | `Props/Bound.lean` | p, c, q |
| C19 | `C19_no_call_before_end_provided` | `Props/Provided.lean` | p, c, q |
| C20 | `C20_nothing_interpreted` | `Props/Forms.lean` | p, c, q |
| C20 | `C20_nothing_interpreted_provided` | `Props/Provided.lean` | p, c, q |
| C20 | `C02_accepted_is_written` | `Props/Grammar.lean` | p, c, q |
| C21 | `C21_shape` | `Props/Forms.lean` | p, c, q |
| C21 | `C21_shape_of_each` | `Props/Forms.lean` | p, c, q |
| C21 | `C21_shape_provided` | `Props/Provided.lean` | p, c, q |
| C21 | `C21_shape_of_each_provided` | `Props/Provided.lean` | p, c, q |
| C22 | `C22_whitespace_before_head` | `Props/Spacing.lean` | p, c, q |
| C22 | `C22_one_whitespace_after_head` | `Props/Spacing.lean` | p, c, q |
| C22 | `C22_further_whitespace_kept` | `Props/Spacing.lean` | p, c, q |
| C22 | `C22_one_whitespace_after_head_provided` | `Props/Provided.lean` | p, c, q |
| C22 | `C22_further_whitespace_kept_provided` | `Props/Provided.lean` | p, c, q |
| C22 | `C22_whitespace_before_head_provided` | `Props/Provided.lean` | p, c, q |
| C23 | `C23_escaped_text` | `Props/Spacing.lean` | p, c, q |
| C23 | `C23_escaped_head` | `Props/Spacing.lean` | p, c, q |
| C23 | `C23_any_text` | `Props/Spacing.lean` | p, c, q |
| C23 | `C23_dangling_escape` | `Props/Spacing.lean` | p, c, q |
| C23 | `C23_escaped_text_provided` | `Props/Provided.lean` | p, c, q |
| C23 | `C23_escaped_head_provided` | `Props/Provided.lean` | p, c, q |
| C23 | `C23_any_text_provided` | `Props/Provided.lean` | p, c, q |
| C23 | `C23_dangling_escape_provided` | `Props/Provided.lean` | p, c, q |
| C24 | `C24_positions_exact` | `Props/Positions.lean` | p, c, q |
| C24 | `C24_positions_exact_provided` | `Props/Provided.lean` | p, c, q |
| C24 | `C24_positions_exact_with_bindings` | `Props/Invariant.lean` | p, c, q |
| C24 | `C24_char_index` | `Props/CharIndex.lean` | p, c, q |
| C24 | `C24_from_str` | `Props/CharIndex.lean` | p |
| C24 | `C24_from_str_shared` | `Props/CharIndex.lean` | p |
| C25 | `C25_texts_can_be_parsed` | `Props/Streams.lean` | p, q |
| C25 | `C25_parsed_texts` | `Props/Positions.lean` | p, c, q |
| C25 | `C12_C13_C25_C47_provided` | `Props/Provided.lean` | p, c, q |
| C25 | `C12_C13_C25_plain_provided` | `Props/Provided.lean` | p, c, q |
| C25 | `C25_parsed_texts_provided` | `Props/Provided.lean` | p, c, q |
| C26 | `C26_nothing_leaks` | `Props/Iteration.lean` | p, c, q |
| C26 | `C26_nothing_leaks_provided` | `Props/Provided.lean` | p, c, q |
| C26 | `C26_any_classifier` | `Props/Invariant.lean` | p, c, q |
| C26 | `C26_any_classifier_provided` | `Props/Invariant.lean` | p, c, q |
| C27 | `C27_slots_used` | `Props/Memory.lean` | p, c, q |
| C27 | `C27_enough_iff` | `Props/Memory.lean` | p, c, q |
| C27 | `C27_core` | `Props/Memory.lean` | p, c, q |
| C28 | `C28_each_call` | `Props/Memory.lean` | p, q |
| C28 | `C28_prefix` | `Props/Memory.lean` | p, q |
| C28 | `C28_any_allocator` | `Props/Memory.lean` | p, c, q |
| C28 | `C28_prefix_provided` | `Props/Provided.lean` | p, c, q |
| C29 | `C29_slots` | `Props/Memory.lean` | p, c, q |
| C29 | `C29_not_overwritten` | `Props/Memory.lean` | p, c, q |
| C29 | `C29_holds` | `Props/Memory.lean` | p, c, q |
| C30 | `C30_writable` | `Props/Memory.lean` | p, c, q |
| C30 | `C30_box` | `Props/Memory.lean` | p, c, q |
| C30 | `C30_rc` | `Props/Memory.lean` | p, c, q |
| C30 | `C30_slice` | `Props/Memory.lean` | p, c, q |
| C30 | `C30_writable_provided` | `Props/Provided.lean` | p, c, q |
| C30 | `C30_box_provided` | `Props/Provided.lean` | p, c, q |
| C30 | `C30_rc_provided` | `Props/Provided.lean` | p, c, q |
| C30 | `C30_slice_provided` | `Props/Provided.lean` | p, c, q |
| C31 | `C31_text_eq` | `Props/Texts.lean` | p |
| C31 | `C31_text_vec_eq` | `Props/Texts.lean` | p |
| C31 | `C31_text_eq_iff` | `Props/Texts.lean` | p, q |
| C31 | `C31_equivalence` | `Props/Texts.lean` | p, q |
| C31 | `C31_text_eq_provided` | `Props/Provided.lean` | p, c, q |
| C32 | `C32_text_cmp` | `Props/Texts.lean` | p, c, q |
| C32 | `C32_total_order` | `Props/Texts.lean` | p, q |
| C32 | `C32_antisymmetric` | `Props/Texts.lean` | p, c, q |
| C32 | `C32_text_cmp_provided` | `Props/Provided.lean` | p, c, q |
| C33 | `C33_text_hash` | `Props/Texts.lean` | p |
| C33 | `C33_equal_texts_hash_equally` | `Props/Texts.lean` | p, q |
| C33 | `C33_equal_datums_hash_equally` | `Props/Datums.lean` | p |
| C33 | `C33_inmem` | `Props/Datums.lean` | p |
| C33 | `C33_text_hash_provided` | `Props/Provided.lean` | p, c, q |
| C33 | `C33_provided` | `Props/DatumsProvided.lean` | p, c, q |
| C34 | `C34_encode_utf8` | `Props/Texts.lean` | p, c, q |
| C34 | `C34_ok_iff_fits` | `Props/Texts.lean` | p, c, q |
| C34 | `C34_encode_utf8_provided` | `Props/Provided.lean` | p, c, q |
| C35 | `C35_is_empty` | `Props/Texts.lean` | p |
| C35 | `C35_concat` | `Props/Texts.lean` | p, q |
| C35 | `C35_empty` | `Props/Texts.lean` | p |
| C35 | `C35_text_vec_provided` | `Props/Provided.lean` | p, c, q |
| C36 | `C36_concat` | `Props/Texts.lean` | p, q |
| C36 | `C36_is_empty` | `Props/Texts.lean` | p |
| C36 | `C36_concat_provided` | `Props/Provided.lean` | p, c, q |
| C37 | `C37_text_iter` | `Props/Streams.lean` | p, q |
| C37 | `C37_str` | `Props/Streams.lean` | p, c, q |
| C37 | `C37_strish_iter` | `Props/Streams.lean` | p, c, q |
| C37 | `C37_strish_iter_datum_list` | `Props/Streams.lean` | p, c, q |
| C37 | `C37_char_iter` | `Props/Streams.lean` | p, c, q |
| C37 | `posStr_conf` | `Proof/Chunks.lean` | p, c, q |
| C37 | `posStrish_conf` | `Proof/Chunks.lean` | p, c, q |
| C37 | `C37_provided` | `Props/Provided.lean` | p, c, q |
| C38 | `C38_structural` | `Props/Datums.lean` | p |
| C38 | `C38_equivalence` | `Props/Datums.lean` | p |
| C38 | `C38_inmem` | `Props/Datums.lean` | p, q |
| C38 | `C38_provided` | `Props/DatumsProvided.lean` | p, c, q |
| C38 | `C38_equivalence_provided` | `Props/DatumsProvided.lean` | p, c, q |
| C39 | `C39_depth` | `Props/Datums.lean` | p, q |
| C39 | `C39_long_lists` | `Props/Datums.lean` | p, q |
| C39 | `C39_deep_heads` | `Props/Datums.lean` | p, q |
| C39 | `C39_deep_elements` | `Props/Datums.lean` | p |
| C40 | `C40_pair_found` | `Props/Datums.lean` | p, q |
| C40 | `C40_pair_not_found` | `Props/Datums.lean` | p, q |
| C40 | `C40_hash_map` | `Props/Datums.lean` | p, c, q |
| C40 | `C40_tables_agree` | `Props/Datums.lean` | p, c, q |
| C40 | `C40_inmem` | `Props/Datums.lean` | p, c, q |
| C40 | `C40_provided` | `Props/DatumsProvided.lean` | p, c, q |
| C41 | `Drop.C41_terminates` | `Props/Drop.lean` | p, c, q |
| C41 | `Drop.C41_determined` | `Props/Drop.lean` | p |
| C42 | `Drop.C42_accounting` | `Props/Drop.lean` | p, c, q |
| C42 | `Drop.C42_exactly_once` | `Props/Drop.lean` | p, c, q |
| C42 | `RcHeap.C42_shared` | `Props/RcHeap.lean` | p, c, q |
| C43 | `Drop.C43_no_recursion` | `Props/Drop.lean` | p, c, q |
| C44 (partial) | `Drop.C44_depth_partial` | `Props/Drop.lean` | p, c, q |
| C44 (partial) | `Drop.C44_not_bounded` | `Props/Drop.lean` | p, c, q |
| C44 (partial) | `Drop.C82_depth_is_number_shared` | `Props/Drop.lean` | p, c, q |
| C44 (partial) | `RcHeap.C86_not_bounded` | `Props/RcSteady.lean` | p, c, q |
| C45 | `RcCell.C45_rc` | `Props/RcCell.lean` | p, c, q |
| C45 | `RcCell.C45_basic` | `Props/RcCell.lean` | p, c, q |
| C45 | `RcCell.C45_arc` | `Props/RcCell.lean` | p, c, q |
| C45 | `RcCell.C45_arc_sole` | `Props/RcCell.lean` | p, c, q |
| C45 | `RcCell.C45_get_mut` | `Props/RcCell.lean` | p, c, q |
| C46 (partial) | `C46_collects` | `Props/Common.lean` | p, c, q |
| C46 (partial) | `C46_parse_str` | `Props/Common.lean` | p, c, q |
| C46 (partial) | `C46_parse_stream` | `Props/Common.lean` | p, c, q |
| C46 (partial) | `C46_parse_text_with` | `Props/Common.lean` | p, c, q |
| C46 (partial) | `C46_one_more_call_partial` | `Props/Common.lean` | p, c, q |
| C46 (partial) | `C46_not_immediately` | `Props/Common.lean` | p, c, q |
| C46 (partial) | `C46_collects_provided` | `Props/Provided.lean` | p, c, q |
| C46 (partial) | `C46_one_more_call_partial_provided` | `Props/Provided.lean` | p, c, q |
| C47 | `C47_delimiters_do_not_matter` | `Props/Streams.lean` | p, q |
| C47 | `C47_renaming` | `Props/Streams.lean` | p, c, q |
| C47 | `C12_C13_C25_C47_provided` | `Props/Provided.lean` | p, c, q |
| C48 | `C48_disjoint` | `Props/Datums.lean` | p |
| C48 | `C48_classes` | `Props/Datums.lean` | p |
| C49 | `C49_error_eq` | `Props/Datums.lean` | p |
| C49 | `C49_equivalence` | `Props/Datums.lean` | p |
| C50 | `Mem.C50_heap_text` | `Props/Reads.lean` | p, c, q |
| C50 | `Mem.C50_heap_stream` | `Props/Reads.lean` | p, c, q |
| C50 | `Mem.C50_slice` | `Props/Reads.lean` | p, c, q |
| C50 | `Mem.C50_inmem` | `Props/Reads.lean` | p, c, q |
| C50 | `Mem.C50_stream` | `Props/Reads.lean` | p, c, q |
| C50 | `Mem.C50_core` | `Props/Reads.lean` | p, c, q |
| C50 | `Mem.C50_any` | `Props/AnyStream.lean` | p, c, q |
| C50 | `Mem.C50_any_goes_on` | `Props/AnyStream.lean` | p, c, q |
| C50 | `Mem.C50_chars` | `Props/AnyStream.lean` | p, c, q |
| C51 | `Mem.C51_heap_text` | `Props/Reads.lean` | p, c, q |
| C51 | `Mem.C51_heap_stream` | `Props/Reads.lean` | p, c, q |
| C51 | `Mem.C51_all_dropped` | `Props/Reads.lean` | p |
| C51 | `Mem.C51_inmem` | `Props/Reads.lean` | p, c, q |
| C51 | `Mem.C51_stream` | `Props/Reads.lean` | p, c, q |
| C51 | `Mem.C51_drop` | `Props/Reads.lean` | p, c, q |
| C51 | `Mem.C51_any` | `Props/AnyStream.lean` | p, c, q |
| C51 | `Mem.C51_chars` | `Props/AnyStream.lean` | p, c, q |
| C52 | `C52_results` | `Props/Results.lean` | p, c, q |
| C52 | `C52_exact` | `Props/Results.lean` | p, c, q |
| C52 | `C52_plain_total_unique` | `Props/Results.lean` | p, c, q |
| C52 | `C52_plain` | `Props/Results.lean` | p, c, q |
| C52 | `C52_str_results` | `Props/Concrete.lean` | p, c, q |
| C52 | `C52_inmem` | `Props/Concrete.lean` | p, c, q |
| C52 | `C52_stream` | `Props/Concrete.lean` | p, c, q |
| C52 | `C52_char_iter` | `Props/Concrete.lean` | p, c, q |
| C52 | `C52_core` | `Props/Concrete.lean` | p, c, q |
| C52 | `C52_parse_str` | `Props/Concrete.lean` | p, c, q |
| C52 | `C52_parse_stream` | `Props/Concrete.lean` | p, c, q |
| C52 | `C52_inmem_bound` | `Props/Concrete.lean` | p, c, q |
| C52 | `C52_stream_bound` | `Props/Concrete.lean` | p, c, q |
| C52 | `C52_results_provided` | `Props/Provided.lean` | p, c, q |
| C52 | `C52_plain_provided` | `Props/Provided.lean` | p, c, q |
| C53 | `C53_enough` | `Props/Slots.lean` | p, c, q |
| C53 | `C53_core` | `Props/Slots.lean` | p, c, q |
| C53 | `C53_optimal` | `Props/Slots.lean` | p, c, q |
| C53 | `C53_enough_provided` | `Props/Provided.lean` | p, c, q |
| C54 | `C54_iterator_that_ends` | `Props/Live.lean` | p, q |
| C54 | `C54_as_soon_as_given` | `Props/Live.lean` | p, c, q |
| C54 | `C54_only_taken_matter` | `Props/Live.lean` | p, c, q |
| C54 | `C54_never_ending` | `Props/Live.lean` | p, c, q |
| C54 | `C54_nothing_peeked_after_nest` | `Props/Live.lean` | p |
| C54 | `C54_none_is_final` | `Props/Live.lean` | p, q |
| C54 | `C54_nests_on_demand` | `Props/Live.lean` | p, c, q |
| C54 | `C54_numbered` | `Props/Live.lean` | p, q |
| C55 | `C55_recorded` | `Props/LiveStrish.lean` | p |
| C55 | `C55_iterator_that_ends` | `Props/LiveStrish.lean` | p, q |
| C55 | `C55_only_asked_matter` | `Props/LiveStrish.lean` | p, q |
| C55 | `C55_on_demand` | `Props/LiveStrish.lean` | p, c, q |
| C55 | `C55_not_asked_after_nest` | `Props/LiveStrish.lean` | p, c, q |
| C55 | `C55_as_soon_as_given` | `Props/LiveStrish.lean` | p, c, q |
| C55 | `C55_nests_on_demand` | `Props/LiveStrish.lean` | p, c, q |
| C55 | `C55_none_is_final` | `Props/LiveStrish.lean` | p, q |
| C55 | `C55_none_not_final` | `Props/LiveStrish.lean` | p, c, q |
| C56 | `C56_limits_only_abort` | `Props/Stack.lean` | none |
| C56 | `C56_enough` | `Props/Stack.lean` | p, c, q |
| C56 | `C56_enough_provided` | `Props/Stack.lean` | p, c, q |
| C56 | `C56_whole_parse_provided` | `Props/Stack.lean` | p, c, q |
| C56 | `C56_deep_sources_abort_provided` | `Props/Stack.lean` | p, c, q |
| C56 | `C56_bound_exact_provided` | `Props/Stack.lean` | p, c, q |
| C57 | `C57_counting_changes_nothing` | `Props/Work.lean` | p |
| C57 | `C57_linear_work` | `Props/Work.lean` | p, q |
| C57 | `C57_linear_total` | `Props/Work.lean` | p, q |
| C57 | `C57_linear_work_provided` | `Props/Work.lean` | p, c, q |
| C57 | `C57_linear_total_provided` | `Props/Work.lean` | p, c, q |
| C58 | `Drop.C58_linear_time` | `Props/DropTime.lean` | p, q |
| C58 | `Drop.C58_quadratic_when_shared` | `Props/DropTime.lean` | p, c, q |
| C59 | `C59_call` | `Props/Invariant.lean` | p, c, q |
| C59 | `C59_history` | `Props/Invariant.lean` | p, c, q |
| C59 | `C59_parse` | `Props/Invariant.lean` | p, c, q |
| C59 | `C59_call_provided` | `Props/Invariant.lean` | p, c, q |
| C59 | `C59_history_provided` | `Props/Invariant.lean` | p, c, q |
| C59 | `C59_parse_provided` | `Props/Invariant.lean` | p, c, q |
| C59 | `C24_positions_exact_with_bindings` | `Props/Invariant.lean` | p, c, q |
| C60 | `C60_reference` | `Props/Append.lean` | p, c, q |
| C60 | `C60_append_provided` | `Props/Append.lean` | p, c, q |
| C60 | `C60_bindings_provided` | `Props/Append.lean` | p, c, q |
| C60 | `C60_str` | `Props/Append.lean` | p, c, q |
| C60 | `C60_stream` | `Props/Append.lean` | p, c, q |
| C60 | `C60_parse_str` | `Props/Append.lean` | p, c, q |
| C61 | `C61_shares` | `Props/Shared.lean` | p, c, q |
| C61 | `C61_shares_text` | `Props/Shared.lean` | p, c, q |
| C61 | `C61_lets_go` | `Props/Shared.lean` | p, c, q |
| C61 | `C61_at_end` | `Props/Shared.lean` | p, c, q |
| C62 | `C62_vec` | `Props/ChunkIter.lean` | p |
| C62 | `C62_datum_list` | `Props/ChunkIter.lean` | p |
| C62 | `C62_chunks` | `Props/ChunkIter.lean` | p |
| C62 | `C62_stream` | `Props/ChunkIter.lean` | p, c, q |
| C62 | `C62_same_history` | `Props/ChunkIter.lean` | p, q |
| C62 | `C62_datum_list_panics` | `Props/ChunkIter.lean` | p |
| C63 | `C63_hash_depth` | `Props/Clone.lean` | p, q |
| C63 | `C63_list_levels` | `Props/Clone.lean` | p, q |
| C63 | `C63_flat_source` | `Props/Clone.lean` | p, q |
| C63 | `Mem.C63_box` | `Props/Clone.lean` | p, q |
| C63 | `Mem.C63_counted` | `Props/Clone.lean` | p, c, q |
| C63 | `Mem.C63_dropped` | `Props/Clone.lean` | p, c, q |
| C64 | `ArcDrop.C64_no_failure` | `Props/ArcDrop.lean` | p, c, q |
| C64 | `ArcDrop.C64_ends` | `Props/ArcDrop.lean` | p, c, q |
| C64 | `ArcDrop.C64_ends_always` | `Props/ArcDrop.lean` | p, c, q |
| C64 | `ArcDrop.C64_undisturbed` | `Props/ArcDrop.lean` | p, c, q |
| C64 | `ArcDrop.C64_nothing_left` | `Props/ArcDrop.lean` | p, c, q |
| C64 | `ArcDrop.C64_leaves` | `Props/ArcDrop.lean` | p, c, q |
| C64 | `ArcDrop.C64_depth` | `Props/ArcDrop.lean` | p, c, q |
| C64 | `ArcDrop.C64_unshared_depth` | `Props/ArcDrop.lean` | p, c, q |
| C65 | `C65_history` | `Props/Slices.lean` | p, c, q |
| C65 | `C65_parse` | `Props/Slices.lean` | p, c, q |
| C65 | `C65_fewest` | `Props/Slices.lean` | p, c, q |
| C65 | `C65_string` | `Props/Slices.lean` | p, c, q |
| C65 | `C65_chars` | `Props/Slices.lean` | p, c, q |
| C65 | `C65_strings` | `Props/Slices.lean` | p, c, q |
| C65 | `C65_chunks_count` | `Props/Slices.lean` | p, q |
| C66 | `C66_counting_changes_nothing` | `Props/ConcatCost.lean` | p, q |
| C66 | `C66_concats` | `Props/ConcatCost.lean` | p, c, q |
| C66 | `C66_looks` | `Props/ConcatCost.lean` | p, c, q |
| C66 | `C66_vec_moves` | `Props/ConcatCost.lean` | p, c, q |
| C66 | `C66_list_turns` | `Props/ConcatCost.lean` | p, c, q |
| C66 | `C66_list_quadratic` | `Props/ConcatCost.lean` | p, c, q |
| C66 | `C66_core_quadratic` | `Props/ConcatCost.lean` | p, c, q |
| C67 | `C67_operand_text` | `Props/Defer.lean` | p, c, q |
| C67 | `C67_same_meaning` | `Props/Defer.lean` | p |
| C67 | `C67_call` | `Props/Defer.lean` | p, c, q |
| C67 | `C67_meaning` | `Props/Defer.lean` | p, c, q |
| C67 | `C67_meaning_provided` | `Props/Defer.lean` | p, c, q |
| C67 | `C67_parsing_defers` | `Props/Defer.lean` | p, c, q |
| C67 | `C67_exact` | `Props/Defer.lean` | p, c, q |
| C67 | `C67_exists` | `Props/Defer.lean` | p, c, q |
| C67 | `C67_recursive` | `Props/Defer.lean` | p, q |
| C67 | `C67_not_with_escapes` | `Props/Defer.lean` | p, c, q |
| C68 | `C68_call` | `Props/Unwind.lean` | p, c, q |
| C68 | `C68_depth` | `Props/Unwind.lean` | p, c, q |
| C68 | `C68_until_panic` | `Props/Unwind.lean` | p, c, q |
| C68 | `C68_returning` | `Props/Unwind.lean` | p, c, q |
| C68 | `C68_new_iterator` | `Props/Unwind.lean` | p, c, q |
| C68 | `C68_same_iterator` | `Props/Unwind.lean` | p, c, q |
| C68 | `C68_never_none` | `Props/Unwind.lean` | p, c, q |
| C68 | `C68_stuck` | `Props/Unwind.lean` | p, c, q |
| C68 | `C68_call_provided` | `Props/Unwind.lean` | p, c, q |
| C68 | `C68_after_panic_provided` | `Props/Unwind.lean` | p, c, q |
| C69 | `RcHeap.C69_agree` | `Props/DropAgree.lean` | p, c, q |
| C69 | `RcHeap.C69_sole` | `Props/DropAgree.lean` | p, c, q |
| C69 | `Mem.C69_parsed` | `Props/DropUse.lean` | p, c, q |
| C69 | `Mem.C69_inmem` | `Props/DropUse.lean` | p, c, q |
| C69 | `Mem.C69_any` | `Props/AnyStream.lean` | p, c, q |
| C70 | `C70_linear_size` | `Props/Size.lean` | p, c, q |
| C70 | `C70_linear_total` | `Props/Size.lean` | p, c, q |
| C70 | `C70_linear_size_provided` | `Props/Size.lean` | p, c, q |
| C70 | `C70_linear_total_provided` | `Props/Size.lean` | p, c, q |
| C70 | `Mem.C70_memory` | `Props/MemSize.lean` | p, c, q |
| C70 | `Mem.C70_memory_inmem` | `Props/MemSize.lean` | p, c, q |
| C70 | `Mem.C70_memory_stream` | `Props/MemSize.lean` | p, c, q |
| C70 | `Mem.C70_drop_inmem` | `Props/MemSize.lean` | p, c, q |
| C70 | `Mem.C70_memory_any` | `Props/AnyStream.lean` | p, c, q |
| C70 | `Mem.C70_memory_chars` | `Props/AnyStream.lean` | p, c, q |
| C70 | `Mem.C70_drop_any` | `Props/AnyStream.lean` | p, c, q |
| C70 | `Mem.C70_drop_stream` | `Props/AnyStream.lean` | p, c, q |
| C70 | `Mem.C70_drop_chars` | `Props/AnyStream.lean` | p, c, q |
| C70 | `C70_optimal` | `Props/SizeBest.lean` | p, c, q |
| C71 | `Mem.C71_text` | `Props/Threads.lean` | p, c, q |
| C71 | `Mem.C71_strings` | `Props/Threads.lean` | p, c, q |
| C71 | `Mem.C71_inmem` | `Props/Threads.lean` | p, c, q |
| C71 | `Mem.C71_stream` | `Props/Threads.lean` | p, c, q |
| C71 | `Mem.C71_all_dropped` | `Props/Threads.lean` | p, q |
| C71 | `Mem.C71_any` | `Props/AnyStream.lean` | p, c, q |
| C72 | `Mem.C72_heap` | `Props/MemUnwind.lean` | p, c, q |
| C72 | `Mem.C72_all_dropped` | `Props/MemUnwind.lean` | p, c, q |
| C72 | `Mem.C72_until_panic` | `Props/MemUnwind.lean` | p, q |
| C72 | `Mem.C72_text` | `Props/MemUnwind.lean` | p, c, q |
| C72 | `Mem.C72_strings` | `Props/MemUnwind.lean` | p, c, q |
| C72 | `Mem.C72_any` | `Props/AnyStream.lean` | p, c, q |
| C72 | `Mem.C72_anywhere` | `Props/AnyStream.lean` | p, c, q |
| C73 | `C73_replace_provided` | `Props/Replace.lean` | p, c, q |
| C73 | `C73_reference` | `Props/Replace.lean` | p, c, q |
| C73 | `C73_bindings_provided` | `Props/Replace.lean` | p, c, q |
| C73 | `C73_str` | `Props/Replace.lean` | p, c, q |
| C73 | `C73_parse_str` | `Props/Replace.lean` | p, c, q |
| C73 | `C73_stream` | `Props/Replace.lean` | p, c, q |
| C74 | `C74_call` | `Props/Unbound.lean` | p, q |
| C74 | `C74_yields` | `Props/Unbound.lean` | p, q |
| C74 | `C74_parse_str` | `Props/Unbound.lean` | p, c, q |
| C75 | `C75_call` | `Props/Release.lean` | p, q |
| C75 | `C75_only` | `Props/Release.lean` | p, q |
| C75 | `C75_provided` | `Props/Release.lean` | p, c, q |
| C75 | `C75_every` | `Props/Release.lean` | p |
| C75 | `C75_common` | `Props/Release.lean` | p, c, q |
| C76 | `C76_meaning` | `Props/Dynamic.lean` | p, c, q |
| C76 | `C76_ends` | `Props/Dynamic.lean` | p, c, q |
| C76 | `C76_no_panic` | `Props/Dynamic.lean` | p, c, q |
| C76 | `C76_no_error_iff_balanced` | `Props/Dynamic.lean` | p, c, q |
| C76 | `C76_total` | `Props/Dynamic.lean` | p, c, q |
| C76 | `C76_first_error` | `Props/Dynamic.lean` | p, c, q |
| C76 | `C76_results` | `Props/Dynamic.lean` | p, c, q |
| C76 | `C76_results_provided` | `Props/Dynamic.lean` | p, c, q |
| C76 | `C76_once_per_nest` | `Props/Dynamic.lean` | p, c, q |
| C76 | `C76_meaning_provided` | `Props/Dynamic.lean` | p, c, q |
| C76 | `C76_total_provided` | `Props/Dynamic.lean` | p, c, q |
| C76 | `C76_no_panic_provided` | `Props/Dynamic.lean` | p, c, q |
| C76 | `C76_first_error_provided` | `Props/Dynamic.lean` | p, c, q |
| C76 | `C76_exact` | `Props/Dynamic.lean` | p, c, q |
| C76 | `C76_fixed` | `Props/Dynamic.lean` | q |
| C77 | `C77_meaning` | `Props/Delims.lean` | p, c, q |
| C77 | `C77_ends` | `Props/Delims.lean` | p, c, q |
| C77 | `C77_no_panic` | `Props/Delims.lean` | p, c, q |
| C77 | `C77_first_error` | `Props/Delims.lean` | p, c, q |
| C77 | `C77_results` | `Props/Delims.lean` | p, c, q |
| C77 | `C77_meaning_provided` | `Props/Delims.lean` | p, c, q |
| C77 | `C77_no_panic_provided` | `Props/Delims.lean` | p, c, q |
| C77 | `C77_results_provided` | `Props/Delims.lean` | p, c, q |
| C77 | `C77_first_error_provided` | `Props/Delims.lean` | p, c, q |
| C77 | `C77_exact` | `Props/Delims.lean` | p, c, q |
| C77 | `C77_fixed` | `Props/Delims.lean` | p, q |
| C78 | `C78_call` | `Props/Panics.lean` | p, c, q |
| C78 | `C78_unique` | `Props/Panics.lean` | p, q |
| C78 | `C78_returning` | `Props/Panics.lean` | p, c, q |
| C78 | `C78_invariant` | `Props/Panics.lean` | p, q |
| C78 | `C78_history` | `Props/Panics.lean` | p, c, q |
| C78 | `C78_new_iterator` | `Props/Panics.lean` | p, c, q |
| C78 | `C78_until_panic` | `Props/Panics.lean` | p, c, q |
| C78 | `C78_provided` | `Props/Panics.lean` | p, c, q |
| C79 | `Linked.C79_slice` | `Props/LinkText.lean` | p, q |
| C79 | `Linked.C79_core` | `Props/LinkText.lean` | p, c, q |
| C79 | `Linked.C79_strish` | `Props/LinkText.lean` | p, c, q |
| C79 | `Linked.C79_chars` | `Props/LinkText.lean` | p, c, q |
| C79 | `Linked.C79_chunks` | `Props/LinkText.lean` | p, q |
| C80 | `C80_same` | `Props/Counters.lean` | p, c, q |
| C80 | `C80_no_panic` | `Props/Counters.lean` | p, c, q |
| C80 | `C80_all_counters` | `Props/Counters.lean` | p, c, q |
| C80 | `C80_common` | `Props/Counters.lean` | p, c, q |
| C80 | `C80_every_source` | `Props/Counters.lean` | p, q |
| C81 | `AnyUser.C81_one_result` | `Props/AnyUser.lean` | p, q |
| C81 | `AnyUser.C81_depth` | `Props/AnyUser.lean` | p, q |
| C81 | `AnyUser.C81_world` | `Props/AnyUser.lean` | p, q |
| C81 | `AnyUser.C81_errors` | `Props/AnyUser.lean` | p, q |
| C81 | `AnyUser.C81_made` | `Props/AnyUser.lean` | p, q |
| C81 | `AnyUser.C81_ends` | `Props/AnyUser.lean` | p, c, q |
| C81 | `AnyUser.C81_progress` | `Props/AnyUser.lean` | p, c, q |
| C81 | `AnyUser.C81_no_panic` | `Props/AnyUser.lean` | p, c, q |
| C81 | `AnyUser.C81_hangs` | `Props/AnyUser.lean` | p, q |
| C81 | `AnyUser.C81_wavering` | `Props/AnyUser.lean` | p |
| C81 | `AnyUser.C81_panics_model` | `Props/AnyUser.lean` | p, q |
| C81 | `AnyUser.C81_delims_model` | `Props/AnyUser.lean` | p |
| C82 | `Drop.C82_depth_is_number_shared` | `Props/Drop.lean` | p, c, q |
| C83 | `Drop.C83_time_with_sharing` | `Props/DropShared.lean` | p, q |
| C84 | `RcHeap.C84_depth` | `Props/RcDepth.lean` | p, c, q |
| C85 | `RcHeap.C85_time` | `Props/RcTime.lean` | p, c, q |
| C86 | `RcHeap.C86_shared_from_outside` | `Props/RcSteady.lean` | p, c, q |
| C86 | `RcHeap.C86_not_bounded` | `Props/RcSteady.lean` | p, c, q |
| C87 | `Mem.C87_among` | `Props/ThreadsUnwind.lean` | p, c, q |
| C87 | `Mem.C87_all_dropped` | `Props/ThreadsUnwind.lean` | p, q |
| C87 | `Mem.C87_anywhere` | `Props/ThreadsUnwind.lean` | p, c, q |
| C87 | `Mem.C87_text` | `Props/ThreadsUnwind.lean` | p, c, q |
| C87 | `Mem.C87_strings` | `Props/ThreadsUnwind.lean` | p, c, q |
| C87 | `Mem.C72_until_panic` | `Props/MemUnwind.lean` | p, q |
| C88 | `C88_one_result` | `Props/Format.lean` | p, c, q |
| C88 | `C88_same_parsed` | `Props/Format.lean` | p, c, q |
| C88 | `C88_normal_form` | `Props/Format.lean` | p, c, q |
| C88 | `C88_idempotent` | `Props/Format.lean` | p, c, q |
| C88 | `C88_length` | `Props/Format.lean` | p, c, q |
| C89 | `C89_counting_changes_nothing` | `Props/StreamWork.lean` | p |
| C89 | `C89_text` | `Props/StreamWork.lean` | p, c, q |
| C89 | `C89_whole_text` | `Props/StreamWork.lean` | p, c, q |
| C89 | `C89_end_is_sought_again` | `Props/StreamWork.lean` | p, c, q |
| C89 | `C89_strings` | `Props/StreamWork.lean` | p, c, q |
| C89 | `C89_chars` | `Props/StreamWork.lean` | p, q |
| C90 | `C90_in_order` | `Props/CompareWork.lean` | p, q |
| C90 | `C90_in_order_memory` | `Props/CompareWork.lean` | p, q |
| C90 | `C90_turns` | `Props/CompareWork.lean` | p, q |
| C90 | `C90_hash_writes` | `Props/CompareWork.lean` | p, q |
| C90 | `C90_shared_exponential` | `Props/CompareWork.lean` | p, q |
| C90 | `C90_text_eq` | `Props/CompareWork.lean` | p, q |
| C90 | `C90_text_cmp` | `Props/CompareWork.lean` | p, c, q |
| C90 | `C90_text_hash` | `Props/CompareWork.lean` | p, q |
| C90 | `C90_text_encode` | `Props/CompareWork.lean` | p, c, q |
| C90 | `C90_text_turns` | `Props/CompareWork.lean` | p, q |
| C90 | `C90_parsed` | `Props/CompareWork.lean` | p, c, q |
| C90 | `C90_parsed_inmem` | `Props/CompareWork.lean` | p, c, q |
| C91 | `C91_modular` | `Props/Wrap.lean` | p, q |
| C91 | `C91_call` | `Props/Wrap.lean` | p, q |
| C91 | `C91_only` | `Props/Wrap.lean` | p, q |
| C91 | `C91_provided` | `Props/Wrap.lean` | p, c, q |
| C91 | `C91_every` | `Props/Wrap.lean` | p |
| C91 | `C91_common` | `Props/Wrap.lean` | p, c, q |
| C91 | `C91_beyond` | `Props/Wrap.lean` | p |
| C92 | `C92_exact` | `Props/TreeShapes.lean` | p, q |
| C92 | `C92_least` | `Props/TreeShapes.lean` | p, c, q |
| C92 | `C92_most` | `Props/TreeShapes.lean` | p, c, q |
| C92 | `C92_fastest` | `Props/TreeShapes.lean` | p, c, q |
| C92 | `C92_made` | `Props/TreeShapes.lean` | p, q |
| C92 | `C92_fan` | `Props/TreeShapes.lean` | p, c, q |
| C92 | `C92_fan_depth` | `Props/TreeShapes.lean` | p, q |
| C92 | `C92_vee` | `Props/TreeShapes.lean` | p, c, q |
| C92 | `C92_vee2r` | `Props/TreeShapes.lean` | p, c, q |
| C93 | `C93_made` | `Props/MultiStrong.lean` | p, c, q |
| C93 | `C93_first` | `Props/MultiStrong.lean` | p, c, q |
| C93 | `C93_rest` | `Props/MultiStrong.lean` | p, c, q |
| C93 | `C93_test` | `Props/MultiStrong.lean` | p, c, q |
| C94 | `C94_made` | `Props/WeakDrop.lean` | p, c, q |
| C94 | `C94_drop` | `Props/WeakDrop.lean` | p, c, q |
| C94 | `C94_outside` | `Props/WeakDrop.lean` | p, c, q |
| C94 | `C94_allocates` | `Props/WeakDrop.lean` | p, c, q |
| C95 | `C95_forget` | `Props/WeakSim.lean` | p, q |
| C95 | `C95_agree` | `Props/WeakSim.lean` | p, c, q |
| C95 | `C95_shared` | `Props/WeakSim.lean` | p, c, q |
