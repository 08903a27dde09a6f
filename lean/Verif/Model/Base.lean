/-!
# Values of the kul parser

Models `core/src/lib.rs` 137-143 (`SourceIterItem`), `core/src/error.rs` 11-24
(`Error`), `core/src/parser.rs` 29-32 (`AllocError`), 49-66 (`CharClassifier`),
74-97 (`DatumAllocator`), 104-127 (`OperatorBindings`), `core/src/datum.rs` 18-46
(`Datum`), `core/src/combiner.rs` 21-52 (`Combiner`, `OpFn`, `ApFn`, `Result`).
-/

namespace Kul

/-- `core/src/lib.rs` 137-143 `SourceIterItem { ch, pos }`.
`P` is the position type `TextBase::Pos`. Rust's `char` and Lean's `Char` are
both the Unicode scalar values. -/
structure Item (P : Type) where
  ch : Char
  pos : P
deriving DecidableEq, Repr

/-- `core/src/parser.rs` 29-32 `AllocError`. -/
inductive AllocErr where
  | allocExhausted
deriving DecidableEq, Repr

/-- `core/src/error.rs` 11-24 `Error<Pos, CE>`. -/
inductive Err (P CE : Type) where
  | unbalancedEndChar (pos : P)
  | missingEndChar
  | failedAlloc (e : AllocErr)
  | failedDerefTryMut
  | failedCombiner (e : CE)
deriving DecidableEq, Repr

/-- `core/src/datum.rs` 18-46 `Datum<TT, ET, DR>`. The reference type `DR` is
modelled by value: a reference is the datum it refers to. (Aliasing is modelled
separately where it can be observed: `Model/Drop.lean`, `Model/RcCell.lean`,
`Model/Alloc.lean`, `Model/RcHeap.lean`.) -/
inductive Datum (τ ε : Type) where
  | text (t : τ)
  | combination (operator operands : Datum τ ε)
  | emptyNest
  | list (elem next : Datum τ ε)
  | emptyList
  | extra (e : ε)
deriving DecidableEq, Repr

/-- `core/src/parser.rs` 49-66 trait `CharClassifier`. The Rust methods take
`&self`; they are modelled as pure predicates (simplification: no interior
mutability in a classifier). -/
structure Classifier where
  isNestStart : Char → Bool
  isNestEnd : Char → Bool
  isNestEscape : Char → Bool
  isWhitespace : Char → Bool

/-- Result of a modelled action. `ok`/`err` are Rust's `Ok`/`Err`. `panic` is a
Rust panic (failed `unwrap`, `unreachable!`, slice index out of bounds, failed
`debug_assert!`). `fuel` says that the model's step budget ran out; it is proved
that a budget linear in the size of the source is always enough. -/
inductive Outcome (ε α : Type) where
  | ok (a : α)
  | err (e : ε)
  | panic
  | fuel
deriving DecidableEq, Repr

namespace Outcome

/-- Rust's `Result::map_err` (used implicitly by `?` via `From`). -/
def mapErr {ε ε' α : Type} (f : ε → ε') : Outcome ε α → Outcome ε' α
  | ok a => ok a
  | err e => err (f e)
  | panic => panic
  | fuel => fuel

/-- Rust's `Result` as an outcome. -/
def ofExcept {ε α : Type} : Except ε α → Outcome ε α
  | .ok a => ok a
  | .error e => err e

end Outcome

/-- `core/src/combiner.rs` 21-26 `Combiner`, with 34 `OpFn`, 44 `ApFn`, 52
`Result`. A combiner gets the head datum, the operands (unparsed text for an
operative, a datum list for an applicative) and `&mut` access to the allocator.
The Rust closures are `Fn` but may have interior effects; such effects are
represented by the allocator state `α`, which is arbitrary. Combiners are assumed
to return (not to panic or diverge); for those that panic see `Model/Unwind.lean`. -/
inductive Combiner (τ ε α P CE : Type) where
  | operative (f : Datum τ ε → τ → α → Except (Err P CE) (Option (Datum τ ε)) × α)
  | applicative (f : Datum τ ε → Datum τ ε → α → Except (Err P CE) (Option (Datum τ ε)) × α)

/-- `core/src/parser.rs` 74-97 trait `DatumAllocator`. `newDatum` is `new_datum`;
the returned reference is, by value, the datum that was passed in, so only
success or failure is returned. `getMutFresh` says whether
`DerefTryMut::get_mut` (`core/src/datum.rs` 115-122) succeeds on the reference
that was returned by the latest `new_datum`. -/
structure AllocOps (τ ε α : Type) where
  newDatum : Datum τ ε → α → Except AllocErr Unit × α
  getMutFresh : α → Bool

/-- `core/src/lib.rs` 164-195 trait `SourceStream<DA>` (with its supertrait
`Iterator`). `σ` is the state of the stream. `peek` and `next` cannot return an
error, only an item or nothing (or panic). -/
structure StreamOps (σ P τ α : Type) where
  peek : σ → Outcome Empty (Option (Item P)) × σ
  next : σ → Outcome Empty (Option (Item P)) × σ
  nextAccum : σ → α → Outcome AllocErr (Option (Item P)) × σ × α
  accumDone : σ → α → Outcome AllocErr τ × σ × α

/-- `core/src/text.rs` 27-38 `TextBase::empty` and 300-307 `TextConcat::concat`. -/
structure TextOps (τ α : Type) where
  empty : τ
  concat : τ → τ → α → Outcome AllocErr τ × α

/-- Everything a parse needs: `core/src/lib.rs` 202-228 `Parser { classifier,
allocator, bindings }` together with the type parameters `S` and `TT`. -/
structure Env (σ P τ ε α CE : Type) where
  cc : Classifier
  strm : StreamOps σ P τ α
  text : TextOps τ α
  alloc : AllocOps τ ε α
  /-- `core/src/parser.rs` 104-127 `OperatorBindings::lookup`. -/
  lookup : Datum τ ε → Option (Combiner τ ε α P CE)

/-- Mutable state of a parse: the source stream and nest depth of `ParseIter`
(`core/src/lib.rs` 238-259) and the allocator of its `Parser`. -/
structure St (σ α : Type) where
  strm : σ
  alloc : α
  ndepth : Nat

/-- An action on mutable state: the new state is kept also on error, because the
Rust code mutates through `&mut` and its caller can go on after an `Err`. -/
def Act (S E A : Type) : Type := S → Outcome E A × S

namespace Act

/-- Return a value. -/
def pure {S E A : Type} (a : A) : Act S E A := fun s => (.ok a, s)

/-- Sequencing with Rust's `?`: errors and panics stop the action. -/
def bind {S E A B : Type} (x : Act S E A) (f : A → Act S E B) : Act S E B := fun s =>
  match x s with
  | (.ok a, s') => f a s'
  | (.err e, s') => (.err e, s')
  | (.panic, s') => (.panic, s')
  | (.fuel, s') => (.fuel, s')

instance {S E : Type} : Monad (Act S E) where
  pure := Act.pure
  bind := Act.bind

/-- `return Err(e)`. -/
def throw {S E A : Type} (e : E) : Act S E A := fun s => (.err e, s)

/-- A Rust panic. -/
def panic {S E A : Type} : Act S E A := fun s => (.panic, s)

/-- The step budget ran out. -/
def fuel {S E A : Type} : Act S E A := fun s => (.fuel, s)

/-- `debug_assert!(b)`, with debug assertions enabled. -/
def debugAssert {S E : Type} (b : Bool) : Act S E Unit := if b then pure () else panic

end Act

end Kul
