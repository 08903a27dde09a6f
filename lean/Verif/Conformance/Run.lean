import Verif.Conformance.Suite0
import Verif.Model.Bindings
import Verif.Model.Premade
import Verif.Model.TextFns

/-!
# The model run on the library's own test suite

These are tests of the model, not proofs about it, and no claim rests on them: the model of
each parser gives the results that the library's tests expect of the library. Each check is
one run of `test_suite0_with` (`shared_tests/src/suites.rs`) by an integration test of the
library: all cases in turn with one allocator, whose state is passed from each case to the
next. For the allocators that have a limited memory, the size is that of the library's test.
-/

namespace Kul.Suite

variable {C CS P σ τ α : Type}

/-- The characters of a text. -/
def chars (O : ChunkOps C CS P) (T : TextType C τ α) (t : τ) : Option Str :=
  match T.iter O t with
  | .ok s => collect 200 s
  | _ => none
where
  /-- Takes all characters. -/
  collect : Nat → TextIter C CS P τ → Option Str
    | 0, _ => none
    | n + 1, s =>
      match TextType.charsNext O s with
      | (.ok (some c), s) => (collect n s).map (c :: ·)
      | (.ok none, _) => some []
      | _ => none

/-- A datum with the characters of its texts. -/
def content (O : ChunkOps C CS P) (T : TextType C τ α) : Datum τ Unit → Option (Datum Str Unit)
  | .text t => (chars O T t).map .text
  | .combination a b => do return .combination (← content O T a) (← content O T b)
  | .emptyNest => some .emptyNest
  | .list a b => do return .list (← content O T a) (← content O T b)
  | .emptyList => some .emptyList
  | .extra e => some (.extra e)

/-- An error without its position. -/
def errContent : Err P Unit → Err Unit Unit
  | .unbalancedEndChar _ => .unbalancedEndChar ()
  | .missingEndChar => .missingEndChar
  | .failedAlloc e => .failedAlloc e
  | .failedDerefTryMut => .failedDerefTryMut
  | .failedCombiner e => .failedCombiner e

/-- `suites.rs` 243-282: the bindings of the last part of the suite. -/
def suiteBindings (O : ChunkOps C CS P) (T : TextType C τ α) (ofStr : Str → C)
    (al : AllocOps τ Unit α) : Datum τ Unit → Option (Combiner τ Unit α P Unit) :=
  let teq t u := match T.eq O O T 200 t u with | .ok b => b | _ => false
  let txt s := Datum.text (T.ofChunk (ofStr s))
  pairLookup (Datum.eqv teq fun _ _ => true)
    [(txt ['o', 'o'], .operative fun _ operands a => (.ok (some (.text operands)), a)),
     (txt ['a', 'a'], .applicative fun _ operands a => (.ok (some operands), a)),
     (txt ['#'], .applicative fun _ _ a => (.ok none, a)),
     (txt ['c', 'c'], .operative fun _ _ a =>
        match al.newDatum .emptyNest a with
        | (.error e, a) => (.error (.failedAlloc e), a)
        | (.ok (), a) =>
          match al.newDatum .emptyList a with
          | (.error e, a) => (.error (.failedAlloc e), a)
          | (.ok (), a) => (.ok (some (.combination .emptyNest .emptyList)), a)),
     (txt ['f', 'f'], .operative fun _ _ a => (.error (.failedAlloc .allocExhausted), a))]

/-- `shared_tests/src/lib.rs` 47-64 `parse_all`: all results, and the allocator after. -/
def parseAll (O : ChunkOps C CS P) (T : TextType C τ α) (E : Env σ P τ Unit α Unit) :
    Nat → St σ α → Option (List (Outcome (Err Unit Unit) (Datum Str Unit)) × α)
  | 0, _ => none
  | n + 1, s =>
    match E.doNext 200 s with
    | (.ok none, s) => some ([], s.alloc)
    | (.ok (some d), s) => do
      let d ← content O T d
      let (rs, a) ← parseAll O T E n s
      return (.ok d :: rs, a)
    | (.err e, s) => do
      let (rs, a) ← parseAll O T E n s
      return (.err (errContent e) :: rs, a)
    | _ => none

/-- All cases in turn; the allocator after them if all results are as expected. -/
def runCases (O : ChunkOps C CS P) (T : TextType C τ α) (E : Env σ P τ Unit α Unit)
    (source : Str → σ) : List Case → α → Option α
  | [], a => some a
  | (input, expected) :: cs, a =>
    match parseAll O T E 50 (.init (source input) a) with
    | some (rs, a) => if rs = expected then runCases O T E source cs a else none
    | none => none

/-- `shared_tests/src/lib.rs` `custom_delim`: a classifier given by lists of characters. -/
def customDelim (starts ends escapes spaces : List Char) : Classifier where
  isNestStart c := starts.contains c
  isNestEnd c := ends.contains c
  isNestEscape c := escapes.contains c
  isWhitespace c := spaces.contains c

/-- `suites.rs` 87-411 `test_suite0_with`: the whole suite; the allocator after it if all
results are as expected. -/
def suite0 (O : ChunkOps C CS P) (T : TextType C τ α) (ofStr : Str → C) (al : AllocOps τ Unit α)
    (strm : StreamOps σ P τ α) (source : Str → σ) (a : α) : Option α := do
  let E (cc : Classifier) (lookup : Datum τ Unit → Option (Combiner τ Unit α P Unit)) :
      Env σ P τ Unit α Unit := ⟨cc, strm, T.ops, al, lookup⟩
  let a ← runCases O T (E defaultClassifier emptyLookup) source basics a
  let a ← runCases O T (E (customDelim ['⟪'] ['⟫'] ['␛'] ['-']) emptyLookup) source customDelims a
  let a ← runCases O T (E (customDelim ['⟪', '⟦'] ['⟫', '⟧'] ['␛', '⃠'] ['.', ':']) emptyLookup)
    source customDelims2 a
  runCases O T (E defaultClassifier (suiteBindings O T ofStr al)) source combiners a

/-! ## How the tests make streams -/

/-- `tests/stream_strish_source.rs` 49-56 `each_char`: `split("")` gives also an empty string
at each end. -/
def eachChar (s : Str) : List Str := [[]] ++ s.map (fun c => [c]) ++ [[]]

/-- `tests/stream_strish_source.rs` 58-83 `grouped`. The lengths are used in turn, again and
again. -/
def grouped (lens : List Nat) (s : Str) : List Str :=
  let step : List Str × Nat × List Nat → Char → List Str × Nat × List Nat
    | (strings, count, lens'), ch =>
      let count := count + 1
      if count % (lens'.headD 0 + 1) == 0 then
        let rest := lens'.tail
        (strings ++ [[ch]], 1, if rest.isEmpty then lens else rest)
      else (strings.dropLast ++ [(strings.getLast?.getD []) ++ [ch]], count, lens')
  (s.foldl step ([[]], 0, lens)).1

/-- A slice of `n` datums. -/
def slice (τ : Type) (n : Nat) : SliceAlloc (Datum τ Unit) := .new (List.replicate n (.extra ()))

end Kul.Suite
