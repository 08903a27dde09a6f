import Verif.Conformance.Units

/-!
# The model run on the library's example programs

The inputs, bindings and sizes of memory of `core/examples/stack_only.rs`,
`examples/common_basic.rs` and `examples/non_default_delimiters.rs`. These are tests of the
model's fidelity, computed by the kernel; no claim rests on them. The slices of 5 and 18 datums
of `stack_only.rs` were chosen by its authors to be just large enough: the model agrees, down
to the last datum.
-/

namespace Kul.Suite.Examples

open Parse

/-- All results of `parse_text_with` in a slice of `n` datums, and how many datums of the slice
are left. -/
def all {ε CE : Type} (lookup : Datum (CoreText ε) ε → Option (Combiner (CoreText ε) ε (CoreMem ε) StrPos CE))
    (n : Nat) (s : String) : Option (List (Datum Str ε ⊕ Err StrPos CE) × Nat) :=
  go 20 (parseTextWith s.toList (.new (List.replicate n .emptyNest)))
where
  /-- The results from here on. -/
  go : Nat → TakeIter (TextIter PosStr PosStrIter StrPos (CoreText ε)) (CoreMem ε) →
      Option (List (Datum Str ε ⊕ Err StrPos CE) × Nat)
    | 0, _ => none
    | k + 1, it =>
      match (coreEnv lookup).takeNext 100 it with
      | (.ok none, it) => some ([], (it.iter.alloc.unused.getD []).length)
      | (.ok (some r), it) => do
        let r ← match r with
          | .ok d => (Parse.content posStrOps (textDatumList posStrOps (sliceAlloc _ _)) d).map .inl
          | .error e => some (.inr e)
        let (rs, m) ← go k it
        return (r :: rs, m)
      | _ => none

/-- The extras of the examples. The time of `current-time` is not modelled. -/
inductive Extra where
  | thing
  | integer (i : Int)
deriving DecidableEq

/-- The errors of the combiners of the examples, without the datum of `Darnit`. -/
inductive Fail where
  | oops
  | darnit
  | tooLong
deriving DecidableEq

/-- `i128::from_str` on the inputs of the examples: an optional sign, then decimal digits. The
bounds of `i128` are left out. -/
def intFromStr (s : Str) : Option Int :=
  match s with
  | '-' :: s => (digits s).map fun n => -(n : Int)
  | '+' :: s => (digits s).map fun n => (n : Int)
  | s => (digits s).map fun n => (n : Int)
where
  /-- Decimal digits, at least one. -/
  digits (s : Str) : Option Nat :=
    if s.isEmpty then none
    else s.foldl (fun a c => a.bind fun n =>
      if '0' ≤ c ∧ c ≤ '9' then some (10 * n + (c.toNat - '0'.toNat)) else none) (some 0)

/-- `core/examples/stack_only.rs` 105-168 (with `encode = true`, the text of `int` goes through
a buffer of 39 bytes) and `examples/common_basic.rs` 56-113: the bindings. -/
def bound {C CS P τ α : Type} (O : ChunkOps C CS P) (T : TextType C τ α) (ofStr : Str → C)
    (encode : Bool) (time : Str) : Datum τ Extra → Option (Combiner τ Extra α P Fail) :=
  let teq t u := match T.eq O O T 200 t u with | .ok b => b | _ => false
  let txt s := Datum.text (T.ofChunk (ofStr s))
  let toStr (t : τ) : Option Str :=
    if encode then
      match T.encodeUtf8 O 100 t (List.replicate 39 0) with
      | .ok (.ok s, _) => some s
      | _ => none
    else chars O T t
  pairLookup (Datum.eqv teq fun a b => a = b)
    [(txt "#".toList, .operative fun _ _ a => (.ok none, a)),
     (txt time, .applicative fun _ operands a =>
        match operands with
        | .emptyList => (.ok (some (.extra .thing)), a)
        | _ => (.error (.failedCombiner .darnit), a)),
     (txt "int".toList, .operative fun _ operands a =>
        match toStr operands with
        | none => (.error (.failedCombiner .tooLong), a)
        | some s =>
          match intFromStr s with
          | none => (.error (.failedCombiner .oops), a)
          | some i => (.ok (some (.extra (.integer i))), a)),
     (.combination (txt "compound".toList) .emptyList, .applicative fun _ operands a => (.ok (some operands), a))]

/-- `core/examples/stack_only.rs` `no_extension`. -/
def stackOnly (n : Nat) : Option (List (Datum Str Unit ⊕ Err StrPos Unit) × Nat) :=
  all (fun _ => none) n "Surrounding {▷ e\\\\sc} text."

example : stackOnly 5 =
    some ([.inl (t "Surrounding "),
           .inl (.combination (t "▷") (.list (t "e\\sc") .emptyList)),
           .inl (t " text.")], 0) := by decide +kernel

/-- With one datum less, the second form runs out of memory, and that error ends the parsing. -/
example : stackOnly 4 =
    some ([.inl (t "Surrounding "), .inr (.failedAlloc .allocExhausted)], 0) := by decide +kernel

/-- `core/examples/stack_only.rs` `with_extensions`. -/
def stackOnlyWith (n : Nat) : Option (List (Datum Str Extra ⊕ Err StrPos Fail) × Nat) :=
  all (bound posStrOps (textDatumList posStrOps (sliceAlloc _ _)) .ofStr true "thing".toList) n
    "{{compound} {thing} {# removed} {unbound form} {int -42}}"

/-- What the form of the examples becomes: the removed form leaves the spaces around it. -/
def extended : Datum Str Extra :=
  .list (.extra .thing) (.list (t " ") (.list (t " ")
    (.list (.combination (t "unbound") (.list (t "form") .emptyList))
      (.list (t " ") (.list (.extra (.integer (-42))) .emptyList)))))

example : stackOnlyWith 18 = some ([.inl extended], 0) := by decide +kernel

example : stackOnlyWith 17 = some ([.inr (.failedAlloc .allocExhausted)], 0) := by decide +kernel

/-! `examples/common_basic.rs` `no_extension`: -/

example : str "λ" = some ([t "λ"], none) := by decide +kernel
example : str "es\\{c\\}ap\\\\es" = some ([t "es{c}ap\\es"], none) := by decide +kernel
example : str "{}" = some ([.emptyNest], none) := by decide +kernel
example : str "{▷}" = some ([.combination (t "▷") .emptyList], none) := by decide +kernel
example : str "Surrounding {{▷} λ {}} text." =
    some ([t "Surrounding ",
           .combination (.combination (t "▷") .emptyList) (.list (t "λ ") (.list .emptyNest .emptyList)),
           t " text."], none) := by decide +kernel

/-- `examples/common_basic.rs` `with_extensions`. -/
example :
    (match (parseStrWith (α := Unit) 100 20
        (bound posStrOps (textVec Unit posStrOps) .ofStr false "current-time".toList)
        "{{compound} {current-time} {# removed} {unbound form} {int -42}}".toList ()).1 with
      | .ok rs => sorted posStrOps (textVec Unit posStrOps) rs
      | _ => none) = some ([extended], none) := by decide +kernel

/-- `examples/non_default_delimiters.rs` 12-30 `CustomCharClassifier`. -/
def customClassifier : Classifier :=
  { isNestStart := (· = '⟪'), isNestEnd := (· = '⟫'), isNestEscape := (· = '␛'),
    isWhitespace := defaultClassifier.isWhitespace }

/-- `examples/non_default_delimiters.rs` 34-46, the input. -/
def rustInput : String :=
  "\nUsing non-default delimiters:\n\n⟪⟪source-code Rust⟫\n    use kul::common::inmem::parse_str;\n\n    fn main() {\n        let input = \"Escaped the {bold non-default} delimiters: ␛⟪, ␛⟫, ␛␛\";\n        dbg!(parse_str(input));\n    }\n⟫\n"

/-- The parser of `examples/non_default_delimiters.rs` 47-51. -/
def customEnv : Env (TextIter PosStr PosStrIter StrPos (TextVec PosStr)) StrPos (TextVec PosStr) Unit Unit Unit :=
  { inmemEnv (fun _ => none) with cc := customClassifier }

/-- `examples/non_default_delimiters.rs` 52-62: what is printed as the selected text. -/
def selected : Option Str :=
  match (customEnv.collectLoop 400 20 [] (.new (.init (inmemSource rustInput.toList) ()))).1 with
  | .ok (_ :: .ok (.combination _ (.list (.text text) _)) :: _) => chars posStrOps (textVec Unit posStrOps) text
  | _ => none

example : selected = some
    "    use kul::common::inmem::parse_str;\n\n    fn main() {\n        let input = \"Escaped the {bold non-default} delimiters: ⟪, ⟫, ␛\";\n        dbg!(parse_str(input));\n    }\n".toList := by
  decide +kernel

end Kul.Suite.Examples
