import Verif.Model.Premade

/-!
# The convenience functions

Models `src/common/helper.rs` 7-28 (`collect_up_to_first_err`),
`core/src/premade/inmem.rs` 264-275 (the iterator of `parse_text_with`),
`src/common/inmem.rs` 146-155, 179-182 (`parse_str_with`, `parse_str`) and
`src/common/stream.rs` 151-161, 187-192 (`parse_stream_with`, `parse_stream`).
-/

namespace Kul

variable {σ P τ ε α CE : Type}

/-- The standard library's `TakeWhile` around a `ParseIter`, with the predicate of
`helper.rs` 19-26 (and, the same, `core/src/premade/inmem.rs` 267-275). `flag` is
`TakeWhile`'s own field, `alreadyErrored` the variable that the predicate captures. -/
structure TakeIter (σ α : Type) where
  iter : St σ α
  flag : Bool
  alreadyErrored : Bool

/-- `pi.take_while(..)` at its creation: `helper.rs` 17-18. -/
def TakeIter.new (s : St σ α) : TakeIter σ α := ⟨s, false, false⟩

/-- `helper.rs` 19-26: the predicate, on an item; gives the answer and the new value of
`already_errored`. -/
def upToFirstErr {A B : Type} (alreadyErrored : Bool) (r : Except A B) : Bool × Bool :=
  if alreadyErrored then (false, alreadyErrored)
  else match r with
    | .error _ => (true, true)
    | .ok _ => (true, alreadyErrored)

/-- The item that `ParseIter::next` makes of a result of `do_next`
(`core/src/lib.rs` 257 `transpose`). Panics and an exhausted budget are passed on. -/
def transposeItem {A B : Type} : Outcome A (Option B) → Outcome Empty (Option (Except A B))
  | .ok none => .ok none
  | .ok (some d) => .ok (some (.ok d))
  | .err e => .ok (some (.error e))
  | .panic => .panic
  | .fuel => .fuel

/-- `TakeWhile::next` of the standard library:
`if self.flag { None } else { let x = self.iter.next()?; if (self.predicate)(&x) { Some(x) }
else { self.flag = true; None } }`. -/
def Env.takeNext (E : Env σ P τ ε α CE) (n : Nat) (t : TakeIter σ α) :
    Outcome Empty (Option (Except (Err P CE) (Datum τ ε))) × TakeIter σ α :=
  if t.flag then (.ok none, t)
  else match E.doNext n t.iter with
    | (o, s') =>
      match transposeItem o with
      | .ok none => (.ok none, { t with iter := s' })
      | .ok (some x) =>
        match upToFirstErr t.alreadyErrored x with
        | (true, e) => (.ok (some x), ⟨s', t.flag, e⟩)
        | (false, e) => (.ok none, ⟨s', true, e⟩)
      | .err e => nomatch e
      | .panic => (.panic, { t with iter := s' })
      | .fuel => (.fuel, { t with iter := s' })

/-- `Iterator::collect` into a `Vec`: `k` bounds the number of items, `n` is the budget of
each call. -/
def Env.collectLoop (E : Env σ P τ ε α CE) (n : Nat) :
    Nat → List (Except (Err P CE) (Datum τ ε)) → TakeIter σ α →
      Outcome Empty (List (Except (Err P CE) (Datum τ ε))) × TakeIter σ α
  | 0, _, t => (.fuel, t)
  | k + 1, vec, t =>
    match E.takeNext n t with
    | (.ok none, t') => (.ok vec, t')
    | (.ok (some x), t') => collectLoop E n k (vec ++ [x]) t'
    | (.err e, _) => nomatch e
    | (.panic, t') => (.panic, t')
    | (.fuel, t') => (.fuel, t')

/-- `src/common/helper.rs` 7-28 `collect_up_to_first_err`. -/
def Env.collectUpToFirstErr (E : Env σ P τ ε α CE) (n k : Nat) (pi : St σ α) :
    Outcome Empty (List (Except (Err P CE) (Datum τ ε))) × TakeIter σ α :=
  E.collectLoop n k [] (.new pi)

/-- `src/common/inmem.rs` 146-155 `parse_str_with` (and 179-182 `parse_str`, with no
bindings). `a` is the state that combiners share. -/
def parseStrWith (n k : Nat)
    (lookup : Datum (TextVec PosStr) ε → Option (Combiner (TextVec PosStr) ε α StrPos CE))
    (string : Str) (a : α) :=
  (inmemEnv lookup).collectUpToFirstErr n k (St.init (inmemSource string) a)

/-- `src/common/stream.rs` 151-161 `parse_stream_with` (and 187-192 `parse_stream`). -/
def parseStreamWith (n k : Nat)
    (lookup : Datum (TextVec PosStrish) ε → Option (Combiner (TextVec PosStrish) ε α CharPos CE))
    (pieces : List Str) (a : α) :=
  (streamEnv lookup).collectUpToFirstErr n k (St.init (.new pieces) a)

/-- `core/src/premade/inmem.rs` 250-276 `parse_text_with`: an iterator, not yet advanced. -/
def parseTextWith {ε : Type} (string : Str) (a : CoreMem ε) :
    TakeIter (TextIter PosStr PosStrIter StrPos (CoreText ε)) (CoreMem ε) :=
  .new (St.init (coreSource string) a)

end Kul
