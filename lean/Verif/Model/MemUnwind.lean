import Verif.Model.MemParser
import Verif.Model.Panics

/-!
# The parser with datums in memory, whose user-supplied code may panic

As `Model/MemParser.lean`, but any code that a user supplies may panic at any time: combiners, `lookup` of the
bindings, `new_datum` of the allocator, `get_mut`, the classifier, the source stream, and `empty` and `concat` of
texts; and so may the `debug_assert!`s that a wrong source stream does not meet. While unwinding, each function drops the
values that it owns, as on an early return. The functions that have nothing to do with datums are those of
`Model/Panics.lean`.
-/

namespace Kul.Mem

/-- `core/src/combiner.rs` 21-26 `Combiner`, as in `Model/MemParser.lean`, but the closures may panic (`none`), having
done something. -/
inductive UCombiner (τ ε α P CE : Type) where
  | operative (f : Dat τ ε → τ → α → Option (Except (Err P CE) (Option (Dat τ ε))) × α)
  | applicative (f : Dat τ ε → Dat τ ε → α → Option (Except (Err P CE) (Option (Dat τ ε))) × α)

/-- `core/src/lib.rs` 202-228 `Parser`, with the type parameters `S` and `TT`. The allocator's `new_datum`, and the
bindings, of `env` are not used. -/
structure UEnv (σ P τ ε α CE : Type) where
  env : Env σ P τ ε α CE
  /-- `core/src/parser.rs` 74-97 `DatumAllocator::new_datum`; `none` is a panic. -/
  newDatum : Dat τ ε → α → Option (Except AllocErr Addr) × α
  /-- `core/src/parser.rs` 104-127 `OperatorBindings::lookup`; `none` is a panic. -/
  lookup : Dat τ ε → α → Option (Option (UCombiner τ ε α P CE))
  /-- Does a method of the stream panic, having left what? As in `Model/Panics.lean`. (The methods in `env` may panic
  as well.) -/
  strmPanics : StreamCall → σ → α → Option (σ × α)
  /-- Does `TextBase::empty`, `TextConcat::concat`, a method of the classifier, or `DerefTryMut::get_mut` panic, having
  left what? As in `Model/Panics.lean`; not used of other calls. -/
  panics : UserCall τ ε → α → Option α

/-- Dropping of owned values where a function returns early with an error, or unwinds. -/
def onUnwind {σ α E A : Type} (x : Act (St σ α) E A) (clean : α → α) : Act (St σ α) E A := fun s =>
  match x s with
  | (.err e, s') => (.err e, { s' with alloc := clean s'.alloc })
  | (.panic, s') => (.panic, { s' with alloc := clean s'.alloc })
  | r => r

variable {σ P τ ε α CE : Type} (U : UEnv σ P τ ε α CE)

namespace UEnv

/-- For use of the functions of `Model/Panics.lean` that neither allocate datums nor look up bindings. -/
def scan : PEnv σ P τ ε α CE where
  env := U.env.scan
  strmPanics := U.strmPanics
  panics := U.panics

/-- `DatumAllocator::new_datum`. -/
def new (d : Dat τ ε) : Act (St σ α) (Err P CE) Addr := fun s =>
  match U.newDatum d s.alloc with
  | (some (.ok p), a') => (.ok p, { s with alloc := a' })
  | (some (.error e), a') => (.err (.failedAlloc e), { s with alloc := a' })
  | (none, a') => (.panic, { s with alloc := a' })

/-- `OperatorBindings::lookup`. -/
def find (d : Dat τ ε) : Act (St σ α) (Err P CE) (Option (UCombiner τ ε α P CE)) := fun s =>
  match U.lookup d s.alloc with
  | some c => (.ok c, s)
  | none => (.panic, s)

/-- `DerefTryMut::get_mut`: is it `Some`? -/
def getMut (p : Addr) : Act (St σ α) (Err P CE) Bool := do
  U.scan.ofUser .getMut
  U.env.getMut p

/-- Dropping of what is there. -/
def dropOpt (d : Option (Dat τ ε)) (a : α) : α :=
  match d with
  | some d => U.env.alloc.dropDat d a
  | none => a

mutual

/-- `core/src/lib.rs` 308-358 `parse_next`. -/
def parseNext : Nat → Mode → Act (St σ α) (Err P CE) (Option (Dat τ ε))
  | 0, _ => Act.fuel
  | n + 1, mode => do
    U.scan.skipLeading n mode
    match ← U.scan.peek with
    | none => do
      let d ← Kul.Env.getDepth
      if d = 0 then pure none else Act.throw .missingEndChar
    | some it =>
      if ← U.scan.ask .nestStart it.ch then do
        match ← nestedUnwind (parseNested n) with
        | none => parseNext n mode
        | some d => pure (some d)
      else if ← U.scan.ask .nestEnd it.ch then do
        U.scan.checkEndChar
        pure none
      else do
        let t ← U.scan.parseText n mode
        pure (some (.text t))

/-- `core/src/lib.rs` 448-522 `parse_nested`. -/
def parseNested : Nat → Act (St σ α) (Err P CE) (Option (Dat τ ε))
  | 0 => Act.fuel
  | n + 1 => do
    let start ← U.scan.next
    let b ← U.scan.askItem .nestStart start
    Act.debugAssert (b == some true)
    let operator ← parseNext n .operator
    onUnwind U.scan.skipSeparator (U.dropOpt operator)
    match operator with
    | some operator => do
      match ← onUnwind (U.find operator) (U.env.alloc.dropDat operator) with
      | some (.operative opr) => do
        let operands ← onUnwind (U.scan.parseText n .operands) (U.env.alloc.dropDat operator)
        onUnwind U.scan.nestEnd (U.env.alloc.dropDat operator)
        callUnwind (opr operator operands)
      | some (.applicative apl) => do
        let arguments ← onUnwind (parseAll n .base .emptyList none) (U.env.alloc.dropDat operator)
        onUnwind U.scan.nestEnd fun a => U.env.alloc.dropDat operator (U.env.alloc.dropDat arguments a)
        callUnwind (apl operator arguments)
      | none => do
        let operands ← onUnwind (parseAll n .base .emptyList none) (U.env.alloc.dropDat operator)
        onUnwind U.scan.nestEnd fun a => U.env.alloc.dropDat operator (U.env.alloc.dropDat operands a)
        let p ← onUnwind (U.new operator) (U.env.alloc.dropDat operands)
        let q ← onUnwind (U.new operands) (U.env.alloc.dropRef p)
        pure (some (.combination p q))
    | none => do
      U.scan.nestEnd
      pure (some .emptyNest)

/-- `core/src/lib.rs` 524-557 `parse_all`. -/
def parseAll : Nat → Mode → Dat τ ε → Option Addr → Act (St σ α) (Err P CE) (Dat τ ε)
  | 0, _, _, _ => Act.fuel
  | n + 1, mode, head, tail => do
    match ← onUnwind (parseNext n mode) (U.env.alloc.dropDat head) with
    | some it => do
      let elem ← onUnwind (U.new it) (U.env.alloc.dropDat head)
      let next ← onUnwind (U.new .emptyList) fun a => U.env.alloc.dropDat head (U.env.alloc.dropRef elem a)
      let head ← U.env.setTail head tail (.list elem next)
      let m ← onUnwind (U.getMut next) (U.env.alloc.dropDat head)
      if m then parseAll n mode head (some next)
      else onUnwind (Act.throw .failedDerefTryMut) (U.env.alloc.dropDat head)
    | none => pure head

end

/-- A call of `ParseIter::next` (`core/src/lib.rs` 244-259, 299-306) in state `s` gives `o` and leaves state `s'`.
The outcome `.panic` is a panic that reaches the caller, who may catch it. -/
def Call (s : St σ α) (o : Outcome (Err P CE) (Option (Dat τ ε))) (s' : St σ α) : Prop :=
  ∃ n, U.parseNext n .base s = (o, s') ∧ o ≠ .fuel

end UEnv

/-- The parser `E`, but with other bindings, and combiners, which may panic. All else does not, unless a method of the
stream in `E` does. -/
def Env.unwinding (E : Env σ P τ ε α CE) (lookup : Dat τ ε → α → Option (Option (UCombiner τ ε α P CE))) :
    UEnv σ P τ ε α CE where
  env := E
  newDatum d a := match E.alloc.newDatum d a with | (r, a') => (some r, a')
  lookup := lookup
  strmPanics _ _ _ := none
  panics _ _ := none

end Kul.Mem
