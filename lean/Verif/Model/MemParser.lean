import Verif.Model.Parser

/-!
# The parser with datums in memory

Models the same functions as `Model/Parser.lean` (`core/src/lib.rs` 276-590), but with references to
datums as addresses in a memory, where `Model/Parser.lean` has datums by value: `new_datum` puts a
datum in memory and gives its address, `parse_all` builds its list in place by writing through its
`tail` pointer, and what a function owns is dropped where it returns early with `?`. Texts and extras are
by value. Functions that have nothing to do with datums are those of `Model/Parser.lean`.
-/

namespace Kul.Mem

/-- A reference to a datum: the type parameter `DR` of `Datum`. -/
abbrev Addr := Nat

/-- `core/src/datum.rs` 18-46 `Datum<TT, ET, DR>`. -/
inductive Dat (τ ε : Type) where
  | text (t : τ)
  | combination (operator operands : Addr)
  | emptyNest
  | list (elem next : Addr)
  | emptyList
  | extra (e : ε)
deriving DecidableEq, Repr

/-- The references in a datum, in the order in which they are dropped. -/
def Dat.refs {τ ε : Type} : Dat τ ε → List Addr
  | .combination p q | .list p q => [p, q]
  | _ => []

/-- `core/src/combiner.rs` 21-26 `Combiner`. Combiners own their arguments and get the allocator `α`,
of which the memory is a part. -/
inductive Combiner (τ ε α P CE : Type) where
  | operative (f : Dat τ ε → τ → α → Except (Err P CE) (Option (Dat τ ε)) × α)
  | applicative (f : Dat τ ε → Dat τ ε → α → Except (Err P CE) (Option (Dat τ ε)) × α)

/-- `core/src/parser.rs` 74-97 trait `DatumAllocator`, and what its references can do. -/
structure AllocOps (τ ε α : Type) where
  /-- `new_datum`. If it fails, it has dropped the datum. -/
  newDatum : Dat τ ε → α → Except AllocErr Addr × α
  /-- `Deref::deref`. -/
  read : α → Addr → Option (Dat τ ε)
  /-- `DerefTryMut::get_mut` (`core/src/datum.rs` 115-122): is it `Some`? -/
  getMut : Addr → α → Bool
  /-- Writing through the pointer that `get_mut` gave. -/
  write : Addr → Dat τ ε → α → α
  /-- Dropping of a reference. -/
  dropRef : Addr → α → α
  /-- `Clone::clone` of a datum (`core/src/datum.rs` 17, derived), as far as there is one for the type of references.
  The number says how deep calls of it can be nested before the stack overflows, which is `none`. -/
  clone : Nat → Dat τ ε → α → Option (Dat τ ε × α)

/-- Dropping of a datum: of the references in it. -/
def AllocOps.dropDat {τ ε α : Type} (al : AllocOps τ ε α) (d : Dat τ ε) (a : α) : α :=
  d.refs.foldl (fun a p => al.dropRef p a) a

/-- `core/src/lib.rs` 202-228 `Parser`, with the type parameters `S` and `TT`. -/
structure Env (σ P τ ε α CE : Type) where
  cc : Classifier
  strm : StreamOps σ P τ α
  text : TextOps τ α
  alloc : AllocOps τ ε α
  /-- `core/src/parser.rs` 104-127 `OperatorBindings::lookup`; it may look at the datums that the operator
  refers to. -/
  lookup : Dat τ ε → α → Option (Combiner τ ε α P CE)

/-- Dropping of owned values where a function returns early with an error. -/
def onErr {σ α E A : Type} (x : Act (St σ α) E A) (clean : α → α) : Act (St σ α) E A := fun s =>
  match x s with
  | (.err e, s') => (.err e, { s' with alloc := clean s'.alloc })
  | r => r

variable {σ P τ ε α CE : Type} (E : Env σ P τ ε α CE)

namespace Env

/-- For use of the functions of `Model/Parser.lean` that neither allocate datums nor look up bindings. -/
def scan : Kul.Env σ P τ ε α CE where
  cc := E.cc
  strm := E.strm
  text := E.text
  alloc := ⟨fun _ a => (.ok (), a), fun _ => true⟩
  lookup _ := none

/-- `DatumAllocator::new_datum`. -/
def newDatum (d : Dat τ ε) : Act (St σ α) (Err P CE) Addr :=
  liftAlloc fun a => match E.alloc.newDatum d a with
    | (r, a') => (Outcome.ofExcept r, a')

/-- `DerefTryMut::get_mut`: is it `Some`? -/
def getMut (p : Addr) : Act (St σ α) (Err P CE) Bool := fun s => (.ok (E.alloc.getMut p s.alloc), s)

/-- `OperatorBindings::lookup`. -/
def find (d : Dat τ ε) : Act (St σ α) (Err P CE) (Option (Combiner τ ε α P CE)) := fun s =>
  (.ok (E.lookup d s.alloc), s)

/-- `core/src/lib.rs` 539-542 `*tail = d`, where `tail` is a pointer to the local variable `head` (`none`) or
to a datum in memory; gives the new `head`. The old value is always `EmptyList`, so that there is nothing to
drop. -/
def setTail (head : Dat τ ε) (tail : Option Addr) (d : Dat τ ε) :
    Act (St σ α) (Err P CE) (Dat τ ε) := fun s =>
  match tail with
  | none => (.ok d, s)
  | some p => (.ok head, { s with alloc := E.alloc.write p d s.alloc })

mutual

/-- `core/src/lib.rs` 308-358 `parse_next`. -/
def parseNext : Nat → Mode → Act (St σ α) (Err P CE) (Option (Dat τ ε))
  | 0, _ => Act.fuel
  | n + 1, mode => do
    E.scan.skipLeading n mode
    match ← E.scan.peek with
    | none => do
      let d ← Kul.Env.getDepth
      if d = 0 then pure none else Act.throw .missingEndChar
    | some it =>
      if E.cc.isNestStart it.ch then do
        match ← Kul.Env.nestedInDepth (parseNested n) with
        | none => parseNext n mode
        | some d => pure (some d)
      else if E.cc.isNestEnd it.ch then do
        E.scan.checkEndChar
        pure none
      else do
        let t ← E.scan.parseText n mode
        pure (some (.text t))

/-- `core/src/lib.rs` 448-522 `parse_nested`. -/
def parseNested : Nat → Act (St σ α) (Err P CE) (Option (Dat τ ε))
  | 0 => Act.fuel
  | n + 1 => do
    let start ← E.scan.next
    Act.debugAssert (start.map (fun it => E.cc.isNestStart it.ch) == some true)
    let operator ← parseNext n .operator
    E.scan.skipSeparator
    match operator with
    | some operator => do
      match ← E.find operator with
      | some (.operative opr) => do
        let operands ← onErr (E.scan.parseText n .operands) (E.alloc.dropDat operator)
        onErr E.scan.nestEnd (E.alloc.dropDat operator)
        liftCombiner (opr operator operands)
      | some (.applicative apl) => do
        let arguments ← onErr (parseAll n .base .emptyList none) (E.alloc.dropDat operator)
        onErr E.scan.nestEnd fun a => E.alloc.dropDat operator (E.alloc.dropDat arguments a)
        liftCombiner (apl operator arguments)
      | none => do
        let operands ← onErr (parseAll n .base .emptyList none) (E.alloc.dropDat operator)
        onErr E.scan.nestEnd fun a => E.alloc.dropDat operator (E.alloc.dropDat operands a)
        let p ← onErr (E.newDatum operator) (E.alloc.dropDat operands)
        let q ← onErr (E.newDatum operands) (E.alloc.dropRef p)
        pure (some (.combination p q))
    | none => do
      E.scan.nestEnd
      pure (some .emptyNest)

/-- `core/src/lib.rs` 524-557 `parse_all`; `head` and `tail` are its local variables, `tail` being `none` while it
points to `head`. -/
def parseAll : Nat → Mode → Dat τ ε → Option Addr → Act (St σ α) (Err P CE) (Dat τ ε)
  | 0, _, _, _ => Act.fuel
  | n + 1, mode, head, tail => do
    match ← onErr (parseNext n mode) (E.alloc.dropDat head) with
    | some it => do
      let elem ← onErr (E.newDatum it) (E.alloc.dropDat head)
      let next ← onErr (E.newDatum .emptyList) fun a => E.alloc.dropDat head (E.alloc.dropRef elem a)
      let head ← E.setTail head tail (.list elem next)
      let m ← E.getMut next
      if m then parseAll n mode head (some next)
      else onErr (Act.throw .failedDerefTryMut) (E.alloc.dropDat head)
    | none => pure head

end

/-- A call of `ParseIter::next` (`core/src/lib.rs` 244-259, 299-306) in state `s` gives `o` and leaves state
`s'`. The budget of the model is hidden, as in `Kul.Env.Call`. -/
def Call (s : St σ α) (o : Outcome (Err P CE) (Option (Dat τ ε))) (s' : St σ α) : Prop :=
  ∃ n, E.parseNext n .base s = (o, s') ∧ o ≠ .fuel

/-- A history of what a user does: calls of `next`, which are numbered from 0; dropping of datums got by them; and
cloning of these, if `cloning`; in any order, and also after errors and after `None`. `os` are the results of the calls,
in order; `held` are the datums and clones that were not dropped, each with the number of the call that returned it,
or what it is a clone of. (A panic or an overflow of the stack would end a history.) -/
inductive Uses (cloning : Bool) (s₀ : St σ α) :
    List (Outcome (Err P CE) (Option (Dat τ ε))) → List (Nat × Dat τ ε) → St σ α → Prop where
  | start : Uses cloning s₀ [] [] s₀
  | datum {os held s d s'} : Uses cloning s₀ os held s → E.Call s (.ok (some d)) s' →
      Uses cloning s₀ (os ++ [.ok (some d)]) (held ++ [(os.length, d)]) s'
  | none {os held s s'} : Uses cloning s₀ os held s → E.Call s (.ok none) s' → Uses cloning s₀ (os ++ [.ok none]) held s'
  | error {os held s e s'} : Uses cloning s₀ os held s → E.Call s (.err e) s' → Uses cloning s₀ (os ++ [.err e]) held s'
  | drop {os held i d held' s} : Uses cloning s₀ os (held ++ (i, d) :: held') s →
      Uses cloning s₀ os (held ++ held') { s with alloc := E.alloc.dropDat d s.alloc }
  | clone {os held i d s n d' a} : cloning = true → Uses cloning s₀ os held s → (i, d) ∈ held →
      E.alloc.clone n d s.alloc = some (d', a) → Uses cloning s₀ os (held ++ [(i, d')]) { s with alloc := a }

end Env

end Kul.Mem
