import Verif.Model.RcHeap

/-!
# Dropping of shared datums by several threads

Models `src/drop.rs` `algo1` with `DatumArc` (509-551) as the reference type, run by any number of threads on
datums that they share. What a thread still has to do is a stack of tasks; one step of a thread is one access to
what is shared, and the steps of the threads are interleaved in any way. Both counts of an `Arc` are modelled as
the standard library keeps them: `weak` is the number of `Weak`s, plus one as long as the strong count is not zero
or the datum is still being dropped; the cell is freed when `weak` becomes zero.

Simplifications: interleaving, that is, sequential consistency (the memory orderings in `Arc` are trusted to give
no less); a step of `RcLike::try_replace` (365-389) makes the new `Arc`, tries to unwrap the old one, and puts it
back if that fails (the new `Arc` is not seen by others; `Model/RcCell.lean` takes this apart); disposing of a leaf
is a single step. Accesses that Rust rules out (to a datum that was dropped, to a cell that was freed) are `bad`.
-/

namespace Kul.ArcDrop

open Drop (Class Side)
open RcHeap (Dat)

variable {L : Type}

/-- A cell of an `Arc`: the two counts and the datum. -/
structure Cell (L : Type) where
  strong : Nat
  weak : Nat
  dat : Dat L
deriving DecidableEq, Repr

/-- What the threads share: the cells, the next address that was never used, and what became of the leaves: those
made, those given back to the users, and those disposed of. -/
structure Store (L : Type) where
  cells : Nat → Option (Cell L)
  next : Nat
  made : List L
  back : List L
  log : List L

namespace Store

def put (s : Store L) (k : Nat) (c : Option (Cell L)) : Store L :=
  { s with cells := fun j => if j = k then c else s.cells j }

/-- What a strong reference refers to; `none` if the datum was dropped. -/
def get (s : Store L) (k : Nat) : Option (Cell L) :=
  match s.cells k with
  | some c => if c.strong = 0 then none else some c
  | none => none

/-- `Arc::new`. -/
def new (s : Store L) (d : Dat L) : Store L :=
  { s.put s.next (some ⟨1, 1, d⟩) with next := s.next + 1 }

/-- Dropping of a `Weak`, also of the one that the strong references have together: the cell is freed if it was
the last one. -/
def dropWeak (s : Store L) (k : Nat) : Option (Store L) :=
  match s.cells k with
  | some c => if c.weak = 1 then if c.strong = 0 then some (s.put k none) else none
      else some (s.put k (some { c with weak := c.weak - 1 }))
  | none => none

/-- `src/drop.rs` 103-105 `trytake`, 365-389 `RcLike::try_replace`, with `Arc::try_unwrap`: succeeds if the strong
count is one, which then becomes zero; the reference is now to a new cell with `TempLeaf`, whose address is
returned. (The `Weak` that the strong references have together is dropped after this, as a step of its own.) -/
def tryTake (s : Store L) (k : Nat) : Option (Option (Dat L × Nat) × Store L) :=
  match s.get k with
  | none => none
  | some c =>
    if c.strong = 1 then
      some (some (c.dat, s.next), (s.put k (some { c with strong := 0, dat := .leaf none })).new (.leaf none))
    else some (none, s)

/-- `src/drop.rs` 107-109 `set`, 396-401 `RcLike::set`, with `Arc::get_mut`, which succeeds if both counts are one. -/
def set (s : Store L) (k : Nat) (d : Dat L) : Option (Store L) :=
  match s.get k with
  | some c => if c.strong = 1 ∧ c.weak = 1 then some (s.put k (some { c with dat := d })) else none
  | none => none

end Store

/-- What a thread has to do next. -/
inductive Task (L : Type) where
  /-- Dropping of a `DatumArc`: `src/drop.rs` 547-551 `Drop::drop`, at the first access of `algo1` (165). -/
  | drop (k : Nat)
  /-- `src/drop.rs` 169: `trytake(top_dr)`. -/
  | takeTop (k : Nat)
  /-- Dropping of the `Arc` in a `DatumArc`, after `Drop::drop`. -/
  | release (k : Nat)
  /-- Dropping of the `Weak` that the strong references have together. -/
  | free (k : Nat)
  /-- `src/drop.rs` 173-181: start of an iteration, at `class(&left_dr)`. -/
  | loop (lock : Option Side) (top : Dat L)
  /-- `src/drop.rs` 181: at `class(&right_dr)`. -/
  | seen (lock : Option Side) (l r : Nat) (leftClass : Class)
  /-- `src/drop.rs` 198 and 225: at `trytake(&mut left_dr)`; `orRight` if the right side is to be tried next. -/
  | tryLeft (lock : Option Side) (l r : Nat) (rightClass : Class) (orRight : Bool)
  /-- `src/drop.rs` 212 and 227: at `trytake(&mut right_dr)`. -/
  | tryRight (lock : Option Side) (l r : Nat) (leftClass : Class)
  /-- `src/drop.rs` 241-293: with a side selected. -/
  | taken (lock : Option Side) (mode : Side) (selected : Dat L) (reuse : Nat) (otherClass : Class) (other : Nat)
deriving DecidableEq, Repr

/-- Why a thread could not go on: an access that Rust rules out, or a panic (`unreachable!()` or `unwrap` of
`None`). -/
inductive Stop where
  | bad
  | panic
deriving DecidableEq, Repr

/-- One step of a thread: what it has to do instead of the task, and what is shared afterwards. -/
def step (t : Task L) (s : Store L) : Except Stop (List (Task L) × Store L) :=
  match t with
  | .drop k =>
    match s.get k with
    | none => .error .bad
    | some c => match c.dat.cls with
      | .leaf => .ok ([.release k], s)
      | .branch => .ok ([.takeTop k], s)
  | .takeTop k =>
    match s.tryTake k with
    | none => .error .bad
    | some (none, s) => .ok ([.release k], s)
    | some (some (top, k'), s) => .ok ([.free k, .loop none top, .release k'], s)
  | .release k =>
    match s.get k with
    | none => .error .bad
    | some c =>
      if c.strong = 1 then
        let s' := s.put k (some { c with strong := 0, dat := .leaf none })
        match c.dat with
        | .leaf x => .ok ([.free k], { s' with log := x.toList ++ s.log })
        | .branch l r => .ok ([.drop l, .drop r, .free k], s')
      else .ok ([], s.put k (some { c with strong := c.strong - 1 }))
  | .free k =>
    match s.dropWeak k with
    | none => .error .bad
    | some s => .ok ([], s)
  | .loop lock top =>
    match top with
    | .leaf _ => .error .panic
    | .branch l r => match s.get l with
      | none => .error .bad
      | some c => .ok ([.seen lock l r c.dat.cls], s)
  | .seen lock l r leftClass =>
    match s.get r with
    | none => .error .bad
    | some c => match lock, leftClass, c.dat.cls with
      | _, .branch, .leaf => .ok ([.tryLeft lock l r .leaf false], s)
      | some .left, .branch, .branch => .ok ([.tryLeft lock l r .branch false], s)
      | _, .leaf, .branch => .ok ([.tryRight lock l r .leaf], s)
      | some .right, .branch, .branch => .ok ([.tryRight lock l r .branch], s)
      | none, .branch, .branch => .ok ([.tryLeft lock l r .branch true], s)
      | _, .leaf, .leaf => .ok ([.drop r, .drop l], s)
  | .tryLeft lock l r rightClass orRight =>
    match s.tryTake l with
    | none => .error .bad
    | some (some (d, l'), s) => .ok ([.free l, .taken lock .left d l' rightClass r], s)
    | some (none, s) =>
      if orRight then .ok ([.tryRight lock l r .branch], s) else .ok ([.drop r, .drop l], s)
  | .tryRight lock l r leftClass =>
    match s.tryTake r with
    | none => .error .bad
    | some (some (d, r'), s) => .ok ([.free r, .taken lock .right d r' leftClass l], s)
    | some (none, s) => .ok ([.drop r, .drop l], s)
  | .taken lock mode selected reuse otherClass other =>
    match selected, otherClass with
    | .branch selL selR, .branch =>
      match mode with
      | .left => match s.set reuse (.branch selR other) with
        | none => .error .panic
        | some s => .ok ([.loop (some (lock.getD .left)) (.branch selL reuse)], s)
      | .right => match s.set reuse (.branch other selL) with
        | none => .error .panic
        | some s => .ok ([.loop (some (lock.getD .right)) (.branch reuse selR)], s)
    | selected, .leaf => .ok ([.drop other, .drop reuse, .loop none selected], s)
    | .leaf _, .branch => .error .panic

/-- A thread: what it has to do (nothing if the program is not dropping a reference), and the references and
`Weak`s that the program holds there. -/
structure Thread (L : Type) where
  tasks : List (Task L)
  held : List Nat
  weaks : List Nat
deriving DecidableEq, Repr

/-- All the threads, and what they share. -/
structure World (L : Type) where
  store : Store L
  threads : List (Thread L)

/-- One step of dropping, by any of the threads. Which thread it is that goes on is left open. -/
inductive DropStep : World L → World L → Prop where
  | run {s pre t ts held weaks post ts' s'} : step t s = .ok (ts', s') →
    DropStep ⟨s, pre ++ ⟨t :: ts, held, weaks⟩ :: post⟩ ⟨s', pre ++ ⟨ts' ++ ts, held, weaks⟩ :: post⟩

end Kul.ArcDrop
