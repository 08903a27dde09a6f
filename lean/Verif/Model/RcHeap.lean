import Verif.Model.Drop

/-!
# Dropping of datums in counted cells

Models `src/drop.rs` `algo1` with `DatumRc` (461-507) as the reference type: references are addresses
of cells with strong counts, so that any sharing is possible, also of a datum by two places in the
same tree. Simplifications: weak references are left out, and `try_replace_optim` (429-458) always
replaces in place; that it amounts to this when there are weak references is the subject of
`Model/RcCell.lean`. Accesses to freed cells, which Rust rules out, are `bad`.
-/

namespace Kul.RcHeap

open Drop (Class Side)

/-- A datum; branches have addresses of cells. `leaf none` is `TempLeaf`. -/
inductive Dat (L : Type) where
  | leaf (x : Option L)
  | branch (l r : Nat)
deriving DecidableEq, Repr

/-- A cell: the strong count and the datum. -/
structure Cell (L : Type) where
  strong : Nat
  dat : Dat L
deriving DecidableEq, Repr

/-- The heap. -/
abbrev Heap (L : Type) := Nat → Option (Cell L)

variable {L : Type}

def Heap.put (h : Heap L) (k : Nat) (c : Option (Cell L)) : Heap L := fun j => if j = k then c else h j

/-- What happens: a leaf is disposed of, a cell is freed, or a reference to a cell that others also refer
to is given up. -/
inductive Ev (L : Type) where
  | leaf (x : Option L)
  | free (k : Nat)
  | giveUp (k : Nat)
deriving DecidableEq, Repr

/-- Results: the heap, the events in order, the number of loop iterations of `algo1`, and the greatest number of
nested calls of `drop`. `panic` models `unreachable!()` and `unwrap` of `None`. -/
inductive Res (L : Type) where
  | done (h : Heap L) (evs : List (Ev L)) (steps depth : Nat)
  | bad
  | panic
  | fuel

def Res.andThen (a : Res L) (f : Heap L → Res L) : Res L :=
  match a with
  | .done h e s d =>
    match f h with
    | .done h e' s' d' => .done h (e ++ e') (s + s') (max d d')
    | r => r
  | r => r

/-- Counts one nested call. -/
def Res.call : Res L → Res L
  | .done h e s d => .done h e s (d + 1)
  | r => r

/-- Counts one loop iteration. -/
def Res.step : Res L → Res L
  | .done h e s d => .done h e (s + 1) d
  | r => r

/-- Events. -/
def Res.ev (h : Heap L) (e : List (Ev L)) : Res L := .done h e 0 0

/-- `src/drop.rs` 115-120 `class`. -/
def Dat.cls : Dat L → Class
  | .branch .. => .branch
  | .leaf _ => .leaf

/-- `src/drop.rs` 103-105 `trytake`, 429-458 `try_replace_optim`: succeeds if the strong count is one; leaves
`TempLeaf` in the cell. -/
def tryTake (k : Nat) (h : Heap L) : Option (Dat L × Heap L) :=
  match h k with
  | some c => if c.strong = 1 then some (c.dat, h.put k (some ⟨1, .leaf none⟩)) else none
  | none => none

/-- `src/drop.rs` 107-109 `set`, 396-401 `RcLike::set`; `none` is a panic. -/
def set (k : Nat) (d : Dat L) (h : Heap L) : Option (Heap L) :=
  match h k with
  | some c => if c.strong = 1 then some (h.put k (some ⟨1, d⟩)) else none
  | none => none

/-- The side chosen for restructuring. -/
inductive Choice (L : Type) where
  /-- `mode`, `selected_datum`, `reuse_dr`, `other_class`, `other_dr`. -/
  | side (mode : Side) (selected : Dat L) (reuse : Nat) (otherClass : Class) (other : Nat) (h : Heap L)
  /-- `break`. -/
  | abort
  | bad

/-- `src/drop.rs` 181-238: select a side. -/
def choose (lock : Option Side) (l r : Nat) (h : Heap L) : Choice L :=
  match h l, h r with
  | some cl, some cr =>
    match lock, cl.dat.cls, cr.dat.cls with
    | _, .branch, .leaf | some .left, .branch, .branch =>
      match tryTake l h with
      | some (d, h) => .side .left d l cr.dat.cls r h
      | none => .abort
    | _, .leaf, .branch | some .right, .branch, .branch =>
      match tryTake r h with
      | some (d, h) => .side .right d r cl.dat.cls l h
      | none => .abort
    | none, .branch, .branch =>
      match tryTake l h with
      | some (d, h) => .side .left d l cr.dat.cls r h
      | none =>
        match tryTake r h with
        | some (d, h) => .side .right d r cl.dat.cls l h
        | none => .abort
    | _, .leaf, .leaf => .abort
  | _, _ => .bad

mutual

/-- Dropping of a `DatumRc`: `src/drop.rs` 503-507 (`Drop::drop`, which calls `algo1`, of which the start
(165-171) is here), and then the automatic dropping of its `Rc`. -/
def drop : Nat → Nat → Heap L → Res L
  | 0, _, _ => .fuel
  | n + 1, k, h => Res.call <|
    match h k with
    | none => .bad
    | some c =>
      match c.dat.cls with
      | .leaf => release n k h
      | .branch =>
        match tryTake k h with
        | some (top, h) => (loop n none top h).andThen (release n k)
        | none => release n k h

/-- Dropping of an `Rc` (of the standard library): the count is lowered; if it was the last reference, the
datum is dropped, with the references in it, and the cell is freed. -/
def release : Nat → Nat → Heap L → Res L
  | 0, _, _ => .fuel
  | n + 1, k, h =>
    match h k with
    | none => .bad
    | some c =>
      if c.strong = 1 then
        match c.dat with
        | .leaf x => .ev (h.put k none) [.leaf x, .free k]
        | .branch l r =>
          ((drop n l (h.put k none)).andThen (drop n r)).andThen fun h => .ev h [.free k]
      else .ev (h.put k (some { c with strong := c.strong - 1 })) [.giveUp k]

/-- `src/drop.rs` 173-301: the loop of `algo1`, at the top datum. -/
def loop : Nat → Option Side → Dat L → Heap L → Res L
  | 0, _, _, _ => .fuel
  | n + 1, lock, top, h => Res.step <|
    match top with
    | .branch l r =>
      match choose lock l r h with
      | .bad => .bad
      | .abort => (drop n r h).andThen (drop n l)
      | .side mode selected reuse otherClass other h =>
        match selected, otherClass with
        | .branch selL selR, .branch =>
          let (oldsub, newL, newR) := match mode with
            | .left => (selL, selR, other)
            | .right => (selR, other, selL)
          match set reuse (.branch newL newR) h with
          | none => .panic
          | some h =>
            let top := match mode with
              | .left => Dat.branch oldsub reuse
              | .right => Dat.branch reuse oldsub
            loop n (some (lock.getD mode)) top h
        | selected, .leaf =>
          ((drop n other h).andThen (drop n reuse)).andThen (loop n none selected)
        | _, _ => .panic
    | .leaf _ => .panic

end

end Kul.RcHeap
