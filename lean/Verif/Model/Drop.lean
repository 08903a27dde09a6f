import Verif.Model.Base

/-!
# Dropping of datum trees

Models `src/drop.rs` `algo1` and the `Drop` implementations of `DatumBox`, `DatumRc` and
`DatumArc`, for all of which a reference is a cell (`K` names it) with a datum in it. What
the references can reach is modelled by value, as a tree. Whether a datum can be taken out of
its cell, and whether a reference is the last one when it is released, is decided by an
oracle, anew each time it is asked: for `DatumBox` always yes, for `DatumRc` by the reference
counts (`Model/RcHeap.lean`), for `DatumArc` by whatever other threads do.
-/

namespace Kul.Drop

/-- A reference, with all that can be reached through it. Datums other than `Combination` and
`List` are leaves; `Combination` and `List` are not told apart, `algo1` does not either
(`src/drop.rs` 115-120, 177-179). `none` is `TempLeaf` (line 16). -/
inductive Ref (K L : Type) where
  | leaf (k : K) (x : Option L)
  | branch (k : K) (l r : Ref K L)
deriving DecidableEq, Repr

/-- A datum, moved out of its cell. -/
inductive Dat (K L : Type) where
  | leaf (x : Option L)
  | branch (l r : Ref K L)
deriving DecidableEq, Repr

/-- `src/drop.rs` 92 `Class`. -/
inductive Class where
  | branch | leaf
deriving DecidableEq, Repr

/-- `src/drop.rs` 95 `Side`. -/
inductive Side where
  | left | right
deriving DecidableEq, Repr

variable {K L Ω : Type}

/-- `src/drop.rs` 115-120 `class`. -/
def Ref.cls : Ref K L → Class
  | .branch .. => .branch
  | .leaf .. => .leaf

/-- The cell of a reference. -/
def Ref.cell : Ref K L → K
  | .leaf k _ => k
  | .branch k _ _ => k

/-- The datum referred to. -/
def Ref.datum : Ref K L → Dat K L
  | .leaf _ x => .leaf x
  | .branch _ l r => .branch l r

/-- A reference to cell `k` with the given datum in it. -/
def Ref.of (k : K) : Dat K L → Ref K L
  | .leaf x => .leaf k x
  | .branch l r => .branch k l r

/-- `src/drop.rs` 111-113, 16 `temp_branch`, and `TempLeaf`. -/
def tempBranch (l r : Ref K L) : Dat K L := .branch l r

def tempLeaf : Dat K L := .leaf none

/-- Answers of the references' counts, which may change at any time. -/
structure Oracle (Ω K : Type) where
  /-- Can the datum be taken out of the cell? -/
  take : Ω → K → Bool × Ω
  /-- Is the reference that is released now the last one to the cell? -/
  last : Ω → K → Bool × Ω

/-- What happens during a drop. -/
inductive Ev (K L : Type) where
  /-- A leaf datum is disposed of. -/
  | leaf (x : Option L)
  /-- The memory of a cell is freed. -/
  | free (k : K)
  /-- A reference that is not the last one to its cell is given up. -/
  | giveUp (r : Ref K L)
deriving DecidableEq, Repr

/-- Results: the events in order, the number of loop iterations of `algo1`, and the greatest
number of nested calls of `drop`. `panic` models `unreachable!()`. -/
inductive Res (K L Ω : Type) where
  | done (evs : List (Ev K L)) (steps depth : Nat) (ω : Ω)
  | panic
  | fuel
deriving DecidableEq, Repr

/-- Does one thing after another. -/
def Res.andThen (a : Res K L Ω) (f : Ω → Res K L Ω) : Res K L Ω :=
  match a with
  | .done e s d ω =>
    match f ω with
    | .done e' s' d' ω => .done (e ++ e') (s + s') (max d d') ω
    | .panic => .panic
    | .fuel => .fuel
  | .panic => .panic
  | .fuel => .fuel

/-- Counts one nested call. -/
def Res.call : Res K L Ω → Res K L Ω
  | .done e s d ω => .done e s (d + 1) ω
  | .panic => .panic
  | .fuel => .fuel

/-- Counts one loop iteration. -/
def Res.step : Res K L Ω → Res K L Ω
  | .done e s d ω => .done e (s + 1) d ω
  | .panic => .panic
  | .fuel => .fuel

/-- An event. -/
def Res.ev (e : List (Ev K L)) (ω : Ω) : Res K L Ω := .done e 0 0 ω

variable (O : Oracle Ω K)

/-- `src/drop.rs` 103-105 `trytake`: `TempLeaf` is left in the cell. -/
def tryTake (n : Ref K L) (ω : Ω) : Option (Dat K L × Ref K L) × Ω :=
  match O.take ω n.cell with
  | (true, ω) => (some (n.datum, .of n.cell tempLeaf), ω)
  | (false, ω) => (none, ω)

/-- The side chosen for restructuring. -/
inductive Choice (K L : Type) where
  /-- `mode`, `selected_datum`, `reuse_dr`, `other_class`, `other_dr`. -/
  | side (mode : Side) (selected : Dat K L) (reuse : Ref K L) (otherClass : Class) (other : Ref K L)
  /-- `break`, with the references that are dropped by it. -/
  | abort (l r : Ref K L)
deriving DecidableEq, Repr

/-- `src/drop.rs` 181-238: select a side. -/
def choose (lock : Option Side) (l r : Ref K L) (ω : Ω) : Choice K L × Ω :=
  let left := fun ω => match tryTake O l ω with
    | (some (d, l'), ω) => (some (Choice.side .left d l' r.cls r), ω)
    | (none, ω) => (none, ω)
  let right := fun ω => match tryTake O r ω with
    | (some (d, r'), ω) => (some (Choice.side .right d r' l.cls l), ω)
    | (none, ω) => (none, ω)
  match lock, l.cls, r.cls with
  | _, .branch, .leaf | some .left, .branch, .branch =>
    match left ω with
    | (some c, ω) => (c, ω)
    | (none, ω) => (.abort l r, ω)
  | _, .leaf, .branch | some .right, .branch, .branch =>
    match right ω with
    | (some c, ω) => (c, ω)
    | (none, ω) => (.abort l r, ω)
  | none, .branch, .branch =>
    match left ω with
    | (some c, ω) => (c, ω)
    | (none, ω) =>
      match right ω with
      | (some c, ω) => (c, ω)
      | (none, ω) => (.abort l r, ω)
  | _, .leaf, .leaf => (.abort l r, ω)

mutual

/-- Dropping of a reference: `src/drop.rs` 337-341, 503-507, 547-551 (`Drop::drop`, which calls
`algo1`) and then the automatic dropping of the cell's own pointer: if it is the last one, the
datum in the cell is dropped, with the references in it, and the cell is freed. Includes the
start of `algo1` (165-171). If `algo1` took the datum out there is a `TempLeaf` in the cell, and
this is the last reference. -/
def drop : Nat → Ref K L → Ω → Res K L Ω
  | 0, _, _ => .fuel
  | n + 1, t, ω => Res.call <|
    match t with
    | .leaf k x =>
      match O.last ω k with
      | (true, ω) => .ev [.leaf x, .free k] ω
      | (false, ω) => .ev [.giveUp t] ω
    | .branch k l r =>
      match tryTake O t ω with
      | (some (top, _), ω) => (loop n none top ω).andThen fun ω => .ev [.leaf none, .free k] ω
      | (none, ω) =>
        match O.last ω k with
        | (true, ω) => ((drop n l ω).andThen (drop n r)).andThen fun ω => .ev [.free k] ω
        | (false, ω) => .ev [.giveUp t] ω

/-- `src/drop.rs` 173-301: the loop of `algo1`, at the top datum. References left over when an
iteration ends are dropped, the later bound one first. -/
def loop : Nat → Option Side → Dat K L → Ω → Res K L Ω
  | 0, _, _, _ => .fuel
  | n + 1, lock, top, ω => Res.step <|
    match top with
    | .branch l r =>
      match choose O lock l r ω with
      | (.abort l r, ω) => (drop n r ω).andThen (drop n l)
      | (.side mode selected reuse otherClass other, ω) =>
        match selected, otherClass with
        | .branch selL selR, .branch =>
          let (oldsub, newL, newR) := match mode with
            | .left => (selL, selR, other)
            | .right => (selR, other, selL)
          let reuse : Ref K L := .of reuse.cell (tempBranch newL newR)
          let top := match mode with
            | .left => tempBranch oldsub reuse
            | .right => tempBranch reuse oldsub
          loop n (some (lock.getD mode)) top ω
        | selected, .leaf =>
          ((drop n other ω).andThen (drop n reuse)).andThen (loop n none selected)
        | _, _ => .panic
    | .leaf _ => .panic

end

end Kul.Drop
