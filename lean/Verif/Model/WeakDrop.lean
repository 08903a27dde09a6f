import Verif.Model.Drop
import Verif.Model.RcCell

/-!
# Dropping of datums to which there are weak references

Models `src/drop.rs` `algo1` with `DatumRc` (461-507) or `DatumArc` (509-551), used by one thread, as the
reference type, in cells with strong and weak counts (`Model/RcCell.lean`),
where datums themselves can have weak references, as those of `make_rc_weak_list` (`shared_tests/src/utils/tree_shapes.rs` 236-252) do. The
address of a reference changes when its datum is taken out of a cell that has weak references. Accesses to what is not there, which Rust
rules out, are `bad`.
-/

namespace Kul.WeakDrop

open Drop (Class Side)
open RcCell (Heap Replaced)

/-- A datum: `TempLeaf` (`src/drop.rs` 16), another one without references, `Extra` with maybe a weak reference, or one with two
references. -/
inductive Dat where
  | temp
  | plain
  | extra (weak : Option Nat)
  | branch (l r : Nat)
deriving DecidableEq, Repr

/-- Results: the heap, the number of loop iterations of `algo1`, and the greatest number of nested calls of `drop`. `panic` models
`unreachable!()` and `unwrap` of `None`. -/
inductive Res where
  | done (h : Heap Dat) (steps depth : Nat)
  | bad
  | panic
  | fuel

def Res.andThen (a : Res) (f : Heap Dat → Res) : Res :=
  match a with
  | .done h s d =>
    match f h with
    | .done h s' d' => .done h (s + s') (max d d')
    | r => r
  | r => r

/-- Counts one nested call. -/
def Res.call : Res → Res
  | .done h s d => .done h s (d + 1)
  | r => r

/-- Counts one loop iteration. -/
def Res.step : Res → Res
  | .done h s d => .done h (s + 1) d
  | r => r

/-- `src/drop.rs` 115-120 `class`. -/
def Dat.cls : Dat → Class
  | .branch .. => .branch
  | _ => .leaf

/-- `src/drop.rs` 103-105 `trytake`; 491-494 `try_replace` of `DatumRc`, 535-538 of `DatumArc`. -/
def tryTake (arc : Bool) (k : Nat) (h : Heap Dat) : Replaced Dat :=
  if arc then RcCell.tryReplace k .temp h else RcCell.tryReplaceOptim k .temp h

/-- The side chosen for restructuring. -/
inductive Choice where
  /-- `mode`, `selected_datum`, `reuse_dr`, `other_class`, `other_dr`. -/
  | side (mode : Side) (selected : Dat) (reuse : Nat) (otherClass : Class) (other : Nat) (h : Heap Dat)
  /-- `break`. -/
  | abort (h : Heap Dat)
  | bad
  | panic

variable (arc : Bool)

/-- `src/drop.rs` 181-238: select a side. -/
def choose (lock : Option Side) (l r : Nat) (h : Heap Dat) : Choice :=
  match RcCell.get l h, RcCell.get r h with
  | some dl, some dr =>
    let left := fun (orElse : Heap Dat → Choice) => match tryTake arc l h with
      | .ok d l h => Choice.side .left d l dr.cls r h
      | .err _ _ h => orElse h
      | .panic => .panic
    let right := fun h => match tryTake arc r h with
      | .ok d r h => Choice.side .right d r dl.cls l h
      | .err _ _ h => .abort h
      | .panic => .panic
    match lock, dl.cls, dr.cls with
    | _, .branch, .leaf | some .left, .branch, .branch => left .abort
    | _, .leaf, .branch | some .right, .branch, .branch => right h
    | none, .branch, .branch => left right
    | _, .leaf, .leaf => .abort h
  | _, _ => .bad

/-- The memory of a cell is freed when there are no more references to it. -/
def tidy (k : Nat) (h : Heap Dat) : Heap Dat :=
  match h.cell k with
  | some c => h.store k c
  | none => h

mutual

/-- Dropping of a `DatumRc`: `src/drop.rs` 503-507 (`Drop::drop`, which calls `algo1`, of which the start (165-171) is here), and then the
automatic dropping of its `Rc`. -/
def drop : Nat → Nat → Heap Dat → Res
  | 0, _, _ => .fuel
  | n + 1, k, h => Res.call <|
    match RcCell.get k h with
    | none => .bad
    | some d =>
      match d.cls with
      | .leaf => release n k h
      | .branch =>
        match tryTake arc k h with
        | .ok top k h => (loop n none top h).andThen (release n k)
        | .err _ k h => release n k h
        | .panic => .panic

/-- Dropping of an `Rc` (of the standard library): the strong count is lowered; if it was the last reference, the datum is dropped, with the
references in it, and the memory is freed unless there are weak references. -/
def release : Nat → Nat → Heap Dat → Res
  | 0, _, _ => .fuel
  | n + 1, k, h =>
    match h.cell k with
    | some ⟨some d, s, w⟩ =>
      if s = 1 then
        let h := h.put k (some ⟨none, 0, w⟩)
        (match d with
          | .temp | .plain | .extra none => Res.done h 0 0
          | .extra (some j) => .done (RcCell.dropWeak j h) 0 0
          | .branch l r => (drop n l h).andThen (drop n r)).andThen fun h => .done (tidy k h) 0 0
      else .done (RcCell.dropStrong k h) 0 0
    | _ => .bad

/-- `src/drop.rs` 173-301: the loop of `algo1`, at the top datum. -/
def loop : Nat → Option Side → Dat → Heap Dat → Res
  | 0, _, _, _ => .fuel
  | n + 1, lock, top, h => Res.step <|
    match top with
    | .branch l r =>
      match choose arc lock l r h with
      | .bad => .bad
      | .panic => .panic
      | .abort h => (drop n r h).andThen (drop n l)
      | .side mode selected reuse otherClass other h =>
        match selected, otherClass with
        | .branch selL selR, .branch =>
          let (oldsub, newL, newR) := match mode with
            | .left => (selL, selR, other)
            | .right => (selR, other, selL)
          match RcCell.set reuse (.branch newL newR) h with
          | none => .panic
          | some h =>
            let top := match mode with
              | .left => Dat.branch oldsub reuse
              | .right => Dat.branch reuse oldsub
            loop n (some (lock.getD mode)) top h
        | selected, .leaf =>
          ((drop n other h).andThen (drop n reuse)).andThen (loop n none selected)
        | _, _ => .panic
    | _ => .panic

end

/-- `shared_tests/src/utils/tree_shapes.rs` 239-250, 262-273, the loop of `make_rc_weak_list` and of
`make_arc_weak_list`; `cnt` goes up to `len`, so that many turns remain. The
weak reference is put into the element afterwards. -/
def makeLoop : Nat → Nat → Heap Dat → Nat × Heap Dat
  | 0, d, h => (d, h)
  | turns + 1, d, h =>
    let (elem, h) := RcCell.new (.extra none) h
    let (d, h) := RcCell.new (.branch elem d) h
    let h := RcCell.downgrade d h
    makeLoop turns d (RcCell.assign elem (.extra (some d)) h)

/-- `tree_shapes.rs` 236-252 `make_rc_weak_list`, 259-275 `make_arc_weak_list`, in an empty heap. -/
def makeRcWeakList (len : Nat) : Nat × Heap Dat :=
  let (d, h) := RcCell.new .plain ⟨fun _ => none, 0⟩
  makeLoop len d h

end Kul.WeakDrop
