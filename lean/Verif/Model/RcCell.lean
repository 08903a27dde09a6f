/-!
# Counted references

Models what `src/drop.rs` 343-551 (`RcLike`, `RcLikeAtomicCounts` and their implementations for
`DatumRc` and `DatumArc`) does with counted cells. The operations of `Rc` and `Arc` themselves are
not part of the repository: `new`, `tryUnwrap`, `getMut`, `clone`, `downgrade`, `upgrade` and the two
drops are modelled after the documentation of the standard library. Values are opaque: references
inside of a value that is dropped are not followed here (`Model/Drop.lean`, `Model/RcHeap.lean` do).
-/

namespace Kul.RcCell

/-- A cell on the heap: the value, until it is dropped or moved out, and the numbers of strong and of
weak references. -/
structure Cell (V : Type) where
  val : Option V
  strong : Nat
  weak : Nat
deriving DecidableEq, Repr

/-- The heap; addresses from `next` on are unused. -/
structure Heap (V : Type) where
  cell : Nat → Option (Cell V)
  next : Nat

variable {V : Type}

/-- Changes what is at one address. -/
def Heap.put (h : Heap V) (i : Nat) (c : Option (Cell V)) : Heap V :=
  { h with cell := fun j => if j = i then c else h.cell j }

/-- A cell without any references is freed. -/
def Heap.store (h : Heap V) (i : Nat) (c : Cell V) : Heap V :=
  h.put i (if c.strong = 0 ∧ c.weak = 0 then none else some c)

/-- `Rc::new`, `Arc::new` (`src/drop.rs` 469-471, 517-519 `new_rc`). -/
def new (v : V) (h : Heap V) : Nat × Heap V :=
  (h.next, { h.put h.next (some ⟨some v, 1, 0⟩) with next := h.next + 1 })

/-- `Rc::try_unwrap`, `Arc::try_unwrap` (`src/drop.rs` 473-475, 521-523): moves the value out if there
is exactly one strong reference, which is consumed; weak references are disassociated. -/
def tryUnwrap (i : Nat) (h : Heap V) : Option V × Heap V :=
  match h.cell i with
  | some ⟨some v, 1, w⟩ => (some v, h.store i ⟨none, 0, w⟩)
  | _ => (none, h)

/-- `Rc::get_mut`, `Arc::get_mut` (`src/datum.rs` 80-84, 112-116): is there a mutable reference? There is
if there are no other references of either kind. -/
def canMut (i : Nat) (h : Heap V) : Bool :=
  match h.cell i with
  | some ⟨some _, 1, 0⟩ => true
  | _ => false

/-- Reading through a reference. -/
def get (i : Nat) (h : Heap V) : Option V := (h.cell i).bind (·.val)

/-- Assigning through a mutable reference. -/
def assign (i : Nat) (v : V) (h : Heap V) : Heap V :=
  match h.cell i with
  | some c => h.put i (some { c with val := some v })
  | none => h

/-- `Rc::strong_count`, `Rc::weak_count` (`src/drop.rs` 481-483 `counts`). -/
def counts (i : Nat) (h : Heap V) : Nat × Nat :=
  match h.cell i with
  | some c => (c.strong, c.weak)
  | none => (0, 0)

/-- `Rc::clone`. -/
def clone (i : Nat) (h : Heap V) : Heap V :=
  match h.cell i with
  | some c => h.put i (some { c with strong := c.strong + 1 })
  | none => h

/-- Dropping a strong reference; the last one drops the value. -/
def dropStrong (i : Nat) (h : Heap V) : Heap V :=
  match h.cell i with
  | some c => h.store i ⟨if c.strong = 1 then none else c.val, c.strong - 1, c.weak⟩
  | none => h

/-- `Rc::downgrade`. -/
def downgrade (i : Nat) (h : Heap V) : Heap V :=
  match h.cell i with
  | some c => h.put i (some { c with weak := c.weak + 1 })
  | none => h

/-- Does `Weak::upgrade` succeed? -/
def canUpgrade (i : Nat) (h : Heap V) : Bool :=
  match h.cell i with
  | some c => c.strong ≠ 0
  | none => false

/-- Dropping a weak reference. -/
def dropWeak (i : Nat) (h : Heap V) : Heap V :=
  match h.cell i with
  | some c => h.store i { c with weak := c.weak - 1 }
  | none => h

/-- What `try_replace` gives: the result, the address that the reference now has, and the heap.
`panic` models `unreachable!()` and `unwrap` of `None`. -/
inductive Replaced (V : Type) where
  | ok (old : V) (this : Nat) (h : Heap V)
  | err (val : V) (this : Nat) (h : Heap V)
  | panic

/-- `src/drop.rs` 365-391 `RcLike::try_replace`, used by `DatumArc` (535-538). -/
def tryReplace (this : Nat) (val : V) (h : Heap V) : Replaced V :=
  let (fresh, h) := new val h
  let (oldRc, this) := (this, fresh)
  match tryUnwrap oldRc h with
  | (some datum, h) => .ok datum this h
  | (none, h) =>
    let (newRc, this) := (this, oldRc)
    match tryUnwrap newRc h with
    | (some val, h) => .err val this h
    | (none, _) => .panic

/-- `src/drop.rs` 429-458 `RcLikeAtomicCounts::try_replace_optim`, used by `DatumRc` (491-494). -/
def tryReplaceOptim (this : Nat) (val : V) (h : Heap V) : Replaced V :=
  match counts this h with
  | (1, 0) =>
    if canMut this h then
      match get this h with
      | some old => .ok old this (assign this val h)
      | none => .panic
    else .panic
  | (1, _) => tryReplace this val h
  | _ => .err val this h

/-- `src/drop.rs` 396-401 `RcLike::set`; `none` is a panic. -/
def set (this : Nat) (val : V) (h : Heap V) : Option (Heap V) :=
  if canMut this h then some (assign this val h) else none

/-! ## Histories -/

/-- The strong and the weak references that exist, by address, in any order. -/
structure World (V : Type) where
  heap : Heap V
  strong : List Nat
  weak : List Nat

/-- What a program can do with counted references. -/
inductive Step : World V → World V → Prop where
  | new {h s w v} : Step ⟨h, s, w⟩ ⟨(new v h).2, (new v h).1 :: s, w⟩
  | clone {h s w i} : i ∈ s → Step ⟨h, s, w⟩ ⟨clone i h, i :: s, w⟩
  | drop {h s s' w i} : s.Perm (i :: s') → Step ⟨h, s, w⟩ ⟨dropStrong i h, s', w⟩
  | downgrade {h s w i} : i ∈ s → Step ⟨h, s, w⟩ ⟨downgrade i h, s, i :: w⟩
  | upgrade {h s w i} : i ∈ w → canUpgrade i h = true → Step ⟨h, s, w⟩ ⟨clone i h, i :: s, w⟩
  | dropWeak {h s w w' i} : w.Perm (i :: w') → Step ⟨h, s, w⟩ ⟨dropWeak i h, s, w'⟩
  | assign {h s w i v} : i ∈ s → canMut i h = true → Step ⟨h, s, w⟩ ⟨assign i v h, s, w⟩
  | unwrap {h s s' w i v h'} : s.Perm (i :: s') → tryUnwrap i h = (some v, h') → Step ⟨h, s, w⟩ ⟨h', s', w⟩

/-- Histories. -/
inductive Steps : World V → World V → Prop where
  | refl {a} : Steps a a
  | step {a b c} : Steps a b → Step b c → Steps a c

/-- No references yet. -/
def World.init : World V := ⟨⟨fun _ => none, 0⟩, [], []⟩

/-- `RcLike::try_replace` (`src/drop.rs` 365-391) for `Arc`, where before each operation on a cell other
threads can do what they like, with the references of the world, which are those of the others; they
cannot use the references of this thread (`this` and the one it makes), which exist all the time. -/
inductive TryReplaceArc (this : Nat) (val : V) : World V → Replaced V → World V → Prop where
  | ok {a b c : World V} {old h} : Steps a b →
      Steps ⟨(new val b.heap).2, b.strong, b.weak⟩ c →
      tryUnwrap this c.heap = (some old, h) →
      TryReplaceArc this val a (.ok old (new val b.heap).1 h) ⟨h, c.strong, c.weak⟩
  | err {a b c d : World V} {h h' v} : Steps a b →
      Steps ⟨(new val b.heap).2, b.strong, b.weak⟩ c →
      tryUnwrap this c.heap = (none, h) →
      Steps ⟨h, c.strong, c.weak⟩ d →
      tryUnwrap (new val b.heap).1 d.heap = (some v, h') →
      TryReplaceArc this val a (.err v this h') ⟨h', d.strong, d.weak⟩
  | panic {a b c d : World V} {h h'} : Steps a b →
      Steps ⟨(new val b.heap).2, b.strong, b.weak⟩ c →
      tryUnwrap this c.heap = (none, h) →
      Steps ⟨h, c.strong, c.weak⟩ d →
      tryUnwrap (new val b.heap).1 d.heap = (none, h') →
      TryReplaceArc this val a .panic ⟨h', d.strong, d.weak⟩

end Kul.RcCell
