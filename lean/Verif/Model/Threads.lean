import Verif.Model.MemAlloc

/-!
# Memory that other threads use at the same time

`ArcDatumAllocator` with `DatumArc` (`src/parser/arc_alloc.rs` 35-39, `src/datum.rs` 92-116) as in
`Model/MemAlloc.lean`, but between any two accesses of the parser to memory other threads may do what they can do with
the references they hold (`Arc::new`, `clone`, `drop`, `get_mut`, `try_unwrap`, `downgrade`, `Weak::upgrade`), of which all
are made of the actions here. (Also single-threaded programs are like that, with `Rc`s: what the combiners do to other
datums.)
-/

namespace Kul.Mem

/-- What one or more threads hold: references to datums, each as often as it is held; places in memory that
they have sole access to; and `Weak` references. -/
structure Pool where
  refs : List Addr
  opened : List Addr
  weaks : List Addr := []
deriving DecidableEq, Repr

/-- What a thread can do with what it holds. -/
inductive Action (τ ε : Type) where
  /-- `Arc::clone`. -/
  | clone (p : Addr)
  /-- Dropping of a reference that is not the last one. -/
  | letGo (p : Addr)
  /-- `Arc::get_mut`: from now on the references in the datum there are held. -/
  | openUp (p : Addr)
  /-- What was opened becomes an `Arc` again; the references in the datum there are given to it. -/
  | close (p : Addr)
  /-- Writing to what was opened. -/
  | write (p : Addr) (d : Dat τ ε)
  /-- `Arc::new`, up to closing. -/
  | make (d : Dat τ ε)
  /-- `Arc::try_unwrap`, or dropping of the last reference: the datum is taken out, and the references in it are held. A
  simplification: the counts, which `Weak` references keep, and the empty memory, are not there any more. -/
  | takeOut (p : Addr)
  /-- `Arc::downgrade`. -/
  | downgrade (p : Addr)
  /-- `Weak::upgrade`, if there is something. -/
  | upgrade (p : Addr)
  /-- `Weak::clone`. -/
  | cloneWeak (p : Addr)
  /-- Dropping of a `Weak` reference. -/
  | dropWeak (p : Addr)
deriving DecidableEq, Repr

variable {τ ε : Type}

/-- Takes references out of those held; `none` if not all are held. -/
def takeAll : List Addr → List Addr → Option (List Addr)
  | [], refs => some refs
  | p :: ps, refs => if p ∈ refs then takeAll ps (refs.erase p) else none

/-- An action of those who hold `pool`, in memory `h` where there are `w p` `Weak` references to `p`; `none` if they
cannot do that. -/
def Action.step : Action τ ε → Heap τ ε → (Addr → Nat) → Pool → Option (Heap τ ε × (Addr → Nat) × Pool)
  | .clone p, h, w, pool => if p ∈ pool.refs then some (h.clone p, w, { pool with refs := p :: pool.refs }) else none
  | .letGo p, h, w, pool =>
    match h.cells p with
    | some c =>
      if p ∈ pool.refs ∧ c.strong ≠ 1 then
        some (h.put p (some { c with strong := c.strong - 1 }), w, { pool with refs := pool.refs.erase p })
      else none
    | none => none
  | .openUp p, h, w, pool =>
    match h.cells p with
    | some c =>
      if p ∈ pool.refs ∧ c.strong = 1 ∧ w p = 0 then
        some (h, w, { pool with refs := c.dat.refs ++ pool.refs.erase p, opened := p :: pool.opened })
      else none
    | none => none
  | .close p, h, w, pool =>
    match h.cells p with
    | some c =>
      if p ∈ pool.opened then
        (takeAll c.dat.refs pool.refs).map fun refs =>
          (h, w, { pool with refs := p :: refs, opened := pool.opened.erase p })
      else none
    | none => none
  | .write p d, h, w, pool => if p ∈ pool.opened then some (h.put p (some ⟨1, d⟩), w, pool) else none
  | .make d, h, w, pool =>
    match h.alloc d with
    | (p, h) => some (h, w, { pool with opened := p :: pool.opened })
  | .takeOut p, h, w, pool =>
    match h.cells p with
    | some c =>
      if p ∈ pool.refs ∧ c.strong = 1 then
        some (h.put p none, w, { pool with refs := c.dat.refs ++ pool.refs.erase p })
      else none
    | none => none
  | .downgrade p, h, w, pool =>
    if p ∈ pool.refs then
      some (h, fun q => if q = p then w p + 1 else w q, { pool with weaks := p :: pool.weaks })
    else none
  | .upgrade p, h, w, pool =>
    match h.cells p with
    | some _ => if p ∈ pool.weaks then some (h.clone p, w, { pool with refs := p :: pool.refs }) else none
    | none => none
  | .cloneWeak p, h, w, pool =>
    if p ∈ pool.weaks then
      some (h, fun q => if q = p then w p + 1 else w q, { pool with weaks := p :: pool.weaks })
    else none
  | .dropWeak p, h, w, pool =>
    if p ∈ pool.weaks then
      some (h, fun q => if q = p then w p - 1 else w q, { pool with weaks := pool.weaks.erase p })
    else none

/-- What happens after an access of the parser to memory: whether, if it is the dropping of a reference, that is done at
once (or bit by bit, among what others do); and what the other threads do before the next access. -/
structure Turn (τ ε : Type) where
  atOnce : Bool
  acts : List (Action τ ε)

/-- The memory, counts of `Weak` references, what all others hold, what they do now and then, and what they have done. -/
structure Busy (τ ε : Type) where
  heap : Heap τ ε
  weak : Addr → Nat
  others : Pool
  script : List (Turn τ ε)
  done : List (Action τ ε)

/-- An action of the others. What they cannot do does not happen. -/
def Busy.act (b : Busy τ ε) (x : Action τ ε) : Busy τ ε :=
  match x.step b.heap b.weak b.others with
  | some (h, w, pool) => { b with heap := h, weak := w, others := pool, done := b.done ++ [x] }
  | none => b

/-- It is the others' turn. -/
def Busy.turn (b : Busy τ ε) : Busy τ ε :=
  match b.script with
  | [] => b
  | t :: ts => t.acts.foldl Busy.act { b with script := ts }

/-- References are given to the others. -/
def Busy.give (ps : List Addr) (b : Busy τ ε) : Busy τ ε :=
  { b with others := { b.others with refs := ps ++ b.others.refs } }

/-- Is the next dropping of a reference done at once? -/
def Busy.atOnce (b : Busy τ ε) : Bool :=
  match b.script with
  | [] => true
  | t :: _ => t.atOnce

/-- The allocator of `Rc`s or `Arc`s (`heapMem`), with other threads. After each access it is their turn. `Arc::get_mut`
gives access only if there are no `Weak` references either. If a reference is not dropped at once, then the steps of dropping it are among those of the others, to whom it is given. -/
def busyMem (τ ε : Type) : AllocOps τ ε (Busy τ ε) where
  newDatum d b := match (heapMem τ ε false).newDatum d b.heap with | (r, h) => (r, { b with heap := h }.turn)
  read b := (heapMem τ ε false).read b.heap
  getMut p b := (heapMem τ ε false).getMut p b.heap && b.weak p == 0
  write p d b := { b with heap := (heapMem τ ε false).write p d b.heap }.turn
  dropRef p b :=
    if b.atOnce then { b with heap := (heapMem τ ε false).dropRef p b.heap }.turn else (b.give [p]).turn
  clone n d b := match (heapMem τ ε false).clone n d b.heap with
    | some (d', h) => some (d', { b with heap := h }.turn)
    | none => none

end Kul.Mem
