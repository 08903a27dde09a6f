import Verif.Model.ArcDrop
import Verif.Spec.RcHeap

/-!
# What programs can do with shared datums, and what dropping them must do

Specification only. A program can have any number of threads, and each of them, when it is not dropping a
reference, can do with its references and `Weak`s what `Arc` allows.
-/

namespace Kul.ArcDrop

open RcHeap (Dat Reach)

variable {L : Type}

/-- The data that can be read: the strong counts and the datums. -/
def Store.live (s : Store L) : RcHeap.Heap L := fun k => (s.get k).map fun c => ⟨c.strong, c.dat⟩

/-- The leaf in a datum. `TempLeaf` is none. -/
def leafOf : Dat L → List L
  | .leaf x => x.toList
  | .branch .. => []

/-- One step of a program with the references `held` and the `Weak`s `weaks`. -/
inductive Use : Store L → List Nat → List Nat → Store L → List Nat → List Nat → Prop where
  /-- `Arc::clone` of a reference that is held or that can be read from one that is. -/
  | clone {s held weaks k c} : Reach s.live held k → s.get k = some c →
    Use s held weaks (s.put k (some { c with strong := c.strong + 1 })) (k :: held) weaks
  /-- `Arc::downgrade`. -/
  | downgrade {s held weaks k c} : Reach s.live held k → s.get k = some c →
    Use s held weaks (s.put k (some { c with weak := c.weak + 1 })) held (k :: weaks)
  /-- `Weak::upgrade`, which succeeds if the strong count is not zero. -/
  | upgrade {s held weaks k c} : k ∈ weaks → s.get k = some c →
    Use s held weaks (s.put k (some { c with strong := c.strong + 1 })) (k :: held) weaks
  /-- `Weak::clone`. -/
  | cloneWeak {s held weaks k c} : k ∈ weaks → s.cells k = some c →
    Use s held weaks (s.put k (some { c with weak := c.weak + 1 })) held (k :: weaks)
  /-- Dropping of a `Weak`. -/
  | dropWeak {s held weaks k weaks' s'} : weaks.Perm (k :: weaks') → s.dropWeak k = some s' →
    Use s held weaks s' held weaks'
  /-- `Arc::new`, of a leaf or of a datum with references that were held. -/
  | new {s held weaks d held'} : held.Perm (d.kids ++ held') →
    Use s held weaks { s.new d with made := leafOf d ++ s.made } (s.next :: held') weaks
  /-- `Arc::try_unwrap`, which succeeds if the strong count is one. -/
  | unwrap {s held weaks k held' c s'} : held.Perm (k :: held') → s.get k = some c → c.strong = 1 →
    (s.put k (some { c with strong := 0, dat := .leaf none })).dropWeak k = some s' →
    Use s held weaks { s' with back := leafOf c.dat ++ s.back } (c.dat.kids ++ held') weaks
  /-- `Arc::get_mut`, which succeeds if both counts are one, and then exchanging the datum. -/
  | write {s held weaks k held' c d} : held.Perm (k :: d.kids ++ held') → s.get k = some c → c.strong = 1 →
    c.weak = 1 →
    Use s held weaks { s.put k (some { c with dat := d }) with
      made := leafOf d ++ s.made, back := leafOf c.dat ++ s.back } (k :: c.dat.kids ++ held') weaks

/-- One step of any thread. -/
inductive Step : World L → World L → Prop where
  /-- A thread goes on dropping. -/
  | drop {w w'} : DropStep w w' → Step w w'
  /-- A thread begins to drop a reference. -/
  | begin {s pre held weaks k held' post} : held.Perm (k :: held') →
    Step ⟨s, pre ++ ⟨[], held, weaks⟩ :: post⟩ ⟨s, pre ++ ⟨[.drop k], held', weaks⟩ :: post⟩
  /-- A thread uses references. -/
  | use {s pre held weaks post s' held' weaks'} : Use s held weaks s' held' weaks' →
    Step ⟨s, pre ++ ⟨[], held, weaks⟩ :: post⟩ ⟨s', pre ++ ⟨[], held', weaks'⟩ :: post⟩
  /-- There is a new thread. -/
  | spawn {s threads} : Step ⟨s, threads⟩ ⟨s, threads ++ [⟨[], [], []⟩]⟩
  /-- References and `Weak`s are sent from a thread to another. -/
  | send {s threads pre ts held weaks post ks ws held' weaks' pre' ts' held₂ weaks₂ post'} :
    threads = pre ++ ⟨ts, held, weaks⟩ :: post → held.Perm (ks ++ held') → weaks.Perm (ws ++ weaks') →
    pre ++ ⟨ts, held', weaks'⟩ :: post = pre' ++ ⟨ts', held₂, weaks₂⟩ :: post' →
    Step ⟨s, threads⟩ ⟨s, pre' ++ ⟨ts', ks ++ held₂, ws ++ weaks₂⟩ :: post'⟩

/-- Before anything was made. -/
def World.init : World L := ⟨⟨fun _ => none, 0, [], [], []⟩, []⟩

/-- The worlds that a program can come to. -/
inductive Comes : World L → Prop where
  | init : Comes .init
  | step {w w'} : Comes w → Step w w' → Comes w'

/-- So many steps of dropping. -/
inductive DropSteps : Nat → World L → World L → Prop where
  | refl {w} : DropSteps 0 w w
  | step {n w w' w''} : DropStep w w' → DropSteps n w' w'' → DropSteps (n + 1) w w''

/-- The references that the program holds. -/
def World.held (w : World L) : List Nat := w.threads.flatMap (·.held)

/-- The `Weak`s that the program holds. -/
def World.weaks (w : World L) : List Nat := w.threads.flatMap (·.weaks)

/-- No thread is dropping. -/
def World.Idle (w : World L) : Prop := ∀ t ∈ w.threads, t.tasks = []

/-- The number of cells with a datum in them. -/
def Store.size (s : Store L) : Nat := ((List.range s.next).filter fun k => (s.get k).isSome).length

/-- The number of strong references to a cell. -/
def Store.strongOf (s : Store L) (k : Nat) : Nat :=
  match s.get k with
  | some c => c.strong
  | none => 0

end Kul.ArcDrop
