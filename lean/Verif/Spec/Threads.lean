import Verif.Model.Threads
import Verif.Spec.MemUse
import Verif.Spec.Own

/-! # Histories of use of a parser whose memory other threads use, too. Specification only. -/

namespace Kul.Mem

variable {σ P τ ε CE : Type}

/-- A history as in `Env.Uses`, in which it is also, at any time, the others' turn, and datums are given to them. -/
inductive Env.UsesAmong (E : Env σ P τ ε (Busy τ ε) CE) (s₀ : St σ (Busy τ ε)) :
    List (Outcome (Err P CE) (Option (Dat τ ε))) → List (Nat × Dat τ ε) → St σ (Busy τ ε) → Prop where
  | start : UsesAmong E s₀ [] [] s₀
  | datum {os held s d s'} : UsesAmong E s₀ os held s → E.Call s (.ok (some d)) s' →
      UsesAmong E s₀ (os ++ [.ok (some d)]) (held ++ [(os.length, d)]) s'
  | none {os held s s'} : UsesAmong E s₀ os held s → E.Call s (.ok none) s' → UsesAmong E s₀ (os ++ [.ok none]) held s'
  | error {os held s e s'} : UsesAmong E s₀ os held s → E.Call s (.err e) s' →
      UsesAmong E s₀ (os ++ [.err e]) held s'
  | drop {os held i d held' s} : UsesAmong E s₀ os (held ++ (i, d) :: held') s →
      UsesAmong E s₀ os (held ++ held') { s with alloc := E.alloc.dropDat d s.alloc }
  | clone {os held i d s n d' a} : UsesAmong E s₀ os held s → (i, d) ∈ held →
      E.alloc.clone n d s.alloc = some (d', a) → UsesAmong E s₀ os (held ++ [(i, d')]) { s with alloc := a }
  | turn {os held s} : UsesAmong E s₀ os held s → UsesAmong E s₀ os held { s with alloc := s.alloc.turn }
  | give {os held i d held' s} : UsesAmong E s₀ os (held ++ (i, d) :: held') s →
      UsesAmong E s₀ os (held ++ held') { s with alloc := s.alloc.give d.refs }

/-- In the beginning there is nothing in memory; the others will follow `script`. -/
def Busy.start (script : List (Turn τ ε)) : Busy τ ε := ⟨Heap.empty, fun _ => 0, ⟨[], [], []⟩, script, []⟩

/-- All threads: the memory, counts of `Weak` references, what this thread holds, and what the others hold. -/
structure Scene (τ ε : Type) where
  heap : Heap τ ε
  weak : Addr → Nat
  mine : Pool
  others : Pool

/-- What happens to memory: an action of this thread with what it holds, an action of others with what they hold, or
references that this thread holds are given to the others. -/
inductive Event (τ ε : Type) where
  | mine (x : Action τ ε)
  | others (x : Action τ ε)
  | give (ps : List Addr)

/-- One event after the other. -/
inductive Scene.Leads (w₀ : Scene τ ε) : List (Event τ ε) → Scene τ ε → Prop where
  | nil : Leads w₀ [] w₀
  | mine {evs w x h k pool} : Leads w₀ evs w → x.step w.heap w.weak w.mine = some (h, k, pool) →
      Leads w₀ (evs ++ [.mine x]) { w with heap := h, weak := k, mine := pool }
  | others {evs w x h k pool} : Leads w₀ evs w → x.step w.heap w.weak w.others = some (h, k, pool) →
      Leads w₀ (evs ++ [.others x]) { w with heap := h, weak := k, others := pool }
  | give {evs w ps refs} : Leads w₀ evs w → w.mine.refs.Perm (ps ++ refs) →
      Leads w₀ (evs ++ [.give ps])
        ⟨w.heap, w.weak, { w.mine with refs := refs }, { w.others with refs := ps ++ w.others.refs }⟩

/-- What the others do of these events. -/
def theirs : List (Event τ ε) → List (Action τ ε) :=
  List.filterMap fun | .others x => some x | _ => none

/-- What can be reached from references. -/
inductive Heap.From (h : Heap τ ε) (ps : List Addr) : Addr → Prop where
  | root {p} : p ∈ ps → From h ps p
  | ref {p c q} : From h ps p → h.cells p = some c → q ∈ c.dat.refs → From h ps q

/-- The addresses of references. -/
def refsOf (xs : List (Res τ ε)) : List Addr :=
  xs.filterMap fun | .ref p _ => some p | .place _ _ => none

/-- What is held, `xs`, without the trees (and `Weak` references are not in `xs`). -/
structure Pool.Is (pool : Pool) (xs : List (Res τ ε)) : Prop where
  refs : (refsOf xs).Perm pool.refs
  opened : (places xs).Perm pool.opened

/-- Nobody holds anything. -/
def Scene.empty : Scene τ ε := ⟨Heap.empty, fun _ => 0, ⟨[], [], []⟩, ⟨[], [], []⟩⟩

/-- The `Weak` references are `weaks`. There is none to what is opened, and none to what was not yet there. -/
structure Weakly (h : Heap τ ε) (w : Addr → Nat) (weaks : List Addr) (xs : List (Res τ ε)) : Prop where
  count : ∀ p, w p = weaks.count p
  opened : ∀ p, p ∈ places xs → w p = 0
  old : ∀ p, w p ≠ 0 → p < h.size

/-- Ownership in a heap with other threads: this thread owns all of `xs`, the others own something else, and nobody
owns anything more. What has happened is as it must. (The allocator by value has no state.) -/
def BusyOwn {β : Type} (w₀ : Scene τ ε) (a : Busy τ ε) (_ : β) (xs : List (Res τ ε)) : Prop :=
  ∃ evs mine, w₀.Leads evs ⟨a.heap, a.weak, mine, a.others⟩ ∧ theirs evs = a.done ∧ mine.Is xs ∧ mine.weaks = [] ∧
    ∃ ys, a.others.Is ys ∧ HeapOwn false a.heap (ys ++ xs) ∧ Weakly a.heap a.weak a.others.weaks (ys ++ xs)

section

variable {β : Type} (E : Env σ P τ ε (Busy τ ε) CE) (V : Kul.Env σ P τ ε β CE) (s₀ : St σ (Busy τ ε)) (t₀ : St σ β)

/-- Whatever the user of parser `E` does, and whatever other threads do in the meantime: `V`, the same parser by value and
without other threads, gives the same results; and any datum or clone that the user holds still reads back, by following its
references in memory as it is then, as the datum that the same call of `V` gave. -/
def Undisturbed : Prop :=
  ∀ os held s, E.UsesAmong s₀ os held s → ∃ os' t, V.Calls t₀ os' t ∧ List.Forall₂ Alike os os' ∧
    ∀ i d, (i, d) ∈ held → ∃ D, os'[i]? = some (.ok (some D)) ∧ Reads (E.alloc.read s.alloc) d D

/-- Whatever was done, another call of `next` returns, without panic. -/
def GoesOnAmong : Prop := ∀ os held s, E.UsesAmong s₀ os held s → ∃ o s', E.Call s o s' ∧ o ≠ .panic

/-- What parser and user do to memory is a sequence of actions that any thread can do with what it holds, in between the
actions of others, which are exactly those that they meant to do; and in the end this thread holds what is in
the datums that the user holds. So a parser is just another thread to the others. -/
def LeavesAlone : Prop :=
  ∀ os held s, E.UsesAmong s₀ os held s → ∃ evs mine,
    Scene.empty.Leads evs ⟨s.alloc.heap, s.alloc.weak, mine, s.alloc.others⟩ ∧
    theirs evs = s.alloc.done ∧ mine.opened = [] ∧ mine.weaks = [] ∧ mine.refs.Perm (held.flatMap (·.2.refs))

/-- What is live is what can be reached from what the user and the others hold (not counting `Weak` references), and each
count is the number of references; if the others are not in the midst of changing something. And the user and the parser
have no `Weak` references. -/
def NoLeak : Prop :=
  ∀ os held s, E.UsesAmong s₀ os held s → s.alloc.others.opened = [] →
    (∀ p, s.alloc.heap.cells p ≠ none ↔ s.alloc.heap.From (held.flatMap (·.2.refs) ++ s.alloc.others.refs) p) ∧
    (∀ p c, s.alloc.heap.cells p = some c → c.strong = (held.flatMap (·.2.refs) ++ s.alloc.others.refs).count p +
      ((List.range s.alloc.heap.size).map fun k => s.alloc.heap.refsFrom k p).sum) ∧
    ∀ p, s.alloc.weak p = s.alloc.others.weaks.count p

end

end Kul.Mem
