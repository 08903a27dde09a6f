import Verif.Spec.Threads
import Verif.Spec.MemUnwind

/-! # Panics of user-supplied code while other threads use the same memory. Specification only. -/

namespace Kul.Mem

variable {σ P τ ε CE : Type}

/-- Ownership among other threads: this thread owns all of `xs`, the others own something else, nobody owns anything more, and
what has happened is as it must. -/
def Among (a : Busy τ ε) (xs : List (Res τ ε)) : Prop := BusyOwn Scene.empty a () xs

/-- A history as in `UEnv.Uses` (calls, also after panics, which the user caught; drops, clones and new parses), in which it is
also, at any time, the others' turn, and datums are given to them. -/
inductive UEnv.UsesAmong (U : UEnv σ P τ ε (Busy τ ε) CE) (s₀ : St σ (Busy τ ε)) :
    List (Datum τ ε × Dat τ ε) → St σ (Busy τ ε) → Prop where
  | start : UsesAmong U s₀ [] s₀
  | datum {held s d s' D} : UsesAmong U s₀ held s → U.Call s (.ok (some d)) s' →
      Reads (U.env.alloc.read s'.alloc) d D → UsesAmong U s₀ (held ++ [(D, d)]) s'
  | other {held s o s'} : UsesAmong U s₀ held s → U.Call s o s' → (∀ d, o ≠ .ok (some d)) → UsesAmong U s₀ held s'
  | drop {held D d held' s} : UsesAmong U s₀ (held ++ (D, d) :: held') s →
      UsesAmong U s₀ (held ++ held') { s with alloc := U.env.alloc.dropDat d s.alloc }
  | clone {held D d s n d' a} : UsesAmong U s₀ held s → (D, d) ∈ held → U.env.alloc.clone n d s.alloc = some (d', a) →
      UsesAmong U s₀ (held ++ [(D, d')]) { s with alloc := a }
  | parse {held s} (src : σ) : UsesAmong U s₀ held s → UsesAmong U s₀ held (St.init src s.alloc)
  | turn {held s} : UsesAmong U s₀ held s → UsesAmong U s₀ held { s with alloc := s.alloc.turn }
  | give {held D d held' s} : UsesAmong U s₀ (held ++ (D, d) :: held') s →
      UsesAmong U s₀ (held ++ held') { s with alloc := s.alloc.give d.refs }

/-- What holds at any time of such a history. What the user holds reads as when it was returned. What was done to memory is a
sequence of actions that any thread can do with what it holds, and those of the others are exactly those that they meant to do;
in the end this thread holds what is in the datums that the user holds. What is live is what can be reached from what the user
and the others hold, and each count is the number of references, if the others are not in the midst of changing something. And
a datum that a call returns can be read in full. -/
structure SoundAmong (U : UEnv σ P τ ε (Busy τ ε) CE) (held : List (Datum τ ε × Dat τ ε)) (s : St σ (Busy τ ε)) : Prop where
  reads : ∀ D d, (D, d) ∈ held → Reads (U.env.alloc.read s.alloc) d D
  leavesAlone : ∃ evs mine, Scene.empty.Leads evs ⟨s.alloc.heap, s.alloc.weak, mine, s.alloc.others⟩ ∧
    theirs evs = s.alloc.done ∧ mine.opened = [] ∧ mine.weaks = [] ∧ mine.refs.Perm (held.flatMap (·.2.refs))
  live : s.alloc.others.opened = [] → ∀ p, s.alloc.heap.cells p ≠ none ↔
    s.alloc.heap.From (held.flatMap (·.2.refs) ++ s.alloc.others.refs) p
  counts : s.alloc.others.opened = [] → ∀ p c, s.alloc.heap.cells p = some c →
    c.strong = (held.flatMap (·.2.refs) ++ s.alloc.others.refs).count p +
      ((List.range s.alloc.heap.size).map fun k => s.alloc.heap.refsFrom k p).sum
  weaks : ∀ p, s.alloc.weak p = s.alloc.others.weaks.count p
  returned : ∀ d s', U.Call s (.ok (some d)) s' → ∃ D, Reads (U.env.alloc.read s'.alloc) d D

end Kul.Mem
