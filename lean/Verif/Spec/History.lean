import Verif.Spec.Seq

/-!
# Histories of a source stream

What a user of a `SourceStream` (`core/src/lib.rs` 164-195) can see: the results of
operations, in order. Specification only.
-/

namespace Kul

variable {σ P τ α : Type}

/-- An operation on a stream, with its result. -/
inductive StreamEvent (P τ : Type) where
  | peek (o : Option (Item P))
  | next (o : Option (Item P))
  | nextAccum (o : Option (Item P))
  | accumDone (t : τ)
  | nextAccumFailed (e : AllocErr)
  | accumDoneFailed (e : AllocErr)
  | panic
deriving DecidableEq, Repr

/-- `S.History s es`: from stream state `s`, some sequence of operations gives the results
`es`. Each operation that uses the allocator finds it in an arbitrary state. -/
inductive StreamOps.History (S : StreamOps σ P τ α) : σ → List (StreamEvent P τ) → Prop where
  | nil {s} : History S s []
  | peek {s o s' es} : S.peek s = (.ok o, s') → History S s' es → History S s (.peek o :: es)
  | next {s o s' es} : S.next s = (.ok o, s') → History S s' es → History S s (.next o :: es)
  | nextAccum {s a o s' a' es} : S.nextAccum s a = (.ok o, s', a') → History S s' es →
      History S s (.nextAccum o :: es)
  | nextAccumFailed {s a e s' a' es} : S.nextAccum s a = (.err e, s', a') → History S s' es →
      History S s (.nextAccumFailed e :: es)
  | accumDone {s a t s' a' es} : S.accumDone s a = (.ok t, s', a') → History S s' es →
      History S s (.accumDone t :: es)
  | accumDoneFailed {s a e s' a' es} : S.accumDone s a = (.err e, s', a') → History S s' es →
      History S s (.accumDoneFailed e :: es)
  | peekPanics {s o s'} : S.peek s = (o, s') → (∀ x, o ≠ .ok x) → History S s [.panic]
  | nextPanics {s o s'} : S.next s = (o, s') → (∀ x, o ≠ .ok x) → History S s [.panic]
  | nextAccumPanics {s a o s' a'} : S.nextAccum s a = (o, s', a') → (∀ x, o ≠ .ok x) →
      (∀ e, o ≠ .err e) → History S s [.panic]
  | accumDonePanics {s a o s' a'} : S.accumDone s a = (o, s', a') → (∀ x, o ≠ .ok x) →
      (∀ e, o ≠ .err e) → History S s [.panic]

/-- The results `es` are those of one sequence: `pending` are the items taken by `next_accum`
since the last `next` or `accum_done`, `rest` the items yet to come. `RT t c` says that text
`t` consists of the items `c`. Nothing panics. If `F`, memory may run out while there are
pending items; these are then lost, but no others. -/
inductive SeqHistory (RT : τ → List (Item P) → Prop) (F : Prop) :
    List (Item P) → List (Item P) → List (StreamEvent P τ) → Prop where
  | nil {pending rest} : SeqHistory RT F pending rest []
  | peek {pending rest es} : SeqHistory RT F pending rest es →
      SeqHistory RT F pending rest (.peek rest.head? :: es)
  | next {pending it rest es} : SeqHistory RT F [] rest es →
      SeqHistory RT F pending (it :: rest) (.next (some it) :: es)
  | nextEnd {pending es} : SeqHistory RT F [] [] es → SeqHistory RT F pending [] (.next none :: es)
  | nextAccum {pending it rest es} : SeqHistory RT F (pending ++ [it]) rest es →
      SeqHistory RT F pending (it :: rest) (.nextAccum (some it) :: es)
  | nextAccumEnd {pending es} : SeqHistory RT F pending [] es →
      SeqHistory RT F pending [] (.nextAccum none :: es)
  | accumDone {pending rest t es} : RT t pending → SeqHistory RT F [] rest es →
      SeqHistory RT F pending rest (.accumDone t :: es)
  | nextAccumFailed {pending rest e es} : F → pending ≠ [] → SeqHistory RT F [] rest es →
      SeqHistory RT F pending rest (.nextAccumFailed e :: es)
  | accumDoneFailed {pending rest e es} : F → pending ≠ [] → SeqHistory RT F [] rest es →
      SeqHistory RT F pending rest (.accumDoneFailed e :: es)

end Kul
