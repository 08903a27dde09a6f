import Verif.Model.MemUnwind
import Verif.Spec.MemUse
import Verif.Spec.Own

/-! # What may be expected of memory when user-supplied code panics. Specification only. -/

namespace Kul.Mem

variable {σ P τ ε α CE : Type}

/-- A history of what a user does with a parser and its datums: calls of `next`, also after errors and after panics, which
the user caught; dropping and cloning of datums; and parsing of other sources, or of what is left of this one, by a new
iterator of the same parser. `held` are the datums and clones that were not dropped, each with what was read from
it when it was returned. -/
inductive UEnv.Uses (U : UEnv σ P τ ε α CE) (s₀ : St σ α) : List (Datum τ ε × Dat τ ε) → St σ α → Prop where
  | start : Uses U s₀ [] s₀
  | datum {held s d s' D} : Uses U s₀ held s → U.Call s (.ok (some d)) s' → Reads (U.env.alloc.read s'.alloc) d D →
      Uses U s₀ (held ++ [(D, d)]) s'
  | other {held s o s'} : Uses U s₀ held s → U.Call s o s' → (∀ d, o ≠ .ok (some d)) → Uses U s₀ held s'
  | drop {held D d held' s} : Uses U s₀ (held ++ (D, d) :: held') s →
      Uses U s₀ (held ++ held') { s with alloc := U.env.alloc.dropDat d s.alloc }
  | clone {held D d s n d' a} : Uses U s₀ held s → (D, d) ∈ held → U.env.alloc.clone n d s.alloc = some (d', a) →
      Uses U s₀ (held ++ [(D, d')]) { s with alloc := a }
  | parse {held s} (src : σ) : Uses U s₀ held s → Uses U s₀ held (St.init src s.alloc)

/-- What a combiner leaves, that was called when others owned `xs`: if it returns a datum, then it is the root of some
tree; and it must not have touched what others own, nor have kept or leaked what it owned, even if it panicked. -/
def UOut (Own : α → List (Res τ ε) → Prop) (xs : List (Res τ ε)) :
    Option (Except (Err P CE) (Option (Dat τ ε))) × α → Prop
  | (some (.ok (some d)), a) => ∃ D rs, Parts d D rs ∧ Own a (rs ++ xs)
  | (_, a) => Own a xs

/-- A combiner respects ownership. -/
def UCombiner.Careful (Own : α → List (Res τ ε) → Prop) : UCombiner τ ε α P CE → Prop
  | .operative f => ∀ d D rs t a xs, Parts d D rs → Own a (rs ++ xs) → UOut Own xs (f d t a)
  | .applicative f => ∀ d D rs d' D' rs' a xs, Parts d D rs → Parts d' D' rs' → Own a (rs ++ (rs' ++ xs)) →
      UOut Own xs (f d d' a)

/-- What a new datum leaves: it took over the references in it; or they were dropped. -/
def NewOut (Own : α → List (Res τ ε) → Prop) (D : Datum τ ε) (xs : List (Res τ ε)) :
    Option (Except AllocErr Addr) × α → Prop
  | (some (.ok p), a) => Own a (.ref p D :: xs)
  | (_, a) => Own a xs

/-- User-supplied code respects ownership, also if it panics. It need not do anything else as it should. -/
structure UEnv.Careful (U : UEnv σ P τ ε α CE) (Own : α → List (Res τ ε) → Prop) : Prop where
  nextAccum : ∀ {s a xs}, Own a xs → Own (U.env.strm.nextAccum s a).2.2 xs
  accumDone : ∀ {s a xs}, Own a xs → Own (U.env.strm.accumDone s a).2.2 xs
  concat : ∀ {t u a xs}, Own a xs → Own (U.env.text.concat t u a).2 xs
  newDatum : ∀ {d D rs a xs}, Parts d D rs → Own a (rs ++ xs) → NewOut Own D xs (U.newDatum d a)
  lookup : ∀ {d D rs a xs c}, Parts d D rs → Own a (rs ++ xs) → U.lookup d a = some (some c) → c.Careful Own
  strmPanics : ∀ {c s a s' a' xs}, Own a xs → U.strmPanics c s a = some (s', a') → Own a' xs
  panics : ∀ {c a a' xs}, Own a xs → U.panics c a = some a' → Own a' xs

/-- Combiners of which the second does, and returns, what the first one does, where that returns. -/
def UCombiner.Agrees : UCombiner τ ε α P CE → Combiner τ ε α P CE → Prop
  | .operative f, .operative g => ∀ d t a r a', f d t a = (some r, a') → g d t a = (r, a')
  | .applicative f, .applicative g => ∀ d d' a r a', f d d' a = (some r, a') → g d d' a = (r, a')
  | _, _ => False

/-- The parser `U.env`, whose `new_datum` and combiners do not panic, has ones that do what those of `U` do where those
return. -/
structure UEnv.Agrees (U : UEnv σ P τ ε α CE) : Prop where
  newDatum : ∀ {d a r a'}, U.newDatum d a = (some r, a') → U.env.alloc.newDatum d a = (r, a')
  lookup : ∀ {d a c}, U.lookup d a = some c → OptRel UCombiner.Agrees c (U.env.lookup d a)

/-- What holds of what a user holds, and of the memory, at any time in a history. -/
def Sound (U : UEnv σ P τ ε (Heap τ ε) CE) (box : Bool) (held : List (Datum τ ε × Dat τ ε)) (s : St σ (Heap τ ε)) : Prop :=
  (∀ D d, (D, d) ∈ held → Reads (U.env.alloc.read s.alloc) d D) ∧
  s.alloc.Exact (held.map (·.2)) ∧
  (box = true → ∀ p c, s.alloc.cells p = some c → c.strong = 1) ∧
  ∀ d s', U.Call s (.ok (some d)) s' → ∃ D, Reads (U.env.alloc.read s'.alloc) d D

end Kul.Mem
