import Verif.Model.DatumEq
import Verif.Spec.MemParser
import Verif.Spec.Size
import Verif.Spec.StreamWork

/-!
# What comparing and hashing look at

Specification only.
-/

namespace Kul

variable {τ τ' ε ε' A B S H : Type} {M : Type → Type} [Monad M]

/-! ## Datums -/

/-- A datum without what it refers to. -/
inductive Tok (τ ε : Type) where
  | text (t : τ)
  | combination
  | emptyNest
  | list
  | emptyList
  | extra (x : ε)
deriving DecidableEq, Repr

/-- All datums that a datum consists of, each before those that it refers to; operands before operators, and elements before
the rest of the list. -/
def Datum.toks : Datum τ ε → List (Tok τ ε)
  | .text t => [.text t]
  | .combination f a => .combination :: (a.toks ++ f.toks)
  | .emptyNest => [.emptyNest]
  | .list e n => .list :: (e.toks ++ n.toks)
  | .emptyList => [.emptyList]
  | .extra x => [.extra x]

/-- Comparing two of them: only two texts or two extras ask the user's code. -/
def Tok.same (teq : τ → τ' → M Bool) (xeq : ε → ε' → M Bool) : Tok τ ε → Tok τ' ε' → M Bool
  | .text t, .text u => teq t u
  | .combination, .combination | .emptyNest, .emptyNest | .list, .list | .emptyList, .emptyList => pure true
  | .extra x, .extra y => xeq x y
  | _, _ => pure false

/-- Comparing two sequences from the left, up to the first difference. -/
def inOrder (turn : M Unit) (same : A → B → M Bool) : List A → List B → M Bool
  | [], [] => pure true
  | a :: as, b :: bs => do
    turn
    if ← same a b then inOrder turn same as bs else pure false
  | _, _ => pure false

/-- Comparing two parts without effects. -/
def Tok.sameB (teq : τ → τ' → Bool) (xeq : ε → ε' → Bool) : Tok τ ε → Tok τ' ε' → Bool
  | .text t, .text u => teq t u
  | .combination, .combination | .emptyNest, .emptyNest | .list, .list | .emptyList, .emptyList => true
  | .extra x, .extra y => xeq x y
  | _, _ => false

/-- The two sequences are the same, or have a first difference, after `k` comparisons. -/
def Differ (same : A → B → Prop) (as : List A) (bs : List B) (b : Bool) (k : Nat) : Prop :=
  (b = true ∧ List.Forall₂ same as bs ∧ k = as.length) ∨
  (b = false ∧ ∃ p p' x y q q', as = p ++ x :: q ∧ bs = p' ++ y :: q' ∧ List.Forall₂ same p p' ∧ ¬ same x y ∧ k = p.length + 1)

/-- Counting turns. -/
def oneTurn : StateM Nat Unit := modify (· + 1)

/-- Comparisons that cost `w` steps. -/
def costing (eq : A → B → Bool) (w : A → B → Nat) (a : A) (b : B) : StateM Nat Bool := do
  modify (· + w a b)
  pure (eq a b)

/-- The result of comparing two datums, and the number of turns of the loop, those of calls inside of calls included. -/
def Datum.eqTurns (teq : τ → τ' → Bool) (xeq : ε → ε' → Bool) (d : Datum τ ε) (e : Datum τ' ε') : Bool × Nat :=
  (Datum.eqM oneTurn (fun t u => pure (teq t u)) (fun x y => pure (xeq x y)) d e).run 0

/-- The same for a datum in memory. -/
def Mem.Dat.eqTurns (teq : τ → τ' → Bool) (xeq : ε → ε' → Bool) (m : Mem.Addr → Option (Mem.Dat τ ε))
    (m' : Mem.Addr → Option (Mem.Dat τ' ε')) (n : Nat) (d : Mem.Dat τ ε) (e : Mem.Dat τ' ε') : Bool × Nat :=
  (Mem.Dat.eqIn oneTurn (fun t u => pure (teq t u)) (fun x y => pure (xeq x y)) (pure false) m m' n d e).run 0

/-- The result, and the number of turns and of the steps `w` of comparing texts. -/
def Datum.eqCost (teq : τ → τ' → Bool) (w : τ → τ' → Nat) (xeq : ε → ε' → Bool) (d : Datum τ ε) (e : Datum τ' ε') : Bool × Nat :=
  (Datum.eqM oneTurn (costing teq w) (fun x y => pure (xeq x y)) d e).run 0

/-- Comparing the datums of two sequences (`Vec`s), up to the first difference. -/
def eqCostAll (teq : τ → τ' → Bool) (w : τ → τ' → Nat) (xeq : ε → ε' → Bool) : List (Datum τ ε) → List (Datum τ' ε') → Nat
  | d :: ds, e :: es =>
    match d.eqCost teq w xeq e with
    | (true, k) => k + eqCostAll teq w xeq ds es
    | (false, k) => k
  | _, _ => 0

/-- A hasher that counts what is written. -/
def countWrites : HasherOps Nat := ⟨fun h _ => h + 1, fun h _ => h + 1⟩

/-! ## Texts -/

/-- An iterator that can be asked only so many times. -/
def IterNext.atMost (next : IterNext S A) : IterNext (S × Nat) A
  | (s, 0) => (.panic, (s, 0))
  | (s, k + 1) => ((next s).1, ((next s).2, k))

/-- How many items are the same at the beginning. -/
def commonPrefix [DecidableEq A] : List A → List A → Nat
  | a :: as, b :: bs => if a = b then commonPrefix as bs + 1 else 0
  | _, _ => 0

/-- The turns of the loop of `text::Iter::next` in so many calls of it. -/
def TextIter.turnsOf {C CS P τ : Type} (O : ChunkOps C CS P) : Nat → TextIter C CS P τ → Nat
  | 0, _ => 0
  | k + 1, it => nextTurns O it.nextChunks it.cur + turnsOf O k (it.next O).2

/-! ## Sharing -/

/-- Memory in which every datum is a list whose element and whose rest are both the one before: `n + 1` places up to place `n`. -/
def stacked (τ ε : Type) : Mem.Addr → Option (Mem.Dat τ ε)
  | 0 => some .emptyList
  | n + 1 => some (.list n n)

/-- What stands at place `n`. -/
def unstacked (τ ε : Type) : Nat → Datum τ ε
  | 0 => .emptyList
  | n + 1 => .list (unstacked τ ε n) (unstacked τ ε n)

end Kul
