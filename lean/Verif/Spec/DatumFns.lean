import Verif.Spec.TextFns
import Verif.Model.Bindings
import Verif.Spec.Related

/-!
# Shapes of datums and histories of a hash map

Specification only.
-/

namespace Kul

variable {τ ε K V : Type}

/-- There is a path from the top of the datum with `k` links of the kinds `elem` and
`operands` (and any number of the kinds `next` and `operator`). -/
inductive Datum.Links : Datum τ ε → Nat → Prop where
  | here (d) : Links d 0
  | operator {f a k} : Links f k → Links (.combination f a) k
  | operands {f a k} : Links a k → Links (.combination f a) (k + 1)
  | elem {e n k} : Links e k → Links (.list e n) (k + 1)
  | next {e n k} : Links n k → Links (.list e n) k

/-- What can happen to a hash map. -/
inductive MapOp (K V : Type) where
  | insert (k : K) (v : V)
  | remove (k : K)

/-- What is stored under `k` after a history of operations (latest first). -/
def stored (eq : K → K → Bool) (k : K) : List (MapOp K V) → Option V
  | [] => none
  | .insert k' v :: ops => if eq k k' then some v else stored eq k ops
  | .remove k' :: ops => if eq k k' then none else stored eq k ops

/-- A hash map that starts empty, undergoes the operations (latest first), and may be
rearranged at any time. -/
inductive MapHistory (eq : K → K → Bool) (hash : K → Nat) :
    List (MapOp K V) → List (Entry K V) → Prop where
  | empty : MapHistory eq hash [] []
  | insert {ops m} (k v) : MapHistory eq hash ops m →
      MapHistory eq hash (.insert k v :: ops) (hashInsert eq hash m k v)
  | remove {ops m} (k) : MapHistory eq hash ops m →
      MapHistory eq hash (.remove k :: ops) (hashRemove eq hash m k)
  | rearrange {ops m m'} : MapHistory eq hash ops m → m.Perm m' → MapHistory eq hash ops m'

/-- `eq` is an equivalence. -/
structure EqvRel (eq : K → K → Bool) : Prop where
  refl : ∀ a, eq a a = true
  symm : ∀ a b, eq a b = true → eq b a = true
  trans : ∀ a b c, eq a b = true → eq b c = true → eq a c = true

variable {H : Type}

/-- The key equality and hash of the in-memory parser's bindings (`HashMap` of datums, with
any `BuildHasher`): hash with any hasher `W` from any initial state, then `finish`. -/
def datumKeyHash [DecidableEq ε] (W : HasherOps H) (xh : ε → H → H) (start : H) (finish : H → Nat)
    (d : Datum (TextVec PosStr) ε) : Nat := finish (d.hash W (TextVec.hashFn W) xh start)

section

variable {C CS C' CS' P P' τ' α α' H : Type}

/-- The texts of type `T` that can be iterated, as all texts that the library makes can. -/
abbrev TextType.Good (T : TextType C τ α) (RC : C → List (Item P) → Prop) : Type := {t : τ // ∃ l, T.Means RC t l}

/-- `teq` is what `Text::eq` gives. -/
def IsTextEq (O : ChunkOps C CS P) (T : TextType C τ α) (RC : C → List (Item P) → Prop) (O' : ChunkOps C' CS' P')
    (T' : TextType C' τ' α') (RC' : C' → List (Item P') → Prop) (teq : T.Good RC → T'.Good RC' → Bool) : Prop :=
  ∀ t u, TextEq O T O' T' t.1 u.1 (teq t u)

/-- `th` is what `Text::hash` gives. -/
def IsTextHash (O : ChunkOps C CS P) (T : TextType C τ α) (RC : C → List (Item P) → Prop) (W : HasherOps H)
    (th : T.Good RC → H → H) : Prop :=
  ∀ t h, ∃ n, T.hash O W n t.1 h = .ok (th t h)

/-- The two texts have the same characters. -/
def SameCharsAt (T : TextType C τ α) (RC : C → List (Item P) → Prop) (T' : TextType C' τ' α')
    (RC' : C' → List (Item P') → Prop) (t : T.Good RC) (u : T'.Good RC') : Prop :=
  ∃ l m, T.Means RC t.1 l ∧ T'.Means RC' u.1 m ∧ charsAt l = charsAt m

end

end Kul
