import Verif.Model.MemParser
import Verif.Spec.Related

/-!
# What datums in memory stand for

Specification only. `Reads` says what a user sees who follows the references of a datum. `Laws` is what
an allocator with its references, and the combiners, must respect: it is the discipline of ownership that
Rust enforces, in the style of separation logic.
-/

namespace Kul.Mem

variable {σ P τ ε α β CE : Type}

/-- In memory `m`, datum `d` is the root of the tree `D`. -/
inductive Reads (m : Addr → Option (Dat τ ε)) : Dat τ ε → Datum τ ε → Prop where
  | text {t} : Reads m (.text t) (.text t)
  | combination {p q d e D D'} : m p = some d → Reads m d D → m q = some e → Reads m e D' →
      Reads m (.combination p q) (.combination D D')
  | emptyNest : Reads m .emptyNest .emptyNest
  | list {p q d e D D'} : m p = some d → Reads m d D → m q = some e → Reads m e D' →
      Reads m (.list p q) (.list D D')
  | emptyList : Reads m .emptyList .emptyList
  | extra {x} : Reads m (.extra x) (.extra x)

/-- Something that is owned: a reference `p` to (the root of) the tree `D`; or sole access to the place `p`
in memory, where now is `d` (without what `d` refers to). -/
inductive Res (τ ε : Type) where
  | ref (p : Addr) (D : Datum τ ε)
  | place (p : Addr) (d : Dat τ ε)

/-- Who owns a datum `d` that is the root of the tree `D` owns the references `rs`. -/
inductive Parts : Dat τ ε → Datum τ ε → List (Res τ ε) → Prop where
  | text {t} : Parts (.text t) (.text t) []
  | combination {p q D D'} : Parts (.combination p q) (.combination D D') [.ref p D, .ref q D']
  | emptyNest : Parts .emptyNest .emptyNest []
  | list {p q D D'} : Parts (.list p q) (.list D D') [.ref p D, .ref q D']
  | emptyList : Parts .emptyList .emptyList []
  | extra {x} : Parts (.extra x) (.extra x) []

/-- Results of a combiner, and of the same combiner by value: both give no datum, or datums of which one is
the root of the other, or the same error. `xs` is what others own all the while. -/
def CombOut (Own : α → β → List (Res τ ε) → Prop) (xs : List (Res τ ε))
    (x : Except (Err P CE) (Option (Dat τ ε)) × α) (y : Except (Err P CE) (Option (Datum τ ε)) × β) : Prop :=
  (x.1 = .ok none ∧ y.1 = .ok none ∧ Own x.2 y.2 xs) ∨
  (∃ d D rs, x.1 = .ok (some d) ∧ y.1 = .ok (some D) ∧ Parts d D rs ∧ Own x.2 y.2 (rs ++ xs)) ∨
  (∃ e, x.1 = .error e ∧ y.1 = .error e ∧ Own x.2 y.2 xs)

/-- A combiner with datums in memory does what a combiner does by value. It may use up its arguments, but
not touch what others own. -/
inductive CombRel (Own : α → β → List (Res τ ε) → Prop) :
    Combiner τ ε α P CE → Kul.Combiner τ ε β P CE → Prop where
  | operative {f g} : (∀ d D rs t a b xs, Parts d D rs → Own a b (rs ++ xs) →
      CombOut Own xs (f d t a) (g D t b)) → CombRel Own (.operative f) (.operative g)
  | applicative {f g} : (∀ d D rs d' D' rs' a b xs, Parts d D rs → Parts d' D' rs' →
      Own a b (rs ++ (rs' ++ xs)) → CombOut Own xs (f d d' a) (g D D' b)) →
      CombRel Own (.applicative f) (.applicative g)

/-- The discipline of ownership. `Own a b xs` says that in state `a` all of `xs` is owned, each by itself, and
that state `b` of the allocator by value corresponds to `a`. -/
structure OwnLaws (al : AllocOps τ ε α) (Own : α → β → List (Res τ ε) → Prop) : Prop where
  perm : ∀ {a b xs ys}, Own a b xs → xs.Perm ys → Own a b ys
  /-- What is owned can be read. -/
  reads : ∀ {a b p D xs}, Own a b (.ref p D :: xs) → ∃ d, al.read a p = some d ∧ Reads (al.read a) d D
  /-- `get_mut` gives sole access. -/
  getMut : ∀ {a b p D xs}, Own a b (.ref p D :: xs) → al.getMut p a = true →
    ∃ d rs, Parts d D rs ∧ Own a b (.place p d :: (rs ++ xs))
  /-- It can be given back. -/
  giveBack : ∀ {a b p d D rs xs}, Parts d D rs → Own a b (.place p d :: (rs ++ xs)) →
    Own a b (.ref p D :: xs)
  /-- Who has sole access may write. -/
  write : ∀ {a b p d d' xs}, Own a b (.place p d :: xs) → Own (al.write p d' a) b (.place p d' :: xs)
  /-- Who has sole access can get it again. -/
  sole : ∀ {a b p d xs}, Own a b (.place p d :: xs) → al.getMut p a = true
  /-- Who owns a reference may drop it. -/
  dropRef : ∀ {a b p D xs}, Own a b (.ref p D :: xs) → Own (al.dropRef p a) b xs

/-- The same, for all that a parser uses. -/
structure Laws (E : Env σ P τ ε α CE) (V : Kul.Env σ P τ ε β CE) (Own : α → β → List (Res τ ε) → Prop) : Prop
    extends OwnLaws E.alloc Own where
  /-- A new datum takes over the references in it. If there is no memory, they are dropped. -/
  newDatum : ∀ {a b d D rs xs}, Parts d D rs → Own a b (rs ++ xs) →
    (∃ p a' b', E.alloc.newDatum d a = (.ok p, a') ∧ V.alloc.newDatum D b = (.ok (), b') ∧
      Own a' b' (.ref p D :: xs) ∧ E.alloc.getMut p a' = V.alloc.getMutFresh b') ∨
    (∃ e a' b', E.alloc.newDatum d a = (.error e, a') ∧ V.alloc.newDatum D b = (.error e, b') ∧
      Own a' b' xs)
  /-- By value, too, `get_mut` gives access to what is new. -/
  fresh : ∀ b, V.alloc.getMutFresh b = true
  cc : E.cc = V.cc
  peek : E.strm.peek = V.strm.peek
  next : E.strm.next = V.strm.next
  empty : E.text.empty = V.text.empty
  nextAccum : ∀ {a b xs}, Own a b xs → ∀ s, ∃ o s' a' b', E.strm.nextAccum s a = (o, s', a') ∧
    V.strm.nextAccum s b = (o, s', b') ∧ Own a' b' xs
  accumDone : ∀ {a b xs}, Own a b xs → ∀ s, ∃ o s' a' b', E.strm.accumDone s a = (o, s', a') ∧
    V.strm.accumDone s b = (o, s', b') ∧ Own a' b' xs
  concat : ∀ {a b xs}, Own a b xs → ∀ t u, ∃ o a' b', E.text.concat t u a = (o, a') ∧
    V.text.concat t u b = (o, b') ∧ Own a' b' xs
  lookup : ∀ {a b d D rs xs}, Parts d D rs → Own a b (rs ++ xs) →
    OptRel (CombRel Own) (E.lookup d a) (V.lookup D)

end Kul.Mem
