import Verif.Model.LinkText
import Verif.Spec.Related
import Mathlib.Data.List.Forall2

/-!
# What datums stand for whose texts are linked through memory

Specification only. The same as `Spec/MemParser.lean` and `Spec/MemUse.lean`, but for texts that own slots.
-/

namespace Kul.Linked

open Mem (Addr Dat)

variable {σ σ' C P ε CE : Type}

/-- Texts and datums by value. -/
abbrev VText (C ε : Type) := TextDatumList C ε
abbrev VDatum (C ε : Type) := Datum (TextDatumList C ε) ε

/-- The slice of a parser by value. -/
abbrev VSlice (C ε : Type) := SliceAlloc (Datum (TextDatumList C ε) ε)

/-- In memory `m`, datum `d` is the root of the tree `D`, and the rest of that is in the slots `ps`, which are listed
as often as they are come upon. The chunks of texts are part of the tree. -/
inductive Reads (m : List (Dat (LText C) ε)) : Dat (LText C) ε → VDatum C ε → List Addr → Prop where
  | text {c} : Reads m (.text ⟨c, none⟩) (.text (.mk c none)) []
  | linked {c p t T ps} : m[p]? = some (.text t) → Reads m (.text t) (.text T) ps →
      Reads m (.text ⟨c, some p⟩) (.text (.mk c (some (.text T)))) (p :: ps)
  | combination {p q d e D D' ps qs} : m[p]? = some d → Reads m d D ps → m[q]? = some e → Reads m e D' qs →
      Reads m (.combination p q) (.combination D D') (p :: ps ++ q :: qs)
  | emptyNest : Reads m .emptyNest .emptyNest []
  | list {p q d e D D' ps qs} : m[p]? = some d → Reads m d D ps → m[q]? = some e → Reads m e D' qs →
      Reads m (.list p q) (.list D D') (p :: ps ++ q :: qs)
  | emptyList : Reads m .emptyList .emptyList []
  | extra {x} : Reads m (.extra x) (.extra x) []

/-- The result of a call, and the result of the same call by value, but for the datum. -/
inductive Alike : Outcome (Err P CE) (Option (Dat (LText C) ε)) → Outcome (Err P CE) (Option (VDatum C ε)) → Prop where
  | none : Alike (.ok none) (.ok none)
  | datum {d D} : Alike (.ok (some d)) (.ok (some D))
  | error {e} : Alike (.err e) (.err e)

/-- The datums `held` read back as the datums that calls by value gave, with results `os'`; `pss` are the slots of each. -/
def HeldRead (m : List (Dat (LText C) ε)) (os' : List (Outcome (Err P CE) (Option (VDatum C ε))))
    (held : List (Nat × Dat (LText C) ε)) (pss : List (List Addr)) : Prop :=
  List.Forall₂ (fun x ps => ∃ D, os'[x.1]? = some (.ok (some D)) ∧ Reads m x.2 D ps) held pss

/-- Whatever the user of parser `E` does, starting in state `s₀`: `V`, which is the same parser by value, gives the same
results, starting in state `t₀`, when it is called as often, and has used as many slots; any datum that the user holds
still reads back, by following its references and the links of its texts in memory as it is then, as the datum that the
same call of `V` gave; and no slot belongs to two of these datums, or twice to the same, or is free. -/
def ReadBack (E : Mem.Env σ P (LText C) ε (Slice C ε) CE) (V : Kul.Env σ' P (VText C ε) ε (VSlice C ε) CE)
    (s₀ : St σ (Slice C ε)) (t₀ : St σ' (VSlice C ε)) : Prop :=
  ∀ os held s, E.Uses true s₀ os held s → ∃ os' t, V.Calls t₀ os' t ∧ List.Forall₂ Alike os os' ∧
    s.alloc.free = t.alloc.free ∧ ∃ pss, HeldRead s.alloc.mem os' held pss ∧ pss.flatten.Nodup ∧
      ∀ p ∈ pss.flatten, ∀ i, s.alloc.free = some i → p < i

/-! ## Ownership -/

/-- Something that is owned: a reference `p` to (the root of) the tree `D`; or sole access to the slot `p`, where now is
`d` (without what `d` refers to). -/
inductive Res (C ε : Type) where
  | ref (p : Addr) (D : VDatum C ε)
  | place (p : Addr) (d : Dat (LText C) ε)

/-- Who owns a text `t` that is the list of chunks `T` owns the link `rs`. -/
inductive TParts : LText C → VText C ε → List (Res C ε) → Prop where
  | single {c} : TParts ⟨c, none⟩ (.mk c none) []
  | linked {c p T} : TParts ⟨c, some p⟩ (.mk c (some (.text T))) [.ref p (.text T)]

/-- Who owns a datum `d` that is the root of the tree `D` owns the references `rs`. -/
inductive Parts : Dat (LText C) ε → VDatum C ε → List (Res C ε) → Prop where
  | text {t T rs} : TParts t T rs → Parts (.text t) (.text T) rs
  | combination {p q D D'} : Parts (.combination p q) (.combination D D') [.ref p D, .ref q D']
  | emptyNest : Parts .emptyNest .emptyNest []
  | list {p q D D'} : Parts (.list p q) (.list D D') [.ref p D, .ref q D']
  | emptyList : Parts .emptyList .emptyList []
  | extra {x} : Parts (.extra x) (.extra x) []

/-- The slots of something owned. -/
inductive Res.Slots (m : List (Dat (LText C) ε)) : Res C ε → List Addr → Prop where
  | ref {p D d ps} : m[p]? = some d → Reads m d D ps → Slots m (.ref p D) (p :: ps)
  | place {p d} : m[p]? = some d → Slots m (.place p d) [p]

/-- In the slice `a` all of `xs` is owned, each by itself, in slots that are not free; and the slice `b` of a parser by
value corresponds to `a`. -/
def Own (a : Slice C ε) (b : VSlice C ε) (xs : List (Res C ε)) : Prop :=
  a.free = b.free ∧ a.mem.length = b.mem.length ∧
  ∃ pss, List.Forall₂ (Res.Slots a.mem) xs pss ∧ pss.flatten.Nodup ∧
    ∀ p ∈ pss.flatten, ∀ i, a.free = some i → p < i

/-- Results of a combiner, and of the same combiner by value. `xs` is what others own all the while. -/
def CombOut (xs : List (Res C ε)) (x : Except (Err P CE) (Option (Dat (LText C) ε)) × Slice C ε)
    (y : Except (Err P CE) (Option (VDatum C ε)) × VSlice C ε) : Prop :=
  (x.1 = .ok none ∧ y.1 = .ok none ∧ Own x.2 y.2 xs) ∨
  (∃ d D rs, x.1 = .ok (some d) ∧ y.1 = .ok (some D) ∧ Parts d D rs ∧ Own x.2 y.2 (rs ++ xs)) ∨
  (∃ e, x.1 = .error e ∧ y.1 = .error e ∧ Own x.2 y.2 xs)

/-- A combiner with datums in memory does what a combiner does by value. It owns its arguments, but may not touch what
others own. -/
inductive CombRel : Mem.Combiner (LText C) ε (Slice C ε) P CE → Kul.Combiner (VText C ε) ε (VSlice C ε) P CE → Prop where
  | operative {f g} : (∀ d D rs t T ts a b xs, Parts d D rs → TParts t T ts → Own a b (rs ++ (ts ++ xs)) →
      CombOut xs (f d t a) (g D T b)) → CombRel (.operative f) (.operative g)
  | applicative {f g} : (∀ d D rs d' D' rs' a b xs, Parts d D rs → Parts d' D' rs' →
      Own a b (rs ++ (rs' ++ xs)) → CombOut xs (f d d' a) (g D D' b)) → CombRel (.applicative f) (.applicative g)

/-- Bindings with datums in memory are the bindings by value. They may look at the operator and all that it refers to. -/
def SameBindings (lookup : Dat (LText C) ε → Slice C ε → Option (Mem.Combiner (LText C) ε (Slice C ε) P CE))
    (lookup' : VDatum C ε → Option (Kul.Combiner (VText C ε) ε (VSlice C ε) P CE)) : Prop :=
  ∀ {a b d D rs xs}, Parts d D rs → Own a b (rs ++ xs) → OptRel CombRel (lookup d a) (lookup' D)

end Kul.Linked
