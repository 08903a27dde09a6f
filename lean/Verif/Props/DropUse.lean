import Verif.Props.Reads
import Verif.Props.DropAgree
import Verif.Spec.Size

/-!
# Dropping what was parsed takes linear time and no recursion

C69, for the datums that a parser gives: the conditions of `C69_sole` are met, whatever the source is and whatever the
user did before.
-/

namespace Kul.Mem

variable {C CS P τ ε β CE : Type}

/-- The tree of what a reference refers to. -/
theorem Reads.tree {h : Heap τ ε} {d : Dat τ ε} {D : Datum τ ε}
    (hr : Reads (fun p => (h.cells p).map (·.dat)) d D) : ∀ {p}, (h.cells p).map (·.dat) = some d →
      ∃ t : Drop.Ref Nat (Dat τ ε), t.cell = p ∧ RcHeap.Rep h.asRcHeap t ∧ 2 * t.branches + 1 = D.nodes := by
  have hd : ∀ {p d}, (h.cells p).map (·.dat) = some d → h.asRcHeap.dat p = some (shape d) := by
    intro p d hp
    cases hc : h.cells p with
    | none => rw [hc] at hp; cases hp
    | some c =>
      rw [hc] at hp
      cases hp
      rw [← view_nil]
      simp [RcHeap.Heap.dat, view, hc]
  induction hr with
  | text | emptyNest | emptyList | extra => exact fun {p} hp => ⟨.leaf p _, rfl, hd hp, rfl⟩
  | combination h1 _ h3 _ ih1 ih2 | list h1 _ h3 _ ih1 ih2 =>
    intro p hp
    obtain ⟨t1, e1, r1, b1⟩ := ih1 h1
    obtain ⟨t2, e2, r2, b2⟩ := ih2 h3
    refine ⟨.branch p t1 t2, rfl, ⟨?_, r1, r2⟩, by simp only [Drop.Ref.branches, Datum.nodes]; omega⟩
    rw [e1, e2]
    exact hd hp

/-- What is read is determined. -/
theorem Reads.unique {m : Addr → Option (Dat τ ε)} {d : Dat τ ε} {D D' : Datum τ ε} (h : Reads m d D)
    (h' : Reads m d D') : D = D' := by
  induction h generalizing D' with
  | text | emptyNest | emptyList | extra => cases h'; rfl
  | combination h1 _ h3 _ ih1 ih2 =>
    cases h' with
    | combination k1 k2 k3 k4 =>
      cases h1.symm.trans k1
      cases h3.symm.trans k3
      rw [ih1 k2, ih2 k4]
  | list h1 _ h3 _ ih1 ih2 =>
    cases h' with
    | list k1 k2 k3 k4 =>
      cases h1.symm.trans k1
      cases h3.symm.trans k3
      rw [ih1 k2, ih2 k4]

/-- Dropping of one reference. -/
theorem HeapOwn.drop_steps [DecidableEq τ] [DecidableEq ε] {box : Bool} {h : Heap τ ε} {p : Addr} {D : Datum τ ε}
    {xs : List (Res τ ε)} (H : HeapOwn true h (.ref p D :: xs)) (hp : places xs = []) :
    ∃ N evs steps depth, (∀ n, N ≤ n →
      RcHeap.drop n p h.asRcHeap = .done ((heapMem τ ε box).dropRef p h).asRcHeap evs steps depth) ∧
      depth ≤ 2 ∧ steps < D.nodes := by
  obtain ⟨N, evs, s, d, h1⟩ := HeapOwn.drop_eq (box := box) H hp
  have g := H.good
  rw [show places (.ref p D :: xs) = [] from hp, view_nil] at g
  obtain ⟨_, k1, k2⟩ := H.reads p D (by simp)
  rw [show places (.ref p D :: xs) = [] from hp] at k1 k2
  have hm : mask h [] = fun p => (h.cells p).map (·.dat) := by
    funext k; simp [mask]
  rw [hm] at k1 k2
  obtain ⟨t, rfl, ht, hb⟩ := k2.tree k1
  obtain ⟨N', h', evs', s', d', h2, h3, h4⟩ := RcHeap.C69_sole g ht fun k _ c hc => by
    unfold Heap.asRcHeap at hc
    cases hk : h.cells k with
    | none => rw [hk] at hc; cases hc
    | some c' => rw [hk] at hc; cases hc; exact H.box rfl k c' hk
  have e := (h1 (max N N') (by omega)).symm.trans (h2 (max N N') (by omega))
  cases e
  exact ⟨N, evs, s, d, h1, h3, by omega⟩

/-- Dropping of a datum. -/
theorem HeapOwn.dropDat_steps [DecidableEq τ] [DecidableEq ε] {box : Bool} {h : Heap τ ε} {d : Dat τ ε} {D : Datum τ ε}
    {rs xs : List (Res τ ε)} (hd : Parts d D rs) (H : HeapOwn true h (rs ++ xs)) (hp : places xs = []) :
    ∃ N evs steps depth, (∀ n, N ≤ n →
      dropAll n d.refs h.asRcHeap = .done ((heapMem τ ε box).dropDat d h).asRcHeap evs steps depth) ∧
      depth ≤ 2 ∧ steps < D.nodes := by
  have two : ∀ {p q X Y}, HeapOwn true h (.ref p X :: .ref q Y :: xs) → ∃ N evs steps depth, (∀ n, N ≤ n →
      dropAll n [p, q] h.asRcHeap =
        .done ((heapMem τ ε box).dropRef q ((heapMem τ ε box).dropRef p h)).asRcHeap evs steps depth) ∧
      depth ≤ 2 ∧ steps < X.nodes + Y.nodes + 1 := by
    intro p q X Y H
    obtain ⟨N, e, s, d, h1, h2, h3⟩ := HeapOwn.drop_steps (box := box) H hp
    have H' : HeapOwn true ((heapMem τ ε box).dropRef p h) _ := HeapOwn.drop H
    obtain ⟨M, e', s', d', k1, k2, k3⟩ := HeapOwn.drop_steps (box := box) H' hp
    refine ⟨max N M, e ++ (e' ++ []), s + (s' + 0), max d (max d' 0), fun n hn => ?_, by omega, by omega⟩
    simp only [dropAll, RcHeap.Res.ev, h1 n (by omega), k1 n (by omega), RcHeap.Res.andThen]
  cases hd with
  | text | emptyNest | emptyList | extra => exact ⟨0, [], 0, 0, fun _ _ => rfl, by omega, by simp [Datum.nodes]⟩
  | combination | list => exact two H

/-- C69, for datums that were parsed. Whatever the user did before: when they drop a datum that they hold, which reads
as `D`, the loop of the drop algorithm is iterated fewer times than there are datums in `D`, and calls
of `drop` are nested at most two deep, however deep `D` is. This holds for `Box`es, and for `Rc`s and `Arc`s if the user
does not clone, with any text type made of chunks, any stream, classifier and bindings, if the combiners
return datums of which nothing is shared (which is what the hypothesis says: `lookup'` are the same combiners by
value). -/
theorem C69_parsed [DecidableEq C] [DecidableEq ε] (box cloning : Bool) (hb : box = true ∨ cloning = false)
    (O : ChunkOps C CS P) (cc : Classifier)
    {lookup : Dat (TextVec C) ε → Heap (TextVec C) ε → Option (Combiner (TextVec C) ε (Heap (TextVec C) ε) P CE)}
    {lookup' : Datum (TextVec C) ε → Option (Kul.Combiner (TextVec C) ε β P CE)}
    (hl : ∀ {h : Heap (TextVec C) ε} {b : β} {d D rs xs}, Parts d D rs → heapOwn true h b (rs ++ xs) →
      OptRel (CombRel (heapOwn true)) (lookup d h) (lookup' D)) (s : TextIter C CS P (TextVec C)) (b : β)
    {os held i d held' t} (h : (textEnv O (textVec _ O) cc (heapMem _ _ box) lookup).Uses cloning (St.init s Heap.empty)
      os (held ++ (i, d) :: held') t) {D} (hD : Reads ((heapMem _ _ box).read t.alloc) d D) :
    ∃ N evs steps depth, (∀ n, N ≤ n → dropAll n d.refs t.alloc.asRcHeap =
        .done ((heapMem _ _ box).dropDat d t.alloc).asRcHeap evs steps depth) ∧
      depth ≤ 2 ∧ steps < D.nodes := by
  have L := heapLaws (box := box) (u := true) (E := textEnv O (textVec _ O) cc (heapMem _ _ box) lookup)
    (V := Kul.textEnv O (textVec _ O) cc (boxAlloc _ _ _) lookup') (fun _ => rfl) rfl rfl
    (rest_text (fun _ => textVec_lock O _) hl)
  obtain ⟨os', t', xs, _, _, _, _, k5, k6⟩ :=
    L.uses (fun hc => by
      rcases hb with hb | hb
      · exact cloneLaw_heap hb.symm rfl
      · rw [hb] at hc; cases hc) (s₀ := St.init s Heap.empty) (t₀ := St.init s b) rfl rfl HeapOwn.empty h
  obtain ⟨D', rs, ys, m1, m2, m3⟩ := k5.remove
  have k7 := HeapOwn.perm k6 m3
  have := Reads.unique hD (L.readsDat (b := t'.alloc) m1 k7)
  subst this
  exact HeapOwn.dropDat_steps m1 k7 m2.addrs.2

/-- C69, for the in-memory parser without bindings, on any string. -/
theorem C69_inmem [DecidableEq ε] (box cloning : Bool) (hb : box = true ∨ cloning = false) (string : Str)
    {os held i d held' t} (h : (inmemEnv box (unbound _ ε _ _ CE)).Uses cloning
      (St.init (inmemSource string) Heap.empty) os (held ++ (i, d) :: held') t)
    {D} (hD : Reads ((heapMem _ _ box).read t.alloc) d D) :
    ∃ N evs steps depth, (∀ n, N ≤ n → dropAll n d.refs t.alloc.asRcHeap =
        .done ((heapMem _ _ box).dropDat d t.alloc).asRcHeap evs steps depth) ∧
      depth ≤ 2 ∧ steps < D.nodes :=
  C69_parsed (β := Unit) (lookup' := noBindings _ ε Unit _ CE) box cloning hb posStrOps defaultClassifier
    (lookup := unbound _ ε _ _ CE) (fun _ _ => trivial) (inmemSource string) () h hD

/-- The counts of a drop. -/
private def costs {L : Type} : RcHeap.Res L → Option (Nat × Nat)
  | .done _ _ steps depth => some (steps, depth)
  | _ => none

/-- C69: a datum that was parsed, with nine datums in it, and what its drop takes. -/
example : ∃ os held t, (inmemEnv true (unbound _ Empty _ _ Empty)).Uses true
      (St.init (inmemSource ['{', 'a', ' ', '{', 'b', ' ', 'c', '}', '}']) Heap.empty) os held t ∧
      held.map (fun x => costs (dropAll 19 x.2.refs (Heap.asRcHeap t.alloc))) = [some (3, 2)] :=
  uses_of_view 60 [.call] _ _
    (fun _ held t => held.map fun x => costs (dropAll 19 x.2.refs (Heap.asRcHeap t.alloc))) (by decide +kernel)

end Kul.Mem
