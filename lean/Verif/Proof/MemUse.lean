import Verif.Proof.Clone
import Verif.Proof.MemLaws
import Verif.Spec.MemUse
import Verif.Props.Iteration
import Verif.Props.RcHeap

/-! # Histories of use of a parser with datums in memory -/

namespace Kul

theorem Env.Calls.snoc {σ P τ ε α CE : Type} {E : Env σ P τ ε α CE} {s os s' o s''} (h : E.Calls s os s')
    (hc : E.Call s' o s'') : E.Calls s (os ++ [o]) s'' := by
  induction h with
  | nil => exact .cons hc .nil
  | cons h1 _ ih => exact .cons h1 (ih hc)

namespace Mem

variable {σ P τ ε α β CE : Type}
variable {E : Env σ P τ ε α CE} {V : Kul.Env σ P τ ε β CE} {Own : α → β → List (Res τ ε) → Prop}

/-- What is held: each datum has got what it owns, and is the root of the datum that the same call gave by value. -/
inductive Held (os' : List (Outcome (Err P CE) (Option (Datum τ ε)))) :
    List (Nat × Dat τ ε) → List (Res τ ε) → Prop where
  | nil : Held os' [] []
  | cons {i d D rs held xs} : os'[i]? = some (.ok (some D)) → Parts d D rs → Held os' held xs →
      Held os' ((i, d) :: held) (rs ++ xs)

theorem Held.more {os' : List (Outcome (Err P CE) (Option (Datum τ ε)))} {held xs} (h : Held os' held xs) (o) :
    Held (os' ++ [o]) held xs := by
  induction h with
  | nil => exact .nil
  | @cons i _ _ _ _ _ h1 h2 _ ih =>
    refine .cons ?_ h2 ih
    rw [List.getElem?_append_left]
    · exact h1
    · by_contra hn
      rw [List.getElem?_eq_none (Nat.not_lt.mp hn)] at h1
      cases h1

theorem Held.snoc {os' : List (Outcome (Err P CE) (Option (Datum τ ε)))} {held xs} (h : Held os' held xs) {i d D rs}
    (hi : os'[i]? = some (.ok (some D))) (hp : Parts d D rs) : Held os' (held ++ [(i, d)]) (xs ++ rs) := by
  induction h with
  | nil => simpa using Held.cons hi hp .nil
  | cons h1 h2 _ ih => rw [List.append_assoc]; exact .cons h1 h2 ih

theorem Held.remove {os' : List (Outcome (Err P CE) (Option (Datum τ ε)))} {held held' i d} :
    ∀ {xs}, Held os' (held ++ (i, d) :: held') xs →
      ∃ D rs ys, Parts d D rs ∧ Held os' (held ++ held') ys ∧ xs.Perm (rs ++ ys) := by
  induction held with
  | nil =>
    intro xs h
    cases h with
    | cons h1 h2 h3 => exact ⟨_, _, _, h2, h3, List.Perm.refl _⟩
  | cons x held ih =>
    intro xs h
    cases h with
    | cons h1 h2 h3 =>
      obtain ⟨D, rs, ys, h4, h5, h6⟩ := ih h3
      refine ⟨D, rs, _, h4, .cons h1 h2 h5, ?_⟩
      refine (h6.append_left _).trans ?_
      rw [← List.append_assoc, ← List.append_assoc]
      exact (List.perm_append_comm).append_right _

theorem Held.pick {os' : List (Outcome (Err P CE) (Option (Datum τ ε)))} {held xs} (h : Held os' held xs) {i d}
    (hi : (i, d) ∈ held) : ∃ D rs ys, os'[i]? = some (.ok (some D)) ∧ Parts d D rs ∧ xs.Perm (rs ++ ys) := by
  induction h with
  | nil => cases hi
  | @cons j e D rs held xs h1 h2 _ ih =>
    rcases List.mem_cons.mp hi with hi | hi
    · cases hi
      exact ⟨D, rs, xs, h1, h2, List.Perm.refl _⟩
    · obtain ⟨D', rs', ys, h4, h5, h6⟩ := ih hi
      refine ⟨D', rs', rs ++ ys, h4, h5, (h6.append_left _).trans ?_⟩
      rw [← List.append_assoc, ← List.append_assoc]
      exact (List.perm_append_comm).append_right _

theorem Held.addrs {os' : List (Outcome (Err P CE) (Option (Datum τ ε)))} {held xs} (h : Held os' held xs) :
    xs.map Res.addr = (held.map (·.2)).flatMap Dat.refs ∧ places xs = [] := by
  induction h with
  | nil => exact ⟨rfl, rfl⟩
  | cons _ h2 _ ih =>
    constructor
    · rw [List.map_append, ih.1, h2.addrs]
      rfl
    · rw [places_append, ih.2, h2.places]
      rfl

/-- What a datum is the root of can be read. -/
theorem OwnLaws.readsDat {al : AllocOps τ ε α} (L : OwnLaws al Own) {a : α} {b : β} {d : Dat τ ε} {D : Datum τ ε}
    {rs xs : List (Res τ ε)} (hp : Parts d D rs) (h : Own a b (rs ++ xs)) : Reads (al.read a) d D := by
  cases hp with
  | text => exact .text
  | emptyNest => exact .emptyNest
  | emptyList => exact .emptyList
  | extra => exact .extra
  | combination =>
    obtain ⟨_, h1, h2⟩ := L.reads h
    obtain ⟨_, h3, h4⟩ := L.reads (L.perm h (List.Perm.swap _ _ _))
    exact .combination h1 h2 h3 h4
  | list =>
    obtain ⟨_, h1, h2⟩ := L.reads h
    obtain ⟨_, h3, h4⟩ := L.reads (L.perm h (List.Perm.swap _ _ _))
    exact .list h1 h2 h3 h4

/-- A call, from states that correspond, both ways. -/
theorem Laws.call (L : Laws E V Own) {s : St σ α} {t : St σ β} {xs : List (Res τ ε)} (h1 : s.strm = t.strm)
    (h2 : s.ndepth = t.ndepth) (h3 : Own s.alloc t.alloc xs) (n : Nat) :
    Out Own OptParts xs (E.parseNext n .base s) (V.parseNext n .base t) :=
  (L.r_parse n).1 .base s t xs h1 h2 h3

/-- Cloning gives a new owner of an equal datum. -/
def CloneLaw (E : Env σ P τ ε α CE) (Own : α → β → List (Res τ ε) → Prop) : Prop :=
  ∀ {n a b d D rs xs d' a'}, Parts d D rs → Own a b (rs ++ xs) → E.alloc.clone n d a = some (d', a') →
    ∃ rs', Parts d' D rs' ∧ Own a' b (rs' ++ (rs ++ xs))

theorem cloneLaw_heap {box u : Bool} (hu : u = box) {E : Env σ P τ ε (Heap τ ε) CE} (ha : E.alloc = heapMem τ ε box) :
    CloneLaw (β := β) E (heapOwn u) := by
  intro n a b d D rs xs d' a' hp H he
  rw [ha] at he
  exact HeapOwn.cloneDat hu hp H he

theorem cloneLaw_slice {E : Env σ P τ ε (SliceAlloc (Dat τ ε)) CE} (ha : E.alloc = sliceMem τ ε) :
    CloneLaw E sliceOwn := by
  intro n a b d D rs xs d' a' hp H he
  rw [ha] at he
  cases he

/-- A history of use of a parser, in memory and by value. -/
def Along (V : Kul.Env σ P τ ε β CE) (Own : α → β → List (Res τ ε) → Prop) (t₀ : St σ β)
    (os : List (Outcome (Err P CE) (Option (Dat τ ε)))) (held : List (Nat × Dat τ ε)) (s : St σ α) : Prop :=
  ∃ os' t xs, V.Calls t₀ os' t ∧ List.Forall₂ Alike os os' ∧ s.strm = t.strm ∧ s.ndepth = t.ndepth ∧
    Held os' held xs ∧ Own s.alloc t.alloc xs

section

variable {t₀ : St σ β} {os : List (Outcome (Err P CE) (Option (Dat τ ε)))} {held : List (Nat × Dat τ ε)} {s s' : St σ α}

theorem Along.datum (L : Laws E V Own) (h : Along V Own t₀ os held s) {d} (hc : E.Call s (.ok (some d)) s') :
    Along V Own t₀ (os ++ [.ok (some d)]) (held ++ [(os.length, d)]) s' := by
  obtain ⟨os', t, xs, k1, k2, k3, k4, k5, k6⟩ := h
  obtain ⟨n, hn, _⟩ := hc
  obtain ⟨q1, q2, q⟩ := L.call k3 k4 k6 n
  rcases hv : V.parseNext n .base t with ⟨o', t'⟩
  rw [hn, hv] at q1 q2 q
  rcases q with ⟨a, b, rs, e1, e2, h4, h5⟩ | ⟨e, e1, e2, h4⟩ | ⟨e1, e2⟩ | ⟨e1, e2⟩
  · cases e1
    simp only at e2
    subst e2
    rcases h4 with ⟨h4, _⟩ | ⟨x, X, h4, h6, h7⟩
    · cases h4
    · cases h4
      subst h6
      refine ⟨os' ++ [.ok (some X)], t', xs ++ rs, k1.snoc ⟨n, by exact hv, by simp⟩, ?_, q1, q2, ?_, ?_⟩
      · exact List.rel_append k2 (.cons .datum .nil)
      · refine (k5.more _).snoc ?_ h7
        rw [k2.length_eq]
        simp
      · exact L.perm h5 List.perm_append_comm
  all_goals cases e1

theorem Along.none (L : Laws E V Own) (h : Along V Own t₀ os held s) (hc : E.Call s (.ok none) s') :
    Along V Own t₀ (os ++ [.ok none]) held s' := by
  obtain ⟨os', t, xs, k1, k2, k3, k4, k5, k6⟩ := h
  obtain ⟨n, hn, _⟩ := hc
  obtain ⟨q1, q2, q⟩ := L.call k3 k4 k6 n
  rcases hv : V.parseNext n .base t with ⟨o', t'⟩
  rw [hn, hv] at q1 q2 q
  rcases q with ⟨a, b, rs, e1, e2, h4, h5⟩ | ⟨e, e1, e2, h4⟩ | ⟨e1, e2⟩ | ⟨e1, e2⟩
  · cases e1
    simp only at e2
    subst e2
    rcases h4 with ⟨_, h4, h6⟩ | ⟨x, X, h4, h6, h7⟩
    · subst h4 h6
      exact ⟨os' ++ [.ok .none], t', xs, k1.snoc ⟨n, by exact hv, by simp⟩, List.rel_append k2 (.cons .none .nil), q1, q2,
        k5.more _, h5⟩
    · cases h4
  all_goals cases e1

theorem Along.error (L : Laws E V Own) (h : Along V Own t₀ os held s) {e} (hc : E.Call s (.err e) s') :
    Along V Own t₀ (os ++ [.err e]) held s' := by
  obtain ⟨os', t, xs, k1, k2, k3, k4, k5, k6⟩ := h
  obtain ⟨n, hn, _⟩ := hc
  obtain ⟨q1, q2, q⟩ := L.call k3 k4 k6 n
  rcases hv : V.parseNext n .base t with ⟨o', t'⟩
  rw [hn, hv] at q1 q2 q
  rcases q with ⟨a, b, rs, e1, e2, h4, h5⟩ | ⟨e, e1, e2, h4⟩ | ⟨e1, e2⟩ | ⟨e1, e2⟩
  · cases e1
  · cases e1
    simp only at e2
    subst e2
    exact ⟨os' ++ [.err e], t', xs, k1.snoc ⟨n, by exact hv, by simp⟩, List.rel_append k2 (.cons .error .nil), q1, q2,
        k5.more _, h4⟩
  all_goals cases e1

theorem Along.drop (L : Laws E V Own) {i d held'} (h : Along V Own t₀ os (held ++ (i, d) :: held') s) :
    Along V Own t₀ os (held ++ held') { s with alloc := E.alloc.dropDat d s.alloc } := by
  obtain ⟨os', t, xs, k1, k2, k3, k4, k5, k6⟩ := h
  obtain ⟨D, rs, ys, m1, m2, m3⟩ := k5.remove
  exact ⟨os', t, ys, k1, k2, k3, k4, m2, L.dropDat m1 _ _ _ (L.perm k6 m3)⟩

theorem Along.clone (L : Laws E V Own) (hcl : CloneLaw E Own) (h : Along V Own t₀ os held s) {i d n d' a}
    (hi : (i, d) ∈ held) (he : E.alloc.clone n d s.alloc = some (d', a)) :
    Along V Own t₀ os (held ++ [(i, d')]) { s with alloc := a } := by
  obtain ⟨os', t, xs, k1, k2, k3, k4, k5, k6⟩ := h
  obtain ⟨D, rs, ys, m1, m2, m3⟩ := k5.pick hi
  obtain ⟨rs', m4, m5⟩ := hcl m2 (L.perm k6 m3) he
  exact ⟨os', t, xs ++ rs', k1, k2, k3, k4, k5.snoc m1 m4,
    L.perm m5 ((m3.symm.append_left rs').trans List.perm_append_comm)⟩

end

/-- **History theorem**. -/
theorem Laws.uses (L : Laws E V Own) {cl : Bool} (hcl : cl = true → CloneLaw E Own) {s₀ : St σ α} {t₀ : St σ β} (h1 : s₀.strm = t₀.strm) (h2 : s₀.ndepth = t₀.ndepth)
    (h3 : Own s₀.alloc t₀.alloc []) {os held s} (h : E.Uses cl s₀ os held s) :
    ∃ os' t xs, V.Calls t₀ os' t ∧ List.Forall₂ Alike os os' ∧ s.strm = t.strm ∧ s.ndepth = t.ndepth ∧
      Held os' held xs ∧ Own s.alloc t.alloc xs := by
  change Along V Own t₀ os held s
  induction h with
  | start => exact ⟨[], t₀, [], .nil, .nil, h1, h2, .nil, h3⟩
  | datum _ hc ih => exact Along.datum L ih hc
  | none _ hc ih => exact Along.none L ih hc
  | error _ hc ih => exact Along.error L ih hc
  | drop _ ih => exact Along.drop L ih
  | clone hc _ hi he ih => exact Along.clone L (hcl hc) ih hi he

/-- The next call ends, if it does by value. -/
theorem Laws.ends (L : Laws E V Own) {s : St σ α} {t : St σ β} {xs : List (Res τ ε)} (h1 : s.strm = t.strm)
    (h2 : s.ndepth = t.ndepth) (h3 : Own s.alloc t.alloc xs) {o' t'} (hc : V.Call t o' t') (hp : o' ≠ .panic) :
    ∃ o s', E.Call s o s' ∧ Alike o o' := by
  obtain ⟨n, hv, hf⟩ := hc
  obtain ⟨_, _, q⟩ := L.call h1 h2 h3 n
  change V.parseNext n .base t = (o', t') at hv
  rcases he : E.parseNext n .base s with ⟨o, s'⟩
  rw [he, hv] at q
  rcases q with ⟨a, b, rs, e1, e2, h4, h5⟩ | ⟨e, e1, e2, h4⟩ | ⟨e1, e2⟩ | ⟨e1, e2⟩ <;> simp only at e1 e2 <;>
    subst e1 <;> subst e2
  · refine ⟨_, s', ⟨n, he, by simp⟩, ?_⟩
    rcases h4 with ⟨rfl, rfl, _⟩ | ⟨_, _, rfl, rfl, _⟩
    · exact .none
    · exact .datum
  · exact ⟨_, s', ⟨n, he, by simp⟩, .error⟩
  · exact absurd rfl hp
  · exact absurd rfl hf

theorem Laws.readBack (L : Laws E V Own) (hcl : CloneLaw E Own) {s₀ : St σ α} {t₀ : St σ β} (h1 : s₀.strm = t₀.strm)
    (h2 : s₀.ndepth = t₀.ndepth) (h3 : Own s₀.alloc t₀.alloc []) : ReadBack E V s₀ t₀ := by
  intro os held s h
  obtain ⟨os', t, xs, k1, k2, _, _, k5, k6⟩ := L.uses (fun _ => hcl) h1 h2 h3 h
  refine ⟨os', t, k1, k2, fun i d hi => ?_⟩
  obtain ⟨D, rs, ys, h4, h5, h6⟩ := k5.pick hi
  exact ⟨D, h4, L.readsDat h5 (L.perm k6 h6)⟩

theorem Laws.goesOn (L : Laws E V Own) (hcl : CloneLaw E Own) {RS : σ → Seq P → Prop} {X : TextSem P τ β} (C : Conf V RS X) {s : σ}
    {r : List (Item P)} (hs : AtItems RS s r) {a : α} {b : β} (h3 : Own a b []) : GoesOn E (St.init s a) := by
  intro os held s' h
  obtain ⟨os', t, xs, k1, _, k3, k4, _, k6⟩ := L.uses (fun _ => hcl) (t₀ := St.init s b) rfl rfl h3 h
  obtain ⟨s₁, b₁, r₁, rfl, h4, _⟩ := C.calls k1 rfl hs
  obtain ⟨o, s₂, r₂, b₂, hc, _⟩ := C.call h4 b₁
  have hp : optOut o ≠ .panic := by rcases o with _ | _ | _ <;> simp [optOut]
  obtain ⟨o', s'', h5, h6⟩ := L.ends k3 k4 k6 hc hp
  refine ⟨o', s'', h5, ?_⟩
  generalize optOut o = x at h6
  cases h6 <;> simp

/-! ## Heaps -/

/-- In a heap where everything that is owned are references in datums `ds`, exactly what can be reached is live, and
counts are exact. -/
theorem HeapOwn.exact {box : Bool} {h : Heap τ ε} {xs : List (Res τ ε)} {ds : List (Dat τ ε)} (H : HeapOwn box h xs)
    (hd : xs.map Res.addr = ds.flatMap Dat.refs) (hp : places xs = []) :
    h.Exact ds := by
  have g := H.good
  rw [hp, hd] at g
  have hkids : ∀ k, (view h []).kids k = match h.cells k with | some c => c.dat.refs | none => [] := by
    intro k
    rw [view_kids]
    simp only [mask, List.not_mem_nil, if_false]
    cases h.cells k <;> rfl
  refine ⟨fun p => ⟨fun hc => ?_, fun hr => ?_⟩, fun p c hc => ?_⟩
  · have hr := g.reach (k := p) (by simpa [view] using hc)
    clear hc
    induction hr with
    | out h =>
      obtain ⟨d, h1, h2⟩ := List.mem_flatMap.mp h
      exact .root h1 h2
    | @kid k j h1 h2 ih =>
      rw [hkids] at h2
      cases hc : h.cells k with
      | none => rw [hc] at h2; cases h2
      | some c => rw [hc] at h2; exact .ref ih hc h2
  · have : view h [] p ≠ none := by
      cases hr with
      | root h1 h2 => exact g.valid _ (Or.inl (List.mem_flatMap.mpr ⟨_, h1, h2⟩))
      | @ref k c _ h1 h2 h3 => exact g.valid _ (Or.inr ⟨k, by rw [hkids, h2]; exact h3⟩)
    simpa [view] using this
  · have h1 := g.count p ⟨c.strong, shape c.dat⟩ (view_some hc (by simp))
    simp only at h1
    rw [h1]
    unfold Heap.refsTo
    congr 1
    refine Finset.sum_congr rfl fun k _ => ?_
    rw [hkids]
    unfold Heap.refsFrom
    cases h.cells k <;> rfl

theorem view_nil (h : Heap τ ε) : view h [] = h.asRcHeap := by
  funext k
  unfold view Heap.asRcHeap
  cases h.cells k with
  | none => rfl
  | some c =>
    simp only [Option.map_some, List.not_mem_nil, if_false, shape]
    rcases c with ⟨s, _ | _ | _ | _ | _ | _⟩ <;> rfl

end Mem

namespace RcHeap

/-- Counts are determined by the datums. -/
theorem Good.eq {L : Type} {D : Finset Nat} {h h' : Heap L} {outs : List Nat} (g : Good D h outs) (g' : Good D h' outs)
    (e : ∀ k, h.dat k = h'.dat k) : h = h' := by
  have hk : ∀ j, h.kids j = h'.kids j := by
    intro j
    have := e j
    unfold Heap.dat at this
    unfold Heap.kids
    cases h1 : h j <;> cases h2 : h' j <;> simp_all
  funext k
  have := e k
  unfold Heap.dat at this
  cases h1 : h k with
  | none => cases h2 : h' k <;> simp_all
  | some c =>
    cases h2 : h' k with
    | none => simp_all
    | some c' =>
      have e1 := g.count k c h1
      have e2 := g'.count k c' h2
      simp only [hk] at e1
      rw [h1, h2] at this
      simp only [Option.map_some, Option.some.injEq] at this
      rcases c with ⟨a, b⟩
      rcases c' with ⟨a', b'⟩
      simp only at e1 e2 this
      rw [e1, e2, this]

end RcHeap

namespace Mem

variable {τ ε : Type}

/-- Dropping by `algo1` gives the same memory. -/
theorem HeapOwn.drop_eq [DecidableEq τ] [DecidableEq ε] {u box : Bool} {h : Heap τ ε} {p : Addr} {D : Datum τ ε}
    {xs : List (Res τ ε)} (H : HeapOwn u h (.ref p D :: xs)) (hp : places xs = []) :
    ∃ N evs steps depth, ∀ n, N ≤ n →
      RcHeap.drop n p h.asRcHeap = .done ((heapMem τ ε box).dropRef p h).asRcHeap evs steps depth := by
  have g := H.good
  rw [show places (.ref p D :: xs) = [] from hp, view_nil] at g
  obtain ⟨N, h', evs, s, d, h1, h2, h3, h4, _⟩ := RcHeap.C42_shared (k := p) (outs := xs.map Res.addr) g
  refine ⟨N, evs, s, d, fun n hn => ?_⟩
  rw [h1 n hn]
  congr 1
  have H' : HeapOwn u ((heapMem τ ε box).dropRef p h) xs := H.drop
  have hs : ((heapMem τ ε box).dropRef p h).size = h.size := (Heap.release_sub _ _ _).1
  have hsub : ∀ k c, ((heapMem τ ε box).dropRef p h).cells k = some c → ∃ s, h.cells k = some ⟨s, c.dat⟩ :=
    (Heap.release_sub _ _ _).2
  have g' := H'.good
  generalize (heapMem τ ε box).dropRef p h = h₁ at *
  rw [hp, view_nil, hs] at g'
  have hdat : ∀ k, h₁.cells k ≠ none → h₁.asRcHeap.dat k = h.asRcHeap.dat k := by
    intro k hk
    obtain ⟨c, hc⟩ := Option.ne_none_iff_exists'.mp hk
    obtain ⟨s, hs⟩ := hsub k c hc
    simp [RcHeap.Heap.dat, Heap.asRcHeap, hc, hs]
  have hnone : ∀ k, h₁.asRcHeap k ≠ none ↔ h₁.cells k ≠ none := by
    intro k
    simp [Heap.asRcHeap]
  have hkids : ∀ k, h₁.cells k ≠ none → h₁.asRcHeap.kids k = h.asRcHeap.kids k := by
    intro k hk
    have := hdat k hk
    obtain ⟨c, hc⟩ := Option.ne_none_iff_exists'.mp ((hnone k).mpr hk)
    rw [RcHeap.dat_of hc] at this
    rw [RcHeap.kids_of_dat this.symm, RcHeap.kids_of hc]
  have live : ∀ k, RcHeap.Reach h.asRcHeap (xs.map Res.addr) k → h₁.cells k ≠ none := by
    intro k hr
    induction hr with
    | out h => exact (hnone _).mp (g'.valid _ (Or.inl h))
    | @kid k j _ h6 ih => exact (hnone _).mp (g'.valid _ (Or.inr ⟨k, by rw [hkids k ih]; exact h6⟩))
  have dead : ∀ k, h₁.cells k ≠ none → RcHeap.Reach h.asRcHeap (xs.map Res.addr) k := by
    intro k hk
    have := g'.reach ((hnone k).mpr hk)
    clear hk
    induction this with
    | out h => exact .out h
    | @kid k j _ h6 ih =>
      refine .kid ih ?_
      rw [← hkids k (live k ih)]
      exact h6
  refine h2.eq g' fun k => ?_
  by_cases hk : h₁.cells k = none
  · have hn : ¬ RcHeap.Reach h.asRcHeap (xs.map Res.addr) k := fun hr => live k hr hk
    rw [RcHeap.Heap.dat, (h4 k hn).1]
    simp [RcHeap.Heap.dat, Heap.asRcHeap, hk]
  · rw [(h3 k (dead k hk)).1, hdat k hk]

/-- Dropping of a datum by `algo1` gives the same memory. -/
theorem HeapOwn.dropDat_eq [DecidableEq τ] [DecidableEq ε] {u box : Bool} {h : Heap τ ε} {d : Dat τ ε} {D : Datum τ ε}
    {rs xs : List (Res τ ε)} (hd : Parts d D rs) (H : HeapOwn u h (rs ++ xs)) (hp : places xs = []) :
    ∃ N evs steps depth, ∀ n, N ≤ n →
      dropAll n d.refs h.asRcHeap = .done ((heapMem τ ε box).dropDat d h).asRcHeap evs steps depth := by
  have two : ∀ {p q X Y}, HeapOwn u h (.ref p X :: .ref q Y :: xs) → ∃ N evs steps depth, ∀ n, N ≤ n →
      dropAll n [p, q] h.asRcHeap =
        .done ((heapMem τ ε box).dropRef q ((heapMem τ ε box).dropRef p h)).asRcHeap evs steps depth := by
    intro p q X Y H
    obtain ⟨N, e, s, d, h1⟩ := HeapOwn.drop_eq (box := box) H hp
    have H' : HeapOwn u ((heapMem τ ε box).dropRef p h) _ := HeapOwn.drop H
    obtain ⟨M, e', s', d', h2⟩ := HeapOwn.drop_eq (box := box) H' hp
    refine ⟨max N M, e ++ (e' ++ []), s + (s' + 0), max d (max d' 0), fun n hn => ?_⟩
    simp only [dropAll, RcHeap.Res.ev, h1 n (by omega), h2 n (by omega), RcHeap.Res.andThen]
  cases hd with
  | text | emptyNest | emptyList | extra => exact ⟨0, [], 0, 0, fun _ _ => rfl⟩
  | combination | list => exact two H

end Mem

end Kul
