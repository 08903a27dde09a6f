import Verif.Proof.MemUse
import Verif.Spec.Threads

/-! # A parser whose memory other threads use, too, respects the discipline of ownership -/

namespace Kul.Mem

variable {σ P τ ε β CE : Type}

theorem Pool.Is.perm {pool : Pool} {xs ys : List (Res τ ε)} (h : pool.Is xs) (p : xs.Perm ys) : pool.Is ys :=
  ⟨(p.symm.filterMap _).trans h.refs, (p.symm.filterMap _).trans h.opened⟩

theorem mem_refsOf {xs : List (Res τ ε)} {p : Addr} : p ∈ refsOf xs ↔ ∃ D, .ref p D ∈ xs := by
  unfold refsOf
  rw [List.mem_filterMap]
  constructor
  · rintro ⟨x, h1, h2⟩
    cases x with
    | ref q D => cases h2; exact ⟨D, h1⟩
    | place q d => cases h2
  · exact fun ⟨D, h⟩ => ⟨_, h, rfl⟩

/-- One of the references held. -/
theorem Pool.Is.pick {pool : Pool} {xs : List (Res τ ε)} (h : pool.Is xs) {p : Addr} (hp : p ∈ pool.refs) :
    ∃ D xs', xs.Perm (.ref p D :: xs') ∧ Pool.Is ⟨pool.refs.erase p, pool.opened, pool.weaks⟩ xs' := by
  obtain ⟨D, hD⟩ := mem_refsOf.mp (h.refs.mem_iff.mpr hp)
  obtain ⟨u, v, rfl⟩ := List.append_of_mem hD
  have hq : (u ++ .ref p D :: v).Perm (.ref p D :: (u ++ v)) := List.perm_middle
  obtain ⟨h1, h2⟩ := h.perm hq
  refine ⟨D, u ++ v, hq, ⟨?_, h2⟩⟩
  have : (p :: refsOf (u ++ v)).Perm (p :: pool.refs.erase p) := h1.trans (List.perm_cons_erase hp)
  exact (List.perm_cons _).mp this

/-- One of the places held. -/
theorem Pool.Is.pickPlace {pool : Pool} {xs : List (Res τ ε)} (h : pool.Is xs) {p : Addr} (hp : p ∈ pool.opened) :
    ∃ d xs', xs.Perm (.place p d :: xs') ∧ Pool.Is ⟨pool.refs, pool.opened.erase p, pool.weaks⟩ xs' := by
  obtain ⟨d, hd⟩ := mem_places.mp (h.opened.mem_iff.mpr hp)
  obtain ⟨u, v, rfl⟩ := List.append_of_mem hd
  have hq : (u ++ .place p d :: v).Perm (.place p d :: (u ++ v)) := List.perm_middle
  obtain ⟨h1, h2⟩ := h.perm hq
  refine ⟨d, u ++ v, hq, ⟨h1, ?_⟩⟩
  have : (p :: places (u ++ v)).Perm (p :: pool.opened.erase p) := h2.trans (List.perm_cons_erase hp)
  exact (List.perm_cons _).mp this

theorem Pool.Is.ref {pool : Pool} {xs : List (Res τ ε)} (h : pool.Is xs) (p : Addr) (D : Datum τ ε) :
    Pool.Is ⟨p :: pool.refs, pool.opened, pool.weaks⟩ (.ref p D :: xs) := ⟨h.refs.cons p, h.opened⟩

theorem Pool.Is.place {pool : Pool} {xs : List (Res τ ε)} (h : pool.Is xs) (p : Addr) (d : Dat τ ε) :
    Pool.Is ⟨pool.refs, p :: pool.opened, pool.weaks⟩ (.place p d :: xs) := ⟨h.refs, h.opened.cons p⟩

/-- Several of the references held. -/
theorem Pool.Is.pickAll {ps : List Addr} : ∀ {pool : Pool} {xs : List (Res τ ε)}, pool.Is xs → ∀ {refs},
    takeAll ps pool.refs = some refs → ∃ rs xs', xs.Perm (rs ++ xs') ∧ rs.map Res.addr = ps ∧ places rs = [] ∧
      Pool.Is ⟨refs, pool.opened, pool.weaks⟩ xs' := by
  induction ps with
  | nil =>
    intro pool xs h refs ht
    simp only [takeAll, Option.some.injEq] at ht
    subst ht
    exact ⟨[], xs, .refl _, rfl, rfl, h⟩
  | cons p ps ih =>
    intro pool xs h refs ht
    simp only [takeAll] at ht
    split at ht
    · next hp =>
      obtain ⟨D, xs', h1, h2⟩ := h.pick hp
      obtain ⟨rs, xs'', h3, h4, h5, h6⟩ := ih h2 ht
      refine ⟨.ref p D :: rs, xs'', h1.trans (h3.cons _), ?_, ?_, h6⟩
      · rw [List.map_cons, h4]; rfl
      · exact h5
    · cases ht

/-- The other way round. -/
theorem Pool.Is.takeAll {rs : List (Res τ ε)} : ∀ {pool : Pool} {xs : List (Res τ ε)}, pool.Is (rs ++ xs) →
    places rs = [] → ∃ refs, takeAll (rs.map Res.addr) pool.refs = some refs ∧ Pool.Is ⟨refs, pool.opened, pool.weaks⟩ xs := by
  induction rs with
  | nil => exact fun h _ => ⟨_, rfl, h⟩
  | cons r rs ih =>
    intro pool xs h hp
    cases r with
    | place p d => cases hp
    | ref p D =>
      have hm : p ∈ pool.refs := h.refs.mem_iff.mp (mem_refsOf.mpr ⟨D, List.mem_cons_self⟩)
      have : Pool.Is ⟨pool.refs.erase p, pool.opened, pool.weaks⟩ (rs ++ xs) := by
        refine ⟨?_, h.opened⟩
        have : (p :: refsOf (rs ++ xs)).Perm (p :: pool.refs.erase p) := h.refs.trans (List.perm_cons_erase hm)
        exact (List.perm_cons _).mp this
      obtain ⟨refs, h1, h2⟩ := ih this hp
      refine ⟨refs, ?_, h2⟩
      simp only [List.map_cons, Res.addr, Mem.takeAll, if_pos hm]
      exact h1

/-- References are those of a datum. -/
theorem parts_of {d : Dat τ ε} {rs : List (Res τ ε)} (h1 : rs.map Res.addr = d.refs) (h2 : places rs = []) :
    ∃ D, Parts d D rs := by
  have two : ∀ p q, rs.map Res.addr = [p, q] → ∃ D D', rs = [.ref p D, .ref q D'] := by
    intro p q h
    match rs, h, h2 with
    | [.ref p D, .ref q D'], h, _ =>
      simp only [List.map_cons, List.map_nil, Res.addr, List.cons.injEq, and_true] at h
      obtain ⟨rfl, rfl⟩ := h
      exact ⟨D, D', rfl⟩
  cases d with
  | text | emptyNest | emptyList | extra =>
    have : rs = [] := by simpa [Dat.refs] using h1
    subst this
    exact ⟨_, by constructor⟩
  | combination p q =>
    obtain ⟨D, D', rfl⟩ := two p q h1
    exact ⟨_, .combination⟩
  | list p q =>
    obtain ⟨D, D', rfl⟩ := two p q h1
    exact ⟨_, .list⟩

theorem Heap.clone_size (h : Heap τ ε) (p : Addr) : (h.clone p).size = h.size := by
  unfold Heap.clone
  cases h.cells p <;> rfl

/-- What does not concern `Weak` references. -/
theorem Weakly.mono {h h' : Heap τ ε} {w : Addr → Nat} {weaks : List Addr} {xs xs' : List (Res τ ε)}
    (W : Weakly h w weaks xs) (hs : h.size ≤ h'.size) (hp : ∀ p ∈ places xs', p ∈ places xs ∨ w p = 0) :
    Weakly h' w weaks xs' :=
  ⟨W.count, fun p h1 => (hp p h1).elim (W.opened p) id, fun p h1 => Nat.lt_of_lt_of_le (W.old p h1) hs⟩

/-- A reference to what is opened is not weak. -/
theorem Weakly.ne {h : Heap τ ε} {w : Addr → Nat} {weaks : List Addr} {xs : List (Res τ ε)} (W : Weakly h w weaks xs)
    {p : Addr} (hp : p ∈ weaks) : p ∉ places xs := by
  intro h1
  have := W.count p
  rw [W.opened p h1] at this
  exact absurd (List.count_pos_iff.mpr hp) (by omega)

/-- One more `Weak` reference. -/
theorem Weakly.more {h : Heap τ ε} {w : Addr → Nat} {weaks : List Addr} {xs : List (Res τ ε)} (W : Weakly h w weaks xs)
    {p : Addr} (h1 : p ∉ places xs) (h2 : p < h.size) :
    Weakly h (fun q => if q = p then w p + 1 else w q) (p :: weaks) xs := by
  refine ⟨fun q => ?_, fun q hq => ?_, fun q hq => ?_⟩
  · by_cases e : q = p
    · subst e
      simp [W.count q]
    · simp [e, W.count q, List.count_cons_of_ne (Ne.symm e)]
  · have : q ≠ p := fun e => h1 (e ▸ hq)
    simp only [if_neg this]
    exact W.opened q hq
  · by_cases e : q = p
    · rw [e]; exact h2
    · simp only [if_neg e] at hq
      exact W.old q hq

/-- One less. -/
theorem Weakly.less {h : Heap τ ε} {w : Addr → Nat} {weaks : List Addr} {xs : List (Res τ ε)} (W : Weakly h w weaks xs)
    (p : Addr) : Weakly h (fun q => if q = p then w p - 1 else w q) (weaks.erase p) xs := by
  refine ⟨fun q => ?_, fun q hq => ?_, fun q hq => ?_⟩
  · by_cases e : q = p
    · subst e
      simp [W.count q]
    · simp [e, W.count q, List.count_erase_of_ne e]
  · by_cases e : q = p
    · subst e
      simp [W.opened q hq]
    · simp only [if_neg e]
      exact W.opened q hq
  · by_cases e : q = p
    · subst e
      simp only [if_true] at hq
      exact W.old q (by omega)
    · simp only [if_neg e] at hq
      exact W.old q hq

/-- Actions respect what others own, `xs`. -/
theorem Action.own {x : Action τ ε} {h h' : Heap τ ε} {w w' : Addr → Nat} {pool pool' : Pool}
    (hs : x.step h w pool = some (h', w', pool')) {ys xs : List (Res τ ε)} (hi : pool.Is ys)
    (H : HeapOwn false h (ys ++ xs)) (W : Weakly h w pool.weaks (ys ++ xs)) :
    ∃ ys', pool'.Is ys' ∧ HeapOwn false h' (ys' ++ xs) ∧ Weakly h' w' pool'.weaks (ys' ++ xs) := by
  have hpl : ∀ {zs zs' : List (Res τ ε)}, zs.Perm zs' → ∀ p, p ∈ places (zs' ++ xs) → p ∈ places (zs ++ xs) := by
    intro zs zs' hp p hm
    obtain ⟨d, hd⟩ := mem_places.mp hm
    exact mem_places.mpr ⟨d, (hp.append_right xs).mem_iff.mpr hd⟩
  have hlive : ∀ {p}, p ∈ pool.refs → p < h.size ∧ p ∉ places (ys ++ xs) := by
    intro p hp
    obtain ⟨D, hD⟩ := mem_refsOf.mp (hi.refs.mem_iff.mpr hp)
    obtain ⟨d, h1, -⟩ := H.reads p D (List.mem_append_left _ hD)
    obtain ⟨h2, s, hc⟩ := mask_some h1
    exact ⟨H.lt (by rw [hc]; simp), h2⟩
  cases x with
  | clone p =>
    simp only [Action.step] at hs
    split at hs
    · next hp =>
      cases hs
      obtain ⟨D, ys', h1, h2⟩ := hi.pick hp
      refine ⟨.ref p D :: ys, hi.ref p D, ?_, W.mono (Nat.le_of_eq (Heap.clone_size h p).symm) fun p hp => Or.inl hp⟩
      have := HeapOwn.clone (H.perm (h1.append_right xs))
      exact this.perm (((h1.symm.append_right xs)).cons _)
    · cases hs
  | letGo p =>
    simp only [Action.step] at hs
    split at hs
    · next c hc =>
      split at hs
      · next hp =>
        cases hs
        obtain ⟨D, ys', h1, h2⟩ := hi.pick hp.1
        exact ⟨ys', h2, (H.perm (h1.append_right xs)).giveUp hc hp.2,
          W.mono (Nat.le_refl _) fun q hq => Or.inl (hpl h1 q hq)⟩
      · cases hs
    · cases hs
  | openUp p =>
    simp only [Action.step] at hs
    split at hs
    · next c hc =>
      split at hs
      · next hp =>
        cases hs
        obtain ⟨D, ys', h1, h2⟩ := hi.pick hp.1
        obtain ⟨d, rs, h3, h4⟩ := (H.perm (h1.append_right xs)).open (by simp [Heap.strong, hc, hp.2.1])
        have h5 := h4.place p d List.mem_cons_self
        rw [hc] at h5
        cases h5
        refine ⟨.place p d :: (rs ++ ys'), Pool.Is.place (pool := ⟨_, _, _⟩)
          (⟨?_, ?_⟩ : Pool.Is ⟨d.refs ++ pool.refs.erase p, pool.opened, pool.weaks⟩ _) _ _, ?_,
          W.mono (Nat.le_refl _) fun q hq => ?_⟩
        · unfold refsOf
          rw [List.filterMap_append]
          refine List.Perm.append (List.Perm.of_eq ?_) h2.refs
          cases h3 <;> rfl
        · rw [places_append, h3.places]
          exact h2.opened
        · simpa using h4
        · have hq : q ∈ p :: places (ys' ++ xs) := by
            have : places (.place p d :: (rs ++ ys') ++ xs) = p :: places (ys' ++ xs) := by
              rw [List.cons_append, List.append_assoc]
              change p :: places (rs ++ (ys' ++ xs)) = _
              rw [places_append, h3.places]
              rfl
            rwa [this] at hq
          rcases List.mem_cons.mp hq with rfl | hq
          · exact Or.inr hp.2.2
          · exact Or.inl (hpl h1 q hq)
      · cases hs
    · cases hs
  | close p =>
    simp only [Action.step] at hs
    split at hs
    · next c hc =>
      split at hs
      · next hp =>
        cases ht : takeAll c.dat.refs pool.refs with
        | none => rw [ht] at hs; cases hs
        | some refs =>
          rw [ht] at hs
          cases hs
          obtain ⟨d, ys', h1, h2⟩ := hi.pickPlace hp
          have h5 := H.place p d (List.mem_append_left _ (h1.mem_iff.mpr List.mem_cons_self))
          rw [hc] at h5
          cases h5
          obtain ⟨rs, ys'', h3, h4, h6, h7⟩ := h2.pickAll ht
          obtain ⟨D, hD⟩ := parts_of h4 h6
          refine ⟨.ref p D :: ys'', h7.ref p D, HeapOwn.close hD (H.perm ?_), W.mono (Nat.le_refl _) fun q hq => ?_⟩
          · have := (h1.trans (h3.cons _)).append_right xs
            rw [List.cons_append, List.append_assoc] at this
            exact this
          · refine Or.inl (hpl (h1.trans (h3.cons _)) q ?_)
            obtain ⟨e, he⟩ := mem_places.mp hq
            refine mem_places.mpr ⟨e, ?_⟩
            rw [List.cons_append] at he ⊢
            rw [List.append_assoc]
            rcases List.mem_cons.mp he with he | he
            · cases he
            · exact List.mem_cons_of_mem _ (List.mem_append_right _ he)
      · cases hs
    · cases hs
  | write p d =>
    simp only [Action.step] at hs
    split at hs
    · next hp =>
      cases hs
      obtain ⟨d', ys', h1, h2⟩ := hi.pickPlace hp
      refine ⟨.place p d :: ys', ⟨(h1.symm.filterMap _).trans hi.refs, ?_⟩, (H.perm (h1.append_right xs)).write d,
        W.mono (Nat.le_refl _) fun q hq => Or.inl (hpl h1 q hq)⟩
      exact (h2.opened.cons p).trans (List.perm_cons_erase hp).symm
    · cases hs
  | make d =>
    simp only [Action.step, Heap.alloc] at hs
    cases hs
    refine ⟨.place h.size d :: ys, hi.place _ d, H.new (Nat.le_refl _) d, W.mono (Nat.le_succ _) fun q hq => ?_⟩
    rcases List.mem_cons.mp hq with rfl | hq
    · right
      by_contra hn
      exact absurd (W.old _ hn) (Nat.lt_irrefl _)
    · exact Or.inl hq
  | takeOut p =>
    simp only [Action.step] at hs
    split at hs
    · next c hc =>
      split at hs
      · next hp =>
        cases hs
        obtain ⟨D, ys', h1, h2⟩ := hi.pick hp.1
        obtain ⟨d, rs, h3, h4⟩ := (H.perm (h1.append_right xs)).open (by simp [Heap.strong, hc, hp.2])
        have h5 := h4.place p d List.mem_cons_self
        rw [hc] at h5
        cases h5
        refine ⟨rs ++ ys', ⟨?_, ?_⟩, ?_, W.mono (Nat.le_refl _) fun q hq => ?_⟩
        · unfold refsOf
          rw [List.filterMap_append]
          refine List.Perm.append (List.Perm.of_eq ?_) h2.refs
          cases h3 <;> rfl
        · rw [places_append, h3.places]
          exact h2.opened
        · have := h4.free
          simpa using this
        · rw [List.append_assoc, places_append, h3.places] at hq
          exact Or.inl (hpl h1 q hq)
      · cases hs
    · cases hs
  | downgrade p =>
    simp only [Action.step] at hs
    split at hs
    · next hp =>
      cases hs
      obtain ⟨h1, h2⟩ := hlive hp
      exact ⟨ys, ⟨hi.refs, hi.opened⟩, H, W.more h2 h1⟩
    · cases hs
  | upgrade p =>
    simp only [Action.step] at hs
    split at hs
    · next c hc =>
      split at hs
      · next hp =>
        cases hs
        obtain ⟨D, hD⟩ := H.tree (p := p) (by rw [hc]; simp) (W.ne hp)
        exact ⟨.ref p D :: ys, hi.ref p D, H.more hD,
          W.mono (Nat.le_of_eq (Heap.clone_size h p).symm) fun q hq => Or.inl hq⟩
      · cases hs
    · cases hs
  | cloneWeak p =>
    simp only [Action.step] at hs
    split at hs
    · next hp =>
      cases hs
      refine ⟨ys, ⟨hi.refs, hi.opened⟩, H, W.more (W.ne hp) (W.old p ?_)⟩
      rw [W.count p]
      exact Nat.ne_of_gt (List.count_pos_iff.mpr hp)
    · cases hs
  | dropWeak p =>
    simp only [Action.step] at hs
    split at hs
    · next hp =>
      cases hs
      exact ⟨ys, ⟨hi.refs, hi.opened⟩, H, W.less p⟩
    · cases hs

section

variable {w₀ : Scene τ ε} {a : Busy τ ε} {b : β} {xs xs' : List (Res τ ε)}

theorem theirs_append (evs evs' : List (Event τ ε)) : theirs (evs ++ evs') = theirs evs ++ theirs evs' :=
  List.filterMap_append

theorem BusyOwn.perm (H : BusyOwn w₀ a b xs) (p : xs.Perm xs') : BusyOwn w₀ a b xs' := by
  obtain ⟨evs, mine, h1, h2, h3, h0, ys, h4, h5, hW⟩ := H
  refine ⟨evs, mine, h1, h2, h3.perm p, h0, ys, h4, h5.perm (p.append_left ys), hW.mono (Nat.le_refl _) fun q hq => ?_⟩
  obtain ⟨e, he⟩ := mem_places.mp hq
  exact Or.inl (mem_places.mpr ⟨e, (p.append_left ys).mem_iff.mpr he⟩)

/-- This thread does something, not with `Weak` references. -/
theorem BusyOwn.mine (H : BusyOwn w₀ a b xs) (x : Action τ ε) {h' : Heap τ ε}
    (hx : ∀ mine : Pool, mine.Is xs → ∃ mine' : Pool,
      x.step a.heap a.weak mine = some (h', a.weak, mine') ∧ mine'.Is xs' ∧ mine'.weaks = mine.weaks)
    (hH : ∀ {ys}, HeapOwn false a.heap (xs ++ ys) → HeapOwn false h' (xs' ++ ys))
    (hz : a.heap.size ≤ h'.size) (hp : ∀ p ∈ places xs', p ∈ places xs ∨ a.weak p = 0) :
    BusyOwn w₀ { a with heap := h' } b xs' := by
  obtain ⟨evs, mine, h1, h2, h3, h0, ys, h4, h5, hW⟩ := H
  obtain ⟨mine', h6, h7, h8⟩ := hx mine h3
  refine ⟨_, mine', .mine h1 h6, ?_, h7, h8.trans h0, ys, h4,
    (hH (h5.perm List.perm_append_comm)).perm List.perm_append_comm, hW.mono hz fun q hq => ?_⟩
  · rw [theirs_append, h2]
    exact List.append_nil _
  · rw [places_append, List.mem_append] at hq ⊢
    rcases hq with hq | hq
    · exact Or.inl (Or.inl hq)
    · exact (hp q hq).imp_left Or.inr

theorem BusyOwn.act (H : BusyOwn w₀ a b xs) (x : Action τ ε) : BusyOwn w₀ (a.act x) b xs := by
  unfold Busy.act
  cases hs : x.step a.heap a.weak a.others with
  | none => exact H
  | some r =>
    obtain ⟨h', w', pool⟩ := r
    obtain ⟨evs, mine, h1, h2, h3, h0, ys, h4, h5, hW⟩ := H
    obtain ⟨ys', h6, h7, h8⟩ := Action.own hs h4 h5 hW
    refine ⟨_, mine, .others h1 hs, ?_, h3, h0, ys', h6, h7, h8⟩
    rw [theirs_append, h2]
    rfl

theorem BusyOwn.acts (l : List (Action τ ε)) : ∀ {a : Busy τ ε}, BusyOwn w₀ a b xs →
    BusyOwn w₀ (l.foldl Busy.act a) b xs := by
  induction l with
  | nil => exact fun H => H
  | cons x l ih => exact fun H => ih (H.act x)

theorem BusyOwn.turn (H : BusyOwn w₀ a b xs) : BusyOwn w₀ a.turn b xs := by
  unfold Busy.turn
  split
  · exact H
  · next ts _ => exact BusyOwn.acts _ (a := { a with script := ts }) H

/-- References are given to the others. -/
theorem BusyOwn.give {rs : List (Res τ ε)} (hp : places rs = []) (H : BusyOwn w₀ a b (rs ++ xs)) :
    BusyOwn w₀ (a.give (rs.map Res.addr)) b xs := by
  obtain ⟨evs, mine, h1, h2, h3, h0, ys, h4, h5, hW⟩ := H
  have hr : refsOf rs = rs.map Res.addr := by
    clear h3 h5 hW
    induction rs with
    | nil => rfl
    | cons r rs ih =>
      cases r with
      | place => cases hp
      | ref p D => exact congrArg (p :: ·) (ih hp)
  have hx : refsOf (rs ++ xs) = rs.map Res.addr ++ refsOf xs := by
    rw [← hr]; exact List.filterMap_append
  have ho : places (rs ++ xs) = places xs := by rw [places_append, hp]; rfl
  refine ⟨_, ⟨refsOf xs, mine.opened, mine.weaks⟩, .give (ps := rs.map Res.addr) (refs := refsOf xs) h1 ?_, ?_,
    ⟨.refl _, ?_⟩, h0, rs ++ ys, ⟨?_, ?_⟩, h5.perm ?_, hW.mono (Nat.le_refl _) fun q hq => Or.inl ?_⟩
  · rw [← hx]; exact h3.refs.symm
  · rw [theirs_append, h2]; exact List.append_nil _
  · rw [← ho]; exact h3.opened
  · have : refsOf (rs ++ ys) = rs.map Res.addr ++ refsOf ys := by rw [← hr]; exact List.filterMap_append
    rw [this]
    exact h4.refs.append_left _
  · rw [places_append, hp]; exact h4.opened
  · rw [← List.append_assoc]; exact List.perm_append_comm.append_right xs
  · simp only [places_append, List.mem_append] at hq ⊢
    tauto

theorem BusyOwn.new (d : Dat τ ε) (H : BusyOwn w₀ a b xs) :
    BusyOwn w₀ { a with heap := (a.heap.alloc d).2 } b (.place a.heap.size d :: xs) :=
  H.mine (.make d) (fun _ hm => ⟨_, rfl, hm.place _ d, rfl⟩) (fun H => H.new (Nat.le_refl _) d) (Nat.le_succ _) fun q hq => by
    rcases List.mem_cons.mp hq with rfl | hq
    · right
      obtain ⟨_, _, _, _, _, _, _, _, _, W⟩ := H
      by_contra hn
      exact absurd (W.old _ hn) (Nat.lt_irrefl _)
    · exact Or.inl hq

theorem BusyOwn.close {p : Addr} {d : Dat τ ε} {D : Datum τ ε} {rs : List (Res τ ε)} (hp : Parts d D rs)
    (H : BusyOwn w₀ a b (.place p d :: (rs ++ xs))) : BusyOwn w₀ a b (.ref p D :: xs) := by
  have hc : a.heap.cells p = some ⟨1, d⟩ := by
    obtain ⟨_, _, _, _, _, _, ys, _, h5, _⟩ := H
    exact h5.place p d (List.mem_append_right _ List.mem_cons_self)
  refine H.mine (h' := a.heap) (.close p) (fun mine hm => ?_) (fun H => HeapOwn.close hp (by simpa using H))
    (Nat.le_refl _) fun q hq => Or.inl (List.mem_cons_of_mem _ (by
      change q ∈ places (rs ++ xs)
      rw [places_append]; exact List.mem_append_right _ hq))
  have ho : p ∈ mine.opened := hm.opened.mem_iff.mp (mem_places.mpr ⟨d, List.mem_cons_self⟩)
  have : Pool.Is ⟨mine.refs, mine.opened.erase p, mine.weaks⟩ (rs ++ xs) := by
    refine ⟨hm.refs, ?_⟩
    have : (p :: places (rs ++ xs)).Perm (p :: mine.opened.erase p) := hm.opened.trans (List.perm_cons_erase ho)
    exact (List.perm_cons _).mp this
  obtain ⟨refs, h1, h2⟩ := this.takeAll hp.places
  rw [hp.addrs] at h1
  exact ⟨⟨p :: refs, mine.opened.erase p, mine.weaks⟩,
    by simp only [Action.step, hc, if_pos ho, h1, Option.map_some], h2.ref p D, rfl⟩

theorem BusyOwn.at (H : BusyOwn w₀ a b xs) {p : Addr} {D : Datum τ ε} (hp : .ref p D ∈ xs) :
    ∃ d, (a.heap.cells p).map (·.dat) = some d ∧ Reads (fun p => (a.heap.cells p).map (·.dat)) d D := by
  obtain ⟨_, _, _, _, _, _, ys, _, h5, _⟩ := H
  exact h5.at (List.mem_append_right _ hp)

theorem BusyOwn.cell (H : BusyOwn w₀ a b xs) {p : Addr} {D : Datum τ ε} (hp : .ref p D ∈ xs) :
    ∃ c, a.heap.cells p = some c := by
  obtain ⟨d, h1, _⟩ := H.at hp
  cases hc : a.heap.cells p with
  | none => rw [hc] at h1; cases h1
  | some c => exact ⟨c, rfl⟩

/-- What is the datum at the only reference to it. -/
theorem BusyOwn.only {p : Addr} {D : Datum τ ε} (H : BusyOwn w₀ a b (.ref p D :: xs)) {c : Cell τ ε}
    (hc : a.heap.cells p = some c) (hs : c.strong = 1) : ∃ rs, Parts c.dat D rs ∧
      ∀ {ys}, HeapOwn false a.heap (.ref p D :: ys) → HeapOwn false a.heap (.place p c.dat :: (rs ++ ys)) := by
  have hs' : a.heap.strong p = 1 := by simpa [Heap.strong, hc] using hs
  have key : ∀ {ys}, HeapOwn false a.heap (.ref p D :: ys) →
      ∃ rs, Parts c.dat D rs ∧ HeapOwn false a.heap (.place p c.dat :: (rs ++ ys)) := by
    intro ys H
    obtain ⟨d, rs, h6, h7⟩ := H.open hs'
    have := h7.place p d List.mem_cons_self
    rw [hc] at this
    cases this
    exact ⟨rs, h6, h7⟩
  obtain ⟨_, _, _, _, _, _, ys, _, h5, _⟩ := H
  obtain ⟨rs, hp, _⟩ := key (h5.perm List.perm_middle)
  refine ⟨rs, hp, fun H => ?_⟩
  obtain ⟨rs', h1, h2⟩ := key H
  have : rs' = rs := by
    clear h2 key
    generalize c.dat = d at hp h1
    cases hp <;> cases h1 <;> rfl
  exact this ▸ h2

/-- What is held when the datum at a reference was taken. -/
theorem Pool.Is.parts {mine : Pool} {p : Addr} {D D' : Datum τ ε} {d : Dat τ ε} {rs : List (Res τ ε)}
    (hm : mine.Is (.ref p D :: xs)) (hp : Parts d D' rs) :
    p ∈ mine.refs ∧ Pool.Is ⟨d.refs ++ mine.refs.erase p, mine.opened, mine.weaks⟩ (rs ++ xs) := by
  have hr : p ∈ mine.refs := hm.refs.mem_iff.mp (mem_refsOf.mpr ⟨D, List.mem_cons_self⟩)
  have h1 : (p :: refsOf xs).Perm (p :: mine.refs.erase p) := hm.refs.trans (List.perm_cons_erase hr)
  refine ⟨hr, ?_, ?_⟩
  · unfold refsOf
    rw [List.filterMap_append]
    refine List.Perm.append (List.Perm.of_eq ?_) ((List.perm_cons _).mp h1)
    cases hp <;> rfl
  · rw [places_append, hp.places]
    exact hm.opened

theorem BusyOwn.open {p : Addr} {D : Datum τ ε} (H : BusyOwn w₀ a b (.ref p D :: xs)) (hs : a.heap.strong p = 1)
    (hw : a.weak p = 0) : ∃ d rs, Parts d D rs ∧ BusyOwn w₀ a b (.place p d :: (rs ++ xs)) := by
  obtain ⟨c, hc⟩ := H.cell List.mem_cons_self
  have hs' : c.strong = 1 := by simpa [Heap.strong, hc] using hs
  obtain ⟨rs, hp, hH⟩ := H.only hc hs'
  refine ⟨c.dat, rs, hp, H.mine (h' := a.heap) (.openUp p) (fun mine hm => ?_) (fun H => ?_) (Nat.le_refl _) fun q hq => ?_⟩
  · obtain ⟨hr, h1⟩ := hm.parts hp
    exact ⟨_, by simp only [Action.step, hc, if_pos (And.intro hr (And.intro hs' hw))], h1.place p c.dat, rfl⟩
  · have := hH H
    simpa using this
  · rcases List.mem_cons.mp hq with rfl | hq
    · exact Or.inr hw
    · rw [← places, places_append, hp.places] at hq
      exact Or.inl hq

/-- The last reference is dropped, or the datum is taken out. -/
theorem BusyOwn.takeOut {p : Addr} {D : Datum τ ε} (H : BusyOwn w₀ a b (.ref p D :: xs)) {c : Cell τ ε}
    (hc : a.heap.cells p = some c) (hs : c.strong = 1) :
    ∃ rs, Parts c.dat D rs ∧ BusyOwn w₀ { a with heap := a.heap.put p none } b (rs ++ xs) := by
  obtain ⟨rs, hp, hH⟩ := H.only hc hs
  refine ⟨rs, hp, H.mine (.takeOut p) (fun mine hm => ?_) (fun H => ?_) (Nat.le_refl _) fun q hq => ?_⟩
  · obtain ⟨hr, h1⟩ := hm.parts hp
    exact ⟨_, by simp only [Action.step, hc, if_pos (And.intro hr hs)], h1, rfl⟩
  · have := (hH H).free
    simpa using this
  · rw [places_append, hp.places] at hq
    exact Or.inl hq

theorem BusyOwn.write {p : Addr} {d : Dat τ ε} (d' : Dat τ ε) (H : BusyOwn w₀ a b (.place p d :: xs)) :
    BusyOwn w₀ { a with heap := a.heap.put p (some ⟨1, d'⟩) } b (.place p d' :: xs) := by
  refine H.mine (.write p d') (fun mine hm => ?_) (fun H => H.write d') (Nat.le_refl _) fun q hq => Or.inl hq
  have ho : p ∈ mine.opened := hm.opened.mem_iff.mp (mem_places.mpr ⟨d, List.mem_cons_self⟩)
  exact ⟨mine, by simp only [Action.step, if_pos ho], ⟨hm.refs, hm.opened⟩, rfl⟩

theorem BusyOwn.giveUp {p : Addr} {D : Datum τ ε} (H : BusyOwn w₀ a b (.ref p D :: xs)) {c : Cell τ ε}
    (hc : a.heap.cells p = some c) (hs : c.strong ≠ 1) :
    BusyOwn w₀ { a with heap := a.heap.put p (some { c with strong := c.strong - 1 }) } b xs := by
  refine H.mine (.letGo p) (fun mine hm => ?_) (fun H => H.giveUp hc hs) (Nat.le_refl _) fun q hq => Or.inl hq
  have hr : p ∈ mine.refs := hm.refs.mem_iff.mp (mem_refsOf.mpr ⟨D, List.mem_cons_self⟩)
  refine ⟨⟨mine.refs.erase p, mine.opened, mine.weaks⟩, by simp only [Action.step, hc, if_pos (And.intro hr hs)],
    ⟨?_, hm.opened⟩, rfl⟩
  have : (p :: refsOf xs).Perm (p :: mine.refs.erase p) := hm.refs.trans (List.perm_cons_erase hr)
  exact (List.perm_cons _).mp this

theorem BusyOwn.cloneRef {p : Addr} {D : Datum τ ε} (H : BusyOwn w₀ a b xs) (hp : .ref p D ∈ xs) :
    BusyOwn w₀ { a with heap := a.heap.clone p } b (.ref p D :: xs) := by
  refine H.mine (.clone p) (fun mine hm => ?_) (fun {ys} H => ?_) (Nat.le_of_eq (Heap.clone_size _ p).symm)
    fun q hq => Or.inl hq
  · have hr : p ∈ mine.refs := hm.refs.mem_iff.mp (mem_refsOf.mpr ⟨D, hp⟩)
    exact ⟨⟨p :: mine.refs, mine.opened, mine.weaks⟩, by simp only [Action.step, if_pos hr], hm.ref p D, rfl⟩
  · obtain ⟨u, v, rfl⟩ := List.append_of_mem hp
    have hq : (u ++ .ref p D :: v).Perm (.ref p D :: (u ++ v)) := List.perm_middle
    have := HeapOwn.clone (H.perm (hq.append_right ys))
    exact this.perm ((hq.symm.append_right ys).cons _)

theorem BusyOwn.release (n : Nat) : ∀ {a : Busy τ ε} {rs : List (Res τ ε)} {ps : List Addr},
    (∀ r ∈ rs, ∃ p D, r = .ref p D) → rs.map Res.addr = ps → a.heap.total ≤ n → BusyOwn w₀ a b (rs ++ xs) →
    BusyOwn w₀ { a with heap := a.heap.release n ps } b xs := by
  have hpos : ∀ {a : Busy τ ε} {p D zs}, BusyOwn w₀ a b (.ref p D :: zs) →
      ∃ c, a.heap.cells p = some c ∧ 0 < c.strong ∧ p < a.heap.size ∧ 0 < a.heap.total := by
    intro a p D zs H
    obtain ⟨_, _, _, _, _, _, ys, _, H, _⟩ := H
    obtain ⟨d, h1, -⟩ := H.reads p D (List.mem_append_right _ List.mem_cons_self)
    obtain ⟨h2, s, hc⟩ := mask_some h1
    have h3 := H.good.pos p _ (view_some hc h2)
    have h4 := H.lt (k := p) (by rw [hc]; simp)
    refine ⟨_, hc, h3, h4, ?_⟩
    rw [Heap.total_eq]
    refine Finset.sum_pos' (fun _ _ => Nat.zero_le _) ⟨p, Finset.mem_range.mpr h4, ?_⟩
    simpa [Heap.strong, hc] using h3
  induction n with
  | zero =>
    intro a rs ps hr he ht H
    cases rs with
    | nil => exact H
    | cons r rs =>
      obtain ⟨p, D, rfl⟩ := hr r List.mem_cons_self
      obtain ⟨_, _, _, _, h5⟩ := hpos H
      omega
  | succ n ih =>
    intro a rs ps hr he ht H
    cases rs with
    | nil => subst he; exact H
    | cons r rs =>
      obtain ⟨p, D, rfl⟩ := hr r List.mem_cons_self
      obtain ⟨c, hc, h0, hp, -⟩ := hpos H
      subst he
      have hstrong : a.heap.strong p = c.strong := by simp [Heap.strong, hc]
      simp only [List.map_cons, Res.addr, Heap.release, hc]
      by_cases h1 : c.strong = 1
      · rw [if_pos h1]
        obtain ⟨rs', h3, H'⟩ := BusyOwn.takeOut H hc h1
        refine ih (a := { a with heap := a.heap.put p none }) (rs := rs' ++ rs) ?_ ?_ ?_
          (by rw [List.append_assoc]; exact H')
        · intro r hr'
          rcases List.mem_append.mp hr' with hr' | hr'
          · cases r with
            | ref p D => exact ⟨p, D, rfl⟩
            | place q e =>
              have := mem_places.mpr ⟨_, hr'⟩
              rw [h3.places] at this
              cases this
          · exact hr r (List.mem_cons_of_mem _ hr')
        · rw [List.map_append, h3.addrs]
        · have := a.heap.total_put hp none
          simp only at this
          show (a.heap.put p none).total ≤ n
          omega
      · rw [if_neg h1]
        refine ih (a := { a with heap := a.heap.put p (some { c with strong := c.strong - 1 }) })
          (fun r hr' => hr r (List.mem_cons_of_mem _ hr')) rfl ?_ (BusyOwn.giveUp H hc h1)
        have := a.heap.total_put hp (some { c with strong := c.strong - 1 })
        simp only at this
        show (a.heap.put p _).total ≤ n
        omega

/-- Who owns a reference may drop it, at once or bit by bit. -/
theorem BusyOwn.drop {p : Addr} {D : Datum τ ε} (H : BusyOwn w₀ a b (.ref p D :: xs)) :
    BusyOwn w₀ ((busyMem τ ε).dropRef p a) b xs := by
  simp only [busyMem]
  split
  · exact (BusyOwn.release (rs := [.ref p D]) _ (by simp) rfl (Nat.le_refl _) H).turn
  · exact (BusyOwn.give (rs := [.ref p D]) rfl H).turn

end

/-- **Other threads do no harm.** -/
theorem busyOwnLaws {w₀ : Scene τ ε} : OwnLaws (busyMem τ ε) (BusyOwn (β := β) w₀) where
  perm := BusyOwn.perm
  reads H := H.at List.mem_cons_self
  getMut {a b p D xs} H hm := by
    have : a.heap.strong p = 1 ∧ a.weak p = 0 := by simpa [busyMem, heapMem] using hm
    exact BusyOwn.open H this.1 this.2
  giveBack := BusyOwn.close
  write {a b p d d' xs} H := by
    have hc : a.heap.cells p = some ⟨1, d⟩ := by
      obtain ⟨_, _, _, _, _, _, ys, _, h5, _⟩ := H
      exact h5.place p d (List.mem_append_right _ List.mem_cons_self)
    have := (BusyOwn.write d' H).turn
    simpa [busyMem, heapMem, hc] using this
  sole {a b p d xs} H := by
    obtain ⟨_, _, _, _, _, _, ys, _, h5, W⟩ := H
    have h6 := h5.place p d (List.mem_append_right _ List.mem_cons_self)
    have h7 := W.opened p (by rw [places_append]; exact List.mem_append_right _ List.mem_cons_self)
    simp [busyMem, heapMem, Heap.strong, h6, h7]
  dropRef H := H.drop

theorem busyLaws {w₀ : Scene τ ε} {E : Env σ P τ ε (Busy τ ε) CE} {V : Kul.Env σ P τ ε β CE}
    (ha : E.alloc = busyMem τ ε) (hv : V.alloc = boxAlloc τ ε β) (R : SameRest E V (BusyOwn w₀)) :
    Laws E V (BusyOwn w₀) where
  toOwnLaws := ha ▸ busyOwnLaws
  newDatum {a b d D rs xs} hp H := by
    have H1 := (H.new d).turn
    refine Or.inl ⟨a.heap.size, _, b, by rw [ha]; rfl, by rw [hv]; rfl, H1.close hp, ?_⟩
    rw [ha, hv]
    obtain ⟨_, _, _, _, _, _, ys, _, h5, W⟩ := H1
    have h6 := h5.place a.heap.size d (List.mem_append_right _ List.mem_cons_self)
    have h7 := W.opened a.heap.size (by rw [places_append]; exact List.mem_append_right _ List.mem_cons_self)
    simp only [busyMem, heapMem, Heap.strong, h6, h7]
    rfl
  fresh b := by rw [hv]; rfl
  cc := R.cc
  peek := (R.strm []).peek
  next := (R.strm []).next
  empty := R.empty
  nextAccum H := (R.strm _).nextAccum H
  accumDone H := (R.strm _).accumDone H
  concat := R.concat
  lookup := R.lookup

theorem busyClone {w₀ : Scene τ ε} {E : Env σ P τ ε (Busy τ ε) CE} (ha : E.alloc = busyMem τ ε) :
    CloneLaw (β := β) E (BusyOwn w₀) := by
  intro n a b d D rs xs d' a' hp H he
  rw [ha] at he
  simp only [busyMem, heapMem] at he
  cases n with
  | zero => simp [Dat.cloneCounted] at he
  | succ n =>
    simp only [Dat.cloneCounted, Bool.false_eq_true, if_false, Option.some.injEq, Prod.mk.injEq] at he
    obtain ⟨rfl, rfl⟩ := he
    refine ⟨rs, hp, BusyOwn.turn ?_⟩
    cases hp with
    | text | emptyNest | emptyList | extra => exact H
    | @combination p q D D' | @list p q D D' =>
      have H1 := H.cloneRef (p := p) (D := D) (by simp)
      have H2 := H1.cloneRef (p := q) (D := D') (by simp)
      exact H2.perm (.swap _ _ _)

/-- **History theorem**, with other threads. -/
theorem Laws.usesAmong {w₀ : Scene τ ε} {E : Env σ P τ ε (Busy τ ε) CE} {V : Kul.Env σ P τ ε β CE}
    (L : Laws E V (BusyOwn w₀)) (ha : E.alloc = busyMem τ ε) {s₀ : St σ (Busy τ ε)} {t₀ : St σ β}
    (h1 : s₀.strm = t₀.strm) (h2 : s₀.ndepth = t₀.ndepth) (h3 : BusyOwn w₀ s₀.alloc t₀.alloc []) {os held s}
    (h : E.UsesAmong s₀ os held s) : Along V (BusyOwn w₀) t₀ os held s := by
  induction h with
  | start => exact ⟨[], t₀, [], .nil, .nil, h1, h2, .nil, h3⟩
  | datum _ hc ih => exact Along.datum L ih hc
  | none _ hc ih => exact Along.none L ih hc
  | error _ hc ih => exact Along.error L ih hc
  | drop _ ih => exact Along.drop L ih
  | clone _ hi he ih => exact Along.clone L (busyClone ha) ih hi he
  | turn _ ih =>
    obtain ⟨os', t, xs, k1, k2, k3, k4, k5, k6⟩ := ih
    exact ⟨os', t, xs, k1, k2, k3, k4, k5, k6.turn⟩
  | give _ ih =>
    obtain ⟨os', t, xs, k1, k2, k3, k4, k5, k6⟩ := ih
    obtain ⟨D, rs, ys, m1, m2, m3⟩ := k5.remove
    have := (k6.perm m3).give m1.places
    rw [m1.addrs] at this
    exact ⟨os', t, ys, k1, k2, k3, k4, m2, this⟩

/-- In the beginning. -/
theorem BusyOwn.start (script : List (Turn τ ε)) (b : β) :
    BusyOwn Scene.empty (Busy.start script) b [] :=
  ⟨[], ⟨[], [], []⟩, .nil, rfl, ⟨.refl _, .refl _⟩, rfl, [], ⟨.refl _, .refl _⟩, HeapOwn.empty,
    ⟨fun _ => rfl, fun _ _ => rfl, fun _ h => absurd rfl h⟩⟩

/-- Where nothing is opened, exactly what can be reached is live, and counts are exact. -/
theorem HeapOwn.live {box : Bool} {h : Heap τ ε} {xs : List (Res τ ε)} (H : HeapOwn box h xs) {ps : List Addr}
    (hps : (xs.map Res.addr).Perm ps) (hp : places xs = []) :
    (∀ p, h.cells p ≠ none ↔ h.From ps p) ∧
    ∀ p c, h.cells p = some c → c.strong = ps.count p + ((List.range h.size).map fun k => h.refsFrom k p).sum := by
  have g := H.good
  rw [hp] at g
  have hkids : ∀ k, (view h []).kids k = match h.cells k with | some c => c.dat.refs | none => [] := by
    intro k
    rw [view_kids]
    simp only [mask, List.not_mem_nil, if_false]
    cases h.cells k <;> rfl
  refine ⟨fun p => ⟨fun hc => ?_, fun hr => ?_⟩, fun p c hc => ?_⟩
  · have hr := g.reach (k := p) (by simpa [view] using hc)
    clear hc
    induction hr with
    | out h => exact .root (hps.mem_iff.mp h)
    | @kid k j h1 h2 ih =>
      rw [hkids] at h2
      cases hc : h.cells k with
      | none => rw [hc] at h2; cases h2
      | some c => rw [hc] at h2; exact .ref ih hc h2
  · have : view h [] p ≠ none := by
      cases hr with
      | root h1 => exact g.valid _ (Or.inl (hps.mem_iff.mpr h1))
      | @ref k c _ h1 h2 h3 => exact g.valid _ (Or.inr ⟨k, by rw [hkids, h2]; exact h3⟩)
    simpa [view] using this
  · have h1 := g.count p ⟨c.strong, shape c.dat⟩ (view_some hc (by simp))
    simp only at h1
    rw [h1, hps.count_eq]
    congr 1
    refine Finset.sum_congr rfl fun k _ => ?_
    rw [hkids]
    unfold Heap.refsFrom
    cases h.cells k <;> rfl

theorem Held.flat {os' : List (Outcome (Err P CE) (Option (Datum τ ε)))} {held xs} (h : Held os' held xs) :
    xs.map Res.addr = held.flatMap (·.2.refs) ∧ places xs = [] := by
  obtain ⟨h1, h2⟩ := h.addrs
  exact ⟨h1.trans (List.flatMap_map _ _ _), h2⟩

theorem refsOf_eq {xs : List (Res τ ε)} (h : places xs = []) : refsOf xs = xs.map Res.addr := by
  induction xs with
  | nil => rfl
  | cons r rs ih =>
    cases r with
    | place => cases h
    | ref p D => exact congrArg (p :: ·) (ih h)

section

variable {E : Env σ P τ ε (Busy τ ε) CE} {V : Kul.Env σ P τ ε β CE} (L : Laws E V (BusyOwn Scene.empty))
  (ha : E.alloc = busyMem τ ε) (s : σ) (b : β) (script : List (Turn τ ε))
include L ha

theorem Laws.undisturbed : Undisturbed E V (St.init s (Busy.start script)) (St.init s b) := by
  intro os held s' h
  obtain ⟨os', t, xs, k1, k2, _, _, k5, k6⟩ := L.usesAmong ha (t₀ := St.init s b) rfl rfl (BusyOwn.start script b) h
  refine ⟨os', t, k1, k2, fun i d hi => ?_⟩
  obtain ⟨D, rs, ys, h4, h5, h6⟩ := k5.pick hi
  exact ⟨D, h4, L.readsDat h5 (L.perm k6 h6)⟩

include b in
theorem Laws.leavesAlone : LeavesAlone E (St.init s (Busy.start script)) := by
  intro os held s' h
  obtain ⟨os', t, xs, _, _, _, _, k5, k6⟩ := L.usesAmong ha (t₀ := St.init s b) rfl rfl (BusyOwn.start script b) h
  obtain ⟨evs, mine, h1, h2, h3, h0, _⟩ := k6
  obtain ⟨h4, h5⟩ := k5.flat
  refine ⟨evs, mine, h1, h2, List.Perm.nil_eq ?_ |>.symm, h0, ?_⟩
  · have := h3.opened
    rwa [h5] at this
  · have := h3.refs
    rw [refsOf_eq h5, h4] at this
    exact this.symm

include b in
theorem Laws.noLeak : NoLeak E (St.init s (Busy.start script)) := by
  intro os held s' h ho
  obtain ⟨os', t, xs, _, _, _, _, k5, k6⟩ := L.usesAmong ha (t₀ := St.init s b) rfl rfl (BusyOwn.start script b) h
  obtain ⟨_, _, _, _, _, _, ys, h3, H, W⟩ := k6
  obtain ⟨h4, h5⟩ := k5.flat
  have h6 : places ys = [] := by
    have := h3.opened
    rw [ho] at this
    exact this.eq_nil
  refine and_assoc.mp ⟨HeapOwn.live H ?_ (by rw [places_append, h5, h6]; rfl), W.count⟩
  rw [List.map_append, h4]
  refine List.perm_append_comm.trans (List.Perm.append_left _ ?_)
  have := h3.refs
  rwa [refsOf_eq h6] at this

include b in
theorem Laws.goesOnAmong {RS : σ → Seq P → Prop} {X : TextSem P τ β} (C : Conf V RS X) {r : List (Item P)}
    (hs : AtItems RS s r) : GoesOnAmong E (St.init s (Busy.start script)) := by
  intro os held s' h
  obtain ⟨os', t, xs, k1, _, k3, k4, _, k6⟩ := L.usesAmong ha (t₀ := St.init s b) rfl rfl (BusyOwn.start script b) h
  obtain ⟨s₁, b₁, r₁, rfl, h4, _⟩ := C.calls k1 rfl hs
  obtain ⟨o, s₂, r₂, b₂, hc, _⟩ := C.call h4 b₁
  have hp : optOut o ≠ .panic := by rcases o with _ | _ | _ <;> simp [optOut]
  obtain ⟨o', s'', h5, h6⟩ := L.ends k3 k4 k6 hc hp
  refine ⟨o', s'', h5, ?_⟩
  generalize optOut o = x at h6
  cases h6 <;> simp

end

end Kul.Mem
