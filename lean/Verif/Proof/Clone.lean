import Verif.Spec.Clone
import Verif.Proof.MemHeap

/-! # Cloning of datums in memory -/

namespace Kul.Mem

variable {τ ε : Type}

/-- `h'` has all that `h` has, and more only after it. -/
structure Heap.Grows (h h' : Heap τ ε) : Prop where
  le : h.size ≤ h'.size
  same : ∀ k, k < h.size → h'.cells k = h.cells k
  tidy : h'.Tidy

theorem Heap.Grows.refl {h : Heap τ ε} (ht : h.Tidy) : h.Grows h := ⟨Nat.le_refl _, fun _ _ => rfl, ht⟩

theorem Heap.Grows.trans {h h' h'' : Heap τ ε} (g : h.Grows h') (g' : h'.Grows h'') : h.Grows h'' :=
  ⟨Nat.le_trans g.le g'.le, fun k hk => (g'.same k (Nat.lt_of_lt_of_le hk g.le)).trans (g.same k hk), g'.tidy⟩

theorem Heap.Grows.read {h h' : Heap τ ε} (ht : h.Tidy) (g : h.Grows h') (k : Addr) (d : Dat τ ε)
    (hk : h.read k = some d) : h'.read k = some d := by
  by_cases hl : k < h.size
  · simpa [Heap.read, g.same k hl] using hk
  · simp [Heap.read, ht k (Nat.not_lt.mp hl)] at hk

theorem Heap.Grows.alloc {h : Heap τ ε} (ht : h.Tidy) (d : Dat τ ε) : h.Grows (h.alloc d).2 := by
  refine ⟨Nat.le_succ _, fun k hk => ?_, fun k hk => ?_⟩
  · simp [Heap.alloc, Heap.put, Nat.ne_of_lt hk]
  · simp only [Heap.alloc] at hk
    have : k ≠ h.size := by omega
    simp only [Heap.alloc, Heap.put, if_neg this]
    exact ht k (by omega)

/-- A datum all of whose allocations are at or after `m`. -/
inductive Above (h : Heap τ ε) (m : Nat) : Dat τ ε → Datum τ ε → Prop where
  | text {t} : Above h m (.text t) (.text t)
  | combination {p q d e D D' s s'} : m ≤ p → h.cells p = some ⟨s, d⟩ → Above h m d D → m ≤ q →
      h.cells q = some ⟨s', e⟩ → Above h m e D' → Above h m (.combination p q) (.combination D D')
  | emptyNest : Above h m .emptyNest .emptyNest
  | list {p q d e D D' s s'} : m ≤ p → h.cells p = some ⟨s, d⟩ → Above h m d D → m ≤ q →
      h.cells q = some ⟨s', e⟩ → Above h m e D' → Above h m (.list p q) (.list D D')
  | emptyList : Above h m .emptyList .emptyList
  | extra {x} : Above h m (.extra x) (.extra x)

theorem Above.mono {h h' : Heap τ ε} {m m' : Nat} (hm : m' ≤ m) (hc : ∀ k c, h.cells k = some c → h'.cells k = some c)
    {d : Dat τ ε} {D : Datum τ ε} (a : Above h m d D) : Above h' m' d D := by
  induction a with
  | text => exact .text
  | emptyNest => exact .emptyNest
  | emptyList => exact .emptyList
  | extra => exact .extra
  | combination h1 h2 _ h3 h4 _ ih1 ih2 =>
    exact .combination (Nat.le_trans hm h1) (hc _ _ h2) ih1 (Nat.le_trans hm h3) (hc _ _ h4) ih2
  | list h1 h2 _ h3 h4 _ ih1 ih2 =>
    exact .list (Nat.le_trans hm h1) (hc _ _ h2) ih1 (Nat.le_trans hm h3) (hc _ _ h4) ih2

theorem Heap.Grows.cells {h h' : Heap τ ε} (ht : h.Tidy) (g : h.Grows h') (k : Addr) (c : Cell τ ε)
    (hk : h.cells k = some c) : h'.cells k = some c := by
  by_cases hl : k < h.size
  · rw [g.same k hl]; exact hk
  · rw [ht k (Nat.not_lt.mp hl)] at hk; cases hk

theorem Above.reads {h : Heap τ ε} {m : Nat} {d : Dat τ ε} {D : Datum τ ε} (a : Above h m d D) : Reads h.read d D := by
  induction a with
  | text => exact .text
  | emptyNest => exact .emptyNest
  | emptyList => exact .emptyList
  | extra => exact .extra
  | combination _ h2 _ _ h4 _ ih1 ih2 =>
    exact .combination (by simp [Heap.read, h2]) ih1 (by simp [Heap.read, h4]) ih2
  | list _ h2 _ _ h4 _ ih1 ih2 =>
    exact .list (by simp [Heap.read, h2]) ih1 (by simp [Heap.read, h4]) ih2

/-- Everything that can be reached is there. -/
theorem Above.reach {h : Heap τ ε} {m : Nat} {d : Dat τ ε} {D : Datum τ ε} (a : Above h m d D) {k : Addr}
    (hr : h.Reach [d] k) : m ≤ k ∧ ∃ c E, h.cells k = some c ∧ Above h m c.dat E := by
  induction hr with
  | root h1 h2 =>
    cases List.mem_singleton.mp h1
    cases a with
    | combination k1 k2 k3 k4 k5 k6 | list k1 k2 k3 k4 k5 k6 =>
      simp only [Dat.refs, List.mem_cons, List.not_mem_nil, or_false] at h2
      rcases h2 with rfl | rfl
      · exact ⟨k1, _, _, k2, k3⟩
      · exact ⟨k4, _, _, k5, k6⟩
    | _ => cases h2
  | @ref _ c _ _ h1 h2 ih =>
    obtain ⟨_, c', E, h3, h4⟩ := ih
    obtain rfl : c = c' := Option.some.inj (h1.symm.trans h3)
    generalize c.dat = e at h2 h4
    cases h4 with
    | combination k1 k2 k3 k4 k5 k6 | list k1 k2 k3 k4 k5 k6 =>
      simp only [Dat.refs, List.mem_cons, List.not_mem_nil, or_false] at h2
      rcases h2 with rfl | rfl
      · exact ⟨k1, _, _, k2, k3⟩
      · exact ⟨k4, _, _, k5, k6⟩
    | _ => cases h2

/-! ## What a clone is -/

/-- A function that clones data that reads as `D`. -/
def Clones (k : Dat τ ε → Heap τ ε → Option (Dat τ ε × Heap τ ε)) (D : Datum τ ε) : Prop :=
  ∀ {h : Heap τ ε} {d : Dat τ ε}, h.Tidy → Reads h.read d D → ∃ d' h', k d h = some (d', h') ∧ h.Grows h' ∧
    Above h' h.size d' D ∧ h'.size = h.size + D.refs (fun _ => 0)

theorem Clones.box {k : Dat τ ε → Heap τ ε → Option (Dat τ ε × Heap τ ε)} {D : Datum τ ε} (hk : Clones k D)
    {h : Heap τ ε} {p : Addr} {d : Dat τ ε} (ht : h.Tidy) (hp : h.read p = some d) (hr : Reads h.read d D) :
    ∃ p' h' s d', h.cloneBox k p = some (p', h') ∧ h.Grows h' ∧ h.size ≤ p' ∧ h'.cells p' = some ⟨s, d'⟩ ∧
      Above h' h.size d' D ∧ h'.size = h.size + D.refs (fun _ => 0) + 1 := by
  unfold Heap.read at hp
  cases hc : h.cells p with
  | none => rw [hc] at hp; cases hp
  | some c =>
    rw [hc] at hp
    cases hp
    obtain ⟨d', h', h1, h2, h3, h4⟩ := hk ht hr
    refine ⟨_, _, 1, d', by rw [Heap.cloneBox, hc]; simp only [h1]; rfl, h2.trans (.alloc h2.tidy d'), h2.le, ?_,
      h3.mono (Nat.le_refl _) (Heap.Grows.cells h2.tidy (.alloc h2.tidy d')), ?_⟩
    · simp [Heap.alloc, Heap.put]
    · simp [Heap.alloc, h4]

theorem Clones.two {k : Dat τ ε → Heap τ ε → Option (Dat τ ε × Heap τ ε)} {D D' : Datum τ ε} (hk : Clones k D)
    (hk' : Clones k D') {h : Heap τ ε} {p q : Addr} {d e : Dat τ ε} (ht : h.Tidy) (hp : h.read p = some d)
    (hr : Reads h.read d D) (hq : h.read q = some e) (hr' : Reads h.read e D') :
    ∃ p' h₁ q' h' s s' d' e', h.cloneBox k p = some (p', h₁) ∧ h₁.cloneBox k q = some (q', h') ∧ h.Grows h' ∧
      h.size ≤ p' ∧ h'.cells p' = some ⟨s, d'⟩ ∧ Above h' h.size d' D ∧
      h.size ≤ q' ∧ h'.cells q' = some ⟨s', e'⟩ ∧ Above h' h.size e' D' ∧
      h'.size = h.size + (2 + (D.refs (fun _ => 0) + D'.refs (fun _ => 0))) := by
  obtain ⟨p', h₁, s, d', h1, h2, h3, h4, h5, h6⟩ := hk.box ht hp hr
  obtain ⟨q', h', s', e', k1, k2, k3, k4, k5, k6⟩ := hk'.box h2.tidy (h2.read ht _ _ hq) (hr'.mono (h2.read ht))
  refine ⟨p', h₁, q', h', s, s', d', e', h1, k1, h2.trans k2, h3, k2.cells h2.tidy _ _ h4,
    h5.mono (Nat.le_refl _) (k2.cells h2.tidy), Nat.le_trans h2.le k3, k4, k5.mono h2.le fun _ _ x => x, by omega⟩

theorem cloneBoxed_clones (D : Datum τ ε) : ∀ n, D.levels ≤ n → Clones (Dat.cloneBoxed n) D := by
  induction D with
  | combination D D' ih ih' =>
    intro n hn h d ht hr
    obtain ⟨n, rfl⟩ : ∃ m, n = m + 1 := ⟨n - 1, by simp only [Datum.levels] at hn; omega⟩
    simp only [Datum.levels] at hn
    cases hr with
    | combination hp hr hq hr' =>
      obtain ⟨p', h₁, q', h', s, s', d', e', h1, h2, h3, h4, h5, h6, h7, h8, h9, h10⟩ :=
        Clones.two (ih n (by omega)) (ih' n (by omega)) ht hp hr hq hr'
      exact ⟨_, h', by simp [Dat.cloneBoxed, h1, h2], h3, .combination h4 h5 h6 h7 h8 h9, h10⟩
  | list D D' ih ih' =>
    intro n hn h d ht hr
    obtain ⟨n, rfl⟩ : ∃ m, n = m + 1 := ⟨n - 1, by simp only [Datum.levels] at hn; omega⟩
    simp only [Datum.levels] at hn
    cases hr with
    | list hp hr hq hr' =>
      obtain ⟨p', h₁, q', h', s, s', d', e', h1, h2, h3, h4, h5, h6, h7, h8, h9, h10⟩ :=
        Clones.two (ih n (by omega)) (ih' n (by omega)) ht hp hr hq hr'
      exact ⟨_, h', by simp [Dat.cloneBoxed, h1, h2], h3, .list h4 h5 h6 h7 h8 h9, h10⟩
  | text | emptyNest | emptyList | extra =>
    intro n hn h d ht hr
    obtain ⟨n, rfl⟩ : ∃ m, n = m + 1 := ⟨n - 1, by simp only [Datum.levels] at hn; omega⟩
    cases hr
    exact ⟨_, h, rfl, .refl ht, by constructor, rfl⟩

/-! ## Overflow -/

theorem cloneBoxed_overflow (D : Datum τ ε) : ∀ n, n < D.levels → ∀ {h : Heap τ ε} {d : Dat τ ε}, h.Tidy →
    Reads h.read d D → d.cloneBoxed n h = none := by
  have box : ∀ {n} {D : Datum τ ε}, (∀ {h : Heap τ ε} {d : Dat τ ε}, h.Tidy → Reads h.read d D → d.cloneBoxed n h = none) →
      ∀ {h : Heap τ ε} {p d}, h.Tidy → h.read p = some d → Reads h.read d D → h.cloneBox (Dat.cloneBoxed n) p = none := by
    intro n D hn h p d ht hp hr
    unfold Heap.read at hp
    unfold Heap.cloneBox
    cases hc : h.cells p with
    | none => rfl
    | some c =>
      rw [hc] at hp
      cases hp
      simp only [hn ht hr]
  have two : ∀ {n} {D D' : Datum τ ε}, n < max D.levels D'.levels →
      (∀ n, n < D.levels → ∀ {h : Heap τ ε} {d : Dat τ ε}, h.Tidy → Reads h.read d D → d.cloneBoxed n h = none) →
      (∀ n, n < D'.levels → ∀ {h : Heap τ ε} {d : Dat τ ε}, h.Tidy → Reads h.read d D' → d.cloneBoxed n h = none) →
      ∀ {h : Heap τ ε} {p q d e}, h.Tidy → h.read p = some d → Reads h.read d D → h.read q = some e →
        Reads h.read e D' → h.cloneBox (Dat.cloneBoxed n) p = none ∨ ∃ p' h', h.cloneBox (Dat.cloneBoxed n) p = some (p', h') ∧
          h'.cloneBox (Dat.cloneBoxed n) q = none := by
    intro n D D' hn ih ih' h p q d e ht hp hr hq hr'
    by_cases hl : n < D.levels
    · exact Or.inl (box (ih n hl) ht hp hr)
    · obtain ⟨p', h₁, s, d', h1, h2, _⟩ := Clones.box (cloneBoxed_clones D n (Nat.not_lt.mp hl)) ht hp hr
      exact Or.inr ⟨p', h₁, h1, box (ih' n (by omega)) h2.tidy (h2.read ht _ _ hq) (hr'.mono (h2.read ht))⟩
  induction D with
  | combination D D' ih ih' =>
    intro n hn h d ht hr
    cases n with
    | zero => cases hr; rfl
    | succ n =>
      simp only [Datum.levels] at hn
      cases hr with
      | combination hp hr hq hr' =>
        rcases two (n := n) (D := D) (D' := D') (by omega) ih ih' ht hp hr hq hr' with h1 | ⟨p', h', h1, h2⟩
        · simp [Dat.cloneBoxed, h1]
        · simp [Dat.cloneBoxed, h1, h2]
  | list D D' ih ih' =>
    intro n hn h d ht hr
    cases n with
    | zero => cases hr; rfl
    | succ n =>
      simp only [Datum.levels] at hn
      cases hr with
      | list hp hr hq hr' =>
        rcases two (n := n) (D := D) (D' := D') (by omega) ih ih' ht hp hr hq hr' with h1 | ⟨p', h', h1, h2⟩
        · simp [Dat.cloneBoxed, h1]
        · simp [Dat.cloneBoxed, h1, h2]
  | text | emptyNest | emptyList | extra =>
    intro n hn h d ht hr
    simp only [Datum.levels] at hn
    obtain rfl : n = 0 := by omega
    cases hr
    rfl

/-! ## Ownership -/

variable {u : Bool} {xs : List (Res τ ε)}

theorem HeapOwn.tidy {h : Heap τ ε} (H : HeapOwn u h xs) : h.Tidy := fun _ => H.fresh

theorem HeapOwn.cloneBox {D : Datum τ ε} {k : Dat τ ε → Heap τ ε → Option (Dat τ ε × Heap τ ε)}
    (hk : ∀ {h : Heap τ ε} {d d' h' xs}, HeapOwn u h xs → Reads h.read d D → k d h = some (d', h') →
      h.Grows h' ∧ ∃ rs, Parts d' D rs ∧ HeapOwn u h' (rs ++ xs)) {h : Heap τ ε} {p p' h' d xs} (H : HeapOwn u h xs)
    (hp : h.read p = some d) (hr : Reads h.read d D) (hb : h.cloneBox k p = some (p', h')) :
    h.Grows h' ∧ HeapOwn u h' (.ref p' D :: xs) := by
  unfold Heap.read at hp
  unfold Heap.cloneBox at hb
  cases hc : h.cells p with
  | none => rw [hc] at hb; cases hb
  | some c =>
    rw [hc] at hp hb
    cases hp
    simp only at hb
    rcases he : k c.dat h with _ | ⟨d', h₁⟩ <;> rw [he] at hb <;> cases hb
    obtain ⟨g, rs, h1, h2⟩ := hk H hr he
    exact ⟨g.trans (.alloc g.tidy d'), HeapOwn.alloc h1 (Nat.le_refl _) h2⟩

theorem HeapOwn.cloneBoxed (D : Datum τ ε) : ∀ n {h : Heap τ ε} {d d' h' xs}, HeapOwn u h xs → Reads h.read d D →
    d.cloneBoxed n h = some (d', h') → h.Grows h' ∧ ∃ rs, Parts d' D rs ∧ HeapOwn u h' (rs ++ xs) := by
  have two : ∀ {n} {D D' : Datum τ ε},
      (∀ {h : Heap τ ε} {d d' h' xs}, HeapOwn u h xs → Reads h.read d D →
        d.cloneBoxed n h = some (d', h') → h.Grows h' ∧ ∃ rs, Parts d' D rs ∧ HeapOwn u h' (rs ++ xs)) →
      (∀ {h : Heap τ ε} {d d' h' xs}, HeapOwn u h xs → Reads h.read d D' →
        d.cloneBoxed n h = some (d', h') → h.Grows h' ∧ ∃ rs, Parts d' D' rs ∧ HeapOwn u h' (rs ++ xs)) →
      ∀ {h : Heap τ ε} {p q d e xs}, HeapOwn u h xs → h.read p = some d → Reads h.read d D → h.read q = some e →
        Reads h.read e D' → ∀ {p' h₁ q' h'}, h.cloneBox (Dat.cloneBoxed n) p = some (p', h₁) →
          h₁.cloneBox (Dat.cloneBoxed n) q = some (q', h') →
          h.Grows h' ∧ HeapOwn u h' (.ref p' D :: .ref q' D' :: xs) := by
    intro n D D' ih ih' h p q d e xs H hp hr hq hr' p' h₁ q' h' h1 h2
    obtain ⟨g, H₁⟩ := HeapOwn.cloneBox ih H hp hr h1
    obtain ⟨g', H'⟩ := HeapOwn.cloneBox ih' H₁ (g.read H.tidy _ _ hq) (hr'.mono (g.read H.tidy)) h2
    exact ⟨g.trans g', H'.perm (.swap _ _ _)⟩
  induction D with
  | combination D D' ih ih' =>
    intro n h d d' h' xs H hr he
    cases n with
    | zero => cases hr; cases he
    | succ n =>
      cases hr with
      | @combination p q _ _ _ _ hp hr hq hr' =>
        simp only [Dat.cloneBoxed] at he
        rcases h1 : h.cloneBox (Dat.cloneBoxed n) p with _ | ⟨p', h₁⟩ <;> rw [h1] at he
        · cases he
        · simp only at he
          rcases h2 : h₁.cloneBox (Dat.cloneBoxed n) q with _ | ⟨q', h₂⟩ <;> rw [h2] at he
          · cases he
          · cases he
            obtain ⟨g, H'⟩ := two (ih n) (ih' n) H hp hr hq hr' h1 h2
            exact ⟨g, _, .combination, H'⟩
  | list D D' ih ih' =>
    intro n h d d' h' xs H hr he
    cases n with
    | zero => cases hr; cases he
    | succ n =>
      cases hr with
      | @list p q _ _ _ _ hp hr hq hr' =>
        simp only [Dat.cloneBoxed] at he
        rcases h1 : h.cloneBox (Dat.cloneBoxed n) p with _ | ⟨p', h₁⟩ <;> rw [h1] at he
        · cases he
        · simp only at he
          rcases h2 : h₁.cloneBox (Dat.cloneBoxed n) q with _ | ⟨q', h₂⟩ <;> rw [h2] at he
          · cases he
          · cases he
            obtain ⟨g, H'⟩ := two (ih n) (ih' n) H hp hr hq hr' h1 h2
            exact ⟨g, _, .list, H'⟩
  | text | emptyNest | emptyList | extra =>
    intro n h d d' h' xs H hr he
    cases n with
    | zero => cases hr; cases he
    | succ n =>
      cases hr
      cases he
      exact ⟨.refl H.tidy, [], by constructor, H⟩

/-- Who owns a datum may clone it. -/
theorem HeapOwn.cloneDat {box : Bool} (hu : u = box) {n : Nat} {h : Heap τ ε} {d d' : Dat τ ε} {D : Datum τ ε}
    {rs : List (Res τ ε)} {h' : Heap τ ε} (hp : Parts d D rs) (H : HeapOwn u h (rs ++ xs))
    (he : (heapMem τ ε box).clone n d h = some (d', h')) :
    ∃ rs', Parts d' D rs' ∧ HeapOwn u h' (rs' ++ (rs ++ xs)) := by
  subst hu
  have hr : Reads h.read d D := hp.reads fun p D' hm => H.at (List.mem_append_left _ hm)
  cases u with
  | true => exact (HeapOwn.cloneBoxed D n H hr he).2
  | false =>
    simp only [heapMem] at he
    cases n with
    | zero => cases he
    | succ n =>
      simp only [Dat.cloneCounted, Bool.false_eq_true, if_false, Option.some.injEq, Prod.mk.injEq] at he
      obtain ⟨rfl, rfl⟩ := he
      refine ⟨rs, hp, ?_⟩
      cases hp with
      | text | emptyNest | emptyList | extra => exact H
      | @combination p q D D' | @list p q D D' =>
        have H1 : HeapOwn false (h.clone p) (.ref q D' :: .ref p D :: .ref p D :: xs) :=
          HeapOwn.clone H |>.perm ((List.Perm.cons _ (.swap _ _ _)).trans (.swap _ _ _))
        exact HeapOwn.clone H1 |>.perm ((List.Perm.cons _ (.swap _ _ _)).trans (.trans (.swap _ _ _)
          (.cons _ (.cons _ (.swap _ _ _)))))

end Kul.Mem
