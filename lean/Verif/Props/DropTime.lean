import Verif.Props.Drop

/-!
# How long dropping takes

C58: the number of loop iterations of the drop algorithm. Linear if nothing is shared; not
if elements of a list are shared. The time for the other things done by it (taking a datum out of a
reference, disposing of a leaf, freeing a cell) is not counted; there are a fixed number of these in
each iteration, and each cell is freed once (C42).
-/

namespace Kul.Drop

variable {K L Ω : Type}

/-! ## Nothing is shared -/

/-- The number of branches on the way to the right. -/
def Ref.spine : Ref K L → Nat
  | .leaf .. => 0
  | .branch _ _ r => r.spine + 1

/-- If everything can be taken out, and the loop is not locked to the right side, an iteration does one
of four things. -/
theorem loop_sole {O : Oracle Ω K} (hO : O.Steady fun _ => false) (n : Nat) {lock : Option Side}
    (hl : lock ≠ some .right) (l r : Ref K L) (ω : Ω) :
    (l.cls = .leaf ∧ r.cls = .leaf ∧ loop O (n + 1) lock (.branch l r) ω = .step ((drop O n r ω).andThen (drop O n l))) ∨
    (∃ k a b ω', l = .branch k a b ∧ r.cls = .branch ∧
      loop O (n + 1) lock (.branch l r) ω = .step (loop O n (some .left) (.branch a (.branch k b r)) ω')) ∨
    (∃ k a b x ω', (l = .branch k a b ∧ r = x ∨ r = .branch k a b ∧ l = x) ∧ x.cls = .leaf ∧
      loop O (n + 1) lock (.branch l r) ω = .step (((drop O n x ω').andThen (drop O n (.leaf k none))).andThen
        (loop O n none (.branch a b)))) := by
  have ht : ∀ k ω, ∃ ω', O.take ω k = (true, ω') := fun k ω => ⟨_, Prod.ext (hO ω k).1 rfl⟩
  rw [loop_succ]
  cases l with
  | leaf kl xl =>
    cases r with
    | leaf kr xr => exact Or.inl ⟨rfl, rfl, by rcases lock with _ | _ | _ <;> rfl⟩
    | branch k a b =>
      obtain ⟨ω', h⟩ := ht k ω
      refine Or.inr (Or.inr ⟨k, a, b, .leaf kl xl, ω', Or.inr ⟨rfl, rfl⟩, rfl, ?_⟩)
      rcases lock with _ | _ | _ <;> simp [choose, Ref.cls, tryTake, Ref.cell, h, Ref.datum, Ref.of, tempLeaf]
  | branch k a b =>
    obtain ⟨ω', h⟩ := ht k ω
    cases r with
    | leaf kr xr =>
      refine Or.inr (Or.inr ⟨k, a, b, .leaf kr xr, ω', Or.inl ⟨rfl, rfl⟩, rfl, ?_⟩)
      rcases lock with _ | _ | _ <;> simp [choose, Ref.cls, tryTake, Ref.cell, h, Ref.datum, Ref.of, tempLeaf]
    | branch kr ar br =>
      refine Or.inr (Or.inl ⟨k, a, b, ω', rfl, rfl, ?_⟩)
      rcases lock with _ | _ | _
      · simp [choose, Ref.cls, tryTake, Ref.cell, h, Ref.datum, Ref.of, tempLeaf]
      · simp [choose, Ref.cls, tryTake, Ref.cell, h, Ref.datum, Ref.of, tempLeaf]
      · exact absurd rfl hl

theorem drop_leaf_steps {O : Oracle Ω K} {n : Nat} {t : Ref K L} (ht : t.cls = .leaf) {ω e s d ω'}
    (h : drop O n t ω = .done e s d ω') : s = 0 := by
  cases t with
  | branch => cases ht
  | leaf k x =>
    cases n with
    | zero => unfold drop at h; cases h
    | succ n =>
      rw [drop_leaf] at h
      cases h; rfl

theorem loop_linear {O : Oracle Ω K} (hO : O.Steady fun _ => false) (n : Nat) : ∀ (lock : Option Side),
    lock ≠ some .right → ∀ (l r : Ref K L) ω e s d ω', loop O n lock (.branch l r) ω = .done e s d ω' →
    s + r.spine ≤ 2 * (l.size + r.size) + 1 := by
  induction n with
  | zero => intro lock _ l r ω e s d ω' h; unfold loop at h; cases h
  | succ n ih =>
    intro lock hl l r ω e s d ω' h
    rcases loop_sole hO n hl l r ω with ⟨h1, h2, h3⟩ | ⟨k, a, b, ω₁, rfl, h2, h3⟩ | ⟨k, a, b, x, ω₁, h1, h2, h3⟩
    · rw [h3, Res.step_done] at h
      obtain ⟨s', h, rfl⟩ := h
      obtain ⟨_, _, _, _, _, _, _, h4, h5, rfl, rfl, rfl⟩ := Res.andThen_done.mp h
      have e1 := drop_leaf_steps h2 h4
      have e2 := drop_leaf_steps h1 h5
      cases r with
      | branch => cases h2
      | leaf => simp only [Ref.spine]; omega
    · rw [h3, Res.step_done] at h
      obtain ⟨s', h, rfl⟩ := h
      have := ih _ (by decide) _ _ _ _ _ _ _ h
      simp only [Ref.spine, Ref.size] at this ⊢
      omega
    · rw [h3, Res.step_done] at h
      obtain ⟨s', h, rfl⟩ := h
      obtain ⟨_, _, _, _, _, _, _, h4, h5, rfl, rfl, rfl⟩ := Res.andThen_done.mp h
      obtain ⟨_, _, _, _, _, _, _, h6, h7, rfl, rfl, rfl⟩ := Res.andThen_done.mp h4
      have e1 := drop_leaf_steps h2 h6
      have e2 := drop_leaf_steps rfl h7
      have := ih _ (by decide) _ _ _ _ _ _ _ h5
      cases x with
      | branch => cases h2
      | leaf =>
        rcases h1 with ⟨rfl, rfl⟩ | ⟨rfl, rfl⟩ <;> simp only [Ref.spine, Ref.size] at this ⊢ <;> omega

/-- C58. A datum of which nothing is shared is dropped in linear time: the loop is iterated less than
twice for each branch datum (`Combination`, `List`), whatever its shape. In particular every datum
made of `DatumBox`es. -/
theorem C58_linear_time (O : Oracle Ω K) (hO : O.Steady fun _ => false) (t : Ref K L) (ω : Ω)
    {evs steps depth} (h : Drops O t ω evs steps depth) : steps ≤ 2 * t.branches := by
  obtain ⟨ω', n, h⟩ := h
  have h := h (n + 1) (Nat.le_succ n)
  cases t with
  | leaf k x => rw [drop_leaf_steps rfl h]; exact Nat.zero_le _
  | branch k l r =>
    unfold drop at h
    obtain ⟨d', h', rfl⟩ := Res.call_done.mp h
    have ht : O.take ω k = (true, (O.take ω k).2) := Prod.ext (hO ω k).1 rfl
    simp only [tryTake, Ref.cell, Ref.datum] at h'
    rw [ht] at h'
    obtain ⟨_, _, _, _, _, _, _, h4, h5, rfl, rfl, rfl⟩ := Res.andThen_done.mp h'
    have := loop_linear hO n none (by decide) _ _ _ _ _ _ _ h4
    cases h5
    simp only [Ref.branches, branches_eq]
    omega

/-! ## Elements of a list are shared -/

/-- Dropping `t` takes at least `m` iterations. -/
def Slow (O : Oracle Ω K) (m : Nat) (t : Ref K L) : Prop :=
  ∀ n ω e s d ω', drop O n t ω = .done e s d ω' → m ≤ s

def SlowL (O : Oracle Ω K) (m : Nat) (lock : Option Side) (l r : Ref K L) : Prop :=
  ∀ n ω e s d ω', loop O n lock (.branch l r) ω = .done e s d ω' → m ≤ s

section Slow

variable {shared : K → Bool}

theorem SlowL.right {m : Nat} {lock : Option Side} {k : K} {l a b : Ref K L} (hl : l.cls = .branch)
    (hk : shared k = false) (h : lock = some .right ∨ lock = none ∧ SharedBranch shared l)
    (hd : SlowL (.steady shared) m (some .right) (.branch k l a) b) :
    SlowL (.steady shared) (m + 1) lock l (.branch k a b) := by
  intro n ω e s d ω' hn
  cases n with
  | zero => unfold loop at hn; cases hn
  | succ n =>
    rw [loop_succ, choose_right hl hk h, Res.step_done] at hn
    obtain ⟨s', hn, rfl⟩ := hn
    have : lock.getD .right = .right := by rcases h with rfl | ⟨rfl, _⟩ <;> rfl
    simp only [this, Ref.cell] at hn
    have := hd _ _ _ _ _ _ hn
    omega

theorem SlowL.left {m : Nat} {lock : Option Side} {k : K} {r a b : Ref K L} (hr : r.cls = .branch)
    (hk : shared k = false) (h : lock = some .left ∨ lock = none)
    (hd : SlowL (.steady shared) m (some .left) a (.branch k b r)) :
    SlowL (.steady shared) (m + 1) lock (.branch k a b) r := by
  intro n ω e s d ω' hn
  cases n with
  | zero => unfold loop at hn; cases hn
  | succ n =>
    rw [loop_succ, choose_left hr hk h, Res.step_done] at hn
    obtain ⟨s', hn, rfl⟩ := hn
    have : lock.getD .left = .left := by rcases h with rfl | rfl <;> rfl
    simp only [this, Ref.cell] at hn
    have := hd _ _ _ _ _ _ hn
    omega

/-- Every iteration counts. -/
theorem SlowL.one (O : Oracle Ω K) (lock : Option Side) (l r : Ref K L) : SlowL O 1 lock l r := by
  intro n ω e s d ω' hn
  cases n with
  | zero => unfold loop at hn; cases hn
  | succ n =>
    rw [loop_succ, Res.step_done] at hn
    obtain ⟨s', _, rfl⟩ := hn
    omega

/-- The loop ends. -/
theorem SlowL.abort {m : Nat} {lock : Option Side} {l r : Ref K L} (hl : l.cls = .branch) (hr : r.cls = .branch)
    (h : lock = some .right ∧ SharedBranch shared r ∨ lock = some .left ∧ SharedBranch shared l ∨
      SharedBranch shared l ∧ SharedBranch shared r)
    (hd : Slow (.steady shared) m l ∨ Slow (.steady shared) m r) :
    SlowL (.steady shared) (m + 1) lock l r := by
  intro n ω e s d ω' hn
  cases n with
  | zero => unfold loop at hn; cases hn
  | succ n =>
    have hc : choose (.steady shared) lock l r ω = (.abort l r, ω) := by
      cases l with
      | leaf => cases hl
      | branch kl _ _ =>
        cases r with
        | leaf => cases hr
        | branch kr _ _ =>
          rcases h with ⟨rfl, k', a', b', h, hk'⟩ | ⟨rfl, k', a', b', h, hk'⟩ |
            ⟨⟨k', a', b', h, hk'⟩, k'', a'', b'', h', hk''⟩
          · cases h
            simp [choose, Ref.cls, tryTake, Oracle.steady, Ref.cell, hk']
          · cases h
            simp [choose, Ref.cls, tryTake, Oracle.steady, Ref.cell, hk']
          · cases h
            cases h'
            rcases lock with _ | _ | _ <;>
              simp [choose, Ref.cls, tryTake, Oracle.steady, Ref.cell, hk', hk'']
    rw [loop_succ, hc, Res.step_done] at hn
    obtain ⟨s', hn, rfl⟩ := hn
    obtain ⟨_, _, _, _, _, _, _, h4, h5, rfl, rfl, rfl⟩ := Res.andThen_done.mp hn
    rcases hd with hd | hd
    · have := hd _ _ _ _ _ _ h5; omega
    · have := hd _ _ _ _ _ _ h4; omega

/-- The right side is a leaf. -/
theorem SlowL.down {m : Nat} {lock : Option Side} {k : K} {r a b : Ref K L} (hr : r.cls = .leaf)
    (hk : shared k = false) (hd : SlowL (.steady shared) m none a b) :
    SlowL (.steady shared) (m + 1) lock (.branch k a b) r := by
  intro n ω e s d ω' hn
  cases n with
  | zero => unfold loop at hn; cases hn
  | succ n =>
    have hc : choose (.steady shared) lock (.branch k a b) r ω =
        (.side .left (.branch a b) (.leaf k none) .leaf r, ω) := by
      cases r with
      | branch => cases hr
      | leaf =>
        rcases lock with _ | _ | _ <;>
        simp [choose, Ref.cls, tryTake, Oracle.steady, Ref.cell, hk, Ref.datum, Ref.of, tempLeaf]
    rw [loop_succ, hc, Res.step_done] at hn
    obtain ⟨s', hn, rfl⟩ := hn
    obtain ⟨_, _, _, _, _, _, _, h4, h5, rfl, rfl, rfl⟩ := Res.andThen_done.mp hn
    have := hd _ _ _ _ _ _ h5
    omega

theorem Slow.branch {m : Nat} {k : K} {l r : Ref K L} (hk : shared k = false)
    (hd : SlowL (.steady shared) m none l r) : Slow (.steady shared) m (.branch k l r) := by
  intro n ω e s d ω' hn
  cases n with
  | zero => unfold drop at hn; cases hn
  | succ n =>
    unfold drop at hn
    simp only [tryTake, Oracle.steady, Ref.cell, hk, Ref.datum, Bool.not_false] at hn
    obtain ⟨d', hn', rfl⟩ := Res.call_done.mp hn
    obtain ⟨_, _, _, _, _, _, _, h4, h5, rfl, rfl, rfl⟩ := Res.andThen_done.mp hn'
    have := hd _ _ _ _ _ _ h4
    omega

theorem SlowL.mono {O : Oracle Ω K} {m m' : Nat} {lock : Option Side} {l r : Ref K L} (h : SlowL O m lock l r)
    (hm : m' ≤ m) : SlowL O m' lock l r := fun n ω e s d ω' hn => Nat.le_trans hm (h n ω e s d ω' hn)

theorem slowL_right {m : Nat} {last : Ref K L} (ps : List (K × Ref K L)) (hp : Pairs shared ps)
    (l : Ref K L) (hl : l.cls = .branch)
    (hd : SlowL (.steady shared) m (some .right) (llist l ps) last) :
    SlowL (.steady shared) (m + ps.length) (some .right) l (rlist last ps) := by
  induction ps generalizing l with
  | nil => exact hd
  | cons p ps ih =>
    exact .right hl (hp p (by simp)).1 (Or.inl rfl)
      (ih (fun q hq => hp q (by simp [hq])) (.branch p.1 l p.2) rfl hd)

theorem slowL_left {m : Nat} {a : Ref K L} (ps : List (K × Ref K L)) (hp : Pairs shared ps)
    (r : Ref K L) (hr : r.cls = .branch)
    (hd : SlowL (.steady shared) m (some .left) a (rlist r ps)) :
    SlowL (.steady shared) (m + ps.length) (some .left) (llist a ps) r := by
  induction ps using List.reverseRecOn generalizing r with
  | nil => exact hd
  | append_singleton ps p ih =>
    obtain ⟨k, x⟩ := p
    rw [llist_append]
    have := SlowL.left (lock := some .left) hr (hp (k, x) (by simp)).1 (Or.inl rfl)
      (ih (fun q hq => hp q (by simp [hq])) (.branch k x r) rfl (by rwa [← rlist_append]))
    exact this.mono (by simp; omega)

theorem slowL_none_left {m : Nat} {a x : Ref K L} (ha : SharedBranch shared a) (hx : SharedBranch shared x)
    (ps : List (K × Ref K L)) (hp : Pairs shared ps) (hne : ps ≠ [])
    (hd : Slow (.steady shared) m (rlist x ps)) :
    SlowL (.steady shared) (m + ps.length + 1) none (llist a ps) x := by
  induction ps using List.reverseRecOn with
  | nil => exact absurd rfl hne
  | append_singleton ps p _ =>
    obtain ⟨k, y⟩ := p
    rw [llist_append]
    have h := SlowL.abort (lock := some .left) (l := a) (r := rlist x (ps ++ [(k, y)])) ha.cls (rlist_cls hx.cls _)
      (Or.inr (Or.inl ⟨rfl, ha⟩)) (Or.inr hd)
    rw [rlist_append] at h
    exact (SlowL.left hx.cls (hp (k, y) (by simp)).1 (Or.inr rfl)
      (slowL_left ps (fun q hq => hp q (by simp [hq])) _ rfl h)).mono (by simp; omega)

/-- The sum of the numbers up to `m`. -/
def upTo : Nat → Nat
  | 0 => 0
  | m + 1 => upTo m + (m + 1)

theorem upTo_eq (m : Nat) : 2 * upTo m = m * (m + 1) := by
  induction m with
  | zero => rfl
  | succ m ih => simp only [upTo, Nat.mul_add, ih]; ring

theorem slow_chains (m : Nat) :
    (∀ (last : Ref K L) (ps : List (K × Ref K L)), SharedBranch shared last → Pairs shared ps →
      ps.length = m → Slow (.steady shared) (upTo m) (rlist last ps)) ∧
    (∀ (a : Ref K L) (ps : List (K × Ref K L)), SharedBranch shared a → Pairs shared ps →
      ps.length = m → Slow (.steady shared) (upTo m) (llist a ps)) := by
  induction m with
  | zero => exact ⟨fun _ _ _ _ _ _ _ _ _ _ _ _ => Nat.zero_le _, fun _ _ _ _ _ _ _ _ _ _ _ _ => Nat.zero_le _⟩
  | succ m ih =>
    constructor
    · intro last ps hl hp hm
      cases ps with
      | nil => cases hm
      | cons p ps =>
        obtain ⟨k, x⟩ := p
        have hx := (hp (k, x) (by simp)).2
        have hp' : Pairs shared ps := fun q hq => hp q (by simp [hq])
        refine .branch (hp (k, x) (by simp)).1 ?_
        have hd := ih.2 x ps hx hp' (by simpa using hm)
        cases ps with
        | nil =>
          have : m = 0 := by simpa using hm.symm
          subst this
          exact SlowL.one _ _ _ _
        | cons q ps =>
          obtain ⟨k', y⟩ := q
          refine (SlowL.right hx.cls (hp' (k', y) (by simp)).1 (Or.inr ⟨rfl, hx⟩)
            (slowL_right ps (fun q hq => hp' q (by simp [hq])) _ rfl
              (.abort (llist_cls rfl _) hl.cls (Or.inl ⟨rfl, hl⟩) (Or.inl hd)))).mono ?_
          have : ps.length + 1 = m := by simpa using hm
          simp only [upTo]
          omega
    · intro a ps ha hp hm
      induction ps using List.reverseRecOn with
      | nil => cases hm
      | append_singleton ps p _ =>
        obtain ⟨k, x⟩ := p
        have hx := (hp (k, x) (by simp)).2
        have hp' : Pairs shared ps := fun q hq => hp q (by simp [hq])
        have hlen : ps.length = m := by simpa using hm
        have hd := ih.1 x ps hx hp' hlen
        rw [llist_append]
        refine .branch (hp (k, x) (by simp)).1 ?_
        rcases ps with _ | ⟨q, ps⟩
        · have : m = 0 := by simpa using hlen.symm
          subst this
          exact SlowL.one _ _ _ _
        · exact (slowL_none_left ha hx _ hp' (by simp) hd).mono (by simp only [upTo]; omega)

end Slow

/-- C58. The time is not linear with sharing: when the elements of a list are branch datums that are
shared, and the links of the list are not, then dropping a list of `n` elements takes at least
`n (n + 1) / 2` iterations. Each call aborts on a shared element, having restructured all the rest, and
drops the rest by recursion. -/
theorem C58_quadratic_when_shared (n : Nat) : ∃ evs steps depth,
    Drops (.steady Prod.fst) (pairsList 0 n) () evs steps depth ∧ n * (n + 1) ≤ 2 * steps ∧
    (pairsList 0 n).branches = 2 * n := by
  obtain ⟨evs, steps, depth, h, _⟩ := C41_terminates (.steady Prod.fst) (pairsList 0 n) ()
  have hb : ∀ i n, (pairsList i n).branches = 2 * n := by
    intro i n
    induction n generalizing i with
    | zero => rfl
    | succ n ih => simp only [pairsList, Ref.branches, ih]; omega
  refine ⟨evs, steps, depth, h, ?_, hb 0 n⟩
  suffices hd : Slow (.steady Prod.fst) (upTo n) (pairsList 0 n) by
    obtain ⟨ω', m, h⟩ := h
    have := hd _ _ _ _ _ _ (h m (Nat.le_refl _))
    rw [← upTo_eq]
    omega
  obtain ⟨ps, last, h1, h2, h3, h4⟩ := pairsList_eq 0 n
  rw [h1]
  match n, ps, h3 with
  | 0, _, _ => exact fun _ _ _ _ _ _ _ => Nat.zero_le _
  | 1, [p], _ => exact .branch (h2 p (by simp)).1 (SlowL.one _ _ _ _)
  | n + 2, p :: q :: ps, h3 =>
    obtain ⟨k, x⟩ := p
    obtain ⟨k', y⟩ := q
    have hx := h2 (k, x) (by simp)
    have hy := h2 (k', y) (by simp)
    have hp : Pairs Prod.fst ps := fun q hq => h2 q (by simp [hq])
    have hlen : ps.length = n := by simpa using h3
    refine .branch hx.1 ?_
    induction ps using List.reverseRecOn with
    | nil =>
      subst hlen
      refine (SlowL.right hx.2.cls hy.1 (Or.inr ⟨rfl, hx.2⟩) (m := 2) ?_).mono (Nat.le_refl _)
      exact .down h4 hy.1 (SlowL.one _ _ _ _)
    | append_singleton ps r _ =>
      obtain ⟨k'', z⟩ := r
      have hz := h2 (k'', z) (by simp)
      have hq : Pairs Prod.fst ((k', y) :: ps) :=
        fun q hq => h2 q (by simp only [List.mem_cons, List.mem_append] at hq ⊢; tauto)
      have hs := (slow_chains (shared := (Prod.fst : Bool × Nat → Bool)) (L := Nat) n).1 z ((k', y) :: ps) hz.2 hq
        (by simpa using hlen)
      have hs := slowL_none_left hx.2 hz.2 ((k', y) :: ps) hq (by simp) hs
      refine (SlowL.right hx.2.cls hy.1 (Or.inr ⟨rfl, hx.2⟩) (slowL_right _ hp _ rfl
        (m := upTo n + ((k', y) :: ps).length + 1 + 1) ?_)).mono ?_
      · rw [llist_append]
        exact .down h4 hz.1 hs
      · simp only [List.length_append, List.length_cons, List.length_nil, upTo] at hlen ⊢
        omega

/-! ## Examples -/

/-- C58: nothing is shared: 9 iterations for 6 branches. -/
example : Drops .sole exTree () (exEvs .sole ()) 9 2 ∧ exTree.branches = 6 ∧ (9 : Nat) ≤ 2 * 6 :=
  ⟨.of_fuel (ω' := ()) 100 (by decide +kernel), by decide, C58_linear_time .sole (fun _ _ => ⟨rfl, rfl⟩) exTree ()
    (Drops.of_fuel (e := exEvs .sole ()) (s := 9) (d := 2) (ω' := ()) 100 (by decide +kernel))⟩

end Kul.Drop
