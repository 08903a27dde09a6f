import Verif.Model.TreeShapes
import Verif.Spec.TreeShapes
import Verif.Props.Drop

/-!
# Lemmas for `Props/TreeShapes.lean`
-/

namespace Kul.Drop

variable {K L Ω : Type}

theorem branches_zero {t : Ref K L} : t.branches = 0 ↔ t.cls = .leaf := by
  cases t <;> simp [Ref.branches, Ref.cls]

/-- The count for a top datum with these references. -/
def extra (l r : Ref K L) : Nat := if r.branches = 0 then l.extraTurns else l.branches + r.extraTurns

theorem extraTurns_branch (k : K) (l r : Ref K L) : (Ref.branch k l r).extraTurns = extra l r := by
  cases r <;> simp [Ref.extraTurns, extra, Ref.branches]

theorem extraTurns_leaf {t : Ref K L} (h : t.branches = 0) : t.extraTurns = 0 := by
  cases t <;> simp_all [Ref.branches, Ref.extraTurns]

theorem loop_left {O : Oracle Ω K} (hO : O.Steady fun _ => false) (n : Nat) (lock : Option Side) (h : lock ≠ some .right)
    (k : K) (a b : Ref K L) (k' : K) (c d : Ref K L) (ω : Ω) :
    ∃ ω', loop O (n + 1) lock (.branch (.branch k a b) (.branch k' c d)) ω =
      .step (loop O n (some .left) (.branch a (.branch k b (.branch k' c d))) ω') := by
  obtain ⟨ω', hk⟩ : ∃ ω', O.take ω k = (true, ω') := ⟨_, Prod.ext (by simpa using (hO ω k).1) rfl⟩
  refine ⟨ω', ?_⟩
  have hc : choose O lock (.branch k a b) (.branch k' c d) ω =
      (.side .left (.branch a b) (.leaf k none) .branch (.branch k' c d), ω') := by
    rcases lock with _ | _ | _
    · simp [choose, Ref.cls, tryTake, Ref.cell, hk, Ref.datum, Ref.of, tempLeaf]
    · simp [choose, Ref.cls, tryTake, Ref.cell, hk, Ref.datum, Ref.of, tempLeaf]
    · exact absurd rfl h
  have hl : lock.getD .left = .left := by
    rcases lock with _ | _ | _
    · rfl
    · rfl
    · exact absurd rfl h
  rw [loop_succ, hc]
  simp only [hl, Ref.cell]

theorem steps_exact {O : Oracle Ω K} (hO : O.Steady fun _ => false) (n : Nat) :
    (∀ (t : Ref K L) ω e s d ω', drop O n t ω = .done e s d ω' → s = t.branches + t.extraTurns) ∧
    (∀ lock (l r : Ref K L) ω e s d ω', lock ≠ some .right → loop O n lock (.branch l r) ω = .done e s d ω' →
      s = l.branches + r.branches + 1 + extra l r) := by
  induction n with
  | zero =>
    exact ⟨fun t ω e s d ω' h => (by unfold drop at h; cases h),
      fun lock l r ω e s d ω' _ h => (by unfold loop at h; cases h)⟩
  | succ n ih =>
    obtain ⟨ihd, ihl⟩ := ih
    constructor
    · intro t ω e s d ω' h
      cases t with
      | leaf k x =>
        rw [drop_leaf] at h
        cases h
        rfl
      | branch k l r =>
        cases drop_branch (O := O) n k l r ω with
        | taken h1 h2 =>
          rw [h2, Res.call_done] at h
          obtain ⟨d, h, rfl⟩ := h
          obtain ⟨_, _, _, _, _, _, _, h3, h4, rfl, rfl, rfl⟩ := Res.andThen_done.mp h
          cases h4
          rw [extraTurns_branch, ihl _ _ _ _ _ _ _ _ (by simp) h3]
          rfl
        | recursive h1 h1' h2 =>
          have := steady_take hO h1
          cases this
        | given h1 h1' h2 =>
          have := steady_take hO h1
          cases this
    · intro lock l r ω e s d ω' hlock h
      cases loop_iter (O := O) n lock l r ω with
      | abort h1 h2 =>
        rw [h1, Res.step_done] at h
        obtain ⟨s, h, rfl⟩ := h
        obtain ⟨_, _, _, _, _, _, _, h4, h5, rfl, rfl, rfl⟩ := Res.andThen_done.mp h
        rcases h2 with ⟨h2, h3⟩ | ⟨k, a, b, ω, ω', _, h2⟩
        · rw [← branches_zero] at h2 h3
          rw [ihd _ _ _ _ _ _ h4, ihd _ _ _ _ _ _ h5]
          simp only [extra, h3, if_true, extraTurns_leaf h2, extraTurns_leaf h3, h2]
        · have := steady_take hO h2
          cases this
      | left h1 h2 h3 h4 h5 =>
        rw [h5, Res.step_done] at h
        obtain ⟨s, h, rfl⟩ := h
        subst h1
        rw [ihl _ _ _ _ _ _ _ _ (by simp) h]
        have hr : r.branches ≠ 0 := by rw [ne_eq, branches_zero, h3]; simp
        simp only [extra, extraTurns_branch, Ref.branches, hr, if_false, Nat.add_eq_zero_iff, Nat.one_ne_zero, and_false]
        omega
      | right h1 h2 h3 h4 _ =>
        subst h1
        cases l with
        | leaf => cases h3
        | branch k' a' b' =>
          obtain ⟨ω₁, h6⟩ := loop_left hO n lock hlock k' a' b' _ _ _ ω
          rw [h6, Res.step_done] at h
          obtain ⟨s, h, rfl⟩ := h
          rw [ihl _ _ _ _ _ _ _ _ (by simp) h]
          simp only [extra, extraTurns_branch, Ref.branches, if_false, Nat.add_eq_zero_iff, Nat.one_ne_zero, and_false]
          omega
      | down h1 h2 h3 h4 =>
        rw [h4, Res.step_done] at h
        obtain ⟨s, h, rfl⟩ := h
        obtain ⟨_, _, _, _, _, _, _, h5, h6, rfl, rfl, rfl⟩ := Res.andThen_done.mp h
        obtain ⟨_, _, _, _, _, _, _, h7, h8, rfl, rfl, rfl⟩ := Res.andThen_done.mp h5
        rw [ihd _ _ _ _ _ _ h7, ihd _ _ _ _ _ _ h8, ihl _ _ _ _ _ _ _ _ (by simp) h6]
        rw [← branches_zero] at h2
        have hk : ∀ k, (Ref.leaf k none : Ref K L).extraTurns = 0 := fun _ => rfl
        rcases h1 with ⟨rfl, rfl⟩ | ⟨rfl, rfl⟩
        · simp only [extra, extraTurns_branch, Ref.branches, h2, extraTurns_leaf h2, if_true, hk]
          omega
        · simp only [extra, extraTurns_branch, Ref.branches, h2, extraTurns_leaf h2, hk, Nat.add_eq_zero_iff, Nat.one_ne_zero,
            and_false, if_false]
          omega

theorem extraTurns_le (t : Ref K L) : t.extraTurns + 2 ≤ t.branches ∨ t.extraTurns = 0 := by
  induction t with
  | leaf => exact .inr rfl
  | branch k l r ihl ihr =>
    rw [extraTurns_branch, extra, Ref.branches]
    split
    · omega
    · omega

theorem extraTurns_zero {t : Ref K L} : t.extraTurns = 0 ↔ t.Thread := by
  induction t with
  | leaf => simp [Ref.extraTurns, Ref.Thread]
  | branch k l r ihl ihr =>
    rw [extraTurns_branch, extra, Ref.Thread, ← ihl, ← ihr]
    split
    · rename_i h
      rw [extraTurns_leaf h]
      refine ⟨fun h' => .inr ⟨h, h'⟩, fun h' => h'.elim (fun h' => extraTurns_leaf h'.1) (fun h' => h'.2)⟩
    · rename_i h
      refine ⟨fun h' => .inl (by omega), fun h' => h'.elim (fun h' => by omega) (fun h' => absurd h'.1 h)⟩

theorem cells_length (t : Ref K L) : t.cells.length = 2 * t.branches + 1 := by
  induction t with
  | leaf => rfl
  | branch k l r ihl ihr => simp [Ref.cells, Ref.branches, ihl, ihr]; omega

theorem Ref.Perfect.counts {t : Ref K L} {d : Nat} (h : t.Perfect d) :
    t.branches + 1 = 2 ^ d ∧ t.extraTurns + d + 1 = 2 ^ d := by
  induction t generalizing d with
  | leaf =>
    simp only [Ref.Perfect] at h
    subst h
    simp [Ref.branches, Ref.extraTurns]
  | branch k l r ihl ihr =>
    obtain ⟨d, rfl, hl, hr⟩ := h
    obtain ⟨hl1, hl2⟩ := ihl hl
    obtain ⟨hr1, hr2⟩ := ihr hr
    rw [extraTurns_branch, extra, Ref.branches, Nat.pow_succ]
    split
    · rename_i h
      have : d = 0 := by
        rcases d with _ | d
        · rfl
        · have : 1 < 2 ^ (d + 1) := Nat.one_lt_two_pow (by omega)
          omega
      subst this
      simp at hl1 hl2 ⊢
      omega
    · omega

end Kul.Drop

namespace Kul.Shapes

open Drop (Ref)

theorem list_loop {e : Nat → Option (Ref Unit (Dat Empty))} (he : ∀ n, ∃ k x, e n = some (.leaf k x)) (turns cnt : Nat)
    (d : Ref Unit (Dat Empty)) (hd : d.Thread) :
    ∃ t, makeListLoop fresh e turns cnt d = some t ∧ t.Thread ∧ t.branches = d.branches + turns := by
  induction turns generalizing cnt d with
  | zero => exact ⟨d, rfl, hd, rfl⟩
  | succ turns ih =>
    obtain ⟨k, x, hx⟩ := he cnt
    obtain ⟨t, h1, h2, h3⟩ := ih (cnt + 1) (.branch () (.leaf k x) d) (.inl ⟨rfl, hd⟩)
    refine ⟨t, by simpa [makeListLoop, hx, fresh] using h1, h2, ?_⟩
    simp only [Ref.branches] at h3
    omega

theorem nest_loop {o : Nat → Option (Ref Unit (Dat Empty))} (ho : ∀ n, ∃ k x, o n = some (.leaf k x)) (turns cnt : Nat)
    (d : Ref Unit (Dat Empty)) (hd : d.Thread) :
    ∃ t, makeNestLoop fresh o turns cnt d = some t ∧ t.Thread ∧ t.branches = d.branches + turns := by
  induction turns generalizing cnt d with
  | zero => exact ⟨d, rfl, hd, rfl⟩
  | succ turns ih =>
    obtain ⟨k, x, hx⟩ := ho cnt
    obtain ⟨t, h1, h2, h3⟩ := ih (cnt + 1) (.branch () d (.leaf k x)) (.inr ⟨rfl, hd⟩)
    refine ⟨t, by simpa [makeNestLoop, hx, fresh] using h1, h2, ?_⟩
    simp only [Ref.branches] at h3
    omega

theorem basicList (len : Nat) : ∃ t, makeBasicList fresh len = some t ∧ t.Thread ∧ t.branches = len := by
  obtain ⟨t, h1, h2, h3⟩ := list_loop (e := fun cnt => some (fresh (.extra cnt))) (fun n => ⟨_, _, rfl⟩) len 1
    (fresh .emptyList) trivial
  exact ⟨t, h1, h2, by simpa [fresh, Ref.branches] using h3⟩

theorem basicNest (len : Nat) : ∃ t, makeBasicNest fresh len = some t ∧ t.Thread ∧ t.branches = len := by
  obtain ⟨t, h1, h2, h3⟩ := nest_loop (o := fun _ => some (fresh .emptyList)) (fun n => ⟨_, _, rfl⟩) len 1
    (fresh .emptyNest) trivial
  exact ⟨t, h1, h2, by simpa [fresh, Ref.branches] using h3⟩

theorem basicZigzag (depth : Nat) :
    (makeBasicZigzag fresh depth).Thread ∧ (makeBasicZigzag fresh depth).branches = depth := by
  have key : ∀ turns cnt b (d : Ref Unit (Dat Empty)), d.Thread →
      (makeZigzagLoop fresh .combination .list (fun cnt => fresh (.extra cnt)) (fun _ => fresh .emptyList) turns cnt b d).Thread ∧
      (makeZigzagLoop fresh .combination .list (fun cnt => fresh (.extra cnt)) (fun _ => fresh .emptyList) turns cnt b d).branches =
        d.branches + turns := by
    intro turns
    induction turns with
    | zero => exact fun cnt b d hd => ⟨hd, rfl⟩
    | succ turns ih =>
      intro cnt b d hd
      cases b
      · obtain ⟨h1, h2⟩ := ih (cnt + 1) true (.branch () (.leaf () (some (.extra cnt))) d) (.inl ⟨rfl, hd⟩)
        refine ⟨h1, h2.trans ?_⟩
        simp only [Ref.branches]
        omega
      · obtain ⟨h1, h2⟩ := ih (cnt + 1) false (.branch () d (.leaf () (some .emptyList))) (.inr ⟨rfl, hd⟩)
        refine ⟨h1, h2.trans ?_⟩
        simp only [Ref.branches]
        omega
  obtain ⟨h1, h2⟩ := key depth 1 true (fresh .emptyList) trivial
  exact ⟨h1, h2.trans (by simp [fresh, Ref.branches])⟩

theorem list_perfect {e : Nat → Option (Ref Unit (Dat Empty))} (turns c : Nat) (d : Ref Unit (Dat Empty))
    (he : ∀ n < c + turns, ∃ t, e (n + 1) = some t ∧ t.Perfect n) (hd : d.Perfect c) :
    ∃ t, makeListLoop fresh e turns (c + 1) d = some t ∧ t.Perfect (c + turns) := by
  induction turns generalizing c d with
  | zero => exact ⟨d, rfl, hd⟩
  | succ turns ih =>
    obtain ⟨u, hu, hp⟩ := he c (by omega)
    obtain ⟨t, h1, h2⟩ := ih (c + 1) (.branch () u d) (fun n hn => he n (by omega)) ⟨c, rfl, hp, hd⟩
    exact ⟨t, by simpa [makeListLoop, hu, fresh] using h1, by rwa [show c + (turns + 1) = c + 1 + turns by omega]⟩

theorem nest_perfect {o : Nat → Option (Ref Unit (Dat Empty))} (turns c : Nat) (d : Ref Unit (Dat Empty))
    (ho : ∀ n < c + turns, ∃ t, o (n + 1) = some t ∧ t.Perfect n) (hd : d.Perfect c) :
    ∃ t, makeNestLoop fresh o turns (c + 1) d = some t ∧ t.Perfect (c + turns) := by
  induction turns generalizing c d with
  | zero => exact ⟨d, rfl, hd⟩
  | succ turns ih =>
    obtain ⟨u, hu, hp⟩ := ho c (by omega)
    obtain ⟨t, h1, h2⟩ := ih (c + 1) (.branch () d u) (fun n hn => ho n (by omega)) ⟨c, rfl, hd, hp⟩
    exact ⟨t, by simpa [makeNestLoop, hu, fresh] using h1, by rwa [show c + (turns + 1) = c + 1 + turns by omega]⟩

theorem fan_perfect (n depth : Nat) (h : depth < n) : ∃ t, makeFanIn fresh n depth = some t ∧ t.Perfect depth := by
  induction n generalizing depth with
  | zero => omega
  | succ n ih =>
    have := nest_perfect (o := fun cnt => makeList fresh (cnt - 1) fun cnt => makeFanIn fresh n (cnt - 1)) depth 0
      (fresh .emptyNest) ?_ rfl
    · simpa [makeFanIn, makeNest] using this
    · intro c hc
      have := list_perfect (e := fun cnt => makeFanIn fresh n (cnt - 1)) c 0 (fresh .emptyList)
        (fun i hi => by simpa using ih i (by omega)) rfl
      simpa [makeList] using this

end Kul.Shapes
