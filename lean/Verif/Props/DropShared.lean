import Verif.Props.DropTime

/-!
# How long dropping takes with sharing

C83: the number of loop iterations of the drop algorithm, for any pattern of sharing that stays as it is.
-/

namespace Kul.Drop

variable {K L Ω : Type} {shared : K → Bool}

/-- What is not shared, on the way to the left. -/
def Ref.lspine (shared : K → Bool) : Ref K L → Nat
  | .leaf .. => 0
  | .branch k l _ => if shared k then 0 else l.lspine shared + 1

/-- The same to the right. -/
def Ref.rspine (shared : K → Bool) : Ref K L → Nat
  | .leaf .. => 0
  | .branch k _ r => if shared k then 0 else r.rspine shared + 1

/-- The way to the left ends at a shared branch. -/
def Ref.Hits (shared : K → Bool) : Ref K L → Prop
  | .leaf .. => False
  | .branch k l _ => shared k = true ∨ l.Hits shared

theorem lspine_le (t : Ref K L) : t.lspine shared ≤ t.ownBranches shared := by
  induction t with
  | leaf => exact Nat.le_refl _
  | branch k l r ihl ihr => simp only [Ref.lspine, Ref.ownBranches]; split <;> omega

theorem rspine_le (t : Ref K L) : t.rspine shared ≤ t.ownBranches shared := by
  induction t with
  | leaf => exact Nat.le_refl _
  | branch k l r ihl ihr => simp only [Ref.rspine, Ref.ownBranches]; split <;> omega

/-- What an iteration can do. -/
theorem loop_steady {O : Oracle Ω K} (hO : O.Steady shared) (n : Nat) (lock : Option Side) (l r : Ref K L) (ω : Ω) :
    ((l.cls = .leaf ∧ r.cls = .leaf ∨ SharedBranch shared l ∨ SharedBranch shared r) ∧
      ∃ ω', loop O (n + 1) lock (.branch l r) ω = .step ((drop O n r ω').andThen (drop O n l))) ∨
    (lock ≠ some .right ∧ ∃ k a b ω', shared k = false ∧ l = .branch k a b ∧ r.cls = .branch ∧
      loop O (n + 1) lock (.branch l r) ω = .step (loop O n (some .left) (.branch a (.branch k b r)) ω')) ∨
    ((lock = some .right ∨ lock = none ∧ SharedBranch shared l) ∧ ∃ k a b ω', shared k = false ∧ r = .branch k a b ∧
      l.cls = .branch ∧
      loop O (n + 1) lock (.branch l r) ω = .step (loop O n (some .right) (.branch (.branch k l a) b) ω')) ∨
    (∃ k a b x ω', shared k = false ∧ (l = .branch k a b ∧ r = x ∨ r = .branch k a b ∧ l = x) ∧ x.cls = .leaf ∧
      loop O (n + 1) lock (.branch l r) ω = .step (((drop O n x ω').andThen (drop O n (.leaf k none))).andThen
        (loop O n none (.branch a b)))) := by
  have ht : ∀ k ω, ∃ ω', O.take ω k = (!shared k, ω') := fun k ω => ⟨_, Prod.ext (hO ω k).1 rfl⟩
  rw [loop_succ]
  cases l with
  | leaf kl xl =>
    cases r with
    | leaf kr xr => exact Or.inl ⟨Or.inl ⟨rfl, rfl⟩, ω, by rcases lock with _ | _ | _ <;> rfl⟩
    | branch k a b =>
      obtain ⟨ω', h⟩ := ht k ω
      rcases hk : shared k with _ | _ <;> rw [hk] at h
      · refine Or.inr (Or.inr (Or.inr ⟨k, a, b, .leaf kl xl, ω', hk, Or.inr ⟨rfl, rfl⟩, rfl, ?_⟩))
        rcases lock with _ | _ | _ <;> simp [choose, Ref.cls, tryTake, Ref.cell, h, Ref.datum, Ref.of, tempLeaf]
      · refine Or.inl ⟨Or.inr (Or.inr ⟨_, _, _, rfl, hk⟩), ω', ?_⟩
        rcases lock with _ | _ | _ <;> simp [choose, Ref.cls, tryTake, Ref.cell, h]
  | branch k a b =>
    obtain ⟨ω', h⟩ := ht k ω
    cases r with
    | leaf kr xr =>
      rcases hk : shared k with _ | _ <;> rw [hk] at h
      · refine Or.inr (Or.inr (Or.inr ⟨k, a, b, .leaf kr xr, ω', hk, Or.inl ⟨rfl, rfl⟩, rfl, ?_⟩))
        rcases lock with _ | _ | _ <;> simp [choose, Ref.cls, tryTake, Ref.cell, h, Ref.datum, Ref.of, tempLeaf]
      · refine Or.inl ⟨Or.inr (Or.inl ⟨_, _, _, rfl, hk⟩), ω', ?_⟩
        rcases lock with _ | _ | _ <;> simp [choose, Ref.cls, tryTake, Ref.cell, h]
    | branch kr ar br =>
      obtain ⟨ω₁, h₁⟩ := ht kr ω
      obtain ⟨ω₂, h₂⟩ := ht kr ω'
      rcases lock with _ | _ | _
      · rcases hk : shared k with _ | _ <;> rw [hk] at h
        · refine Or.inr (Or.inl ⟨by decide, k, a, b, ω', hk, rfl, rfl, ?_⟩)
          simp [choose, Ref.cls, tryTake, Ref.cell, h, Ref.datum, Ref.of, tempLeaf]
        · rcases hr : shared kr with _ | _ <;> rw [hr] at h₂
          · refine Or.inr (Or.inr (Or.inl ⟨Or.inr ⟨rfl, _, _, _, rfl, hk⟩, kr, ar, br, ω₂, hr, rfl, rfl, ?_⟩))
            simp [choose, Ref.cls, tryTake, Ref.cell, h, h₂, Ref.datum, Ref.of, tempLeaf]
          · refine Or.inl ⟨Or.inr (Or.inl ⟨_, _, _, rfl, hk⟩), ω₂, ?_⟩
            simp [choose, Ref.cls, tryTake, Ref.cell, h, h₂]
      · rcases hk : shared k with _ | _ <;> rw [hk] at h
        · refine Or.inr (Or.inl ⟨by decide, k, a, b, ω', hk, rfl, rfl, ?_⟩)
          simp [choose, Ref.cls, tryTake, Ref.cell, h, Ref.datum, Ref.of, tempLeaf]
        · refine Or.inl ⟨Or.inr (Or.inl ⟨_, _, _, rfl, hk⟩), ω', ?_⟩
          simp [choose, Ref.cls, tryTake, Ref.cell, h]
      · rcases hr : shared kr with _ | _ <;> rw [hr] at h₁
        · refine Or.inr (Or.inr (Or.inl ⟨Or.inl rfl, kr, ar, br, ω₁, hr, rfl, rfl, ?_⟩))
          simp [choose, Ref.cls, tryTake, Ref.cell, h₁, Ref.datum, Ref.of, tempLeaf]
        · refine Or.inl ⟨Or.inr (Or.inr ⟨_, _, _, rfl, hr⟩), ω₁, ?_⟩
          simp [choose, Ref.cls, tryTake, Ref.cell, h₁]

theorem Ref.Hits.shared_pos {t : Ref K L} (h : t.Hits shared) : 1 ≤ t.sharedBranches shared := by
  induction t with
  | leaf => cases h
  | branch k l r ihl ihr =>
    simp only [Ref.sharedBranches]
    split
    · exact Nat.le_refl _
    · rename_i hk
      have := ihl (h.resolve_left hk)
      omega

theorem SharedBranch.parts {t : Ref K L} (h : SharedBranch shared t) :
    t.ownBranches shared = 0 ∧ t.sharedBranches shared = 1 ∧ t.lspine shared = 0 ∧ t.rspine shared = 0 ∧ t.Hits shared := by
  obtain ⟨k, a, b, rfl, hk⟩ := h
  simp [Ref.ownBranches, Ref.sharedBranches, Ref.lspine, Ref.rspine, Ref.Hits, hk]

theorem leaf_parts {t : Ref K L} (h : t.cls = .leaf) :
    t.ownBranches shared = 0 ∧ t.sharedBranches shared = 0 ∧ t.rspine shared = 0 ∧ ¬ t.Hits shared := by
  cases t with
  | branch => cases h
  | leaf => exact ⟨rfl, rfl, rfl, id⟩

theorem own_parts {k : K} (hk : shared k = false) (a b : Ref K L) :
    (Ref.branch k a b).ownBranches shared = a.ownBranches shared + b.ownBranches shared + 1 ∧
    (Ref.branch k a b).sharedBranches shared = a.sharedBranches shared + b.sharedBranches shared ∧
    (Ref.branch k a b).lspine shared = a.lspine shared + 1 ∧ (Ref.branch k a b).rspine shared = b.rspine shared + 1 ∧
    ((Ref.branch k a b).Hits shared ↔ a.Hits shared) ∧ ¬ SharedBranch shared (Ref.branch k a b) := by
  refine ⟨?_, ?_, ?_, ?_, ?_, ?_⟩
  any_goals simp [Ref.ownBranches, Ref.sharedBranches, Ref.lspine, Ref.rspine, Ref.Hits, hk]
  rintro ⟨_, _, _, h, h'⟩
  cases h
  rw [hk] at h'
  cases h'

theorem time_steady {O : Oracle Ω K} (hO : O.Steady shared) (n : Nat) :
    (∀ (t : Ref K L) ω e s d ω', drop O n t ω = .done e s d ω' →
      s ≤ 2 * t.ownBranches shared + 4 * (t.ownBranches shared * t.sharedBranches shared)) ∧
    (∀ lock (l r : Ref K L) ω e s d ω' o b, l.ownBranches shared + r.ownBranches shared = o →
      l.sharedBranches shared + r.sharedBranches shared = b → loop O n lock (.branch l r) ω = .done e s d ω' →
      (lock ≠ some .right → s + r.rspine shared ≤ 2 * o + 1 + 4 * (o * b)) ∧
      (l.Hits shared → s + l.lspine shared ≤ 1 + 4 * (o * b)) ∧
      (l.Hits shared → lock ≠ some .right → (lock = some .left ∨ ¬ SharedBranch shared l) → r.cls = .branch →
        s + 2 * o ≤ l.lspine shared + 1 + 4 * (o * b))) := by
  induction n with
  | zero =>
    exact ⟨fun t ω e s d ω' h => (by unfold drop at h; cases h),
      fun lock l r ω e s d ω' o b _ _ h => (by unfold loop at h; cases h)⟩
  | succ n ih =>
    obtain ⟨ihd, ihl⟩ := ih
    constructor
    · intro t ω e s d ω' h
      cases t with
      | leaf k x => rw [drop_leaf_steps rfl h]; exact Nat.zero_le _
      | branch k l r =>
        cases drop_branch (O := O) n k l r ω with
        | taken h1 h2 =>
          obtain ⟨p1, p2, _⟩ := own_parts (shared := shared) (by simpa using steady_take hO h1) l r
          rw [h2, Res.call_done] at h
          obtain ⟨d, h, rfl⟩ := h
          obtain ⟨_, _, _, _, _, _, _, h3, h4, rfl, rfl, rfl⟩ := Res.andThen_done.mp h
          cases h4
          have := (ihl _ _ _ _ _ _ _ _ _ _ rfl rfl h3).1 (by simp)
          rw [p1, p2, Nat.add_one_mul (_ + _) (_ + _)]
          omega
        | recursive h1 h1' h2 =>
          have := steady_take hO h1
          rw [steady_last hO h1'] at this
          cases this
        | given h1 h1' h2 => rw [h2] at h; cases h; exact Nat.zero_le _
    · intro lock l r ω e s d ω' o b ho hb h
      have hll := lspine_le (shared := shared) l
      have hrr := rspine_le (shared := shared) r
      rcases loop_steady hO n lock l r ω with ⟨hs, ω₁, h1⟩ | ⟨hl, k, a, c, ω₁, hk, rfl, hr, h1⟩ |
        ⟨hl, k, a, c, ω₁, hk, rfl, hr, h1⟩ | ⟨k, a, c, x, ω₁, hk, hx, hc, h1⟩
      · rw [h1, Res.step_done] at h
        obtain ⟨s', h, rfl⟩ := h
        obtain ⟨_, s1, _, _, s2, _, _, h2, h3, rfl, rfl, rfl⟩ := Res.andThen_done.mp h
        have hr := ihd _ _ _ _ _ _ h2
        have hl := ihd _ _ _ _ _ _ h3
        rcases hs with ⟨e1, e2⟩ | hs | hs
        · obtain ⟨q1, _, _, q2⟩ := leaf_parts (shared := shared) e1
          obtain ⟨q3, _, q4, _⟩ := leaf_parts (shared := shared) e2
          rw [q1] at hl
          rw [q3] at hr
          refine ⟨fun _ => ?_, fun h => absurd h q2, fun h => absurd h q2⟩
          omega
        · obtain ⟨q1, q2, q3, _, _⟩ := hs.parts
          rw [q1] at hl ho
          rw [q2] at hb
          obtain rfl : r.ownBranches shared = o := by omega
          obtain rfl := hb
          rw [Nat.mul_add]
          refine ⟨fun _ => ?_, fun _ => ?_, fun _ _ _ _ => ?_⟩ <;> omega
        · obtain ⟨q1, q2, _, q3, _⟩ := hs.parts
          rw [q1] at hr ho
          rw [q2] at hb
          obtain rfl : l.ownBranches shared = o := by omega
          obtain rfl := hb
          rw [Nat.mul_add]
          refine ⟨fun _ => ?_, fun _ => ?_, fun _ _ _ _ => ?_⟩ <;> omega
      · rw [h1, Res.step_done] at h
        obtain ⟨s', h, rfl⟩ := h
        obtain ⟨p1, p2, p3, _, p5, p6⟩ := own_parts hk a c
        obtain ⟨m1, m2, _, m4, _, _⟩ := own_parts hk c r
        obtain ⟨i1, i2, i3⟩ := ihl _ _ _ _ _ _ _ _ o b (by omega) (by omega) h
        refine ⟨fun _ => ?_, fun hh => ?_, fun hh _ _ _ => ?_⟩
        · have := i1 (by simp)
          omega
        · have := i3 (p5.mp hh) (by simp) (Or.inl rfl) rfl
          omega
        · have := i3 (p5.mp hh) (by simp) (Or.inl rfl) rfl
          omega
      · rw [h1, Res.step_done] at h
        obtain ⟨s', h, rfl⟩ := h
        obtain ⟨p1, p2, p3, _, p5, p6⟩ := own_parts hk l a
        obtain ⟨m1, m2, _, m4, _, _⟩ := own_parts hk a c
        obtain ⟨i1, i2, i3⟩ := ihl _ _ _ _ _ _ _ _ o b (by omega) (by omega) h
        refine ⟨fun hn => ?_, fun hh => ?_, fun hh h1 h2 _ => ?_⟩
        · obtain ⟨rfl, hs⟩ := hl.resolve_left hn
          have := i2 (p5.mpr hs.parts.2.2.2.2)
          omega
        · have := i2 (p5.mpr hh)
          omega
        · obtain ⟨rfl, hs⟩ := hl.resolve_left h1
          rcases h2 with h2 | h2
          · cases h2
          · exact absurd hs h2
      · rw [h1, Res.step_done] at h
        obtain ⟨s', h, rfl⟩ := h
        obtain ⟨_, _, _, _, _, _, _, h4, h5, rfl, rfl, rfl⟩ := Res.andThen_done.mp h
        obtain ⟨_, _, _, _, _, _, _, h6, h7, rfl, rfl, rfl⟩ := Res.andThen_done.mp h4
        have e1 := drop_leaf_steps hc h6
        have e2 := drop_leaf_steps rfl h7
        obtain ⟨p1, p2, p3, p4, p5, p6⟩ := own_parts hk a c
        obtain ⟨q1, q2, q3, q4⟩ := leaf_parts (shared := shared) hc
        obtain ⟨i1, i2, i3⟩ := ihl _ _ _ _ _ _ _ _ _ _ rfl rfl h5
        have i1 := i1 (by simp)
        have ho' : o = a.ownBranches shared + c.ownBranches shared + 1 := by
          rcases hx with ⟨rfl, rfl⟩ | ⟨rfl, rfl⟩ <;> omega
        have hb' : b = a.sharedBranches shared + c.sharedBranches shared := by
          rcases hx with ⟨rfl, rfl⟩ | ⟨rfl, rfl⟩ <;> omega
        rw [ho', hb', Nat.add_one_mul (_ + _) (_ + _)]
        refine ⟨fun _ => ?_, fun hh => ?_, fun hh _ _ hr => ?_⟩
        · rcases hx with ⟨rfl, rfl⟩ | ⟨rfl, rfl⟩ <;> omega
        · rcases hx with ⟨rfl, rfl⟩ | ⟨rfl, rfl⟩
          · have := i2 (p5.mp hh)
            have := (p5.mp hh).shared_pos
            omega
          · exact absurd hh q4
        · rcases hx with ⟨rfl, rfl⟩ | ⟨rfl, rfl⟩
          · rw [hc] at hr; cases hr
          · exact absurd hh q4

/-- C83. While others hold on to what is shared, dropping a tree of any shape takes at most `2 n (2 m + 1)` iterations for
`n` branch datums that are not shared (and not inside of shared ones) and `m` references to shared branch datums. So the
time is linear for a bounded number of shared branch datums, and how much is inside of shared datums does not matter. -/
theorem C83_time_with_sharing (O : Oracle Ω K) (shared : K → Bool) (hO : O.Steady shared) (t : Ref K L) (ω : Ω)
    {evs steps depth} (h : Drops O t ω evs steps depth) :
    steps ≤ 2 * t.ownBranches shared * (2 * t.sharedBranches shared + 1) := by
  obtain ⟨ω', n, h⟩ := h
  have := (time_steady hO n).1 _ _ _ _ _ _ (h n (Nat.le_refl _))
  rw [Nat.mul_add, Nat.mul_one]
  rw [show 4 * (t.ownBranches shared * t.sharedBranches shared) =
    2 * t.ownBranches shared * (2 * t.sharedBranches shared) by rw [Nat.mul_mul_mul_comm]] at this
  omega

/-- C83: six branch datums of which cells 2 and 7 are shared; six iterations. -/
example : exTree.ownBranches (fun k => k == 2 || k == 7) = 4 ∧ exTree.sharedBranches (fun k => k == 2 || k == 7) = 2 ∧
    Drops (.steady fun k => k == 2 || k == 7) exTree () (exEvs (.steady fun k => k == 2 || k == 7) ()) 6 3 :=
  ⟨by decide +kernel, by decide +kernel, .of_fuel (ω' := ()) 100 (by decide +kernel)⟩

end Kul.Drop
