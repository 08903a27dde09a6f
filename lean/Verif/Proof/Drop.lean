import Verif.Model.Drop
import Mathlib.Tactic.Ring
import Mathlib.Tactic.Linarith

/-! # Facts about dropping -/

namespace Kul.Drop

variable {K L Ω : Type} {O : Oracle Ω K}

/-- The number of branch cells. -/
def Ref.size : Ref K L → Nat
  | .leaf .. => 0
  | .branch _ l r => l.size + r.size + 1

theorem Ref.size_leaf {t : Ref K L} (h : t.cls = .leaf) : t.size = 0 := by
  cases t with
  | leaf => rfl
  | branch => cases h

theorem tryTake_of {n : Ref K L} {k : K} {ω ω' : Ω} {b : Bool} (hk : n.cell = k)
    (h : O.take ω k = (b, ω')) :
    tryTake O n ω = (if b then some (n.datum, .of k tempLeaf) else none, ω') := by
  unfold tryTake
  rw [hk, h]
  cases b <;> rfl

/-- What the choice of a side can be. -/
inductive Chosen (O : Oracle Ω K) (lock : Option Side) (l r : Ref K L) : Choice K L × Ω → Prop where
  | leaves {ω} : l.cls = .leaf → r.cls = .leaf → Chosen O lock l r (.abort l r, ω)
  | failLeft {k a b ω ω' ω''} : l = .branch k a b → O.take ω k = (false, ω') →
      Chosen O lock l r (.abort l r, ω'')
  | failRight {k a b ω ω' ω''} : r = .branch k a b → O.take ω k = (false, ω') →
      Chosen O lock l r (.abort l r, ω'')
  | left {k a b ω ω'} : l = .branch k a b → O.take ω k = (true, ω') →
      (r.cls = .branch → lock ≠ some .right) →
      Chosen O lock l r (.side .left (.branch a b) (.leaf k none) r.cls r, ω')
  | right {k a b ω ω'} : r = .branch k a b → O.take ω k = (true, ω') →
      (l.cls = .branch → lock ≠ some .left) →
      Chosen O lock l r (.side .right (.branch a b) (.leaf k none) l.cls l, ω')

theorem choose_chosen (lock : Option Side) (l r : Ref K L) (ω : Ω) :
    Chosen O lock l r (choose O lock l r ω) := by
  have hl : ∀ k a b, l = .branch k a b → ∀ ω, (lock ≠ some .right ∨ r.cls = .leaf) →
      Chosen O lock l r (match (match tryTake O l ω with
        | (some (d, l'), ω) => (some (Choice.side .left d l' r.cls r), ω)
        | (none, ω) => (none, ω)) with
      | (some c, ω) => (c, ω)
      | (none, ω) => (.abort l r, ω)) := by
    intro k a b h ω hc
    subst h
    rcases h : O.take ω k with ⟨_ | _, ω'⟩ <;> rw [tryTake_of rfl h]
    · exact .failLeft rfl h
    · exact .left rfl h (fun h => hc.resolve_right (by rw [h]; simp))
  have hr : ∀ k a b, r = .branch k a b → ∀ ω, (lock ≠ some .left ∨ l.cls = .leaf) →
      Chosen O lock l r (match (match tryTake O r ω with
        | (some (d, r'), ω) => (some (Choice.side .right d r' l.cls l), ω)
        | (none, ω) => (none, ω)) with
      | (some c, ω) => (c, ω)
      | (none, ω) => (.abort l r, ω)) := by
    intro k a b h ω hc
    subst h
    rcases h : O.take ω k with ⟨_ | _, ω'⟩ <;> rw [tryTake_of rfl h]
    · exact .failRight rfl h
    · exact .right rfl h (fun h => hc.resolve_right (by rw [h]; simp))
  unfold choose
  cases l with
  | leaf kl x =>
    cases r with
    | leaf kr y => cases lock <;> exact .leaves rfl rfl
    | branch kr c d =>
      simp only [Ref.cls]
      rcases lock with _ | _ | _ <;> exact hr _ _ _ rfl ω (Or.inr rfl)
  | branch kl a b =>
    cases r with
    | leaf kr y =>
      simp only [Ref.cls]
      rcases lock with _ | _ | _ <;> exact hl _ _ _ rfl ω (Or.inr rfl)
    | branch kr c d =>
      simp only [Ref.cls]
      rcases lock with _ | _ | _
      · simp only
        have h1 := hr _ _ _ rfl
        rcases h : O.take ω kl with ⟨_ | _, ω'⟩ <;> rw [tryTake_of (n := .branch kl a b) rfl h]
        · simp only [Bool.false_eq_true, if_false]
          exact h1 ω' (by simp)
        · exact .left rfl h (by simp)
      · exact hl _ _ _ rfl ω (by simp)
      · exact hr _ _ _ rfl ω (by simp)

/-- The loop of `algo1` at a branch. -/
theorem loop_succ (n : Nat) (lock : Option Side) (l r : Ref K L) (ω : Ω) :
    loop O (n + 1) lock (.branch l r) ω = Res.step (match choose O lock l r ω with
      | (.abort l r, ω) => (drop O n r ω).andThen (drop O n l)
      | (.side mode selected reuse otherClass other, ω) =>
        match selected, otherClass with
        | .branch selL selR, .branch =>
          match mode with
          | .left => loop O n (some (lock.getD .left))
              (.branch selL (.branch reuse.cell selR other)) ω
          | .right => loop O n (some (lock.getD .right))
              (.branch (.branch reuse.cell other selL) selR) ω
        | selected, .leaf =>
          ((drop O n other ω).andThen (drop O n reuse)).andThen (loop O n none selected)
        | _, _ => .panic) := by
  conv_lhs => unfold loop
  simp only
  rcases choose O lock l r ω with ⟨⟨m, s, re, oc, ot⟩ | ⟨l', r'⟩, ω'⟩
  · cases s <;> cases oc <;> cases m <;> rfl
  · rfl

/-- The four things an iteration can do. -/
inductive Iter (O : Oracle Ω K) (n : Nat) (lock : Option Side) (l r : Ref K L) (res : Res K L Ω) : Prop where
  /-- The loop ends, because both sides are leaves or a datum could not be taken out. -/
  | abort {ω} : res = .step ((drop O n r ω).andThen (drop O n l)) →
      ((l.cls = .leaf ∧ r.cls = .leaf) ∨
        ∃ k a b ω ω', (l = .branch k a b ∨ r = .branch k a b) ∧ O.take ω k = (false, ω')) → Iter O n lock l r res
  /-- Restructuring at the left side. -/
  | left {k a b ω ω'} : l = .branch k a b → O.take ω k = (true, ω') → r.cls = .branch → lock ≠ some .right →
      res = .step (loop O n (some .left) (.branch a (.branch k b r)) ω') → Iter O n lock l r res
  /-- Restructuring at the right side. -/
  | right {k a b ω ω'} : r = .branch k a b → O.take ω k = (true, ω') → l.cls = .branch → lock ≠ some .left →
      res = .step (loop O n (some .right) (.branch (.branch k l a) b) ω') → Iter O n lock l r res
  /-- One side is a leaf: the loop goes on with the datum of the other. -/
  | down {k a b x ω ω'} : (l = .branch k a b ∧ r = x ∨ r = .branch k a b ∧ l = x) → x.cls = .leaf →
      O.take ω k = (true, ω') →
      res = .step (((drop O n x ω').andThen (drop O n (.leaf k none))).andThen
        (loop O n none (.branch a b))) → Iter O n lock l r res

theorem loop_iter (n : Nat) (lock : Option Side) (l r : Ref K L) (ω : Ω) :
    Iter O n lock l r (loop O (n + 1) lock (.branch l r) ω) := by
  rw [loop_succ]
  have h := choose_chosen (O := O) lock l r ω
  rcases hc : choose O lock l r ω with ⟨c, ω'⟩
  rw [hc] at h
  cases h with
  | leaves h1 h2 => exact .abort rfl (Or.inl ⟨h1, h2⟩)
  | failLeft h1 h2 => exact .abort rfl (Or.inr ⟨_, _, _, _, _, Or.inl h1, h2⟩)
  | failRight h1 h2 => exact .abort rfl (Or.inr ⟨_, _, _, _, _, Or.inr h1, h2⟩)
  | @left k a b ω₁ _ h1 h2 h3 =>
    rcases hr : r.cls with _ | _
    · refine .left h1 h2 hr (h3 hr) ?_
      have : lock.getD .left = .left := by
        rcases lock with _ | _ | _
        · rfl
        · rfl
        · exact absurd rfl (h3 hr)
      simp only [this, Ref.cell]
    · exact .down (Or.inl ⟨h1, rfl⟩) hr h2 rfl
  | @right k a b ω₁ _ h1 h2 h3 =>
    rcases hl : l.cls with _ | _
    · refine .right h1 h2 hl (h3 hl) ?_
      have : lock.getD .right = .right := by
        rcases lock with _ | _ | _
        · rfl
        · exact absurd rfl (h3 hl)
        · rfl
      simp only [this, Ref.cell]
    · exact .down (Or.inr ⟨h1, rfl⟩) hl h2 rfl

theorem drop_leaf (n : Nat) (k : K) (x : Option L) (ω : Ω) :
    drop O (n + 1) (.leaf k x) ω = .done
      (if (O.last ω k).1 then [.leaf x, .free k] else [.giveUp (.leaf k x)]) 0 1 (O.last ω k).2 := by
  unfold drop
  simp only
  rcases O.last ω k with ⟨_ | _, ω'⟩ <;> rfl

/-- The three things dropping a branch can do. -/
inductive DropBranch (O : Oracle Ω K) (n : Nat) (k : K) (l r : Ref K L) (res : Res K L Ω) : Prop where
  | taken {ω ω'} : O.take ω k = (true, ω') →
      res = .call ((loop O n none (.branch l r) ω').andThen fun ω => .ev [.leaf none, .free k] ω) →
      DropBranch O n k l r res
  | recursive {ω ω' ω'''} : O.take ω k = (false, ω') → O.last ω' k = (true, ω''') →
      res = .call (((drop O n l ω''').andThen (drop O n r)).andThen fun ω => .ev [.free k] ω) →
      DropBranch O n k l r res
  | given {ω ω' ω'''} : O.take ω k = (false, ω') → O.last ω' k = (false, ω''') →
      res = .done [.giveUp (.branch k l r)] 0 1 ω''' → DropBranch O n k l r res

theorem drop_branch (n : Nat) (k : K) (l r : Ref K L) (ω : Ω) :
    DropBranch O n k l r (drop O (n + 1) (.branch k l r) ω) := by
  unfold drop
  simp only
  rcases h : O.take ω k with ⟨_ | _, ω'⟩ <;> rw [tryTake_of (n := .branch k l r) rfl h]
  · simp only [Bool.false_eq_true, if_false]
    rcases h2 : O.last ω' k with ⟨_ | _, ω''⟩
    · exact .given h h2 rfl
    · exact .recursive h h2 rfl
  · exact .taken h rfl

/-! ## Termination -/

/-- The size of the side the loop is locked to. -/
def lockSize (lock : Option Side) (l r : Ref K L) : Nat :=
  match lock with
  | none => l.size + r.size + 1
  | some .left => l.size
  | some .right => r.size

/-- The number of iterations the loop may need. -/
def loopSteps (lock : Option Side) (l r : Ref K L) : Nat :=
  (l.size + r.size) * (l.size + r.size + 3) + lockSize lock l r + 1

def dropSteps (t : Ref K L) : Nat := t.size * t.size + 2 * t.size

/-- A result within bounds. -/
def Res.Within (b : Nat) (r : Res K L Ω) : Prop := ∃ evs s d ω, r = .done evs s d ω ∧ s ≤ b

theorem Res.Within.andThen {a b : Nat} {x : Res K L Ω} {f : Ω → Res K L Ω} (hx : x.Within a)
    (hf : ∀ ω, (f ω).Within b) : (x.andThen f).Within (a + b) := by
  obtain ⟨e, s, d, ω, rfl, hs⟩ := hx
  obtain ⟨e', s', d', ω', h, hs'⟩ := hf ω
  exact ⟨e ++ e', s + s', max d d', ω', by simp [Res.andThen, h], by omega⟩

theorem Res.Within.step {a : Nat} {x : Res K L Ω} (hx : x.Within a) : (x.step).Within (a + 1) := by
  obtain ⟨e, s, d, ω, rfl, hs⟩ := hx
  exact ⟨e, s + 1, d, ω, rfl, by omega⟩

theorem Res.Within.call {a : Nat} {x : Res K L Ω} (hx : x.Within a) : (x.call).Within a := by
  obtain ⟨e, s, d, ω, rfl, hs⟩ := hx
  exact ⟨e, s, d + 1, ω, rfl, by omega⟩

theorem Res.Within.mono {a b : Nat} {x : Res K L Ω} (hx : x.Within a) (h : a ≤ b) : x.Within b := by
  obtain ⟨e, s, d, ω, rfl, hs⟩ := hx
  exact ⟨e, s, d, ω, rfl, by omega⟩

theorem Res.within_ev (e : List (Ev K L)) (ω : Ω) : (Res.ev e ω).Within 0 :=
  ⟨e, 0, 0, ω, rfl, Nat.le_refl _⟩

theorem within (O : Oracle Ω K) (n : Nat) :
    (∀ (t : Ref K L) ω, (t.size + 1) * (t.size + 1) ≤ n → (drop O n t ω).Within (dropSteps t)) ∧
    (∀ (lock : Option Side) (l r : Ref K L) ω, loopSteps lock l r + 1 ≤ n →
      (loop O n lock (.branch l r) ω).Within (loopSteps lock l r)) := by
  induction n with
  | zero => exact ⟨fun t ω h => by simp at h, fun lock l r ω h => by omega⟩
  | succ n ih =>
    obtain ⟨ihd, ihl⟩ := ih
    constructor
    · intro t ω hn
      cases t with
      | leaf k x => rw [drop_leaf]; exact ⟨_, _, _, _, rfl, Nat.zero_le _⟩
      | branch k l r =>
        have hsz : (Ref.branch k l r).size = l.size + r.size + 1 := rfl
        rw [hsz] at hn
        generalize hl : l.size = a at hn
        generalize hr : r.size = b at hn
        cases drop_branch (O := O) n k l r ω with
        | taken h1 h =>
          rw [h]
          refine ((Res.Within.andThen (ihl _ _ _ _ ?_) fun _ => Res.within_ev _ _).call).mono ?_
          · simp only [loopSteps, lockSize, hl, hr]
            ring_nf at hn ⊢
            omega
          · simp only [loopSteps, lockSize, dropSteps, hl, hr, hsz]
            ring_nf
            omega
        | recursive h1 h2 h =>
          rw [h]
          refine (((Res.Within.andThen (ihd _ _ ?_) fun _ => ihd _ _ ?_).andThen fun _ =>
            Res.within_ev _ _).call).mono ?_
          · rw [hl]; ring_nf at hn ⊢; nlinarith
          · rw [hr]; ring_nf at hn ⊢; nlinarith
          · simp only [dropSteps, hl, hr, hsz]
            ring_nf
            nlinarith
        | given h1 h2 h => rw [h]; exact ⟨_, _, _, _, rfl, Nat.zero_le _⟩
    · intro lock l r ω hn
      cases loop_iter (O := O) n lock l r ω with
      | abort h _ =>
        rw [h]
        refine ((Res.Within.andThen (ihd _ _ ?_) fun _ => ihd _ _ ?_).step).mono ?_ <;>
          simp only [loopSteps, dropSteps] at hn ⊢ <;> nlinarith
      | @left k a b _ _ h1 h2 h3 h4 h =>
        subst h1
        rw [h]
        have hs : loopSteps (some .left) a (.branch k b r) + 1 ≤ loopSteps lock (.branch k a b) r := by
          have : a.size + 1 ≤ lockSize lock (.branch k a b) r := by
            rcases lock with _ | _ | _ <;> simp only [lockSize, Ref.size] <;> first | omega | exact absurd rfl h4
          have e : a.size + (Ref.branch k b r).size = (Ref.branch k a b).size + r.size := by
            simp only [Ref.size]; omega
          simp only [loopSteps, e]
          simp only [lockSize] at this ⊢
          omega
        exact ((ihl _ _ _ _ (by omega)).step).mono hs
      | @right k a b _ _ h1 h2 h3 h4 h =>
        subst h1
        rw [h]
        have hs : loopSteps (some .right) (.branch k l a) b + 1 ≤ loopSteps lock l (.branch k a b) := by
          have : b.size + 1 ≤ lockSize lock l (.branch k a b) := by
            rcases lock with _ | _ | _ <;> simp only [lockSize, Ref.size] <;> first | omega | exact absurd rfl h4
          have e : (Ref.branch k l a).size + b.size = l.size + (Ref.branch k a b).size := by
            simp only [Ref.size]; omega
          simp only [loopSteps, e]
          simp only [lockSize] at this ⊢
          omega
        exact ((ihl _ _ _ _ (by omega)).step).mono hs
      | @down k a b x _ ω' h1 h2 h3 h =>
        rw [h]
        have hx := Ref.size_leaf h2
        have e : l.size + r.size = a.size + b.size + 1 := by
          rcases h1 with ⟨rfl, rfl⟩ | ⟨rfl, rfl⟩ <;> simp only [Ref.size, hx]; omega
        have hs : loopSteps none a b + 1 ≤ loopSteps lock l r := by
          simp only [loopSteps, e, lockSize]
          generalize a.size + b.size = m
          have : (m + 1) * (m + 1 + 3) = m * (m + 3) + 2 * m + 4 := by ring
          omega
        have h1' : 1 ≤ n := by omega
        have := (((ihd x ω' (by rw [hx]; omega)).andThen fun ω => ihd (.leaf k none) ω
          (by simp only [Ref.size]; omega)).andThen fun ω => ihl none a b ω (by omega)).step (Ω := Ω)
        refine this.mono ?_
        have hd : dropSteps x = 0 := by simp [dropSteps, hx]
        have hd' : dropSteps (.leaf k none : Ref K L) = 0 := rfl
        omega

/-! ## More fuel changes nothing -/

theorem Res.andThen_done {x : Res K L Ω} {f : Ω → Res K L Ω} {e s d ω'} :
    x.andThen f = .done e s d ω' ↔ ∃ e₁ s₁ d₁ ω₁ e₂ s₂ d₂, x = .done e₁ s₁ d₁ ω₁ ∧
      f ω₁ = .done e₂ s₂ d₂ ω' ∧ e = e₁ ++ e₂ ∧ s = s₁ + s₂ ∧ d = max d₁ d₂ := by
  constructor
  · intro h
    cases x with
    | done e₁ s₁ d₁ ω₁ =>
      simp only [Res.andThen] at h
      cases hf : f ω₁ with
      | done e₂ s₂ d₂ ω₂ =>
        rw [hf] at h
        cases h
        exact ⟨_, _, _, _, _, _, _, rfl, hf, rfl, rfl, rfl⟩
      | panic => rw [hf] at h; cases h
      | fuel => rw [hf] at h; cases h
    | panic => cases h
    | fuel => cases h
  · rintro ⟨e₁, s₁, d₁, ω₁, e₂, s₂, d₂, rfl, h, rfl, rfl, rfl⟩
    simp [Res.andThen, h]

theorem Res.call_done {x : Res K L Ω} {e s d ω} :
    x.call = .done e s d ω ↔ ∃ d', x = .done e s d' ω ∧ d = d' + 1 := by
  constructor
  · intro h
    cases x with
    | done => cases h; exact ⟨_, rfl, rfl⟩
    | panic => cases h
    | fuel => cases h
  · rintro ⟨d', rfl, rfl⟩; rfl

theorem Res.step_done {x : Res K L Ω} {e s d ω} :
    x.step = .done e s d ω ↔ ∃ s', x = .done e s' d ω ∧ s = s' + 1 := by
  constructor
  · intro h
    cases x with
    | done => cases h; exact ⟨_, rfl, rfl⟩
    | panic => cases h
    | fuel => cases h
  · rintro ⟨d', rfl, rfl⟩; rfl

/-- `y` is what `x` is, unless `x` ran out of fuel. -/
def Res.Le (x y : Res K L Ω) : Prop := x = .fuel ∨ x = y

theorem Res.Le.refl (x : Res K L Ω) : x.Le x := Or.inr rfl

theorem Res.Le.andThen {x y : Res K L Ω} {f g : Ω → Res K L Ω} (h : x.Le y) (hf : ∀ ω, (f ω).Le (g ω)) :
    (x.andThen f).Le (y.andThen g) := by
  rcases h with rfl | rfl
  · exact Or.inl rfl
  · cases x with
    | done e s d ω =>
      rcases hf ω with h | h
      · exact Or.inl (by simp [Res.andThen, h])
      · exact Or.inr (by simp [Res.andThen, h])
    | panic => exact Or.inr rfl
    | fuel => exact Or.inl rfl

theorem Res.Le.call {x y : Res K L Ω} (h : x.Le y) : x.call.Le y.call := by
  rcases h with rfl | rfl
  · exact Or.inl rfl
  · exact Or.inr rfl

theorem Res.Le.step {x y : Res K L Ω} (h : x.Le y) : x.step.Le y.step := by
  rcases h with rfl | rfl
  · exact Or.inl rfl
  · exact Or.inr rfl

theorem le_succ (O : Oracle Ω K) (n : Nat) :
    (∀ (t : Ref K L) ω, (drop O n t ω).Le (drop O (n + 1) t ω)) ∧
    (∀ lock (t : Dat K L) ω, (loop O n lock t ω).Le (loop O (n + 1) lock t ω)) := by
  induction n with
  | zero => exact ⟨fun _ _ => Or.inl (by unfold drop; rfl), fun _ _ _ => Or.inl (by unfold loop; rfl)⟩
  | succ n ih =>
    obtain ⟨ihd, ihl⟩ := ih
    constructor
    · intro t ω
      conv => arg 2; unfold drop
      unfold drop
      refine Res.Le.call ?_
      cases t with
      | leaf k x => exact .refl _
      | branch k l r =>
        simp only
        rcases tryTake O (.branch k l r) ω with ⟨_ | ⟨top, _⟩, ω'⟩
        · simp only
          rcases O.last ω' k with ⟨_ | _, ω''⟩
          · exact .refl _
          · exact .andThen (.andThen (ihd _ _) (fun _ => ihd _ _)) fun _ => .refl _
        · exact .andThen (ihl _ _ _) fun _ => .refl _
    · intro lock t ω
      cases t with
      | leaf x =>
        conv => arg 2; unfold loop
        unfold loop
        exact .refl _
      | branch l r =>
        rw [loop_succ, loop_succ]
        refine Res.Le.step ?_
        rcases choose O lock l r ω with ⟨⟨m, s, re, oc, ot⟩ | ⟨l', r'⟩, ω'⟩
        · cases s <;> cases oc <;> cases m <;>
            first
            | exact .refl _
            | exact ihl _ _ _
            | exact .andThen (.andThen (ihd _ _) fun _ => ihd _ _) fun _ => ihl _ _ _
        · exact .andThen (ihd _ _) fun _ => ihd _ _

theorem drop_mono {n m : Nat} (h : n ≤ m) {t : Ref K L} {ω e s d ω'} (hd : drop O n t ω = .done e s d ω') :
    drop O m t ω = .done e s d ω' := by
  induction h with
  | refl => exact hd
  | step _ ih =>
    rcases (le_succ (L := L) O _).1 t ω with h | h
    · rw [h] at ih; cases ih
    · rw [← h]; exact ih

/-! ## Induction over what is done -/

theorem drop_ind (O : Oracle Ω K) {PD : Ref K L → List (Ev K L) → Nat → Prop}
    {PL : Ref K L → Ref K L → List (Ev K L) → Nat → Prop}
    (leafFree : ∀ k x ω ω', O.last ω k = (true, ω') → PD (.leaf k x) [.leaf x, .free k] 1)
    (leafGive : ∀ k x ω ω', O.last ω k = (false, ω') → PD (.leaf k x) [.giveUp (.leaf k x)] 1)
    (taken : ∀ k l r e d ω ω', O.take ω k = (true, ω') → PL l r e d →
      PD (.branch k l r) (e ++ [.leaf none, .free k]) (d + 1))
    (recursive : ∀ k l r e d e' d' ω ω' ω'', O.take ω k = (false, ω') → O.last ω' k = (true, ω'') →
      PD l e d → PD r e' d' → PD (.branch k l r) (e ++ e' ++ [.free k]) (max d d' + 1))
    (given : ∀ k l r ω ω' ω'', O.take ω k = (false, ω') → O.last ω' k = (false, ω'') →
      PD (.branch k l r) [.giveUp (.branch k l r)] 1)
    (abort : ∀ l r e d e' d', ((l.cls = .leaf ∧ r.cls = .leaf) ∨
        ∃ k a b ω ω', (l = .branch k a b ∨ r = .branch k a b) ∧ O.take ω k = (false, ω')) →
      PD r e d → PD l e' d' → PL l r (e ++ e') (max d d'))
    (left : ∀ k a b r e d ω ω', O.take ω k = (true, ω') → r.cls = .branch →
      PL a (.branch k b r) e d → PL (.branch k a b) r e d)
    (right : ∀ k l a b e d ω ω', O.take ω k = (true, ω') → l.cls = .branch →
      PL (.branch k l a) b e d → PL l (.branch k a b) e d)
    (down : ∀ k a b x l r e d e' d' e'' d'' ω ω', O.take ω k = (true, ω') → x.cls = .leaf →
      (l = .branch k a b ∧ r = x ∨ r = .branch k a b ∧ l = x) →
      PD x e d → PD (.leaf k none) e' d' → PL a b e'' d'' →
      PL l r (e ++ e' ++ e'') (max (max d d') d'')) (n : Nat) :
    (∀ t ω e s d ω', drop O n t ω = .done e s d ω' → PD t e d) ∧
    (∀ lock l r ω e s d ω', loop O n lock (.branch l r) ω = .done e s d ω' → PL l r e d) := by
  induction n with
  | zero =>
    exact ⟨fun t ω e s d ω' h => (by unfold drop at h; cases h),
      fun lock l r ω e s d ω' h => (by unfold loop at h; cases h)⟩
  | succ n ih =>
    obtain ⟨ihd, ihl⟩ := ih
    constructor
    · intro t ω e s d ω' h
      cases t with
      | leaf k x =>
        rw [drop_leaf] at h
        rcases hk : O.last ω k with ⟨_ | _, ω₁⟩
        · rw [hk] at h; cases h; exact leafGive _ _ _ _ hk
        · rw [hk] at h; cases h; exact leafFree _ _ _ _ hk
      | branch k l r =>
        cases drop_branch (O := O) n k l r ω with
        | taken h1 h2 =>
          rw [h2, Res.call_done] at h
          obtain ⟨d, h, rfl⟩ := h
          obtain ⟨_, _, _, _, _, _, _, h3, h4, rfl, rfl, rfl⟩ := Res.andThen_done.mp h
          cases h4
          rw [Nat.max_zero]
          exact taken _ _ _ _ _ _ _ h1 (ihl _ _ _ _ _ _ _ _ h3)
        | recursive h1 h1' h2 =>
          rw [h2, Res.call_done] at h
          obtain ⟨d, h, rfl⟩ := h
          obtain ⟨_, _, _, _, _, _, _, h3, h4, rfl, rfl, rfl⟩ := Res.andThen_done.mp h
          cases h4
          rw [Nat.max_zero]
          obtain ⟨_, _, _, _, _, _, _, h4, h5, rfl, rfl, rfl⟩ := Res.andThen_done.mp h3
          exact recursive _ _ _ _ _ _ _ _ _ _ h1 h1' (ihd _ _ _ _ _ _ h4) (ihd _ _ _ _ _ _ h5)
        | given h1 h1' h2 =>
          rw [h2] at h
          cases h
          exact given _ _ _ _ _ _ h1 h1'
    · intro lock l r ω e s d ω' h
      cases loop_iter (O := O) n lock l r ω with
      | abort h1 h2 =>
        rw [h1, Res.step_done] at h
        obtain ⟨s, h, rfl⟩ := h
        obtain ⟨_, _, _, _, _, _, _, h4, h5, rfl, rfl, rfl⟩ := Res.andThen_done.mp h
        exact abort _ _ _ _ _ _ h2 (ihd _ _ _ _ _ _ h4) (ihd _ _ _ _ _ _ h5)
      | left h1 h2 h3 h4 h5 =>
        rw [h5, Res.step_done] at h
        obtain ⟨s, h, rfl⟩ := h
        subst h1
        exact left _ _ _ _ _ _ _ _ h2 h3 (ihl _ _ _ _ _ _ _ _ h)
      | right h1 h2 h3 h4 h5 =>
        rw [h5, Res.step_done] at h
        obtain ⟨s, h, rfl⟩ := h
        subst h1
        exact right _ _ _ _ _ _ _ _ h2 h3 (ihl _ _ _ _ _ _ _ _ h)
      | down h1 h2 h3 h4 =>
        rw [h4, Res.step_done] at h
        obtain ⟨s, h, rfl⟩ := h
        obtain ⟨_, _, _, _, _, _, _, h5, h6, rfl, rfl, rfl⟩ := Res.andThen_done.mp h
        obtain ⟨_, _, _, _, _, _, _, h7, h8, rfl, rfl, rfl⟩ := Res.andThen_done.mp h5
        exact down _ _ _ _ _ _ _ _ _ _ _ _ _ _ h3 h2 h1 (ihd _ _ _ _ _ _ h7) (ihd _ _ _ _ _ _ h8)
          (ihl _ _ _ _ _ _ _ _ h6)

end Kul.Drop
