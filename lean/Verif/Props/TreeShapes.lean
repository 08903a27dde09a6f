import Verif.Proof.TreeShapes

/-!
# How long dropping takes exactly, and the trees that it is tested with (C92)
-/

namespace Kul.Drop

variable {K L Ω : Type}

/-- C92. A tree of which nothing is shared is dropped in one iteration for each branch datum, and as many more as
`Ref.extraTurns` says: exactly. -/
theorem C92_exact (O : Oracle Ω K) (hO : O.Steady fun _ => false) (t : Ref K L) (ω : Ω) {evs steps depth}
    (h : Drops O t ω evs steps depth) : steps = t.branches + t.extraTurns := by
  obtain ⟨ω', n, h⟩ := h
  exact (steps_exact hO n).1 _ _ _ _ _ _ (h n (Nat.le_refl _))

/-- C92. It never takes fewer iterations than there are branch datums, and no more than that exactly if the tree has no fork. -/
theorem C92_least (O : Oracle Ω K) (hO : O.Steady fun _ => false) (t : Ref K L) (ω : Ω) {evs steps depth}
    (h : Drops O t ω evs steps depth) : t.branches ≤ steps ∧ (steps = t.branches ↔ t.Thread) := by
  rw [C92_exact O hO t ω h, ← extraTurns_zero]
  omega

/-- C92. With `n ≥ 2` branch datums it takes at most `2 n - 2` iterations; and, with more than two, as many exactly if the right
reference of the top datum is to a branch datum with two leaves. -/
theorem C92_most (O : Oracle Ω K) (hO : O.Steady fun _ => false) (t : Ref K L) (ω : Ω) {evs steps depth}
    (h : Drops O t ω evs steps depth) (h2 : 2 ≤ t.branches) :
    steps ≤ 2 * t.branches - 2 ∧
    (2 < t.branches → (steps = 2 * t.branches - 2 ↔
      ∃ k l k' k₁ x₁ k₂ x₂, t = .branch k l (.branch k' (.leaf k₁ x₁) (.leaf k₂ x₂)))) := by
  rw [C92_exact O hO t ω h]
  have hle := extraTurns_le t
  refine ⟨by omega, fun h3 => ⟨fun he => ?_, ?_⟩⟩
  · cases t with
    | leaf => simp [Ref.branches] at h2
    | branch k l r =>
      have hl := extraTurns_le l
      have hr := extraTurns_le r
      rw [extraTurns_branch, extra] at he
      simp only [Ref.branches] at he h2 h3
      split at he
      · omega
      · cases r with
        | leaf => simp [Ref.branches] at *
        | branch k' a b =>
          simp only [Ref.branches] at *
          cases a with
          | branch => simp only [Ref.branches] at *; omega
          | leaf =>
            cases b with
            | branch => simp only [Ref.branches] at *; omega
            | leaf => exact ⟨_, _, _, _, _, _, _, rfl⟩
  · rintro ⟨k, l, k', k₁, x₁, k₂, x₂, rfl⟩
    simp only [Ref.branches, Ref.extraTurns]
    omega

end Kul.Drop

namespace Kul.Shapes

open Drop

variable {Ω : Type}

/-- C92. The lists, nests and zig-zags of the tests of `src/drop.rs`, for each size asked for: they have as many datums or one
fewer, and are dropped in as few iterations as possible for their number of branch datums ("have the optimal shapes for our drop
algorithm and are the fastest at being dropped"). -/
theorem C92_fastest (size : Nat) (h : 0 < size) (t : Ref Unit (Dat Empty))
    (ht : (listLen size).bind (makeBasicList fresh) = some t ∨ (nestDepth size).bind (makeBasicNest fresh) = some t ∨
      (zigzagDepth size).map (makeBasicZigzag fresh) = some t)
    (O : Oracle Ω Unit) (hO : O.Steady fun _ => false) (ω : Ω) {evs steps depth} (hd : Drops O t ω evs steps depth) :
    t.Thread ∧ t.cells.length ≤ size ∧ size ≤ t.cells.length + 1 ∧ steps = t.branches ∧ steps = (size - 1) / 2 := by
  have hs : size ≠ 0 := by omega
  obtain ⟨h1, h2⟩ : t.Thread ∧ t.branches = (size - 1) / 2 := by
    rcases ht with ht | ht | ht
    · obtain ⟨u, h1, h2⟩ := basicList ((size - 1) / 2)
      simp only [listLen, hs, if_false, Option.bind_some, h1, Option.some.injEq] at ht
      exact ht ▸ h2
    · obtain ⟨u, h1, h2⟩ := basicNest ((size - 1) / 2)
      simp only [nestDepth, listLen, hs, if_false, Option.bind_some, h1, Option.some.injEq] at ht
      exact ht ▸ h2
    · have h2 := basicZigzag ((size - 1) / 2)
      simp only [zigzagDepth, listLen, hs, if_false, Option.map_some, Option.some.injEq] at ht
      exact ht ▸ h2
  have h3 := ((C92_least O hO t ω hd).2).2 h1
  have h4 := cells_length t
  exact ⟨h1, by omega, by omega, h3, by omega⟩

/-- C92. These trees are made, for each size but 0. -/
theorem C92_made (size : Nat) (h : 0 < size) :
    (∃ t, (listLen size).bind (makeBasicList fresh) = some t) ∧ (∃ t, (nestDepth size).bind (makeBasicNest fresh) = some t) ∧
    ∃ t, (zigzagDepth size).map (makeBasicZigzag fresh) = some t := by
  have hs : size ≠ 0 := by omega
  obtain ⟨u, h1, _⟩ := basicList ((size - 1) / 2)
  obtain ⟨u', h1', _⟩ := basicNest ((size - 1) / 2)
  exact ⟨⟨u, by simp [listLen, hs, h1]⟩, ⟨u', by simp [nestDepth, listLen, hs, h1']⟩,
    ⟨makeBasicZigzag fresh ((size - 1) / 2), by simp [zigzagDepth, listLen, hs]⟩⟩

/-- C92. The fans ("branching and depth at every node, equal at every level, the maximum size per depth"): `make_fan` makes the
tree in which all leaves are `d` deep, it has `2^(d+1) - 1` datums, and dropping it takes `2^(d+1) - 2 - d` iterations. -/
theorem C92_fan (d : Nat) : ∃ t, makeFan fresh d = some t ∧ t.Perfect d ∧ t.cells.length = 2 ^ (d + 1) - 1 ∧
    ∀ (O : Oracle Ω Unit), (O.Steady fun _ => false) → ∀ ω {evs steps depth}, Drops O t ω evs steps depth →
      steps = 2 ^ (d + 1) - 2 - d := by
  obtain ⟨t, h1, h2⟩ := fan_perfect (d + 1) d (by omega)
  obtain ⟨h3, h4⟩ := h2.counts
  refine ⟨t, h1, h2, ?_, fun O hO ω _ _ _ h => ?_⟩
  · rw [cells_length, Nat.pow_succ]
    omega
  · rw [C92_exact O hO t ω h, Nat.pow_succ]
    omega

/-- C92. `fan_depth` chooses the greatest depth for which the fan is not larger than asked for. Its assertion holds for every
size but 0 and the largest value. -/
theorem C92_fan_depth (w size : Nat) (h : 0 < size) (hw : size < 2 ^ w - 1) :
    ∃ d, fanDepth w size = some d ∧ 2 ^ (d + 1) - 1 ≤ size ∧ size < 2 ^ (d + 2) - 1 := by
  have h0 : size + 1 ≠ 0 := by omega
  have hlt : Nat.log2 (size + 1) < w := (Nat.log2_lt h0).2 (by omega)
  have hge : 1 ≤ Nat.log2 (size + 1) := (Nat.le_log2 h0).2 (by omega)
  have h1 := Nat.log2_self_le h0
  have h2 := Nat.lt_log2_self (n := size + 1)
  refine ⟨Nat.log2 (size + 1) - 1, ?_, ?_, ?_⟩
  · simp only [fanDepth, h, hw, and_self, if_true, leadingZeros, h0, if_false, Option.some.injEq]
    omega
  · rw [show Nat.log2 (size + 1) - 1 + 1 = Nat.log2 (size + 1) by omega]
    omega
  · rw [show Nat.log2 (size + 1) - 1 + 2 = Nat.log2 (size + 1) + 1 by omega]
    omega

/-- C92. The "V"s: a branch datum with a nest at the left and a list at the right. When the right side has any depth, each branch
datum of the left costs one iteration more. -/
theorem C92_vee (p q : Nat) : ∃ t, makeVee fresh (p + 1) (q + 1) = some t ∧ t.branches = p + q + 1 ∧
    ∀ (O : Oracle Ω Unit), (O.Steady fun _ => false) → ∀ ω {evs steps depth}, Drops O t ω evs steps depth →
      steps = t.branches + if q = 0 then 0 else p := by
  obtain ⟨l, h1, h2, h3⟩ := basicNest p
  obtain ⟨r, h4, h5, h6⟩ := basicList q
  refine ⟨.branch () l r, by simp [makeVee, h1, h4, fresh], by simp [Ref.branches, h3, h6], fun O hO ω _ _ _ h => ?_⟩
  rw [C92_exact O hO _ ω h, extraTurns_branch, extra, h6, extraTurns_zero.2 h2, extraTurns_zero.2 h5, h3]
  rfl

/-- C92. The "V" of the tests, for each size from 5: it is at most as large as asked for, and among the worst of all trees with as
many branch datums. -/
theorem C92_vee2r (size : Nat) (h : 5 ≤ size) : ∃ l r t, vee2rDepths size = some (l, r) ∧ makeVee fresh l r = some t ∧
    t.cells.length ≤ size ∧ size ≤ t.cells.length + 1 ∧
    ∀ (O : Oracle Ω Unit), (O.Steady fun _ => false) → ∀ ω {evs steps depth}, Drops O t ω evs steps depth →
      steps = 2 * t.branches - 2 := by
  obtain ⟨t, h1, h2, h3⟩ := C92_vee (Ω := Ω) ((size - 5) / 2) 1
  refine ⟨(size - 5) / 2 + 1, 2, t, ?_, h1, ?_, ?_, fun O hO ω _ _ _ hd => ?_⟩
  · simp [vee2rDepths, veeDepths, nestDepth, listLen, show ¬size < 4 by omega, show size - 4 ≠ 0 by omega]
    omega
  · rw [cells_length, h2]
    omega
  · rw [cells_length, h2]
    omega
  · have := h3 O hO ω hd
    simp only [Nat.one_ne_zero, if_false] at this
    omega

/-! ## Non-vacuity -/

private abbrev el : Ref Unit (Dat Empty) := .leaf () (some .emptyList)
private abbrev en : Ref Unit (Dat Empty) := .leaf () (some .emptyNest)
private abbrev ex (n : Nat) : Ref Unit (Dat Empty) := .leaf () (some (.extra n))

/-- C92: the trees of depth 2 and 3, as in the unit tests of `tree_shapes.rs`. -/
example : makeBasicList fresh 2 = some (.branch () (ex 2) (.branch () (ex 1) el)) ∧
    makeBasicNest fresh 2 = some (.branch () (.branch () en el) el) ∧
    makeBasicZigzag fresh 3 = .branch () (.branch () (ex 2) (.branch () el el)) el ∧
    makeFan fresh 2 = some (.branch () (.branch () en el) (.branch () en el)) ∧
    makeFan fresh 3 = some (.branch () (.branch () (.branch () en el) (.branch () en el))
      (.branch () (.branch () en el) (.branch () en el))) ∧
    makeVee fresh 2 2 = some (.branch () (.branch () en el) (.branch () (ex 1) el)) ∧
    makeVee fresh 0 0 = some en ∧ makeVee fresh 0 2 = some (.branch () en (.branch () (ex 1) el)) := by
  decide +kernel

/-- C92: the depths for the tests' default size, `2^21`, with 64 bits; and sizes that panic. -/
example : listLen (2 ^ 21) = some (2 ^ 20 - 1) ∧ fanDepth 64 (2 ^ 21) = some 20 ∧ vee2rDepths (2 ^ 21) = some (2 ^ 20 - 2, 2) ∧
    listLen 0 = none ∧ fanDepth 64 0 = none ∧ vee2rDepths 4 = none := by
  refine ⟨rfl, ?_, rfl, rfl, rfl, rfl⟩
  decide +kernel

/-- C92: dropping a fan of depth 3 (7 branch datums) takes 11 iterations, a "V" of 7 branch datums 12, a zig-zag 7. -/
example : (∃ t evs, makeFan fresh 3 = some t ∧ Drops .sole t () evs 11 2) ∧
    (∃ t evs, makeVee fresh 6 2 = some t ∧ Drops .sole t () evs 12 2) ∧
    (∃ evs, Drops .sole (makeBasicZigzag fresh 7) () evs 7 2) := by
  let evs (t : Ref Unit (Dat Empty)) := match drop .sole 60 t () with | .done e _ _ _ => e | _ => []
  exact ⟨⟨(makeFan fresh 3).get rfl, evs ((makeFan fresh 3).get rfl), rfl, .of_fuel (ω' := ()) 60 (by decide +kernel)⟩,
    ⟨(makeVee fresh 6 2).get rfl, evs ((makeVee fresh 6 2).get rfl), rfl, .of_fuel (ω' := ()) 60 (by decide +kernel)⟩,
    ⟨evs (makeBasicZigzag fresh 7), .of_fuel (ω' := ()) 60 (by decide +kernel)⟩⟩

end Kul.Shapes
