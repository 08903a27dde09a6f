import Verif.Props.Provided
import Verif.Props.Datums

/-!
# C33, C38 and C40 for datums with any of the library's texts

The texts are those that can be iterated (`T.Good RC`): every text that a parser of the library makes is such a one
(`C25_parsed_texts_provided`, `C59_parse_provided`). Equality and hashing of such texts always return;
`textEq_exists` and `textHash_exists` say so.
-/

namespace Kul

variable {C CS C' CS' P P' τ τ' ε α α' H V : Type}
variable {O : ChunkOps C CS P} {T : TextType C τ α} {RC : C → List (Item P) → Prop}
variable {O' : ChunkOps C' CS' P'} {T' : TextType C' τ' α'} {RC' : C' → List (Item P') → Prop}

theorem textEq_exists (hO : LibChunk O RC) (hO' : LibChunk O' RC') : ∃ teq, IsTextEq O T RC O' T' RC' teq := by
  have : ∀ (t : T.Good RC) (u : T'.Good RC'), ∃ b, TextEq O T O' T' t.1 u.1 b := by
    rintro ⟨t, l, hl⟩ ⟨u, m, hm⟩
    refine ⟨decide (charsAt l = charsAt m), (C31_text_eq_provided hO hO' hl hm _).mpr ?_⟩
    simp
  exact ⟨fun t u => Classical.choose (this t u), fun t u => Classical.choose_spec (this t u)⟩

theorem textHash_exists (hO : LibChunk O RC) (W : HasherOps H) : ∃ th, IsTextHash O T RC W th := by
  have : ∀ (t : T.Good RC) (h : H), ∃ h' n, T.hash O W n t.1 h = .ok h' := by
    rintro ⟨t, l, hl⟩ h
    exact ⟨_, _, C33_text_hash_provided hO W hl (Nat.lt_succ_self _) h⟩
  exact ⟨fun t h => Classical.choose (this t h), fun t h => Classical.choose_spec (this t h)⟩

theorem IsTextEq.iff (hO : LibChunk O RC) (hO' : LibChunk O' RC') {teq} (h : IsTextEq O T RC O' T' RC' teq) {t u l m}
    (ht : T.Means RC t.1 l) (hu : T'.Means RC' u.1 m) : teq t u = true ↔ charsAt l = charsAt m :=
  (C31_text_eq_provided hO hO' ht hu _).mp (h t u)

theorem IsTextEq.same (hO : LibChunk O RC) (hO' : LibChunk O' RC') {teq} (h : IsTextEq O T RC O' T' RC' teq) (t u) :
    teq t u = true ↔ SameCharsAt T RC T' RC' t u := by
  constructor
  · intro he
    obtain ⟨l, hl⟩ := t.2
    obtain ⟨m, hm⟩ := u.2
    exact ⟨l, m, hl, hm, (h.iff hO hO' hl hm).mp he⟩
  · rintro ⟨l, m, hl, hm, he⟩
    exact (h.iff hO hO' hl hm).mpr he

theorem hashLoop_mono (W : HasherOps H) {S : Type} {next : IterNext S Char} {n m : Nat} (hm : n ≤ m) {s : S} {h h' : H}
    (e : hashLoop W next n s h = .ok h') : hashLoop W next m s h = .ok h' := by
  induction n generalizing m s h with
  | zero => simp [hashLoop] at e
  | succ n ih =>
    obtain ⟨m, rfl⟩ : ∃ k, m = k + 1 := ⟨m - 1, by omega⟩
    simp only [hashLoop] at e ⊢
    split at e <;> simp_all

theorem hash_unique {W : HasherOps H} (hO : LibChunk O RC) {t : τ} {l : List (Item P)} (ht : T.Means RC t l) {n : Nat} {h h' : H}
    (e : T.hash O W n t h = .ok h') : h' = (charsAt l).foldl (fun h c => W.writeU32 h c.val.toNat) h := by
  have e' := C33_text_hash_provided hO W ht (n := n + l.length + 1) (by omega) h
  unfold TextType.hash at e e'
  split at e
  · rename_i s hs
    rw [hs] at e'
    simp only at e'
    rw [hashLoop_mono W (by omega) e] at e'
    cases e'; rfl
  all_goals cases e

/-- C38. Datums with any of the library's texts, also with different ones, are equal exactly when they are the same
tree with texts of the same characters. -/
theorem C38_provided {ε' : Type} (hO : LibChunk O RC) (hO' : LibChunk O' RC') {teq} (h : IsTextEq O T RC O' T' RC' teq)
    (xeq : ε → ε' → Bool) (d : Datum (T.Good RC) ε) (e : Datum (T'.Good RC') ε') :
    d.eqv teq xeq e = true ↔ DatumRel (SameCharsAt T RC T' RC') (fun x y => xeq x y = true) d e := by
  rw [C38_structural]
  simp only [h.same hO hO']

/-- C38. Equality of datums with one of the library's texts is an equivalence. -/
theorem C38_equivalence_provided (hO : LibChunk O RC) {teq} (h : IsTextEq O T RC O T RC teq) {xeq : ε → ε → Bool}
    (hx : EqvRel xeq) : EqvRel (Datum.eqv teq xeq) := by
  refine C38_equivalence ⟨?_, ?_, ?_⟩ hx
  · rintro ⟨t, l, hl⟩
    exact (h.iff hO hO hl hl).mpr rfl
  · rintro ⟨t, l, hl⟩ ⟨u, m, hm⟩ e
    exact (h.iff hO hO hm hl).mpr ((h.iff hO hO hl hm).mp e).symm
  · rintro ⟨t, l, hl⟩ ⟨u, m, hm⟩ ⟨v, k, hk⟩ e e'
    exact (h.iff hO hO hl hk).mpr (((h.iff hO hO hl hm).mp e).trans ((h.iff hO hO hm hk).mp e'))

/-- C33. Equal datums with any of the library's texts hash equally. -/
theorem C33_provided {ε' : Type} (hO : LibChunk O RC) (hO' : LibChunk O' RC') (W : HasherOps H) {teq}
    (h : IsTextEq O T RC O' T' RC' teq) {th th'} (ht : IsTextHash O T RC W th) (ht' : IsTextHash O' T' RC' W th')
    {xeq : ε → ε' → Bool} {xh : ε → H → H} {xh' : ε' → H → H} (hx : ∀ x y h, xeq x y = true → xh x h = xh' y h)
    {d : Datum (T.Good RC) ε} {e : Datum (T'.Good RC') ε'} (heq : d.eqv teq xeq e = true) (s : H) :
    d.hash W th xh s = e.hash W th' xh' s := by
  refine C33_equal_datums_hash_equally W ?_ hx heq s
  rintro ⟨t, l, hl⟩ ⟨u, m, hm⟩ s e
  have e := (h.iff hO hO' hl hm).mp e
  obtain ⟨n, h1⟩ := ht ⟨t, l, hl⟩ s
  obtain ⟨n', h2⟩ := ht' ⟨u, m, hm⟩ s
  rw [hash_unique hO hl h1, hash_unique hO' hm h2, e]

/-- C40. Bindings keyed by datums with any of the library's texts, in a `HashMap` with any hasher: lookup finds what was
last stored under an equal datum. -/
theorem C40_provided (hO : LibChunk O RC) (W : HasherOps H) {teq} (h : IsTextEq O T RC O T RC teq) {th}
    (ht : IsTextHash O T RC W th) {xeq : ε → ε → Bool} (hq : EqvRel xeq) {xh : ε → H → H}
    (hx : ∀ x y h, xeq x y = true → xh x h = xh y h) (start : H) (finish : H → Nat)
    {ops : List (MapOp (Datum (T.Good RC) ε) V)} {m : List (Entry (Datum (T.Good RC) ε) V)}
    (hm : MapHistory (Datum.eqv teq xeq) (fun d => finish (d.hash W th xh start)) ops m) (d : Datum (T.Good RC) ε) :
    hashLookup (Datum.eqv teq xeq) (fun d => finish (d.hash W th xh start)) m d = stored (Datum.eqv teq xeq) d ops := by
  refine C40_hash_map (C38_equivalence_provided hO h hq) ?_ hm d
  intro a b e
  rw [C33_provided hO hO W h ht ht hx e]

/-! ## Non-vacuity -/

theorem ab_good : ∃ l, (textVec Unit posStrishOps).Means PosStrish.Means (.single (.new ['a', 'b'] ⟨0⟩)) l :=
  ⟨_, _, _, rfl, .cons (PosStrish.new_means _ _) .nil, rfl⟩

theorem a_b_good : ∃ l, (textVec Unit posStrishOps).Means PosStrish.Means
    (.multi [.new ['a'] ⟨3⟩, .new [] ⟨7⟩, .new ['b'] ⟨9⟩]) l :=
  ⟨_, _, _, rfl, .cons (PosStrish.new_means _ _) (.cons (PosStrish.new_means _ _) (.cons (PosStrish.new_means _ _) .nil)), rfl⟩

/-- C33, C38: the same two characters in one chunk and in three. -/
example : ∃ teq, IsTextEq posStrishOps (textVec Unit posStrishOps) PosStrish.Means posStrishOps (textVec Unit posStrishOps)
      PosStrish.Means teq ∧
    Datum.eqv teq (fun _ _ : Empty => true) (.combination (.text ⟨_, ab_good⟩) .emptyNest)
      (.combination (.text ⟨_, a_b_good⟩) .emptyNest) = true := by
  obtain ⟨teq, h⟩ := textEq_exists (T := textVec Unit posStrishOps) (T' := textVec Unit posStrishOps) .posStrish .posStrish
  refine ⟨teq, h, (C38_provided .posStrish .posStrish h _ _ _).mpr (.combination (.text ?_) .emptyNest)⟩
  exact ⟨_, _, ⟨_, _, rfl, .cons (PosStrish.new_means _ _) .nil, rfl⟩, ⟨_, _, rfl, .cons (PosStrish.new_means _ _)
    (.cons (PosStrish.new_means _ _) (.cons (PosStrish.new_means _ _) .nil)), rfl⟩, by decide⟩

end Kul
