import Verif.Spec.DatumFns
import Verif.Props.Texts
import Verif.Model.Classifier
import Verif.Proof.Sample
import Mathlib.Data.List.Pairwise

/-!
# Properties of datums, errors and bindings

C33 (datums), C38, C39, C40, C48, C49 of `/verif/properties.jsonl`.
-/

namespace Kul

variable {τ τ' τ'' ε ε' ε'' P P' P'' CE CE' CE'' H K V : Type}

/-! ## C38: equality of datums -/

/-- **C38.** Two datums, of any two types, compare equal exactly when they are the same
tree of variants, with equal texts and equal extras. -/
theorem C38_structural (teq : τ → τ' → Bool) (xeq : ε → ε' → Bool) (d : Datum τ ε) (e : Datum τ' ε') :
    d.eqv teq xeq e = true ↔ DatumRel (fun t u => teq t u = true) (fun x y => xeq x y = true) d e := by
  unfold Datum.eqv
  induction d generalizing e with
  | text t => cases e <;> simp only [Datum.eqRun, Bool.false_eq_true, false_iff]
              case text u => exact ⟨fun h => .text h, fun h => by cases h; assumption⟩
              all_goals exact fun h => nomatch h
  | combination f a ihf iha =>
    cases e <;> simp only [Datum.eqRun, Bool.false_eq_true, false_iff]
    case combination g b =>
      have h1 := iha b
      have h2 := ihf g
      rcases hr : a.eqRun teq xeq b with ⟨_ | _, n⟩ <;> rw [hr] at h1 <;> simp only at h1 ⊢
      · exact ⟨fun h => by simp at h, fun h => by
          cases h with
          | combination h h' => simpa using h1.mpr h'⟩
      · rw [h2]
        exact ⟨fun h => .combination h (h1.mp trivial), fun h => by cases h; assumption⟩
    all_goals exact fun h => nomatch h
  | emptyNest => cases e <;> simp only [Datum.eqRun, Bool.false_eq_true, false_iff, true_iff]
                 case emptyNest => exact .emptyNest
                 all_goals exact fun h => nomatch h
  | list f a ihf iha =>
    cases e <;> simp only [Datum.eqRun, Bool.false_eq_true, false_iff]
    case list g b =>
      have h1 := ihf g
      have h2 := iha b
      rcases hr : f.eqRun teq xeq g with ⟨_ | _, n⟩ <;> rw [hr] at h1 <;> simp only at h1 ⊢
      · exact ⟨fun h => by simp at h, fun h => by
          cases h with
          | list h h' => simpa using h1.mpr h⟩
      · rw [h2]
        exact ⟨fun h => .list (h1.mp trivial) h, fun h => by cases h; assumption⟩
    all_goals exact fun h => nomatch h
  | emptyList => cases e <;> simp only [Datum.eqRun, Bool.false_eq_true, false_iff, true_iff]
                 case emptyList => exact .emptyList
                 all_goals exact fun h => nomatch h
  | extra x => cases e <;> simp only [Datum.eqRun, Bool.false_eq_true, false_iff]
               case extra u => exact ⟨fun h => .extra h, fun h => by cases h; assumption⟩
               all_goals exact fun h => nomatch h

theorem DatumRel.refl {RT : τ → τ → Prop} {RX : ε → ε → Prop} (ht : ∀ t, RT t t) (hx : ∀ x, RX x x)
    (d : Datum τ ε) : DatumRel RT RX d d := by
  induction d with
  | text t => exact .text (ht t)
  | combination _ _ h h' => exact .combination h h'
  | emptyNest => exact .emptyNest
  | list _ _ h h' => exact .list h h'
  | emptyList => exact .emptyList
  | extra x => exact .extra (hx x)

theorem DatumRel.flip {RT : τ → τ' → Prop} {RX : ε → ε' → Prop} {RT' : τ' → τ → Prop} {RX' : ε' → ε → Prop}
    (ht : ∀ t u, RT t u → RT' u t) (hx : ∀ x y, RX x y → RX' y x) {d : Datum τ ε} {e : Datum τ' ε'}
    (h : DatumRel RT RX d e) : DatumRel RT' RX' e d := by
  induction h with
  | text h => exact .text (ht _ _ h)
  | combination _ _ h h' => exact .combination h h'
  | emptyNest => exact .emptyNest
  | list _ _ h h' => exact .list h h'
  | emptyList => exact .emptyList
  | extra h => exact .extra (hx _ _ h)

theorem DatumRel.chain {R₁ : τ → τ' → Prop} {X₁ : ε → ε' → Prop} {R₂ : τ' → τ'' → Prop}
    {X₂ : ε' → ε'' → Prop} {R₃ : τ → τ'' → Prop} {X₃ : ε → ε'' → Prop}
    (ht : ∀ a b c, R₁ a b → R₂ b c → R₃ a c) (hx : ∀ a b c, X₁ a b → X₂ b c → X₃ a c)
    {d : Datum τ ε} {e : Datum τ' ε'} {f : Datum τ'' ε''} (h : DatumRel R₁ X₁ d e)
    (h' : DatumRel R₂ X₂ e f) : DatumRel R₃ X₃ d f := by
  induction h generalizing f with
  | text h => cases h' with | text h' => exact .text (ht _ _ _ h h')
  | combination _ _ ih ih' => cases h' with | combination h h' => exact .combination (ih h) (ih' h')
  | emptyNest => cases h'; exact .emptyNest
  | list _ _ ih ih' => cases h' with | list h h' => exact .list (ih h) (ih' h')
  | emptyList => cases h'; exact .emptyList
  | extra h => cases h' with | extra h' => exact .extra (hx _ _ _ h h')

/-- **C38.** If the equalities of texts and of extras are equivalences, so is that of
datums. -/
theorem C38_equivalence {teq : τ → τ → Bool} {xeq : ε → ε → Bool} (ht : EqvRel teq) (hx : EqvRel xeq) :
    EqvRel (Datum.eqv teq xeq) where
  refl d := (C38_structural ..).mpr (DatumRel.refl ht.refl hx.refl d)
  symm _ _ h := (C38_structural ..).mpr (((C38_structural ..).mp h).flip ht.symm hx.symm)
  trans _ _ _ h h' := (C38_structural ..).mpr
    (((C38_structural ..).mp h).chain ht.trans hx.trans ((C38_structural ..).mp h'))

theorem TextVec.eqFn_eq (t u : TextVec PosStr) : t.eqFn u = decide (t.charsOf = u.charsOf) := by
  simp only [TextVec.eqFn, C31_text_vec_eq t u (Nat.lt_succ_self _)]

theorem TextVec.eqFn_equiv : EqvRel TextVec.eqFn where
  refl a := by simp [TextVec.eqFn_eq]
  symm a b := by simp only [TextVec.eqFn_eq, decide_eq_true_eq]; exact Eq.symm
  trans a b c := by simp only [TextVec.eqFn_eq, decide_eq_true_eq]; exact Eq.trans

/-- **C38.** For the datums of the in-memory parser: equal exactly when they are the same
tree with texts of the same characters, whatever their chunks and positions. -/
theorem C38_inmem [DecidableEq ε] (d e : Datum (TextVec PosStr) ε) :
    d.eqv TextVec.eqFn (fun x y => decide (x = y)) e = true ↔
      DatumRel (fun t u => t.charsOf = u.charsOf) Eq d e := by
  rw [C38_structural]
  simp only [TextVec.eqFn_eq, decide_eq_true_eq]

/-! ## C39: depth of recursion -/

/-- **C39.** The depth to which calls of the comparison nest is one more than the number
of `elem` and `operands` links on some path that both datums have. So it is at most one
more than the largest such number in either, and neither `next` links (the length of
lists) nor `operator` links (nesting in head position) count. -/
theorem C39_depth (teq : τ → τ' → Bool) (xeq : ε → ε' → Bool) (d : Datum τ ε) (e : Datum τ' ε') :
    ∃ k, (d.eqRun teq xeq e).2 = k + 1 ∧ d.Links k ∧ e.Links k := by
  induction d generalizing e with
  | text t => cases e <;> exact ⟨0, rfl, .here _, .here _⟩
  | emptyNest => cases e <;> exact ⟨0, rfl, .here _, .here _⟩
  | emptyList => cases e <;> exact ⟨0, rfl, .here _, .here _⟩
  | extra x => cases e <;> exact ⟨0, rfl, .here _, .here _⟩
  | combination f a ihf iha =>
    cases e
    case combination g b =>
      obtain ⟨k, h1, h2, h3⟩ := iha b
      obtain ⟨j, g1, g2, g3⟩ := ihf g
      rcases hr : a.eqRun teq xeq b with ⟨_ | _, n⟩ <;> rw [hr] at h1 <;>
        simp only [Datum.eqRun, hr] at h1 ⊢
      · exact ⟨k + 1, by rw [h1], .operands h2, .operands h3⟩
      · rw [h1, g1]
        rcases Nat.le_total (k + 1 + 1) (j + 1) with h | h
        · exact ⟨j, Nat.max_eq_right h, .operator g2, .operator g3⟩
        · exact ⟨k + 1, Nat.max_eq_left h, .operands h2, .operands h3⟩
    all_goals exact ⟨0, rfl, .here _, .here _⟩
  | list f a ihf iha =>
    cases e
    case list g b =>
      obtain ⟨k, h1, h2, h3⟩ := ihf g
      obtain ⟨j, g1, g2, g3⟩ := iha b
      rcases hr : f.eqRun teq xeq g with ⟨_ | _, n⟩ <;> rw [hr] at h1 <;>
        simp only [Datum.eqRun, hr] at h1 ⊢
      · exact ⟨k + 1, by rw [h1], .elem h2, .elem h3⟩
      · rw [h1, g1]
        rcases Nat.le_total (k + 1 + 1) (j + 1) with h | h
        · exact ⟨j, Nat.max_eq_right h, .next g2, .next g3⟩
        · exact ⟨k + 1, Nat.max_eq_left h, .elem h2, .elem h3⟩
    all_goals exact ⟨0, rfl, .here _, .here _⟩

/-- **C39.** In particular: comparing a list, however long, of elements none of which has
a path with more than `m` links, nests at most `m + 2` deep. -/
theorem C39_long_lists (teq : τ → τ' → Bool) (xeq : ε → ε' → Bool) (ds : List (Datum τ ε)) (m : Nat)
    (hm : ∀ d ∈ ds, ∀ k, d.Links k → k ≤ m) (e : Datum τ' ε') :
    ((mkList ds).eqRun teq xeq e).2 ≤ m + 2 := by
  obtain ⟨k, h1, h2, _⟩ := C39_depth teq xeq (mkList ds) e
  rw [h1]
  have : ∀ (ds : List (Datum τ ε)), (∀ d ∈ ds, ∀ k, d.Links k → k ≤ m) → ∀ k, (mkList ds).Links k →
      k ≤ m + 1 := by
    intro ds
    induction ds with
    | nil => intro _ k h; cases h; omega
    | cons d ds ih =>
      intro hm k h
      cases h with
      | here => omega
      | elem h => have := hm d (by simp) _ h; omega
      | next h => exact ih (fun d hd => hm d (by simp [hd])) _ h
  have := this ds hm k h2
  omega

/-- `n` nested nests, each the head of the next. -/
def headNest (d : Datum τ ε) : Nat → Datum τ ε
  | 0 => d
  | n + 1 => .combination (headNest d n) .emptyList

/-- **C39.** Nesting in head position, however deep, does not make the comparison nest
deeper than 2 (or than that of what is innermost). -/
theorem C39_deep_heads (teq : τ → τ' → Bool) (xeq : ε → ε' → Bool) (d : Datum τ ε) (m n : Nat)
    (hm : ∀ k, d.Links k → k ≤ m) (e : Datum τ' ε') :
    ((headNest d n).eqRun teq xeq e).2 ≤ max m 1 + 1 := by
  obtain ⟨k, h1, h2, _⟩ := C39_depth teq xeq (headNest d n) e
  rw [h1]
  have : ∀ n k, (headNest d n).Links k → k ≤ max m 1 := by
    intro n
    induction n with
    | zero => intro k h; have := hm k h; omega
    | succ n ih =>
      intro k h
      cases h with
      | here => omega
      | operator h => exact ih _ h
      | operands h => cases h; omega
  have := this n k h2
  omega

/-- `n` lists, each the only element of the next. -/
def elemNest : Nat → Datum τ ε
  | 0 => .emptyNest
  | n + 1 => .list (elemNest n) .emptyList

/-- C39, the other side (as the documentation of `PartialEq for Datum` concedes): nesting
in element position does make the comparison nest deeper, without bound. -/
theorem C39_deep_elements (teq : τ → τ → Bool) (xeq : ε → ε → Bool) (n : Nat) :
    (elemNest n : Datum τ ε).eqRun teq xeq (elemNest n) = (true, n + 1) := by
  induction n with
  | zero => rfl
  | succ n ih =>
    simp only [elemNest, Datum.eqRun, ih, Nat.le_add_left, Nat.max_eq_left]

/-! ## C33: hashing datums -/

/-- **C33.** Datums that compare equal feed identical data to any hasher, if that is so of
their texts and extras. -/
theorem C33_equal_datums_hash_equally (W : HasherOps H) {teq : τ → τ' → Bool} {xeq : ε → ε' → Bool}
    {th : τ → H → H} {th' : τ' → H → H} {xh : ε → H → H} {xh' : ε' → H → H}
    (ht : ∀ t u h, teq t u = true → th t h = th' u h) (hx : ∀ x y h, xeq x y = true → xh x h = xh' y h)
    {d : Datum τ ε} {e : Datum τ' ε'} (heq : d.eqv teq xeq e = true) (h : H) :
    d.hash W th xh h = e.hash W th' xh' h := by
  rw [C38_structural] at heq
  induction heq generalizing h with
  | text h' => exact ht _ _ _ h'
  | combination _ _ ih ih' => simp only [Datum.hash, ih, ih']
  | emptyNest => rfl
  | list _ _ ih ih' => simp only [Datum.hash, ih, ih']
  | emptyList => rfl
  | extra h' => exact hx _ _ _ h'

theorem TextVec.hashFn_eq (W : HasherOps H) (t : TextVec PosStr) (h : H) :
    t.hashFn W h = t.charsOf.foldl (fun h c => W.writeU32 h c.val.toNat) h := by
  simp only [TextVec.hashFn, C33_text_hash W t.chars_posStr (Nat.lt_succ_self _)]

/-- **C33.** For the datums of the in-memory parser, whatever the hasher and however the
texts are chunked. -/
theorem C33_inmem [DecidableEq ε] (W : HasherOps H) (xh : ε → H → H) (d e : Datum (TextVec PosStr) ε)
    (heq : d.eqv TextVec.eqFn (fun x y => decide (x = y)) e = true) (h : H) :
    d.hash W (TextVec.hashFn W) xh h = e.hash W (TextVec.hashFn W) xh h := by
  refine C33_equal_datums_hash_equally W ?_ ?_ heq h
  · intro t u h htu
    rw [TextVec.eqFn_eq, decide_eq_true_eq] at htu
    rw [TextVec.hashFn_eq, TextVec.hashFn_eq, htu]
  · intro x y h hxy
    rw [of_decide_eq_true hxy]

/-! ## C40: looking up bindings -/

/-- **C40.** Lookup in a slice of pairs: the result is the combiner of the first pair
whose operator equals the datum. -/
theorem C40_pair_found {eq : K → K → Bool} {pairs : List (K × V)} {k : K} {v : V} :
    pairLookup eq pairs k = some v ↔
      ∃ before k' after, pairs = before ++ (k', v) :: after ∧ eq k k' = true ∧
        ∀ p ∈ before, eq k p.1 = false := by
  unfold pairLookup
  induction pairs with
  | nil => simp
  | cons p pairs ih =>
    obtain ⟨k₁, v₁⟩ := p
    simp only [List.findSome?_cons]
    by_cases h : eq k k₁ = true
    · rw [if_pos h]
      simp only [Option.some.injEq]
      constructor
      · rintro rfl
        exact ⟨[], k₁, pairs, rfl, h, by simp⟩
      · rintro ⟨_ | ⟨q, before⟩, k', after, h1, h2, h3⟩
        · simp at h1; exact h1.1.2
        · simp only [List.cons_append, List.cons.injEq] at h1
          have := h3 q (by simp)
          rw [← h1.1, h] at this
          simp at this
    · rw [if_neg h]
      simp only [ih]
      constructor
      · rintro ⟨before, k', after, rfl, h2, h3⟩
        refine ⟨(k₁, v₁) :: before, k', after, rfl, h2, ?_⟩
        simp only [List.mem_cons, forall_eq_or_imp]
        exact ⟨by simpa using h, h3⟩
      · rintro ⟨_ | ⟨q, before⟩, k', after, h1, h2, h3⟩
        · simp only [List.nil_append, List.cons.injEq, Prod.mk.injEq] at h1
          rw [h1.1.1] at h
          exact absurd h2 h
        · simp only [List.cons_append, List.cons.injEq] at h1
          exact ⟨before, k', after, h1.2, h2, fun p hp => h3 p (by simp [hp])⟩

/-- **C40.** Lookup in a slice of pairs: nothing is found exactly when no operator equals
the datum. -/
theorem C40_pair_not_found {eq : K → K → Bool} {pairs : List (K × V)} {k : K} :
    pairLookup eq pairs k = none ↔ ∀ p ∈ pairs, eq k p.1 = false := by
  unfold pairLookup
  simp only [List.findSome?_eq_none_iff]
  constructor
  · intro h p hp
    have := h p hp
    by_cases hk : eq k p.1 = true
    · simp [hk] at this
    · simpa using hk
  · intro h p hp
    simp [h p hp]

/-- The table has at most one entry per key, each with the hash of its key. -/
structure TableOk (eq : K → K → Bool) (hash : K → Nat) (m : List (Entry K V)) : Prop where
  hash : ∀ e ∈ m, e.hash = hash e.key
  one : m.Pairwise fun e e' => eq e.key e'.key = false

theorem isFor_iff {eq : K → K → Bool} {hash : K → Nat} (hh : ∀ a b, eq a b = true → hash a = hash b)
    {m : List (Entry K V)} (hm : TableOk eq hash m) {e : Entry K V} (he : e ∈ m) (k : K) :
    Entry.isFor eq hash k e = eq k e.key := by
  unfold Entry.isFor
  rw [hm.hash e he]
  by_cases h : eq k e.key = true
  · simp [h, hh _ _ h]
  · simp [h]

/-- Looking up in a well-formed table: there is an entry with an equal key. -/
theorem hashGet_some {eq : K → K → Bool} {hash : K → Nat} (hq : EqvRel eq)
    (hh : ∀ a b, eq a b = true → hash a = hash b) {m : List (Entry K V)} (hm : TableOk eq hash m)
    {k : K} {v : V} : hashGet eq hash m k = some v ↔ ∃ e ∈ m, eq k e.key = true ∧ e.value = v := by
  unfold hashGet
  rw [Option.map_eq_some_iff]
  constructor
  · rintro ⟨e, h1, h2⟩
    have he := List.mem_of_find?_eq_some h1
    have := List.find?_some h1
    rw [isFor_iff hh hm he] at this
    exact ⟨e, he, this, h2⟩
  · rintro ⟨e, he, h1, rfl⟩
    rcases hf : m.find? (Entry.isFor eq hash k) with _ | e'
    · have := List.find?_eq_none.mp hf e he
      rw [isFor_iff hh hm he] at this
      exact absurd h1 this
    · refine ⟨e', rfl, ?_⟩
      have he' := List.mem_of_find?_eq_some hf
      have h2 := List.find?_some hf
      rw [isFor_iff hh hm he'] at h2
      have h3 : eq e'.key e.key = true := hq.trans _ _ _ (hq.symm _ _ h2) h1
      by_cases hee : e' = e
      · rw [hee]
      · have hsym : ∀ {x y : Entry K V}, x ∈ m → y ∈ m → x ≠ y → eq x.key y.key = false :=
          haveI : Std.Symm fun e e' : Entry K V => eq e.key e'.key = false := ⟨fun a b h => by
            rw [Bool.eq_false_iff] at h ⊢
            exact fun h' => h (hq.symm _ _ h')⟩
          fun hx hy hne => hm.one.forall hx hy hne
        rw [hsym he' he hee] at h3
        cases h3

theorem TableOk.perm {eq : K → K → Bool} {hash : K → Nat} (hq : EqvRel eq) {m m' : List (Entry K V)}
    (h : TableOk eq hash m) (hp : m.Perm m') : TableOk eq hash m' where
  hash e he := h.hash e (hp.mem_iff.mpr he)
  one := (hp.pairwise_iff fun h => by
    rw [Bool.eq_false_iff] at h ⊢
    exact fun h' => h (hq.symm _ _ h')).mp h.one

theorem setFirst_spec {p : Entry K V → Bool} {v : V} {m : List (Entry K V)} (h : m.any p = true) :
    ∃ m₁ e m₂, m = m₁ ++ e :: m₂ ∧ p e = true ∧
      setFirst p v m = m₁ ++ { e with value := v } :: m₂ := by
  induction m with
  | nil => simp at h
  | cons e m ih =>
    by_cases he : p e = true
    · exact ⟨[], e, m, rfl, he, by simp [setFirst, he]⟩
    · obtain ⟨m₁, e', m₂, rfl, h2, h3⟩ := ih (by simpa [he] using h)
      exact ⟨e :: m₁, e', m₂, rfl, h2, by simp [setFirst, he, h3]⟩

theorem MapHistory.spec {eq : K → K → Bool} {hash : K → Nat} (hq : EqvRel eq)
    (hh : ∀ a b, eq a b = true → hash a = hash b) {ops : List (MapOp K V)} {m : List (Entry K V)}
    (h : MapHistory eq hash ops m) :
    TableOk eq hash m ∧ ∀ k v, hashGet eq hash m k = some v ↔ stored eq k ops = some v := by
  have eqf : ∀ {a b : K}, eq a b = false ↔ ¬ eq a b = true := by simp
  have cong : ∀ a b c, eq a b = true → eq c a = eq c b := by
    intro a b c hab
    by_cases h : eq c b = true
    · rw [h]; exact hq.trans _ _ _ h (hq.symm _ _ hab)
    · rw [eqf.mpr h, eqf]
      exact fun h' => h (hq.trans _ _ _ h' hab)
  have congl : ∀ a b c, eq a b = true → eq a c = eq b c := by
    intro a b c hab
    by_cases h : eq b c = true
    · rw [h]; exact hq.trans _ _ _ hab h
    · rw [eqf.mpr h, eqf]
      exact fun h' => h (hq.trans _ _ _ (hq.symm _ _ hab) h')
  induction h with
  | empty => exact ⟨⟨by simp, .nil⟩, by simp [hashGet, stored]⟩
  | @rearrange ops m m' _ hp ih =>
    have hok := ih.1.perm hq hp
    refine ⟨hok, fun k v => ?_⟩
    rw [← ih.2, hashGet_some hq hh hok, hashGet_some hq hh ih.1]
    simp only [hp.mem_iff]
  | @insert ops m k v _ ih =>
    obtain ⟨ih, ih'⟩ := ih
    by_cases hany : m.any (Entry.isFor eq hash k) = true
    · obtain ⟨m₁, e, m₂, rfl, h2, h3⟩ := setFirst_spec (v := v) hany
      rw [hashInsert, if_pos hany, h3]
      have hke : eq k e.key = true := by rwa [isFor_iff hh ih (by simp)] at h2
      have hok : TableOk eq hash (m₁ ++ { e with value := v } :: m₂) := by
        constructor
        · intro x hx
          simp only [List.mem_append, List.mem_cons] at hx
          rcases hx with hx | rfl | hx
          · exact ih.hash x (by simp [hx])
          · exact ih.hash e (by simp)
          · exact ih.hash x (by simp [hx])
        · have := ih.one
          rw [List.pairwise_append, List.pairwise_cons] at this ⊢
          simp only [List.mem_cons, forall_eq_or_imp] at this ⊢
          exact this
      refine ⟨hok, fun k' v' => ?_⟩
      rw [hashGet_some hq hh hok]
      have hold := ih' k' v'
      rw [hashGet_some hq hh ih] at hold
      simp only [stored]
      have hothers : ∀ x ∈ m₁ ++ m₂, eq k' e.key = true → eq k' x.key = false := by
        intro x hx hk
        have hp := ih.one
        rw [List.pairwise_append, List.pairwise_cons] at hp
        rw [congl _ _ _ hk]
        rcases List.mem_append.mp hx with hx | hx
        · have := hp.2.2 x hx e (by simp)
          rw [eqf] at this ⊢
          exact fun h => this (hq.symm _ _ h)
        · exact hp.2.1.1 x hx
      have hkk : eq k' k = eq k' e.key := cong _ _ _ hke
      rw [hkk]
      by_cases hk : eq k' e.key = true
      · rw [if_pos hk]
        simp only [Option.some.injEq]
        constructor
        · rintro ⟨x, hx, h4, rfl⟩
          simp only [List.mem_append, List.mem_cons] at hx
          rcases hx with hx | rfl | hx
          · rw [hothers x (by simp [hx]) hk] at h4; cases h4
          · rfl
          · rw [hothers x (by simp [hx]) hk] at h4; cases h4
        · rintro rfl
          exact ⟨{ e with value := v }, by simp, hk, rfl⟩
      · rw [if_neg hk, ← hold]
        constructor
        · rintro ⟨x, hx, h4, rfl⟩
          simp only [List.mem_append, List.mem_cons] at hx
          rcases hx with hx | rfl | hx
          · exact ⟨x, by simp [hx], h4, rfl⟩
          · exact absurd h4 hk
          · exact ⟨x, by simp [hx], h4, rfl⟩
        · rintro ⟨x, hx, h4, rfl⟩
          simp only [List.mem_append, List.mem_cons] at hx
          rcases hx with hx | rfl | hx
          · exact ⟨x, by simp [hx], h4, rfl⟩
          · exact absurd h4 hk
          · exact ⟨x, by simp [hx], h4, rfl⟩
    · rw [hashInsert, if_neg hany]
      have hnone : ∀ e ∈ m, eq k e.key = false := by
        intro e he
        rw [eqf, ← isFor_iff hh ih he]
        exact fun h => hany (List.any_eq_true.mpr ⟨e, he, h⟩)
      have hok : TableOk eq hash (⟨hash k, k, v⟩ :: m) :=
        ⟨fun e he => by
          rcases List.mem_cons.mp he with rfl | he
          · rfl
          · exact ih.hash e he, .cons hnone ih.one⟩
      refine ⟨hok, fun k' v' => ?_⟩
      rw [hashGet_some hq hh hok]
      have hold := ih' k' v'
      rw [hashGet_some hq hh ih] at hold
      simp only [stored, List.mem_cons, exists_eq_or_imp, hold]
      by_cases hk : eq k' k = true
      · rw [if_pos hk]
        simp only [hk, true_and, Option.some.injEq]
        constructor
        · rintro (h | h)
          · exact h
          · rw [← hold] at h
            obtain ⟨e, he, h, _⟩ := h
            rw [congl _ _ _ hk, hnone e he] at h
            cases h
        · exact Or.inl
      · rw [if_neg hk]
        simp [hk]
  | @remove ops m k _ ih =>
    obtain ⟨ih, ih'⟩ := ih
    have hsub : (hashRemove eq hash m k).Sublist m := List.eraseP_sublist
    have hok : TableOk eq hash (hashRemove eq hash m k) :=
      ⟨fun e he => ih.hash e (hsub.mem he), ih.one.sublist hsub⟩
    refine ⟨hok, fun k' v' => ?_⟩
    rw [hashGet_some hq hh hok]
    have hold := ih' k' v'
    rw [hashGet_some hq hh ih] at hold
    simp only [stored]
    by_cases hk : eq k' k = true
    · rw [if_pos hk]
      simp only [reduceCtorEq, iff_false]
      rintro ⟨e, he, h4, rfl⟩
      have hke : eq k e.key = true := by rw [← congl _ _ _ hk]; exact h4
      have hem := hsub.mem he
      have hfe : Entry.isFor eq hash k e = true := by rw [isFor_iff hh ih hem]; exact hke
      obtain ⟨x, m₁, m₂, h5, h6, rfl, h7⟩ := List.exists_of_eraseP hem hfe
      unfold hashRemove at he
      rw [h7] at he
      have hx : eq k x.key = true := by rwa [isFor_iff hh ih (by simp)] at h6
      have hp := ih.one
      rw [List.pairwise_append, List.pairwise_cons] at hp
      have hxe : eq x.key e.key = true := hq.trans _ _ _ (hq.symm _ _ hx) hke
      rcases List.mem_append.mp he with h | h
      · exact absurd hfe (h5 e h)
      · rw [hp.2.1.1 e h] at hxe; cases hxe
    · rw [if_neg hk, ← hold]
      constructor
      · rintro ⟨e, he, h⟩
        exact ⟨e, hsub.mem he, h⟩
      · rintro ⟨e, he, h4, h⟩
        refine ⟨e, ?_, h4, h⟩
        refine (List.mem_eraseP_of_neg ?_).mpr he
        rw [isFor_iff hh ih he]
        exact fun h' => hk (hq.trans _ _ _ h4 (hq.symm _ _ h'))

/-- **C40.** Lookup in a hash map, after any history of insertions, removals and
rearrangements: the result is what was last stored under an equal key and not removed
since; for every hash function for which equal keys have equal hashes. -/
theorem C40_hash_map {eq : K → K → Bool} {hash : K → Nat} (hq : EqvRel eq)
    (hh : ∀ a b, eq a b = true → hash a = hash b) {ops : List (MapOp K V)} {m : List (Entry K V)}
    (h : MapHistory eq hash ops m) (k : K) : hashLookup eq hash m k = stored eq k ops := by
  have := (h.spec hq hh).2 k
  unfold hashLookup
  cases hg : hashGet eq hash m k with
  | some v => exact ((this v).mp hg).symm
  | none =>
    cases hs : stored eq k ops with
    | none => rfl
    | some v => rw [(this v).mpr hs] at hg; cases hg

theorem stored_inserts (eq : K → K → Bool) (pairs : List (K × V)) (k : K) :
    stored eq k (pairs.map fun p => .insert p.1 p.2) = pairLookup eq pairs k := by
  induction pairs with
  | nil => rfl
  | cons p pairs ih =>
    simp only [List.map_cons, stored, pairLookup, List.findSome?_cons]
    by_cases hk : eq k p.1 = true
    · simp [hk]
    · simp only [hk, if_false, Bool.false_eq_true]
      exact ih

/-- **C40.** With pairwise different keys, a hash map filled from some pairs, in any order
and with rearrangements in between, and a slice of the same pairs give the same lookups. -/
theorem C40_tables_agree {eq : K → K → Bool} {hash : K → Nat} (hq : EqvRel eq)
    (hh : ∀ a b, eq a b = true → hash a = hash b) {pairs inserted : List (K × V)}
    (hd : pairs.Pairwise fun p q => eq p.1 q.1 = false) (hp : pairs.Perm inserted)
    {m : List (Entry K V)} (h : MapHistory eq hash (inserted.map fun p => .insert p.1 p.2) m) (k : K) :
    hashLookup eq hash m k = pairLookup eq pairs k := by
  rw [C40_hash_map hq hh h, stored_inserts]
  have hfs : ∀ {a b : K}, eq a b = false → eq b a = false := by
    intro a b h
    rw [Bool.eq_false_iff] at h ⊢
    exact fun h' => h (hq.symm _ _ h')
  have uniq : ∀ {l : List (K × V)}, (l.Pairwise fun p q => eq p.1 q.1 = false) → ∀ {v},
      (pairLookup eq l k = some v ↔ ∃ k', (k', v) ∈ l ∧ eq k k' = true) := by
    intro l hl v
    rw [C40_pair_found]
    constructor
    · rintro ⟨before, k', after, rfl, h, _⟩
      exact ⟨k', by simp, h⟩
    · rintro ⟨k', hm, h⟩
      obtain ⟨before, after, rfl⟩ := List.append_of_mem hm
      refine ⟨before, k', after, rfl, h, fun p hp => ?_⟩
      have := (List.pairwise_append.mp hl).2.2 p hp _ (List.mem_cons_self ..)
      rw [Bool.eq_false_iff] at this ⊢
      exact fun h' => this (hq.trans _ _ _ (hq.symm _ _ h') h)
  have hd' := (hp.pairwise_iff fun h => hfs h).mp hd
  apply Option.ext
  intro v
  rw [uniq hd, uniq hd']
  simp only [hp.mem_iff]

/-- **C40.** For the in-memory parser's bindings: whatever hasher is used and however the
texts in heads and keys are chunked, lookup finds what was last stored under an equal
datum. -/
theorem C40_inmem [DecidableEq ε] (W : HasherOps H) (xh : ε → H → H) (start : H) (finish : H → Nat)
    {ops : List (MapOp (Datum (TextVec PosStr) ε) V)} {m : List (Entry (Datum (TextVec PosStr) ε) V)}
    (h : MapHistory (Datum.eqv TextVec.eqFn fun x y => decide (x = y))
      (datumKeyHash W xh start finish) ops m) (d : Datum (TextVec PosStr) ε) :
    hashLookup (Datum.eqv TextVec.eqFn fun x y => decide (x = y)) (datumKeyHash W xh start finish) m d
      = stored (Datum.eqv TextVec.eqFn fun x y => decide (x = y)) d ops := by
  refine C40_hash_map (C38_equivalence TextVec.eqFn_equiv ⟨by simp, ?_, ?_⟩) ?_ h d
  · intro a b; simp only [decide_eq_true_eq]; exact Eq.symm
  · intro a b c; simp only [decide_eq_true_eq]; exact Eq.trans
  · intro a b hab
    unfold datumKeyHash
    rw [C33_inmem W xh a b hab]

/-! ## C48: the default classifier -/

/-- **C48.** No character is in more than one of the default classifier's classes. -/
theorem C48_disjoint (c : Char) :
    ¬ (defaultClassifier.isNestStart c ∧ defaultClassifier.isNestEnd c) ∧
    ¬ (defaultClassifier.isNestStart c ∧ defaultClassifier.isNestEscape c) ∧
    ¬ (defaultClassifier.isNestStart c ∧ defaultClassifier.isWhitespace c) ∧
    ¬ (defaultClassifier.isNestEnd c ∧ defaultClassifier.isNestEscape c) ∧
    ¬ (defaultClassifier.isNestEnd c ∧ defaultClassifier.isWhitespace c) ∧
    ¬ (defaultClassifier.isNestEscape c ∧ defaultClassifier.isWhitespace c) := by
  have hws : charIsWhitespace '{' = false ∧ charIsWhitespace '}' = false ∧ charIsWhitespace '\\' = false := by
    decide
  simp only [defaultClassifier, beq_iff_eq]
  refine ⟨?_, ?_, ?_, ?_, ?_, ?_⟩ <;> rintro ⟨h, h'⟩ <;> subst h <;> simp_all

/-- **C48.** Each class has exactly the characters documented. -/
theorem C48_classes (c : Char) :
    (defaultClassifier.isNestStart c = true ↔ c = '{') ∧
    (defaultClassifier.isNestEnd c = true ↔ c = '}') ∧
    (defaultClassifier.isNestEscape c = true ↔ c = '\\') := by
  simp [defaultClassifier]

/-! ## C49: equality of errors -/

/-- **C49.** Errors, of any two types, compare equal exactly when they are of the same
kind with equal payloads. -/
theorem C49_error_eq (peq : P → P' → Bool) (ceq : CE → CE' → Bool) (e : Err P CE) (f : Err P' CE') :
    e.eqv peq ceq f = true ↔ ErrRel (fun p q => peq p q = true) (fun a b => ceq a b = true) e f := by
  cases e <;> cases f <;> simp only [Err.eqv, Bool.false_eq_true, false_iff, beq_iff_eq, true_iff]
  case unbalancedEndChar.unbalancedEndChar => exact ⟨fun h => .unbalancedEndChar h, fun h => by cases h; assumption⟩
  case missingEndChar.missingEndChar => exact .missingEndChar
  case failedAlloc.failedAlloc a b => cases a; cases b; exact .failedAlloc _
  case failedDerefTryMut.failedDerefTryMut => exact .failedDerefTryMut
  case failedCombiner.failedCombiner => exact ⟨fun h => .failedCombiner h, fun h => by cases h; assumption⟩
  all_goals exact fun h => nomatch h

/-- **C49.** If the equalities of the payloads are equivalences, so is that of errors. -/
theorem C49_equivalence {peq : P → P → Bool} {ceq : CE → CE → Bool} (hp : EqvRel peq) (hc : EqvRel ceq) :
    EqvRel (Err.eqv peq ceq) where
  refl e := by
    rw [C49_error_eq]
    cases e with
    | unbalancedEndChar p => exact .unbalancedEndChar (hp.refl p)
    | missingEndChar => exact .missingEndChar
    | failedAlloc a => exact .failedAlloc a
    | failedDerefTryMut => exact .failedDerefTryMut
    | failedCombiner e => exact .failedCombiner (hc.refl e)
  symm a b h := by
    rw [C49_error_eq] at h ⊢
    cases h with
    | unbalancedEndChar h => exact .unbalancedEndChar (hp.symm _ _ h)
    | missingEndChar => exact .missingEndChar
    | failedAlloc a => exact .failedAlloc a
    | failedDerefTryMut => exact .failedDerefTryMut
    | failedCombiner h => exact .failedCombiner (hc.symm _ _ h)
  trans a b c h h' := by
    rw [C49_error_eq] at h h' ⊢
    cases h with
    | unbalancedEndChar h => cases h' with
      | unbalancedEndChar h' => exact .unbalancedEndChar (hp.trans _ _ _ h h')
    | missingEndChar => exact h'
    | failedAlloc a => exact h'
    | failedDerefTryMut => exact h'
    | failedCombiner h => cases h' with
      | failedCombiner h' => exact .failedCombiner (hc.trans _ _ _ h h')

/-! ## Non-vacuity -/

/-- The same datum with its text in one chunk and in two. -/
def sampleDatum₁ : Datum (TextVec PosStr) Nat := .combination (.text (.single (.ofStr ['a', 'b']))) (.extra 3)
def sampleDatum₂ : Datum (TextVec PosStr) Nat :=
  .combination (.text (.multi [.ofStr ['a'], ⟨['b'], ⟨['x', 'b'], 1, 1⟩⟩])) (.extra 3)

example : sampleDatum₁.eqv TextVec.eqFn (fun x y => decide (x = y)) sampleDatum₂ = true := by decide +kernel

example : sampleDatum₁.eqv TextVec.eqFn (fun x y => decide (x = y)) (.text (.multi [])) = false := by
  decide +kernel

/-- A hasher that records everything. -/
def listHasher : HasherOps (List (Bool × Nat)) := ⟨fun h n => (true, n) :: h, fun h n => (false, n) :: h⟩

example : sampleDatum₂.hash listHasher (TextVec.hashFn listHasher) (fun x h => (false, x) :: h) []
    = [(false, 3), (false, 5), (true, 98), (true, 97), (false, 0), (false, 1)] := by decide +kernel

/-- Stored under one chunking, found under another, with a hash that collides often. -/
example : hashLookup (Datum.eqv TextVec.eqFn fun x y => decide (x = y))
    (datumKeyHash listHasher (fun x h => (false, x) :: h) [] List.length)
    (hashInsert (Datum.eqv TextVec.eqFn fun x y => decide (x = y))
      (datumKeyHash listHasher (fun x h => (false, x) :: h) [] List.length)
      (hashInsert (Datum.eqv TextVec.eqFn fun x y => decide (x = y))
        (datumKeyHash listHasher (fun x h => (false, x) :: h) [] List.length) [] sampleDatum₁ 'x')
      .emptyNest 'y')
    sampleDatum₂ = some 'x' := by decide +kernel

example : pairLookup (Datum.eqv TextVec.eqFn fun x y => decide (x = y))
    [(.emptyNest, 'y'), (sampleDatum₁, 'x'), (sampleDatum₂, 'z')] sampleDatum₂ = some 'x' := by
  decide +kernel

/-- Deep on the head side: the comparison needs two levels only. -/
example : (headNest sampleDatum₁ 9).eqRun TextVec.eqFn (fun x y => decide (x = y)) (headNest sampleDatum₂ 9)
    = (true, 2) := by decide +kernel

/-- Errors with different kinds of positions. -/
example : Err.eqv (fun (p : Nat) (q : Int) => (p : Int) == q) (fun (a b : Char) => a == b)
    (.unbalancedEndChar 3) (.unbalancedEndChar 3) = true ∧
  Err.eqv (fun (p : Nat) (q : Int) => (p : Int) == q) (fun (a b : Char) => a == b)
    (.failedCombiner 'a') .missingEndChar = false := by decide

/-- Two entries inserted in the other order than the pairs. -/
example : hashLookup (fun a b : Nat => a == b) (· % 2)
    (hashInsert (fun a b => a == b) (· % 2) (hashInsert (fun a b => a == b) (· % 2) [] 5 'b') 3 'a') 5
    = pairLookup (fun a b : Nat => a == b) [(5, 'b'), (3, 'a')] 5 := by decide

end Kul
