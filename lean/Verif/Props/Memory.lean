import Verif.Props.Streams
import Verif.Proof.CostText

/-!
# C27-C30: memory

`sliceEnv ε CE O cc` is a parser of texts of any chunk type on a slice allocator (`coreEnv`
without bindings is an instance); `unlimitedEnv` is the same with memory that never runs out.
-/

namespace Kul

variable {σ P τ ε α CE C CS : Type}

/-! ## C27 -/

theorem SliceAlloc.used_add {D : Type} (b : SliceAlloc D) :
    b.used + (b.unused.getD []).length = b.mem.length := by
  simp only [SliceAlloc.used, SliceAlloc.unused]
  cases b.free <;> simp

theorem SliceAlloc.newDatum_ok {D : Type} {d : D} {b : SliceAlloc D} {i b'} (h : b.newDatum d = (.ok i, b')) :
    b.free = some i ∧ i < b.mem.length ∧ b' = ⟨b.mem.set i d, some (i + 1)⟩ := by
  simp only [SliceAlloc.newDatum] at h
  split at h
  · cases h
  · split at h
    · rename_i h1 h2; cases h; exact ⟨h1, h2, rfl⟩
    · cases h

theorem sliceAlloc_newDatum_ok {d : Datum τ ε} {b b'} (h : (sliceAlloc τ ε).newDatum d b = (.ok (), b')) :
    ∃ i, b.newDatum d = (.ok i, b') := by
  simp only [sliceAlloc] at h
  rcases h1 : b.newDatum d with ⟨_ | i, b₁⟩ <;> rw [h1] at h <;> cases h
  exact ⟨i, rfl⟩

theorem SliceAlloc.used_ok {D : Type} {d : D} {b : SliceAlloc D} {i b'} (h : b.newDatum d = (.ok i, b')) :
    b.used = i ∧ b'.used = i + 1 := by
  obtain ⟨h1, h2, rfl⟩ := newDatum_ok h
  simp only [used, unused, h1, Option.map_some, Option.getD_some, List.length_drop, List.length_set]
  omega

/-- C27. A parse without errors uses exactly one slot for each reference in the datums returned:
the operator and the operands of each combination, the element and the rest of each list cell,
and each chunk of a text that follows another. -/
theorem C27_slots_used {O : ChunkOps C CS P} {cc : Classifier} {cs : List C}
    {b : SliceAlloc (Datum (TextDatumList C ε) ε)} {l t}
    (hy : (sliceEnv ε CE O cc).Yields (St.init (.ofChunks O cs) b) l t) (hl : ∀ x ∈ l, ∃ d, x = .ok d) :
    t.alloc.used = b.used + totalRefs TextDatumList.refs l := by
  have A : CostAlloc (sliceAlloc (TextDatumList C ε) ε) (sliceAlloc (TextDatumList C ε) ε) 0
      SliceAlloc.used (fun _ => True) (fun _ _ => False) := by
    refine ⟨fun d a a' _ h => ⟨trivial, ?_, fun _ _ h => h.elim⟩, fun _ _ h => h.elim⟩
    obtain ⟨i, h1⟩ := sliceAlloc_newDatum_ok h
    obtain ⟨h2, h3⟩ := SliceAlloc.used_ok h1
    omega
  have hacc : (TextIter.ofChunks O cs : TextIter C CS P (TextDatumList C ε)).accum = none := by
    cases cs <;> rfl
  exact ((textEnv_cost A cc).yields hy hl (by simp [St.init, hacc]) trivial
    (by simp [St.init, hacc, accRefs])).2.1

/-- A parse without errors uses no more slots than there are. -/
theorem slots_le {O : ChunkOps C CS P} {cc : Classifier} {cs : List C}
    {b : SliceAlloc (Datum (TextDatumList C ε) ε)} {l t}
    (h : (sliceEnv ε CE O cc).Yields (St.init (.ofChunks O cs) b) l t) (hl : ∀ x ∈ l, ∃ d, x = .ok d) :
    totalRefs TextDatumList.refs l ≤ (b.unused.getD []).length := by
  have h1 := C27_slots_used h hl
  have h2 := t.alloc.used_add
  have h3 := b.used_add
  have h4 : t.alloc.mem.length = b.mem.length := by
    have A : CostAlloc (sliceAlloc (TextDatumList C ε) ε) (sliceAlloc (TextDatumList C ε) ε) 0
        SliceAlloc.used (fun b' => b'.mem.length = b.mem.length) (fun _ _ => False) := by
      refine ⟨fun d a a' ha h => ⟨?_, ?_, fun _ _ h => h.elim⟩, fun _ _ h => h.elim⟩ <;>
        obtain ⟨i, h1⟩ := sliceAlloc_newDatum_ok h
      · obtain ⟨_, _, rfl⟩ := SliceAlloc.newDatum_ok h1
        simpa using ha
      · obtain ⟨h2, h3⟩ := SliceAlloc.used_ok h1
        omega
    have hacc : (TextIter.ofChunks O cs : TextIter C CS P (TextDatumList C ε)).accum = none := by
      cases cs <;> rfl
    exact ((textEnv_cost A cc).yields h hl (by simp [St.init, hacc]) rfl
      (by simp [St.init, hacc, accRefs])).1
  omega

/-- C27. If with unlimited memory the parse has no errors, then the parse on a slice succeeds
with the same result if and only if the slice has at least as many unused slots as there are
references in that result. -/
theorem C27_enough_iff {O : ChunkOps C CS P} {cc : Classifier} {cs : List C} {l t}
    (hy : (unlimitedEnv ε CE O cc).Yields (St.init (.ofChunks O cs) 0) l t) (hl : ∀ x ∈ l, ∃ d, x = .ok d)
    (b : SliceAlloc (Datum (TextDatumList C ε) ε)) :
    (∃ t', (sliceEnv ε CE O cc).Yields (St.init (.ofChunks O cs) b) l t') ↔
      totalRefs TextDatumList.refs l ≤ (b.unused.getD []).length := by
  constructor
  · rintro ⟨t', h⟩
    exact slots_le h hl
  · intro hN
    have A : ∀ N, CostAlloc (countAlloc (TextDatumList C ε) ε) (sliceAlloc (TextDatumList C ε) ε)
        N id (fun _ => True) (fun n b' => (b'.unused.getD []).length + n = N) := by
      intro N
      refine ⟨?_, fun _ _ _ => rfl⟩
      intro d n n' _ h
      cases h
      refine ⟨trivial, rfl, fun hle b' hb => ?_⟩
      simp only [id_eq] at hle
      simp only [SliceAlloc.unused] at hb ⊢
      rcases hf : b'.free with _ | i <;> rw [hf] at hb <;> simp at hb
      · omega
      · have hi : i < b'.mem.length := by omega
        refine ⟨⟨b'.mem.set i d, some (i + 1)⟩, ?_, ?_⟩
        · simp [sliceAlloc, SliceAlloc.newDatum, hf, hi]
        · simp; omega
    have hacc : (TextIter.ofChunks O cs : TextIter C CS P (TextDatumList C ε)).accum = none := by
      cases cs <;> rfl
    obtain ⟨_, h1, h2⟩ := (textEnv_cost (CE := CE) (A (b.unused.getD []).length) cc).yields hy hl (by simp [St.init, hacc]) trivial
      (by simp [St.init, hacc, accRefs])
    obtain ⟨t', h3, _⟩ := h2 (by simp only [id_eq] at h1 ⊢; simpa [h1, St.init] using hN)
      (St.init (.ofChunks O cs) b) ⟨rfl, rfl, by simp [St.init]⟩
    exact ⟨t', h3⟩

theorem SliceAlloc.new_unused {D : Type} (mem : List D) : (SliceAlloc.new mem).unused.getD [] = mem := by
  cases mem <;> rfl

/-- C27, `parser` of `kul_core` on a string: the number of slots needed. -/
theorem C27_core {s : Str} {l t}
    (hy : (unlimitedEnv ε CE posStrOps defaultClassifier).Yields (St.init (coreSource s) 0) l t)
    (hl : ∀ x ∈ l, ∃ d, x = .ok d) (mem : List (Datum (CoreText ε) ε)) :
    (∃ t', (coreEnv (CE := CE) fun _ => none).Yields (St.init (coreSource s) (SliceAlloc.new mem)) l t') ↔
      totalRefs TextDatumList.refs l ≤ mem.length := by
  have := C27_enough_iff hy hl (SliceAlloc.new mem)
  rwa [SliceAlloc.new_unused] at this

/-! ## C29 -/

/-- C29. The slots handed out are 0, 1, 2, ... in this order, as many as there are; all further
requests fail. What `unused()` gives is the rest of the slice, as it was at the start (nothing
once a request has failed, or if the slice was empty). -/
theorem C29_slots {D : Type} {mem : List D} {ops xs s'}
    (h : SliceAlloc.History (SliceAlloc.new mem) ops xs s') :
    xs = (List.range xs.length).map (fun i => if i < mem.length then .ok i else .error .allocExhausted) ∧
    s'.unused = (if mem = [] ∨ mem.length < xs.length then none else some (mem.drop xs.length)) := by
  have key : ∀ {s : SliceAlloc D} {ops xs s'}, SliceAlloc.History s ops xs s' → ∀ k,
      s.mem.length = mem.length →
      (k ≤ mem.length → s.mem.drop k = mem.drop k) →
      s.free = (if mem = [] ∨ mem.length < k then none else some k) →
      xs = (List.range' k xs.length).map (fun i => if i < mem.length then .ok i else .error .allocExhausted) ∧
      s'.unused = (if mem = [] ∨ mem.length < k + xs.length then none else some (mem.drop (k + xs.length))) := by
    intro s ops xs s' h
    induction h with
    | nil =>
      intro k hlen hd hf
      refine ⟨rfl, ?_⟩
      simp only [SliceAlloc.unused, hf, List.length_nil, Nat.add_zero]
      split
      · rfl
      · rename_i hk
        rw [Option.map_some, hd (by omega)]
    | @request s d x s₁ ops xs s' h1 _ ih =>
      intro k hlen hd hf
      simp only [SliceAlloc.newDatum, hf] at h1
      by_cases hk : mem = [] ∨ mem.length < k
      · rw [if_pos hk] at h1
        cases h1
        have hk' : mem = [] ∨ mem.length < k + 1 := hk.imp id fun h => by omega
        obtain ⟨g1, g2⟩ := ih (k + 1) hlen
          (fun h => by rcases hk with rfl | hk; · simp at hlen; simp [hlen]
                       · omega)
          (by rw [if_pos hk']; rw [if_pos hk] at hf; exact hf)
        have hnk : ¬ k < mem.length := by rcases hk with rfl | hk <;> [simp; omega]
        refine ⟨?_, ?_⟩
        · rw [List.length_cons, List.range'_succ, List.map_cons, if_neg hnk, ← g1]
        · rw [g2, List.length_cons, show k + 1 + xs.length = k + (xs.length + 1) by omega]
      · rw [if_neg hk] at h1
        simp only [hlen] at h1
        by_cases hlt : k < mem.length
        · rw [if_pos hlt] at h1
          cases h1
          obtain ⟨g1, g2⟩ := ih (k + 1) (by simpa using hlen)
            (fun h => by
              simp only
              rw [List.drop_set_of_lt (by omega)]
              have := congrArg (List.drop 1) (hd (by omega))
              simpa [List.drop_drop] using this)
            (by rw [if_neg]; rintro (rfl | h); · simp at hlt
                · omega)
          refine ⟨?_, ?_⟩
          · rw [List.length_cons, List.range'_succ, List.map_cons, if_pos hlt, ← g1]
          · rw [g2, List.length_cons, show k + 1 + xs.length = k + (xs.length + 1) by omega]
        · rw [if_neg hlt] at h1
          cases h1
          obtain ⟨g1, g2⟩ := ih (k + 1) hlen (fun h => by omega) (by rw [if_pos]; exact Or.inr (by omega))
          refine ⟨?_, ?_⟩
          · rw [List.length_cons, List.range'_succ, List.map_cons, if_neg hlt, ← g1]
          · rw [g2, List.length_cons, show k + 1 + xs.length = k + (xs.length + 1) by omega]
    | @write s i d ops xs s' hi _ ih =>
      intro k hlen hd hf
      refine ih k (by simpa using hlen) (fun hk => ?_) hf
      have hu : s.used ≤ k := by
        simp only [SliceAlloc.used, SliceAlloc.unused, hf]
        split
        · rename_i h
          rcases h with rfl | h
          · simp at hlen; simp [hlen]
          · omega
        · simp; omega
      simp only
      rw [List.drop_set_of_lt (by omega)]
      exact hd hk
  have := key h 0 (by cases mem <;> rfl) (fun _ => rfl) (by cases mem <;> simp [SliceAlloc.new])
  simpa [List.range_eq_range'] using this

/-- C29. A slot handed out earlier keeps its contents until its owner writes to it: requests do
not touch it. -/
theorem C29_not_overwritten {D : Type} {s : SliceAlloc D} {ops xs s'} (h : SliceAlloc.History s ops xs s')
    {i : Nat} (hi : i < s.used) (hw : ∀ d, .write i d ∉ ops) : s'.mem[i]? = s.mem[i]? := by
  induction h with
  | nil => rfl
  | @request s d x s₁ ops xs s' h1 _ ih =>
    have hw' : ∀ d, .write i d ∉ ops := fun d h => hw d (by simp [h])
    rcases x with e | j
    · simp only [SliceAlloc.newDatum] at h1
      split at h1
      · cases h1; exact ih hi hw'
      · split at h1
        · cases h1
        · cases h1
          refine ih ?_ hw'
          simp only [SliceAlloc.used, SliceAlloc.unused, Option.map_none, Option.getD_none, List.length_nil]
          have := s.used_add
          omega
    · obtain ⟨h2, h3⟩ := SliceAlloc.used_ok h1
      obtain ⟨_, _, rfl⟩ := SliceAlloc.newDatum_ok h1
      rw [ih (by omega) hw']
      simp only
      rw [List.getElem?_set_ne (by omega)]
  | @write s j d ops xs s' hj _ ih =>
    have hji : j ≠ i := by rintro rfl; exact hw d (by simp)
    rw [ih (by
        simp only [SliceAlloc.used, SliceAlloc.unused] at hi ⊢
        revert hi
        cases s.free <;> simp)
      fun d h => hw d (by simp [h])]
    simp only
    rw [List.getElem?_set_ne hji]

/-- C29. The datum requested is what its slot holds, until its owner writes to it. -/
theorem C29_holds {D : Type} {s s₁ : SliceAlloc D} {d : D} {i ops xs s'} (h1 : s.newDatum d = (.ok i, s₁))
    (h : SliceAlloc.History s₁ ops xs s') (hw : ∀ d, .write i d ∉ ops) : s'.mem[i]? = some d := by
  obtain ⟨_, h3⟩ := SliceAlloc.used_ok h1
  rw [C29_not_overwritten h (by omega) hw]
  obtain ⟨_, h2, rfl⟩ := SliceAlloc.newDatum_ok h1
  simp [h2]

/-! ## C28 -/

section

variable {σ₁ P₁ τ₁ α₁ CE₁ σ₂ P₂ τ₂ α₂ CE₂ : Type}
  {E₁ : Env σ₁ P₁ τ₁ ε α₁ CE₁} {E₂ : Env σ₂ P₂ τ₂ ε α₂ CE₂}
  {RS₁ : σ₁ → Seq P₁ → Prop} {X₁ : TextSem P₁ τ₁ α₁} {RS₂ : σ₂ → Seq P₂ → Prop}
  {X₂ : TextSem P₂ τ₂ α₂} {RC : Char → Char → Prop} {RP : P₁ → P₂ → Prop}
  {RE : CE₁ → CE₂ → Prop} {RX : ε → ε → Prop} {RA : α₁ → α₂ → Prop}

theorem atSame_iff {s : St σ₁ α₁} {t : St σ₂ α₂} {FailOk : Prop} :
    RelSt (confRels RS₁ X₁ RS₂ X₂ RC RP RX RA RE FailOk) s t ↔ AtSame RS₁ RS₂ (ItemRel RC RP) RA s t := by
  constructor
  · rintro ⟨⟨⟨p, r⟩, ⟨p', r'⟩, h1, h2, h3, h4⟩, h5, h6⟩
    exact ⟨p, r, p', r', h1, h2, h3, h4, h5, h6⟩
  · rintro ⟨p, r, p', r', h1, h2, h3, h4, h5, h6⟩
    exact ⟨⟨⟨p, r⟩, ⟨p', r'⟩, h1, h2, h3, h4⟩, h5, h6⟩

/-- C28. Each call. `E₁` may run out of memory, `E₂` does not, and otherwise they agree
(bindings included). At corresponding places, a call of `next` on `E₁` gives what it gives on
`E₂`, or `FailedAlloc`; and in both cases there is a place for `E₂` that corresponds to where
`E₁` is afterwards. So this applies again to the next call, whatever happened before. -/
theorem C28_each_call (C₁ : Conf E₁ RS₁ X₁) (C₂ : Conf E₂ RS₂ X₂)
    (G : Agree RC RP RX RA RE True E₁ X₁ E₂ X₂) {s : St σ₁ α₁} {t : St σ₂ α₂}
    (hst : AtSame RS₁ RS₂ (ItemRel RC RP) RA s t) {o s'} (h : E₁.Call s o s') (hp : o ≠ .panic) :
    (∃ o' t', E₂.Call t o' t' ∧ CallRel RP RE (DatumRel (SameText X₁ X₂ (ItemRel RC RP)) RX) o o' ∧
      AtSame RS₁ RS₂ (ItemRel RC RP) RA s' t') ∨
    ((∃ e, o = .err (.failedAlloc e)) ∧ ∃ t', AtSame RS₁ RS₂ (ItemRel RC RP) RA s' t') := by
  rcases (G.sim C₁ C₂).call (atSame_iff.mpr hst) h with ⟨o', t', h1, h2, h3⟩ | ⟨_, h1, t', h2⟩
  · exact Or.inl ⟨o', t', h1, h2, atSame_iff.mp (h3 hp)⟩
  · exact Or.inr ⟨h1, t', atSame_iff.mp h2⟩

/-- Items seen by calls are those that iteration yields. -/
theorem Env.Calls.prefix_yields {σ P τ ε α CE : Type} {E : Env σ P τ ε α CE}
    {t : St σ α} {os t'} (h : E.Calls t os t') :
    ∀ {l₁ : List (Except (Err P CE) (Datum τ ε))}, List.Forall₂ (fun x o => o = match x with
        | .ok d => .ok (some d) | .error e => .err e) l₁ os →
      ∀ {l t''}, E.Yields t l t'' → ∃ l₂, l = l₁ ++ l₂ := by
  induction h with
  | nil =>
    intro l₁ h l t'' _
    cases h
    exact ⟨l, rfl⟩
  | @cons s o s' os s'' hc _ ih =>
    intro l₁ h l t'' hy
    cases h with
    | @cons x _ l₁ _ hx hl =>
      cases hy with
      | done hc' =>
        obtain ⟨h1, _⟩ := hc.unique hc'
        cases x <;> rw [h1] at hx <;> cases hx
      | datum hc' hy' =>
        obtain ⟨h1, h2⟩ := hc.unique hc'
        subst h2
        obtain ⟨l₂, rfl⟩ := ih hl hy'
        cases x <;> rw [h1] at hx <;> cases hx
        exact ⟨l₂, rfl⟩
      | error hc' hy' =>
        obtain ⟨h1, h2⟩ := hc.unique hc'
        subst h2
        obtain ⟨l₂, rfl⟩ := ih hl hy'
        cases x <;> rw [h1] at hx <;> cases hx
        exact ⟨l₂, rfl⟩

/-- C28. The whole parse. The items of `E₁`, which may run out of memory, are those of `E₂`,
which does not; or `FailedAlloc` occurs, and what comes before it are the first items of `E₂`. -/
theorem C28_prefix (C₁ : Conf E₁ RS₁ X₁) (C₂ : Conf E₂ RS₂ X₂)
    (G : Agree RC RP RX RA RE True E₁ X₁ E₂ X₂) {s₁ r₁ s₂ r₂} (hs₁ : RS₁ s₁ ⟨[], r₁⟩)
    (hs₂ : RS₂ s₂ ⟨[], r₂⟩) (hr : List.Forall₂ (ItemRel RC RP) r₁ r₂) {a₁ a₂} (ha : RA a₁ a₂)
    {l₁ t₁ l₂ t₂} (hy₁ : E₁.Yields (St.init s₁ a₁) l₁ t₁) (hy₂ : E₂.Yields (St.init s₂ a₂) l₂ t₂) :
    List.Forall₂ (ResultRel RP RE (DatumRel (SameText X₁ X₂ (ItemRel RC RP)) RX)) l₁ l₂ ∨
    ∃ before e after before' after', l₁ = before ++ .error (.failedAlloc e) :: after ∧
      l₂ = before' ++ after' ∧
      List.Forall₂ (ResultRel RP RE (DatumRel (SameText X₁ X₂ (ItemRel RC RP)) RX)) before before' := by
  rcases (G.sim C₁ C₂).yields hy₁ (t := ⟨s₂, a₂, 0⟩) ⟨⟨_, _, hs₁, hs₂, .nil, hr⟩, ha, rfl⟩ with
    ⟨l', t', h1, h2, _⟩ | ⟨_, b, e, af, b', h1, ⟨os, t', h2, h3⟩, h4⟩
  · obtain ⟨rfl, _⟩ := h1.unique hy₂
    exact Or.inl h2
  · obtain ⟨af', h5⟩ := h2.prefix_yields h3 hy₂
    exact Or.inr ⟨b, e, af, b', af', h1, h5, h4⟩

/-- Memory that may fail at any allocation, and memory that does not: parsers without bindings
agree but for `FailedAlloc`. -/
theorem Agree.failing (hcc : ClassifierSim RC E₁.cc E₂.cc) (hb₁ : ∀ d, E₁.lookup d = none)
    (hb₂ : ∀ d, E₂.lookup d = none) (A₁ : E₁.alloc.Writable) (A₂ : E₂.alloc.Reliable) (hF₂ : ¬ X₂.F) :
    Agree RC RP Eq (fun _ _ => True) RE True E₁ X₁ E₂ X₂ where
  cc := hcc
  fail₁ := fun _ => trivial
  fail₂ := hF₂
  mem := fun _ _ _ _ _ _ _ => trivial
  alloc := by
    refine ⟨fun d₁ d₂ a b _ _ => ?_⟩
    obtain ⟨b', h1, h2⟩ := A₂.newDatum d₂ b
    rcases h : E₁.alloc.newDatum d₁ a with ⟨e | u, a'⟩
    · exact Or.inr (Or.inr ⟨trivial, e, a', b', rfl, trivial⟩)
    · exact Or.inl ⟨a', b', rfl, h1, trivial, (A₁ _ _ _ h).trans h2.symm⟩
  lookup := fun d₁ d₂ _ => by rw [hb₁, hb₂]; trivial

end

theorem countAlloc_reliable (τ ε : Type) : (countAlloc τ ε).Reliable := ⟨fun _ n => ⟨n + 1, rfl, rfl⟩⟩

theorem countAlloc_not_canFail (τ ε : Type) : ¬ (countAlloc τ ε).CanFail := by
  rintro ⟨d, a, e, a', h⟩
  cases h

/-- C28, any allocator: `fail` is an arbitrary allocator that may fail at any request,
depending on its state and on the datum. Without bindings, for any text. "Same" means the same
characters at the same positions. -/
theorem C28_any_allocator (fail : AllocOps (CoreText ε) ε α) (hw : fail.Writable) (cc : Classifier)
    {cs : List PosStr} {items} (hcs : List.Forall₂ PosStr.Means cs items) (a : α) {l₁ t₁ l₂ t₂}
    (hy₁ : (textEnv (CE := CE) posStrOps (textDatumList posStrOps fail) cc fail fun _ => none).Yields
      (St.init (.ofChunks posStrOps cs) a) l₁ t₁)
    (hy₂ : (unlimitedEnv ε CE posStrOps cc).Yields (St.init (.ofChunks posStrOps cs) 0) l₂ t₂) :
    let Same := ResultRel Eq Eq (DatumRel (SameText
      ((textDatumList posStrOps fail).sem PosStr.Means fail.Steps fail.CanFail)
      ((textDatumList posStrOps (countAlloc _ ε)).sem PosStr.Means (countAlloc (CoreText ε) ε).Steps
        (countAlloc (CoreText ε) ε).CanFail) (ItemRel Eq Eq)) Eq)
    List.Forall₂ Same l₁ l₂ ∨
    ∃ before e after before' after', l₁ = before ++ .error (.failedAlloc e) :: after ∧
      l₂ = before' ++ after' ∧ List.Forall₂ Same before before' :=
  C28_prefix (textEnv_conf posStr_conf (textDatumList_conf posStr_conf fail))
    (textEnv_conf posStr_conf (textDatumList_conf posStr_conf (countAlloc _ ε)))
    (Agree.failing (ClassifierSim.eq _) (fun _ => rfl) (fun _ => rfl) hw (countAlloc_reliable _ _)
      (countAlloc_not_canFail _ _))
    (TextIter.ofChunks_means posStr_conf hcs) (TextIter.ofChunks_means posStr_conf hcs)
    (forall₂_itemRel_eq.mpr rfl) trivial hy₁ hy₂

/-! ## C30 -/

theorem boxAlloc_writable (τ ε α : Type) : (boxAlloc τ ε α).Writable := fun _ _ _ _ => rfl

theorem rcAlloc_writable (τ ε α : Type) : (rcAlloc τ ε α).Writable := by
  intro d a a' h
  cases h
  rfl

theorem sliceAlloc_writable (τ ε : Type) : (sliceAlloc τ ε).Writable := fun _ _ _ _ => rfl

variable {E : Env σ P τ ε α CE} {RS : σ → Seq P → Prop} {X : TextSem P τ α}

/-- C30. In no history of calls is `FailedDerefTryMut` returned if references just made can be
written through, unless a combiner returns it. -/
theorem C30_writable (C : Conf E RS X) (hw : E.alloc.Writable) {s r} (hs : RS s ⟨[], r⟩) {a os t}
    (h : E.Calls (St.init s a) os t) (hd : .err .failedDerefTryMut ∈ os) :
    CombinerError E.lookup .failedDerefTryMut := by
  have key : ∀ {t os t'}, E.Calls t os t' → ∀ {s a r}, t = ⟨s, a, 0⟩ → AtItems RS s r →
      .err .failedDerefTryMut ∈ os → CombinerError E.lookup .failedDerefTryMut := by
    intro t os t' h
    induction h with
    | nil => intro _ _ _ _ _ h; cases h
    | @cons t o t₁ os t₂ hc _ ih =>
      rintro s a r rfl hs hd
      obtain ⟨x, s', r', a', rfl, rfl, h1, h2⟩ := C.call_inv hs hc
      rcases List.mem_cons.mp hd with hd | hd
      · cases x with
        | ok l => cases l <;> simp [optOut] at hd
        | error e =>
          simp only [optOut, Outcome.err.injEq] at hd
          subst hd
          rcases h2.bal with (⟨⟨x, h⟩, _⟩ | ⟨_, d, a, a', h3, h4⟩) | h | ⟨h, _⟩ | ⟨it, h, _⟩
          · cases h
          · rw [hw d a a' h3] at h4; cases h4
          · exact h
          · cases h
          · cases h
      · exact ih rfl h1 hd
  exact key h rfl (AtItems.fresh hs) hd

/-- C30, `Box`es: any conforming source and text type. -/
theorem C30_box {E : Env σ P τ ε α CE} (C : Conf E RS X) (he : E.alloc = boxAlloc τ ε α)
    {s r} (hs : RS s ⟨[], r⟩) {a os t} (h : E.Calls (St.init s a) os t)
    (hd : .err .failedDerefTryMut ∈ os) : CombinerError E.lookup .failedDerefTryMut :=
  C30_writable C (he ▸ boxAlloc_writable _ _ _) hs h hd

/-- C30, `Rc`s and `Arc`s, whatever the combiners do with the references they hold. -/
theorem C30_rc {X : TextSem P τ (List Counts × α)} {E : Env σ P τ ε (List Counts × α) CE} (C : Conf E RS X)
    (he : E.alloc = rcAlloc τ ε α) {s r} (hs : RS s ⟨[], r⟩) {a os t} (h : E.Calls (St.init s a) os t)
    (hd : .err .failedDerefTryMut ∈ os) : CombinerError E.lookup .failedDerefTryMut :=
  C30_writable C (he ▸ rcAlloc_writable _ _ _) hs h hd

/-- C30, slices. -/
theorem C30_slice {X : TextSem P τ (SliceAlloc (Datum τ ε))} {E : Env σ P τ ε (SliceAlloc (Datum τ ε)) CE}
    (C : Conf E RS X) (he : E.alloc = sliceAlloc τ ε) {s r} (hs : RS s ⟨[], r⟩) {a os t}
    (h : E.Calls (St.init s a) os t) (hd : .err .failedDerefTryMut ∈ os) :
    CombinerError E.lookup .failedDerefTryMut :=
  C30_writable C (he ▸ sliceAlloc_writable _ _) hs h hd

/-! ## The hypotheses can be met -/

/-- A string as the model's. -/
private def str (s : String) : Str := s.toList

/-- C27: a parse whose result has five references: two for the combination, two for its list
cell, and one from the first chunk of the escaped text to the second. -/
example : ∃ l t, (unlimitedEnv Empty Empty posStrOps defaultClassifier).Yields
      (St.init (coreSource (str "{a b\\c}")) 0) l t ∧
    (∀ x ∈ l, ∃ d, x = .ok d) ∧ l.length = 1 ∧ totalRefs TextDatumList.refs l = 5 := by
  obtain ⟨l, t, h1, h2⟩ := Env.yields_of_view (E := unlimitedEnv Empty Empty posStrOps defaultClassifier)
    (n := 40) (k := 5) (s := St.init (coreSource (str "{a b\\c}")) 0) (v := (1, true, 5))
    (fun p => (p.1.length, p.1.all (fun x => x matches .ok _), totalRefs TextDatumList.refs p.1)) (by decide +kernel)
  simp only [Prod.mk.injEq, List.all_eq_true] at h2
  refine ⟨l, t, h1, fun x hx => ?_, h2.1, h2.2.2⟩
  have := h2.2.1 x hx
  cases x with
  | ok d => exact ⟨d, rfl⟩
  | error e => cases this

/-- C28: with three slots, the parse of the same source runs out of memory after its first
datum. -/
example : ∃ l t, (coreEnv (ε := Empty) (CE := Empty) fun _ => none).Yields
      (St.init (coreSource (str "x {a b\\c}")) (SliceAlloc.new [.emptyNest, .emptyNest, .emptyNest])) l t ∧
    l.length = 2 ∧ ∃ d after, l = [.ok d] ++ .error (.failedAlloc .allocExhausted) :: after := by
  obtain ⟨l, t, h1, h2⟩ := Env.yields_of_view (E := coreEnv (ε := Empty) (CE := Empty) fun _ => none)
    (n := 40) (k := 9)
    (s := St.init (coreSource (str "x {a b\\c}")) (SliceAlloc.new [.emptyNest, .emptyNest, .emptyNest]))
    (v := some true)
    (fun p => match p.1 with
      | [.ok _, .error e] => some (decide (e = .failedAlloc .allocExhausted))
      | _ => none) (by decide +kernel)
  simp only at h2
  split at h2
  · rename_i d e
    simp only [Option.some.injEq, decide_eq_true_eq] at h2
    subst h2
    exact ⟨_, t, h1, rfl, d, _, rfl⟩
  · cases h2

/-- C29: a history with writes and with requests after the memory is used up. -/
example : ∃ s', SliceAlloc.History (SliceAlloc.new [0, 0]) [.request 5, .request 6, .write 0 7, .request 8]
    [.ok 0, .ok 1, .error .allocExhausted] s' ∧ s'.mem = [7, 6] :=
  ⟨_, .request rfl (.request rfl (.write (by decide) (.request rfl .nil))), rfl⟩

/-- C30: a parser with `Rc`s that builds a list of two elements, by reading a combination and by
calling an applicative that drops all references it can reach and then returns the error. -/
private def rcSample : Env (TextIter PosStr PosStrIter StrPos (TextVec PosStr)) StrPos (TextVec PosStr) Empty
    (List Counts × Unit) Empty :=
  textEnv posStrOps (textVec _ posStrOps) defaultClassifier (rcAlloc _ _ _) fun d => match d with
    | .text (.single c) => if c.val = str "f" then
        some (.applicative fun _ _ s => (.error .failedDerefTryMut, (s.1.map fun _ => ⟨0, 0⟩, s.2))) else none
    | _ => none

example : ∃ os t, rcSample.Calls (St.init (inmemSource (str "{a b{c}}{f b{c}}")) ([], ())) os t ∧
    os.length = 2 ∧ (∃ d, .ok (some d) ∈ os) ∧ .err .failedDerefTryMut ∈ os := by
  obtain ⟨os, t, h, hv⟩ := Env.calls_of_view (E := rcSample) (n := 60) (k := 2)
    (s := St.init (inmemSource (str "{a b{c}}{f b{c}}")) ([], ())) (v := [0, 1])
    (fun o => match o with
        | .ok (some _) => 0
        | .err .failedDerefTryMut => 1
        | _ => 2) (by decide +kernel) (by decide)
  refine ⟨os, t, h, ?_⟩
  clear h
  rcases os with _ | ⟨x, _ | ⟨y, _ | ⟨z, os⟩⟩⟩
  · cases hv
  · simp at hv
  · simp only [List.map_cons, List.map_nil, List.cons.injEq] at hv
    obtain ⟨h1, h2, _⟩ := hv
    split at h1
    · rename_i d
      split at h2
      · cases h2
      · exact ⟨rfl, ⟨d, by simp⟩, by simp⟩
      · cases h2
    · cases h1
    · cases h1
  · simp at hv

end Kul
