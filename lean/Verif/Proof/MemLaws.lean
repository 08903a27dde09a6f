import Verif.Proof.MemHeap

/-! # The provided allocators respect the discipline of ownership -/

namespace Kul.Mem

variable {σ P τ ε β CE : Type}

/-- What is the same for all allocators. -/
structure SameRest {α : Type} (E : Env σ P τ ε α CE) (V : Kul.Env σ P τ ε β CE)
    (Own : α → β → List (Res τ ε) → Prop) : Prop where
  cc : E.cc = V.cc
  empty : E.text.empty = V.text.empty
  strm : ∀ xs, E.strm.Lock (fun a b => Own a b xs) V.strm
  concat : ∀ {a b xs}, Own a b xs → ∀ t u, ∃ o a' b', E.text.concat t u a = (o, a') ∧
    V.text.concat t u b = (o, b') ∧ Own a' b' xs
  lookup : ∀ {a b d D rs xs}, Parts d D rs → Own a b (rs ++ xs) →
    OptRel (CombRel Own) (E.lookup d a) (V.lookup D)

/-! ## `Box`, `Rc`, `Arc` -/

/-- `u` says whether all references are known to be unique, as they are with `Box`es. -/
theorem heapOwnLaws {box u : Bool} (hu : box = true → u = true) :
    OwnLaws (heapMem τ ε box) (heapOwn (β := β) u) where
  perm := HeapOwn.perm
  reads H := HeapOwn.at H List.mem_cons_self
  getMut {a b p D xs} H hm := by
    refine HeapOwn.open H ?_
    cases box with
    | false => simpa [heapMem] using hm
    | true =>
      obtain ⟨d, h1, -⟩ := HeapOwn.reads H p D List.mem_cons_self
      obtain ⟨-, s, hc⟩ := mask_some h1
      have := HeapOwn.box H (hu rfl) p _ hc
      simpa [Heap.strong, hc] using this
  giveBack := HeapOwn.close
  write {a b p d d' xs} H := by
    have hc := HeapOwn.place H p d List.mem_cons_self
    have := HeapOwn.write d' H
    simpa [heapOwn, heapMem, hc] using this
  sole {a b p d xs} H := by simp [heapMem, Heap.strong, HeapOwn.place H p d List.mem_cons_self]
  dropRef H := HeapOwn.drop H

theorem heapLaws {box u : Bool} (hu : box = true → u = true) {E : Env σ P τ ε (Heap τ ε) CE}
    {V : Kul.Env σ P τ ε β CE} (ha : E.alloc = heapMem τ ε box) (hv : V.alloc = boxAlloc τ ε β)
    (R : SameRest E V (heapOwn u)) : Laws E V (heapOwn u) where
  toOwnLaws := ha ▸ heapOwnLaws hu
  newDatum {a b d D rs xs} hp H := by
    refine Or.inl ⟨a.size, _, b, by rw [ha]; rfl, by rw [hv]; rfl, HeapOwn.alloc hp (Nat.le_refl _) H, ?_⟩
    rw [ha, hv]
    simp [heapMem, boxAlloc, Heap.strong, Heap.put]
  fresh b := by rw [hv]; rfl
  cc := R.cc
  peek := (R.strm []).peek
  next := (R.strm []).next
  empty := R.empty
  nextAccum H := (R.strm _).nextAccum H
  accumDone H := (R.strm _).accumDone H
  concat := R.concat
  lookup := R.lookup

/-! ## Slices -/

/-- Dropping only removes. -/
theorem Heap.release_sub (n : Nat) : ∀ (ps : List Addr) (h : Heap τ ε), (h.release n ps).size = h.size ∧
    ∀ k c, (h.release n ps).cells k = some c → ∃ s, h.cells k = some ⟨s, c.dat⟩ := by
  induction n with
  | zero => exact fun ps h => ⟨rfl, fun k c hk => ⟨_, hk⟩⟩
  | succ n ih =>
    intro ps h
    cases ps with
    | nil => exact ⟨rfl, fun k c hk => ⟨_, hk⟩⟩
    | cons p ps =>
      simp only [Heap.release]
      cases hc : h.cells p with
      | none => exact ih ps h
      | some c =>
        simp only
        split
        · refine ⟨(ih _ _).1, fun k c' hk => ?_⟩
          obtain ⟨s, h1⟩ := (ih _ _).2 k c' hk
          by_cases e : k = p
          · simp [Heap.put, e] at h1
          · simp only [Heap.put, if_neg e] at h1
            exact ⟨s, h1⟩
        · refine ⟨(ih _ _).1, fun k c' hk => ?_⟩
          obtain ⟨s, h1⟩ := (ih _ _).2 k c' hk
          by_cases e : k = p
          · simp only [Heap.put, e, if_true, Option.some.injEq, Cell.mk.injEq] at h1
            rw [e, hc, ← h1.2]
            exact ⟨_, rfl⟩
          · simp only [Heap.put, if_neg e] at h1
            exact ⟨s, h1⟩

theorem drop_sub {h : Heap τ ε} {a : SliceAlloc (Dat τ ε)} (p : Addr)
    (h4 : ∀ k c, h.cells k = some c → a.mem[k]? = some c.dat) :
    ∀ k c, ((heapMem τ ε true).dropRef p h).cells k = some c → a.mem[k]? = some c.dat := by
  intro k c hk
  obtain ⟨s, h1⟩ := (Heap.release_sub _ _ _).2 k c hk
  exact h4 k ⟨s, c.dat⟩ h1

theorem sliceOwn.skip {a : SliceAlloc (Dat τ ε)} {b : SliceAlloc (Datum τ ε)} {xs : List (Res τ ε)}
    (H : sliceOwn a b xs) (t : τ) (D : Datum τ ε) :
    ∃ o a' b', a.newDatum (.text t) = (o, a') ∧ b.newDatum D = (o, b') ∧ sliceOwn a' b' xs := by
  obtain ⟨h1, h2, h, H, h3, h4⟩ := H
  unfold SliceAlloc.newDatum
  rw [← h1, ← h2]
  cases hf : a.free with
  | none => exact ⟨_, _, _, rfl, rfl, h1, h2, h, H, h3, h4⟩
  | some i =>
    simp only
    have hi := h3 i hf
    split
    · refine ⟨_, _, _, rfl, rfl, rfl, by simp [h2], _, H.skip (k := i + 1) (Nat.le_succ_of_le hi), ?_, ?_⟩
      · intro j hj
        cases hj
        exact Nat.le_refl _
      · intro k c hk
        have : k < h.size := H.lt (by rw [show h.cells k = some c from hk]; simp)
        simp only
        rw [List.getElem?_set_ne (Nat.ne_of_gt (Nat.lt_of_lt_of_le this hi))]
        exact h4 k c hk
    · exact ⟨_, _, _, rfl, rfl, rfl, h2, h, H, fun j hj => (by cases hj), h4⟩

theorem sliceLaws {E : Env σ P τ ε (SliceAlloc (Dat τ ε)) CE} {V : Kul.Env σ P τ ε (SliceAlloc (Datum τ ε)) CE}
    (ha : E.alloc = sliceMem τ ε) (hv : V.alloc = sliceAlloc τ ε) (R : SameRest E V sliceOwn) :
    Laws E V sliceOwn where
  perm := fun ⟨h1, h2, h, H, h3, h4⟩ p => ⟨h1, h2, h, H.perm p, h3, h4⟩
  reads {a b p D xs} H := by
    obtain ⟨h1, h2, h, H, h3, h4⟩ := H
    rw [ha]
    refine At.mono (fun k d hk => ?_) (H.at List.mem_cons_self)
    cases hc : h.cells k with
    | none => simp [hc] at hk
    | some c =>
      simp only [hc, Option.map_some, Option.some.injEq] at hk
      rw [← hk]
      exact h4 k c hc
  newDatum {a b d D rs xs} hp H := by
    obtain ⟨h1, h2, h, H, h3, h4⟩ := H
    rw [ha, hv]
    simp only [sliceMem, sliceAlloc]
    have drop : sliceOwn a b xs := by
      cases hp with
      | text | emptyNest | emptyList | extra => exact ⟨h1, h2, h, H, h3, h4⟩
      | combination | list =>
        refine ⟨h1, h2, _, HeapOwn.drop (HeapOwn.drop H), ?_, drop_sub _ (drop_sub _ h4)⟩
        intro i hi
        exact Nat.le_trans (Nat.le_of_eq (((Heap.release_sub _ _ _).1).trans (Heap.release_sub _ _ _).1)) (h3 i hi)
    cases hf : a.free with
    | none =>
      refine Or.inr ⟨.allocExhausted, a, b, by simp [SliceAlloc.newDatum, hf], by simp [SliceAlloc.newDatum, ← h1, hf], drop⟩
    | some i =>
      by_cases hi : i < a.mem.length
      · refine Or.inl ⟨i, ⟨a.mem.set i d, some (i + 1)⟩, ⟨b.mem.set i D, some (i + 1)⟩,
          by simp [SliceAlloc.newDatum, hf, hi],
          by simp [SliceAlloc.newDatum, ← h1, hf, ← h2, hi], ⟨rfl, by simp [h2], _,
            HeapOwn.alloc hp (h3 i hf) H, ?_, ?_⟩, trivial⟩
        · intro j hj
          cases hj
          exact Nat.le_refl _
        · intro k c hk
          by_cases e : k = i
          · subst e
            simp only [Heap.put, if_true] at hk
            cases hk
            simp [hi]
          · simp only [Heap.put, if_neg e] at hk
            simp only
            rw [List.getElem?_set_ne (Ne.symm e)]
            exact h4 k c hk
      · refine Or.inr ⟨.allocExhausted, ⟨a.mem, none⟩, ⟨b.mem, none⟩, by simp [SliceAlloc.newDatum, hf, hi],
          by simp [SliceAlloc.newDatum, ← h1, hf, ← h2, hi], ?_⟩
        obtain ⟨d1, d2, h', d3, d4, d5⟩ := drop
        exact ⟨rfl, h2, h', d3, fun _ hj => (by cases hj), d5⟩
  getMut {a b p D xs} H _ := by
    obtain ⟨h1, h2, h, H, h3, h4⟩ := H
    obtain ⟨d, k1, -⟩ := H.reads p D List.mem_cons_self
    obtain ⟨-, s, hc⟩ := mask_some k1
    have := H.box rfl p _ hc
    obtain ⟨d, rs, hp, H'⟩ := HeapOwn.open H (by simpa [Heap.strong, hc] using this)
    exact ⟨d, rs, hp, h1, h2, h, H', h3, h4⟩
  giveBack := fun hp ⟨h1, h2, h, H, h3, h4⟩ => ⟨h1, h2, h, H.close hp, h3, h4⟩
  write {a b p d d' xs} H := by
    obtain ⟨h1, h2, h, H, h3, h4⟩ := H
    rw [ha]
    have hc := H.place p d List.mem_cons_self
    refine ⟨h1, by simp [sliceMem, h2], _, HeapOwn.write d' H, h3, ?_⟩
    intro k c hk
    simp only [sliceMem]
    by_cases e : k = p
    · subst e
      simp only [Heap.put, if_true] at hk
      cases hk
      have hl : k < a.mem.length := by
        have := h4 k _ hc
        by_contra hn
        rw [List.getElem?_eq_none (Nat.not_lt.mp hn)] at this
        cases this
      simp [hl]
    · simp only [Heap.put, if_neg e] at hk
      rw [List.getElem?_set_ne (Ne.symm e)]
      exact h4 k c hk
  sole _ := by rw [ha]; rfl
  fresh b := by rw [hv]; rfl
  dropRef {a b p D xs} H := by
    obtain ⟨h1, h2, h, H, h3, h4⟩ := H
    rw [ha]
    refine ⟨h1, h2, _, HeapOwn.drop H, fun i hi => ?_, drop_sub _ h4⟩
    exact Nat.le_trans (Nat.le_of_eq (Heap.release_sub _ _ _).1) (h3 i hi)
  cc := R.cc
  peek := (R.strm []).peek
  next := (R.strm []).next
  empty := R.empty
  nextAccum H := (R.strm _).nextAccum H
  accumDone H := (R.strm _).accumDone H
  concat := R.concat
  lookup := R.lookup

end Kul.Mem
