import Verif.Spec.WeakSim

/-!
# Weak references do not matter for dropping
-/

namespace Kul.WeakDrop

open RcCell (Heap Cell Replaced)

variable {f : Nat → Nat} {g : Heap Dat} {h : RcHeap.Heap Unit}

theorem Dat.cls_at (d : Dat) : (d.at f).cls = d.cls := by cases d <;> rfl

theorem Dat.at_ext {f f' : Nat → Nat} {d : Dat} {n : Nat} (b : d.Below n) (e : ∀ j, j < n → f' j = f j) : d.at f' = d.at f := by
  cases d <;> simp only [Dat.at]
  rw [e _ b.1, e _ b.2]

theorem Dat.Below.mono {d : Dat} {n m : Nat} (b : d.Below n) (e : n ≤ m) : d.Below m := by
  cases d <;> simp only [Dat.Below] at *
  omega

theorem get_some {k : Nat} {d : Dat} (e : RcCell.get k g = some d) : ∃ s w, g.cell k = some ⟨some d, s, w⟩ := by
  simp only [RcCell.get] at e
  rcases hc : g.cell k with _ | ⟨v, s, w⟩
  · simp [hc] at e
  · simp [hc] at e; subst e; exact ⟨s, w, rfl⟩

theorem Stands.at (S : Stands f g h) {k : Nat} {d : Dat} (e : RcCell.get k g = some d) :
    ∃ s w, g.cell k = some ⟨some d, s, w⟩ ∧ h (f k) = some ⟨s, d.at f⟩ ∧ d.Below g.next ∧ 1 ≤ s ∧ k < g.next := by
  obtain ⟨s, w, hc⟩ := get_some e
  refine ⟨s, w, hc, (S.live _ _ _ _ hc).1, (S.live _ _ _ _ hc).2.1, (S.live _ _ _ _ hc).2.2, ?_⟩
  rcases Nat.lt_or_ge k g.next with hn | hn
  · exact hn
  · rw [S.free k hn] at hc; cases hc

/-- A cell that becomes another live one. -/
theorem Stands.put (S : Stands f g h) {k : Nat} {d d' : Dat} {s s' w w' : Nat} (e : g.cell k = some ⟨some d, s, w⟩)
    (b : d'.Below g.next) (hs : 1 ≤ s') :
    Stands f (g.put k (some ⟨some d', s', w'⟩)) (h.put (f k) (some ⟨s', d'.at f⟩)) := by
  have lk : RcCell.get k g ≠ none := by simp [RcCell.get, e]
  have gg : ∀ j, RcCell.get j (g.put k (some ⟨some d', s', w'⟩)) ≠ none → RcCell.get j g ≠ none := fun j hj => by
    by_cases hjk : j = k
    · rw [hjk]; exact lk
    · simpa [RcCell.get, Heap.put, hjk] using hj
  refine ⟨fun j dj sj wj hj => ?_, fun j j' h1 h2 => S.inj j j' (gg _ h1) (gg _ h2), fun j hj => ?_, fun j hj => ?_⟩
  · by_cases hjk : j = k
    · subst hjk
      simp [Heap.put] at hj
      obtain ⟨rfl, rfl, rfl⟩ := hj
      exact ⟨by simp [RcHeap.Heap.put], b, hs⟩
    · simp only [Heap.put, if_neg hjk] at hj
      have l := S.live _ _ _ _ hj
      have hne : f j ≠ f k := fun x => hjk (S.inj _ _ (by simp [RcCell.get, hj]) lk x)
      exact ⟨by simpa [RcHeap.Heap.put, hne] using l.1, l.2.1, l.2.2⟩
  · by_cases hjk : j = f k
    · exact ⟨k, by simp [RcCell.get, Heap.put], hjk.symm⟩
    · obtain ⟨k2, h1, h2⟩ := S.onto j (by simpa [RcHeap.Heap.put, hjk] using hj)
      refine ⟨k2, ?_, h2⟩
      have : k2 ≠ k := fun x => hjk (by rw [← h2, x])
      simpa [RcCell.get, Heap.put, this] using h1
  · have : j ≠ k := fun x => by
      have := S.free j hj
      rw [x, e] at this; cases this
    simpa [Heap.put, this] using S.free j hj

/-- A cell that is no longer live. -/
theorem Stands.gone (S : Stands f g h) {k : Nat} {d : Dat} {s w : Nat} (e : g.cell k = some ⟨some d, s, w⟩)
    (c : Option (Cell Dat)) (hc : c.bind (·.val) = none) : Stands f (g.put k c) (h.put (f k) none) := by
  have lk : RcCell.get k g ≠ none := by simp [RcCell.get, e]
  have gg : ∀ j, RcCell.get j (g.put k c) ≠ none → RcCell.get j g ≠ none := fun j hj => by
    by_cases hjk : j = k
    · rw [hjk]; exact lk
    · simpa [RcCell.get, Heap.put, hjk] using hj
  refine ⟨fun j dj sj wj hj => ?_, fun j j' h1 h2 => S.inj j j' (gg _ h1) (gg _ h2), fun j hj => ?_, fun j hj => ?_⟩
  · by_cases hjk : j = k
    · subst hjk
      simp only [Heap.put, if_true] at hj
      subst hj; simp at hc
    · simp only [Heap.put, if_neg hjk] at hj
      have l := S.live _ _ _ _ hj
      have hne : f j ≠ f k := fun x => hjk (S.inj _ _ (by simp [RcCell.get, hj]) lk x)
      exact ⟨by simpa [RcHeap.Heap.put, hne] using l.1, l.2.1, l.2.2⟩
  · by_cases hjk : j = f k
    · simp [RcHeap.Heap.put, hjk] at hj
    · obtain ⟨k2, h1, h2⟩ := S.onto j (by simpa [RcHeap.Heap.put, hjk] using hj)
      refine ⟨k2, ?_, h2⟩
      have : k2 ≠ k := fun x => hjk (by rw [← h2, x])
      simpa [RcCell.get, Heap.put, this] using h1
  · have : j ≠ k := fun x => by
      have := S.free j hj
      rw [x, e] at this; cases this
    simpa [Heap.put, this] using S.free j hj

/-- A cell without datum changes, or only the weak count. -/
theorem Stands.weak (S : Stands f g h) {k : Nat} {c c' : Option (Cell Dat)} (e : g.cell k = c) (hk : k < g.next)
    (hv : (c.bind (·.val) = none ∧ c'.bind (·.val) = none) ∨ ∃ d s w w', c = some ⟨some d, s, w⟩ ∧ c' = some ⟨some d, s, w'⟩) :
    Stands f (g.put k c') h := by
  have gg : ∀ j, RcCell.get j (g.put k c') = RcCell.get j g := fun j => by
    by_cases hjk : j = k
    · subst hjk
      rcases hv with ⟨h1, h2⟩ | ⟨d, s, w, w', rfl, rfl⟩
      · simp only [RcCell.get, Heap.put, if_true, e, h1, h2]
      · simp [RcCell.get, Heap.put, e]
    · simp [RcCell.get, Heap.put, hjk]
  refine ⟨fun j dj sj wj hj => ?_, fun j j' h1 h2 => S.inj j j' (by rwa [gg] at h1) (by rwa [gg] at h2), fun j hj => ?_, fun j hj => ?_⟩
  · by_cases hjk : j = k
    · subst hjk
      simp only [Heap.put, if_true] at hj
      subst hj
      rcases hv with ⟨h1, h2⟩ | ⟨d, s, w, w', rfl, h2⟩
      · simp at h2
      · cases h2; exact S.live _ _ _ _ e
    · simp only [Heap.put, if_neg hjk] at hj
      exact S.live _ _ _ _ hj
  · obtain ⟨k2, h1, h2⟩ := S.onto j hj
    exact ⟨k2, by rwa [gg], h2⟩
  · have : j ≠ k := by have : g.next ≤ j := hj; omega
    simpa [Heap.put, this] using S.free j hj

theorem Stands.next (S : Stands f g h) {n : Nat} (hn : g.next ≤ n) : Stands f { g with next := n } h :=
  ⟨fun k d s w e => ⟨(S.live k d s w e).1, (S.live k d s w e).2.1.mono hn, (S.live k d s w e).2.2⟩, S.inj, S.onto,
    fun k hk => S.free k (Nat.le_trans hn hk)⟩

theorem Stands.store_weak (S : Stands f g h) {k : Nat} {c : Cell Dat} (e : g.cell k = some c) (w' : Nat) :
    Stands f (g.store k { c with weak := w' }) h := by
  obtain ⟨v, s, w⟩ := c
  have hk : k < g.next := by
    rcases Nat.lt_or_ge k g.next with hn | hn
    · exact hn
    · rw [S.free k hn] at e; cases e
  rw [Heap.store]
  refine S.weak e hk ?_
  cases v with
  | none => left; refine ⟨rfl, ?_⟩; simp only; split <;> rfl
  | some d =>
    have := (S.live _ _ _ _ e).2.2
    right; exact ⟨d, s, w, w', rfl, by simp only; rw [if_neg (by omega)]⟩

theorem Stands.tidy (S : Stands f g h) (k : Nat) : Stands f (tidy k g) h := by
  rw [WeakDrop.tidy]
  split
  · rename_i c e; exact S.store_weak e c.weak
  · exact S

theorem Stands.dropWeak (S : Stands f g h) (k : Nat) : Stands f (RcCell.dropWeak k g) h := by
  rw [RcCell.dropWeak]
  split
  · rename_i c e; exact S.store_weak e _
  · exact S

theorem store_next (k : Nat) (c : Cell Dat) : (g.store k c).next = g.next := rfl

theorem tidy_next (k : Nat) : (tidy k g).next = g.next := by rw [tidy]; split <;> rfl

theorem dropWeak_next (k : Nat) : (RcCell.dropWeak k g).next = g.next := by rw [RcCell.dropWeak]; split <;> rfl

/-- A fresh cell in place of one that loses its datum. -/
theorem Stands.move (S : Stands f g h) {k : Nat} {d : Dat} {s w : Nat} (e : g.cell k = some ⟨some d, s, w⟩) (hk : k < g.next)
    (c : Option (Cell Dat)) (hc : c.bind (·.val) = none) :
    Stands (fun j => if j = g.next then f k else f j) ((RcCell.new Dat.temp g).2.put k c) (h.put (f k) (some ⟨1, .leaf none⟩)) := by
  have lk : RcCell.get k g ≠ none := by simp [RcCell.get, e]
  have hkn : g.next ≠ k := by omega
  have cellN : ((RcCell.new Dat.temp g).2.put k c).cell g.next = some ⟨some .temp, 1, 0⟩ := by
    simp [Heap.put, RcCell.new, hkn]
  have cellO : ∀ j, j ≠ g.next → j ≠ k → ((RcCell.new Dat.temp g).2.put k c).cell j = g.cell j := fun j h1 h2 => by
    simp [Heap.put, RcCell.new, h1, h2]
  have cellK : ((RcCell.new Dat.temp g).2.put k c).cell k = c := by simp [Heap.put]
  have lt : ∀ j, RcCell.get j g ≠ none → j < g.next := fun j hj => by
    rcases Nat.lt_or_ge j g.next with hn | hn
    · exact hn
    · exact absurd (by simp [RcCell.get, S.free j hn]) hj
  have cases : ∀ j, RcCell.get j ((RcCell.new Dat.temp g).2.put k c) ≠ none →
      j = g.next ∨ (j ≠ g.next ∧ j ≠ k ∧ RcCell.get j g ≠ none) := fun j hj => by
    by_cases h1 : j = g.next
    · exact .inl h1
    · by_cases h2 : j = k
      · subst h2; simp only [RcCell.get, cellK] at hj; exact absurd hc hj
      · right; refine ⟨h1, h2, ?_⟩; simpa only [RcCell.get, cellO j h1 h2] using hj
  refine ⟨fun j dj sj wj hj => ?_, fun j j' h1 h2 he => ?_, fun j hj => ?_, fun j hj => ?_⟩
  · rcases cases j (by simp [RcCell.get, hj]) with rfl | ⟨h1, h2, h3⟩
    · rw [cellN] at hj
      simp only [Option.some.injEq, Cell.mk.injEq] at hj
      obtain ⟨rfl, rfl, rfl⟩ := hj
      exact ⟨by simp [RcHeap.Heap.put, Dat.at], trivial, by omega⟩
    · rw [cellO j h1 h2] at hj
      have l := S.live _ _ _ _ hj
      have hne : f j ≠ f k := fun x => h2 (S.inj _ _ h3 lk x)
      refine ⟨?_, l.2.1.mono (by simp [RcCell.new, Heap.put]), l.2.2⟩
      have ext : dj.at (fun j => if j = g.next then f k else f j) = dj.at f :=
        Dat.at_ext l.2.1 fun i hi => if_neg (by omega)
      simp only [if_neg h1, RcHeap.Heap.put, if_neg hne, ext]
      exact l.1
  · rcases cases j h1 with rfl | ⟨a1, a2, a3⟩ <;> rcases cases j' h2 with rfl | ⟨b1, b2, b3⟩
    · rfl
    · simp only [if_true, if_neg b1] at he
      exact absurd (S.inj _ _ lk b3 he).symm b2
    · simp only [if_true, if_neg a1] at he
      exact absurd (S.inj _ _ a3 lk he) a2
    · simp only [if_neg a1, if_neg b1] at he
      exact S.inj _ _ a3 b3 he
  · by_cases hjk : j = f k
    · exact ⟨g.next, by simp [RcCell.get, cellN], by simp [hjk]⟩
    · obtain ⟨k2, h1, h2⟩ := S.onto j (by simpa [RcHeap.Heap.put, hjk] using hj)
      have n1 : k2 ≠ k := fun x => hjk (by rw [← h2, x])
      have n2 : k2 ≠ g.next := by have := lt _ h1; omega
      exact ⟨k2, by simpa only [RcCell.get, cellO k2 n2 n1] using h1, by simp [n2, h2]⟩
  · have hj' : g.next + 1 ≤ j := hj
    rw [cellO j (by omega) (by omega)]
    exact S.free j (by omega)

/-- `trytake` does the same with both heaps. -/
theorem Stands.take (S : Stands f g h) (arc : Bool) {k : Nat} {d : Dat} (e : RcCell.get k g = some d) :
    (∃ v g', tryTake arc k g = .err v k g' ∧ RcHeap.tryTake (f k) h = none ∧ Stands f g' h ∧ g.next ≤ g'.next ∧
      ∀ j, RcCell.get j g' = RcCell.get j g) ∨
    ∃ k' g' f' h', tryTake arc k g = .ok d k' g' ∧ RcHeap.tryTake (f k) h = some (d.at f, h') ∧ Stands f' g' h' ∧
      (∀ j, j < g.next → f' j = f j) ∧ g.next ≤ g'.next ∧ f' k' = f k ∧ g'.cell k' = some ⟨some .temp, 1, 0⟩ := by
  obtain ⟨s, w, hc, hh, hb, hs, hk⟩ := S.at e
  have hkn : g.next ≠ k := by omega
  have nc : (RcCell.new Dat.temp g).2.cell k = some ⟨some d, s, w⟩ := by simp [RcCell.new, Heap.put, hkn.symm, hc]
  by_cases h1 : s = 1
  · subst h1
    right
    have rep : ∃ k' g' f' h', RcCell.tryReplace k .temp g = .ok d k' g' ∧ RcHeap.tryTake (f k) h = some (d.at f, h') ∧ Stands f' g' h' ∧
      (∀ j, j < g.next → f' j = f j) ∧ g.next ≤ g'.next ∧ f' k' = f k ∧ g'.cell k' = some ⟨some .temp, 1, 0⟩ := by
      refine ⟨g.next, _, _, _, ?_, by simp [RcHeap.tryTake, hh], S.move hc hk (if (0 = 0 ∧ w = 0) then none else some ⟨none, 0, w⟩)
        (by split <;> rfl), fun j hj => if_neg (by omega), by simp [RcCell.new, Heap.put], by simp, by simp [RcCell.new, Heap.put, hkn]⟩
      simp only [RcCell.tryReplace, RcCell.tryUnwrap, nc, Heap.store]
      rfl
    cases arc with
    | true => simpa [tryTake] using rep
    | false =>
      by_cases hw : w = 0
      · subst hw
        refine ⟨k, g.put k (some ⟨some .temp, 1, 0⟩), f, _, ?_, by simp [RcHeap.tryTake, hh, Dat.at], S.put (d' := .temp) (s' := 1) hc trivial (by omega), fun _ _ => rfl,
          by simp [Heap.put], rfl, by simp [Heap.put]⟩
        simp [tryTake, RcCell.tryReplaceOptim, RcCell.counts, RcCell.canMut, RcCell.assign, hc, e]
      · obtain ⟨w, rfl⟩ : ∃ w', w = w' + 1 := ⟨w - 1, by omega⟩
        simpa [tryTake, RcCell.tryReplaceOptim, RcCell.counts, hc] using rep
  · left
    have tn : RcHeap.tryTake (f k) h = none := by simp [RcHeap.tryTake, hh, h1]
    cases arc with
    | true =>
      have this : ((RcCell.new Dat.temp g).2.put g.next none) = { g with next := g.next + 1 } := by
        simp only [RcCell.new, Heap.put, Heap.mk.injEq, and_true]
        funext j
        by_cases hj : j = g.next
        · simp [hj, S.free g.next (Nat.le_refl _)]
        · simp [hj]
      refine ⟨.temp, ((RcCell.new Dat.temp g).2.put g.next none), ?_, tn, ?_, by simp [RcCell.new, Heap.put], fun j => by rw [this]; rfl⟩
      · simp only [tryTake, if_true, RcCell.tryReplace, RcCell.tryUnwrap, nc]
        split
        · rename_i e1; split at e1
          · rename_i e2; simp at e2; omega
          · cases e1
        · rename_i e1; split at e1
          · cases e1
          · cases e1
            simp [RcCell.new, Heap.put, Heap.store]
      · rw [this]; exact S.next (Nat.le_succ _)
    | false =>
      refine ⟨.temp, g, ?_, tn, S, Nat.le_refl _, fun _ => rfl⟩
      simp only [tryTake, RcCell.tryReplaceOptim, RcCell.counts, hc, Bool.false_eq_true, if_false]
      split
      · rename_i e1; simp at e1; omega
      · rename_i e1; simp at e1; omega
      · rfl

theorem cls_or (c : Drop.Class) : c = .leaf ∨ c = .branch := by cases c <;> simp

theorem Stands.choose (S : Stands f g h) (arc : Bool) (lock : Option Drop.Side) (l r : Nat) :
    choose arc lock l r g = .bad ∨
    (∃ g', choose arc lock l r g = .abort g' ∧ RcHeap.choose lock (f l) (f r) h = .abort ∧ Stands f g' h ∧ g.next ≤ g'.next) ∨
    ∃ mode d reuse oc other g' f' h', choose arc lock l r g = .side mode d reuse oc other g' ∧
      RcHeap.choose lock (f l) (f r) h = .side mode (d.at f) (f' reuse) oc (f other) h' ∧ Stands f' g' h' ∧
      (∀ j, j < g.next → f' j = f j) ∧ g.next ≤ g'.next ∧ g'.cell reuse = some ⟨some .temp, 1, 0⟩ ∧ d.Below g.next ∧ other < g.next := by
  rcases el : RcCell.get l g with _ | dl
  · left; simp [WeakDrop.choose, el]
  rcases er : RcCell.get r g with _ | dr
  · left; simp [WeakDrop.choose, el, er]
  obtain ⟨sl, wl, cl, hl, bl, _, kl⟩ := S.at el
  obtain ⟨sr, wr, cr, hr, br, _, kr⟩ := S.at er
  right
  rcases cls_or dl.cls with hcl | hcl <;> rcases cls_or dr.cls with hcr | hcr
  · exact .inl ⟨g, by rcases lock with _ | _ | _ <;> simp [WeakDrop.choose, el, er, hcl, hcr],
      by rcases lock with _ | _ | _ <;> simp [RcHeap.choose, hl, hr, Dat.cls_at, hcl, hcr], S, Nat.le_refl _⟩
  · rcases S.take arc er with ⟨v, g', t1, t2, t3, t4, _⟩ | ⟨k', g', f', h', t1, t2, t3, t4, t5, t6, t7⟩
    · exact .inl ⟨g', by rcases lock with _ | _ | _ <;> simp [WeakDrop.choose, el, er, hcl, hcr, t1],
        by rcases lock with _ | _ | _ <;> simp [RcHeap.choose, hl, hr, Dat.cls_at, hcl, hcr, t2], t3, t4⟩
    · exact .inr ⟨.right, dr, k', .leaf, l, g', f', h', by rcases lock with _ | _ | _ <;> simp [WeakDrop.choose, el, er, hcl, hcr, t1],
        by rcases lock with _ | _ | _ <;> simp [RcHeap.choose, hl, hr, Dat.cls_at, hcl, hcr, t2, t6], t3, t4, t5, t7, br, kl⟩
  · rcases S.take arc el with ⟨v, g', t1, t2, t3, t4, _⟩ | ⟨k', g', f', h', t1, t2, t3, t4, t5, t6, t7⟩
    · exact .inl ⟨g', by rcases lock with _ | _ | _ <;> simp [WeakDrop.choose, el, er, hcl, hcr, t1],
        by rcases lock with _ | _ | _ <;> simp [RcHeap.choose, hl, hr, Dat.cls_at, hcl, hcr, t2], t3, t4⟩
    · exact .inr ⟨.left, dl, k', .leaf, r, g', f', h', by rcases lock with _ | _ | _ <;> simp [WeakDrop.choose, el, er, hcl, hcr, t1],
        by rcases lock with _ | _ | _ <;> simp [RcHeap.choose, hl, hr, Dat.cls_at, hcl, hcr, t2, t6], t3, t4, t5, t7, bl, kr⟩
  · rcases lock with _ | _ | _
    · rcases S.take arc el with ⟨v, g', t1, t2, t3, t4, tg⟩ | ⟨k', g', f', h', t1, t2, t3, t4, t5, t6, t7⟩
      · rcases t3.take arc ((tg r).trans er) with ⟨v', g2, u1, u2, u3, u4, _⟩ | ⟨k', g2, f', h', u1, u2, u3, u4, u5, u6, u7⟩
        · exact .inl ⟨g2, by simp [WeakDrop.choose, el, er, hcl, hcr, t1, u1],
            by simp [RcHeap.choose, hl, hr, Dat.cls_at, hcl, hcr, t2, u2], u3, Nat.le_trans t4 u4⟩
        · exact .inr ⟨.right, dr, k', .branch, l, g2, f', h', by simp [WeakDrop.choose, el, er, hcl, hcr, t1, u1],
            by simp [RcHeap.choose, hl, hr, Dat.cls_at, hcl, hcr, t2, u2, u6], u3, fun j hj => u4 j (Nat.lt_of_lt_of_le hj t4),
            Nat.le_trans t4 u5, u7, br, kl⟩
      · exact .inr ⟨.left, dl, k', .branch, r, g', f', h', by simp [WeakDrop.choose, el, er, hcl, hcr, t1],
          by simp [RcHeap.choose, hl, hr, Dat.cls_at, hcl, hcr, t2, t6], t3, t4, t5, t7, bl, kr⟩
    · rcases S.take arc el with ⟨v, g', t1, t2, t3, t4, _⟩ | ⟨k', g', f', h', t1, t2, t3, t4, t5, t6, t7⟩
      · exact .inl ⟨g', by simp [WeakDrop.choose, el, er, hcl, hcr, t1],
          by simp [RcHeap.choose, hl, hr, Dat.cls_at, hcl, hcr, t2], t3, t4⟩
      · exact .inr ⟨.left, dl, k', .branch, r, g', f', h', by simp [WeakDrop.choose, el, er, hcl, hcr, t1],
          by simp [RcHeap.choose, hl, hr, Dat.cls_at, hcl, hcr, t2, t6], t3, t4, t5, t7, bl, kr⟩
    · rcases S.take arc er with ⟨v, g', t1, t2, t3, t4, _⟩ | ⟨k', g', f', h', t1, t2, t3, t4, t5, t6, t7⟩
      · exact .inl ⟨g', by simp [WeakDrop.choose, el, er, hcl, hcr, t1],
          by simp [RcHeap.choose, hl, hr, Dat.cls_at, hcl, hcr, t2], t3, t4⟩
      · exact .inr ⟨.right, dr, k', .branch, l, g', f', h', by simp [WeakDrop.choose, el, er, hcl, hcr, t1],
          by simp [RcHeap.choose, hl, hr, Dat.cls_at, hcl, hcr, t2, t6], t3, t4, t5, t7, br, kl⟩

theorem Agree.ext {f' : Nat → Nat} {g' : Heap Dat} {a : Res} {b : RcHeap.Res Unit} (A : Agree f' g' a b)
    (e : ∀ j, j < g.next → f' j = f j) (n : g.next ≤ g'.next) : Agree f g a b := by
  rcases A with A | A | A | ⟨g2, h2, f2, evs, s, d, h1, h3, h4, h5, h6⟩
  · exact .inl A
  · exact .inr (.inl A)
  · exact .inr (.inr (.inl A))
  · exact .inr (.inr (.inr ⟨g2, h2, f2, evs, s, d, h1, h3, h4, fun j hj => by rw [h5 j (by omega), e j hj], by omega⟩))

theorem Agree.andThen {a : Res} {b : RcHeap.Res Unit} {F : Heap Dat → Res} {G : RcHeap.Heap Unit → RcHeap.Res Unit} (A : Agree f g a b)
    (B : ∀ f' g' h', Stands f' g' h' → (∀ j, j < g.next → f' j = f j) → g.next ≤ g'.next → Agree f' g' (F g') (G h')) :
    Agree f g (a.andThen F) (b.andThen G) := by
  rcases A with rfl | ⟨rfl, rfl⟩ | ⟨rfl, rfl⟩ | ⟨g2, h2, f2, evs, s, d, rfl, rfl, h4, h5, h6⟩
  · exact .inl rfl
  · exact .inr (.inl ⟨rfl, rfl⟩)
  · exact .inr (.inr (.inl ⟨rfl, rfl⟩))
  · have C := (B f2 g2 h2 h4 h5 h6).ext h5 h6
    rcases C with C | ⟨C, D⟩ | ⟨C, D⟩ | ⟨g3, h3, f3, evs3, s3, d3, C, D, E⟩
    · left; simp only [Res.andThen, C]
    · right; left; simp only [Res.andThen, RcHeap.Res.andThen, C, D, and_self]
    · right; right; left; simp only [Res.andThen, RcHeap.Res.andThen, C, D, and_self]
    · right; right; right
      exact ⟨g3, h3, f3, evs ++ evs3, s + s3, max d d3, by simp only [Res.andThen, C], by simp only [RcHeap.Res.andThen, D], E⟩

theorem Agree.call {a : Res} {b : RcHeap.Res Unit} (A : Agree f g a b) : Agree f g a.call b.call := by
  rcases A with rfl | ⟨rfl, rfl⟩ | ⟨rfl, rfl⟩ | ⟨g2, h2, f2, evs, s, d, rfl, rfl, h4⟩
  · exact .inl rfl
  · exact .inr (.inl ⟨rfl, rfl⟩)
  · exact .inr (.inr (.inl ⟨rfl, rfl⟩))
  · exact .inr (.inr (.inr ⟨g2, h2, f2, evs, s, d + 1, rfl, rfl, h4⟩))

theorem Agree.step {a : Res} {b : RcHeap.Res Unit} (A : Agree f g a b) : Agree f g a.step b.step := by
  rcases A with rfl | ⟨rfl, rfl⟩ | ⟨rfl, rfl⟩ | ⟨g2, h2, f2, evs, s, d, rfl, rfl, h4⟩
  · exact .inl rfl
  · exact .inr (.inl ⟨rfl, rfl⟩)
  · exact .inr (.inr (.inl ⟨rfl, rfl⟩))
  · exact .inr (.inr (.inr ⟨g2, h2, f2, evs, s + 1, d, rfl, rfl, h4⟩))

/-- Dropping agrees. -/
theorem agree (arc : Bool) (n : Nat) :
    (∀ f g h k, Stands f g h → k < g.next → Agree f g (drop arc n k g) (RcHeap.drop n (f k) h)) ∧
    (∀ f g h k, Stands f g h → k < g.next → Agree f g (release arc n k g) (RcHeap.release n (f k) h)) ∧
    (∀ f g h lock top, Stands f g h → top.Below g.next → Agree f g (loop arc n lock top g) (RcHeap.loop n lock (top.at f) h)) := by
  induction n with
  | zero =>
    refine ⟨fun f g h k _ _ => ?_, fun f g h k _ _ => ?_, fun f g h lock top _ _ => ?_⟩
    · right; left; simp [drop, RcHeap.drop]
    · right; left; simp [release, RcHeap.release]
    · right; left; simp [loop, RcHeap.loop]
  | succ n ih =>
    obtain ⟨iD, iR, iL⟩ := ih
    have cellLt : ∀ {f g h}, Stands f g h → ∀ {k c}, g.cell k = some c → k < g.next := fun {f g h} S {k c} e => by
      rcases Nat.lt_or_ge k g.next with hn | hn
      · exact hn
      · rw [S.free k hn] at e; cases e
    refine ⟨fun f g h k S hk => ?_, fun f g h k S hk => ?_, fun f g h lock top S hb => ?_⟩
    · rw [drop, RcHeap.drop]
      refine Agree.call ?_
      rcases e : RcCell.get k g with _ | d
      · exact .inl rfl
      obtain ⟨s, w, hc, hh, hb, hs, hk⟩ := S.at e
      simp only [hh, Dat.cls_at]
      rcases hcl : d.cls with _ | _ <;> simp only
      all_goals first
        | exact iR f g h k S hk
        | (rcases S.take arc e with ⟨v, g', h1, h2, h3, h4, _⟩ | ⟨k', g', f', h', h1, h2, h3, h4, h5, h6, h7⟩
           · simp only [h1, h2]
             exact (iR f g' h k h3 (by omega)).ext (fun _ _ => rfl) h4
           · simp only [h1, h2]
             rw [← Dat.at_ext hb h4]
             refine Agree.ext ?_ h4 h5
             refine (iL f' g' h' none d h3 (hb.mono h5)).andThen fun f2 g2 h2 s2 e2 n2 => ?_
             rw [← h6, ← e2 k' (cellLt h3 h7)]
             exact iR f2 g2 h2 k' s2 (by have := cellLt h3 h7; omega))
    · rw [release, RcHeap.release]
      rcases hc : g.cell k with _ | ⟨_ | d, s, w⟩
      · exact .inl rfl
      · exact .inl rfl
      obtain ⟨hh, hb, hs⟩ := S.live _ _ _ _ hc
      simp only [hh]
      by_cases h1 : s = 1
      · subst h1
        simp only [if_true]
        have S' := S.gone hc (some ⟨none, 0, w⟩) rfl
        have T := S'.tidy k
        cases d with
        | temp => exact .inr (.inr (.inr ⟨_, _, f, _, 0, 0, rfl, rfl, T, fun _ _ => rfl, by rw [tidy_next]; exact Nat.le_refl _⟩))
        | plain => exact .inr (.inr (.inr ⟨_, _, f, _, 0, 0, rfl, rfl, T, fun _ _ => rfl, by rw [tidy_next]; exact Nat.le_refl _⟩))
        | extra j =>
          cases j with
          | none => exact .inr (.inr (.inr ⟨_, _, f, _, 0, 0, rfl, rfl, T, fun _ _ => rfl, by rw [tidy_next]; exact Nat.le_refl _⟩))
          | some j => exact .inr (.inr (.inr ⟨_, _, f, _, 0, 0, rfl, rfl, (S'.dropWeak j).tidy k, fun _ _ => rfl,
              by rw [tidy_next, dropWeak_next]; exact Nat.le_refl _⟩))
        | branch l r =>
          refine Agree.ext (g' := g.put k (some ⟨none, 0, w⟩)) (f' := f) ?_ (fun _ _ => rfl) (Nat.le_refl _)
          refine ((iD _ _ _ l S' hb.1).andThen fun f2 g2 h2 s2 e2 n2 => ?_).andThen fun f2 g2 h2 s2 e2 n2 => ?_
          · rw [← e2 r hb.2]
            exact iD _ _ _ r s2 (Nat.lt_of_lt_of_le hb.2 n2)
          · exact .inr (.inr (.inr ⟨_, _, f2, _, 0, 0, rfl, rfl, s2.tidy k, fun _ _ => rfl, by rw [tidy_next]; exact Nat.le_refl _⟩))
      · simp only [if_neg h1]
        refine .inr (.inr (.inr ⟨_, _, f, _, 0, 0, rfl, rfl, ?_, fun _ _ => rfl, ?_⟩))
        · simp only [RcCell.dropStrong, hc, if_neg h1, Heap.store]
          rw [if_neg (by omega)]
          exact S.put hc hb (by omega)
        · simp only [RcCell.dropStrong, hc]; exact Nat.le_refl _
    · rw [loop.eq_def, RcHeap.loop.eq_def]
      refine Agree.step ?_
      cases top with
      | temp => exact .inr (.inr (.inl ⟨rfl, rfl⟩))
      | plain => exact .inr (.inr (.inl ⟨rfl, rfl⟩))
      | extra j => exact .inr (.inr (.inl ⟨rfl, rfl⟩))
      | branch l r =>
        simp only [Dat.at]
        rcases S.choose arc lock l r with h1 | ⟨g', h1, h2, h3, h4⟩ | ⟨mode, d, reuse, oc, other, g', f', h', h1, h2, h3, h4, h5, h6, h7, h8⟩
        · simp only [h1]; exact .inl rfl
        · simp only [h1, h2]
          refine Agree.ext (f' := f) (g' := g') ?_ (fun _ _ => rfl) h4
          refine (iD f g' h r h3 (Nat.lt_of_lt_of_le hb.2 h4)).andThen fun f2 g2 h2 s2 e2 n2 => ?_
          have hl := Nat.lt_of_lt_of_le hb.1 h4
          rw [← e2 l hl]
          exact iD _ _ _ l s2 (Nat.lt_of_lt_of_le hl n2)
        · simp only [h1, h2]
          refine Agree.ext ?_ h4 h5
          rw [← Dat.at_ext h7 h4, ← h4 other h8]
          have hr := cellLt h3 h6
          have ho : other < g'.next := Nat.lt_of_lt_of_le h8 h5
          have hd := h7.mono h5
          cases oc with
          | leaf =>
            have goal : Agree f' g' (((drop arc n other g').andThen (drop arc n reuse)).andThen (loop arc n none d))
                (((RcHeap.drop n (f' other) h').andThen (RcHeap.drop n (f' reuse))).andThen (RcHeap.loop n none (d.at f'))) := by
              refine ((iD _ _ _ other h3 ho).andThen fun f2 g2 h2 s2 e2 n2 => ?_).andThen fun f2 g2 h2 s2 e2 n2 => ?_
              · rw [← e2 reuse hr]; exact iD _ _ _ reuse s2 (Nat.lt_of_lt_of_le hr n2)
              · rw [← Dat.at_ext hd e2]; exact iL _ _ _ none d s2 (hd.mono n2)
            cases d <;> exact goal
          | branch =>
            cases d with
            | temp => exact .inr (.inr (.inl ⟨rfl, rfl⟩))
            | plain => exact .inr (.inr (.inl ⟨rfl, rfl⟩))
            | extra j => exact .inr (.inr (.inl ⟨rfl, rfl⟩))
            | branch sl sr =>
              have c1 := (h3.live _ _ _ _ h6).1
              have set1 : ∀ v, RcCell.set reuse v g' = some (g'.put reuse (some ⟨some v, 1, 0⟩)) := fun v => by
                simp [RcCell.set, RcCell.canMut, RcCell.assign, h6]
              have set2 : ∀ v, RcHeap.set (f' reuse) v h' = some (h'.put (f' reuse) (some ⟨1, v⟩)) := fun v => by
                simp [RcHeap.set, c1]
              cases mode with
              | left =>
                simp only [Dat.at, set1, set2]
                exact (iL f' _ _ _ (.branch sl reuse) (h3.put (d' := .branch sr other) (s' := 1) (w' := 0) h6 ⟨hd.2, ho⟩ (Nat.le_refl _))
                  ⟨hd.1, hr⟩).ext (fun _ _ => rfl) (Nat.le_refl _)
              | right =>
                simp only [Dat.at, set1, set2]
                exact (iL f' _ _ _ (.branch reuse sr) (h3.put (d' := .branch other sl) (s' := 1) (w' := 0) h6 ⟨ho, hd.1⟩ (Nat.le_refl _))
                  ⟨hr, hd.2⟩).ext (fun _ _ => rfl) (Nat.le_refl _)

end Kul.WeakDrop
