import Verif.Model.Parser
import Verif.Model.Api
import Verif.Spec.Contract

/-!
# How many slots suffice for a source of a given length

A Hoare logic for parses with a limited number of slots. The invariant is that twice the number
of free slots, plus five, is at least three times the number of characters yet to come (plus a credit
that depends on the place); then no allocation fails.
-/

namespace Kul

variable {σ P τ ε β CE : Type}

/-- What is assumed of the operations of a parser with limited memory: they behave as on a sequence,
they fail at most for lack of free slots, and what they use up is the references in texts (`refs`)
and in what the stream has accumulated (`held`), of which there are fewer than characters. -/
structure Fits (E : Env σ P τ ε β CE) (RS : σ → Seq P → Prop) (RT : τ → List (Item P) → Prop)
    (held : σ → Nat) (refs : τ → Nat) (free : β → Nat) : Prop where
  unbound : ∀ d, E.lookup d = none
  peek : ∀ s q, RS s q → ∃ s', E.strm.peek s = (.ok q.rest.head?, s') ∧ RS s' q ∧ held s' = held s
  next : ∀ s q, RS s q → ∃ s', E.strm.next s = (.ok q.rest.head?, s') ∧ RS s' ⟨[], q.rest.tail⟩
  nextAccum : ∀ s q b, RS s q → q.pending.length ≤ free b + held s →
    ∃ s' b', E.strm.nextAccum s b = (.ok q.rest.head?, s', b') ∧
      RS s' ⟨q.pending ++ q.rest.head?.toList, q.rest.tail⟩ ∧ free b' + held s' = free b + held s
  accumDone : ∀ s q b, RS s q → q.pending.length - 1 ≤ free b + held s →
    ∃ t s' b', E.strm.accumDone s b = (.ok t, s', b') ∧ RS s' ⟨[], q.rest⟩ ∧ RT t q.pending ∧
      free b' + refs t = free b + held s
  empty : RT E.text.empty []
  concat : ∀ t u c e b, RT t c → RT u e → (c ++ e).length - 1 ≤ free b + refs t + refs u →
    ∃ v b', E.text.concat t u b = (.ok v, b') ∧ RT v (c ++ e) ∧ free b' + refs v = free b + refs t + refs u
  heldBound : ∀ s q, RS s q → held s ≤ q.pending.length - 1
  refsBound : ∀ t c, RT t c → refs t ≤ c.length - 1
  newDatum : ∀ d b, 1 ≤ free b → ∃ b', E.alloc.newDatum d b = (.ok (), b') ∧ free b' + 1 = free b ∧
    E.alloc.getMutFresh b' = true

/-- From states in `Pre`, `x` does not run out of memory, it succeeds in `Q`, and it fails in `R`. -/
def Tr {S V : Type} (Pre : S → Prop) (x : Act S (Err P CE) V) (Q : V → S → Prop) (R : S → Prop) : Prop :=
  ∀ s o s', Pre s → x s = (o, s') → match o with
    | .ok v => Q v s'
    | .err e => (∀ y, e ≠ .failedAlloc y) ∧ R s'
    | _ => True

namespace Tr

variable {S V W : Type} {Pre Pre' : S → Prop} {x : Act S (Err P CE) V} {Q Q' : V → S → Prop} {R : S → Prop}

theorem bind {f : V → Act S (Err P CE) W} {Q'' : W → S → Prop} (hx : Tr Pre x Q R)
    (hf : ∀ v, Tr (Q v) (f v) Q'' R) : Tr Pre (x >>= f) Q'' R := by
  intro s o s' hs h
  change Act.bind x f s = _ at h
  simp only [Act.bind] at h
  rcases h1 : x s with ⟨v | e | _ | _, s₁⟩ <;> rw [h1] at h <;> simp only at h
  · exact hf v s₁ o s' (hx s _ _ hs h1) h
  · cases h; exact hx s _ _ hs h1
  · cases h; trivial
  · cases h; trivial

theorem weaken (h : Tr Pre x Q R) (hp : ∀ s, Pre' s → Pre s) (hq : ∀ v s, Q v s → Q' v s) : Tr Pre' x Q' R := by
  intro s o s' hs hx
  have := h s o s' (hp s hs) hx
  rcases o with v | e | _ | _
  · exact hq v _ this
  · exact this
  · trivial
  · trivial

theorem pre (h : Tr Pre x Q R) (hp : ∀ s, Pre' s → Pre s) : Tr Pre' x Q R := h.weaken hp fun _ _ h => h

theorem post (h : Tr Pre x Q R) (hq : ∀ v s, Q v s → Q' v s) : Tr Pre x Q' R := h.weaken (fun _ h => h) hq

theorem pure {v : V} (h : ∀ s, Pre s → Q v s) : Tr Pre (Pure.pure v : Act S (Err P CE) V) Q R := by
  intro s o s' hs hx
  cases hx
  exact h s hs

theorem throw {e : Err P CE} (he : ∀ y, e ≠ .failedAlloc y) (h : ∀ s, Pre s → R s) :
    Tr (V := V) Pre (Act.throw e) Q R := by
  intro s o s' hs hx
  cases hx
  exact ⟨he, h s hs⟩

theorem panic : Tr (P := P) (CE := CE) (V := V) Pre Act.panic Q R := by
  intro s o s' hs hx
  cases hx
  trivial

theorem fuel : Tr (P := P) (CE := CE) (V := V) Pre Act.fuel Q R := by
  intro s o s' hs hx
  cases hx
  trivial

theorem debugAssert {b : Bool} {Q : Unit → S → Prop} (h : ∀ s, Pre s → b = true → Q () s) :
    Tr (P := P) (CE := CE) Pre (Act.debugAssert b) Q R := by
  cases b
  · exact Tr.panic
  · exact Tr.pure fun s hs => h s hs rfl

theorem ite {p : Prop} [Decidable p] {y : Act S (Err P CE) V} (h : p → Tr Pre x Q R) (h' : ¬ p → Tr Pre y Q R) :
    Tr Pre (if p then x else y) Q R := by
  split
  · exact h ‹_›
  · exact h' ‹_›

theorem «exists» {A : Type} {Pre : A → S → Prop} (h : ∀ a, Tr (Pre a) x Q R) :
    Tr (fun s => ∃ a, Pre a s) x Q R := fun s o s' ⟨a, hs⟩ hx => h a s o s' hs hx

theorem prop {p : Prop} (h : p → Tr Pre x Q R) : Tr (fun s => p ∧ Pre s) x Q R :=
  fun s o s' ⟨hp, hs⟩ hx => h hp s o s' hs hx

theorem false (h : ∀ s, ¬ Pre s) : Tr Pre x Q R := fun s _ _ hs => absurd hs (h s)

end Tr

/-- The parse is at the items `r`, with `p` accumulated, `h` references held and `f` slots free. -/
structure FitsAt (RS : σ → Seq P → Prop) (held : σ → Nat) (free : β → Nat) (p r : List (Item P)) (h f : Nat)
    (s : St σ β) : Prop where
  strm : RS s.strm ⟨p, r⟩
  held : held s.strm = h
  free : free s.alloc = f

/-- What holds after an error: the free slots suffice for the rest. -/
def FitsErr (RS : σ → Seq P → Prop) (free : β → Nat) (s : St σ β) : Prop :=
  ∃ p r, RS s.strm ⟨p, r⟩ ∧ (p = [] ∨ r = []) ∧ 3 * r.length ≤ 2 * free s.alloc + 5

/-- Nothing is accumulated, what comes next is as `N` says, and the credit is `c`. -/
def Slack (RS : σ → Seq P → Prop) (free : β → Nat) (N : List (Item P) → Prop) (c : Nat) (s : St σ β) : Prop :=
  ∃ r, RS s.strm ⟨[], r⟩ ∧ N r ∧ 3 * r.length + c ≤ 2 * free s.alloc + 5

section

variable {E : Env σ P τ ε β CE} {RS : σ → Seq P → Prop} {RT : τ → List (Item P) → Prop} {held : σ → Nat}
  {refs : τ → Nat} {free : β → Nat}

local notation "𝐀" => FitsAt RS held free
local notation "𝐄" => FitsErr (σ := σ) (β := β) RS free
local notation "𝐒" => Slack (σ := σ) (β := β) RS free

variable (F : Fits E RS RT held refs free)
include F

theorem Fits.t_peek {p r : List (Item P)} {h f : Nat} :
    Tr (𝐀 p r h f) E.peek (fun o s => o = r.head? ∧ 𝐀 p r h f s) 𝐄 := by
  intro s o s' ⟨h1, h2, h3⟩ hx
  obtain ⟨s₁, g1, g2, g3⟩ := F.peek _ _ h1
  change (Outcome.mapErr _ (E.strm.peek s.strm).1, ({ s with strm := (E.strm.peek s.strm).2 } : St σ β)) = _ at hx
  rw [g1] at hx
  cases hx
  exact ⟨rfl, g2, g3.trans h2, h3⟩

theorem Fits.t_next {p r : List (Item P)} {h f : Nat} :
    Tr (𝐀 p r h f) E.next (fun o s => o = r.head? ∧ 𝐀 [] r.tail 0 f s) 𝐄 := by
  intro s o s' ⟨h1, h2, h3⟩ hx
  obtain ⟨s₁, g1, g2⟩ := F.next _ _ h1
  change (Outcome.mapErr _ (E.strm.next s.strm).1, ({ s with strm := (E.strm.next s.strm).2 } : St σ β)) = _ at hx
  rw [g1] at hx
  cases hx
  exact ⟨rfl, g2, by simpa using F.heldBound _ _ g2, h3⟩

theorem Fits.t_nextAccum {p r : List (Item P)} {h f : Nat} (hf : p.length ≤ f + h) :
    Tr (𝐀 p r h f) E.nextAccum
      (fun o s => o = r.head? ∧ ∃ h' f', f' + h' = f + h ∧ 𝐀 (p ++ r.head?.toList) r.tail h' f' s) 𝐄 := by
  intro s o s' ⟨h1, h2, h3⟩ hx
  obtain ⟨s₁, b₁, g1, g2, g3⟩ := F.nextAccum _ _ s.alloc h1 (by rw [h2, h3]; exact hf)
  change (Outcome.mapErr _ (E.strm.nextAccum s.strm s.alloc).1,
    ({ s with strm := (E.strm.nextAccum s.strm s.alloc).2.1, alloc := (E.strm.nextAccum s.strm s.alloc).2.2 } : St σ β)) = _ at hx
  rw [g1] at hx
  cases hx
  exact ⟨rfl, _, _, by rw [g3, h2, h3], g2, rfl, rfl⟩

theorem Fits.t_concatAccum {text : τ} {c p r : List (Item P)} {h f : Nat} (ht : RT text c)
    (hf : (c ++ p).length - 1 ≤ f + refs text + h) :
    Tr (𝐀 p r h f) (E.concatAccum text)
      (fun t s => RT t (c ++ p) ∧ ∃ f', f' + refs t = f + refs text + h ∧ 𝐀 [] r 0 f' s) 𝐄 := by
  unfold Env.concatAccum
  refine Tr.bind (Q := fun u s => RT u p ∧ ∃ f', f' + refs u = f + h ∧ 𝐀 [] r 0 f' s) ?_ ?_
  · intro s o s' ⟨h1, h2, h3⟩ hx
    have hr := F.refsBound _ _ ht
    simp only [List.length_append] at hf
    obtain ⟨t, s₁, b₁, g1, g2, g3, g4⟩ := F.accumDone _ _ s.alloc h1 (by
      rw [h2, h3]
      simp only
      omega)
    change (Outcome.mapErr _ (E.strm.accumDone s.strm s.alloc).1,
      ({ s with strm := (E.strm.accumDone s.strm s.alloc).2.1, alloc := (E.strm.accumDone s.strm s.alloc).2.2 } : St σ β)) = _ at hx
    rw [g1] at hx
    cases hx
    exact ⟨g3, _, by rw [g4, h2, h3], g2, by simpa using F.heldBound _ _ g2, rfl⟩
  · intro u
    refine Tr.prop fun hu => Tr.exists fun f' => Tr.prop fun hf' => ?_
    intro s o s' ⟨h1, h2, h3⟩ hx
    obtain ⟨v, b₁, g1, g2, g3⟩ := F.concat text u c p s.alloc ht hu (by rw [h3]; omega)
    change (Outcome.mapErr _ (E.text.concat text u s.alloc).1,
      ({ s with alloc := (E.text.concat text u s.alloc).2 } : St σ β)) = _ at hx
    rw [g1] at hx
    cases hx
    exact ⟨g2, _, by rw [g3, h3]; omega, h1, h2, rfl⟩

theorem Fits.t_newDatum (d : Datum τ ε) {p r : List (Item P)} {h f : Nat} (hf : 1 ≤ f) :
    Tr (𝐀 p r h f) (E.newDatum d) (fun _ s => 𝐀 p r h (f - 1) s ∧ E.alloc.getMutFresh s.alloc = true) 𝐄 := by
  intro s o s' ⟨h1, h2, h3⟩ hx
  obtain ⟨b₁, g1, g2, g3⟩ := F.newDatum d s.alloc (by omega)
  change (Outcome.mapErr _ (Outcome.ofExcept (E.alloc.newDatum d s.alloc).1),
    ({ s with alloc := (E.alloc.newDatum d s.alloc).2 } : St σ β)) = _ at hx
  rw [g1] at hx
  cases hx
  exact ⟨⟨h1, h2, by simp only; omega⟩, g3⟩

/-- From a place with credit. -/
theorem Fits.slack {N : List (Item P) → Prop} {c : Nat} {V : Type} {x : Act (St σ β) (Err P CE) V}
    {Q : V → St σ β → Prop} {R : St σ β → Prop}
    (hx : ∀ r f, N r → 3 * r.length + c ≤ 2 * f + 5 → Tr (𝐀 [] r 0 f) x Q R) : Tr (𝐒 N c) x Q R := by
  rintro s o s' ⟨r, h1, h2, h3⟩ h
  exact hx r _ h2 h3 s o s' ⟨h1, by simpa using F.heldBound _ _ h1, rfl⟩ h

omit F in
theorem FitsAt.slack {N : List (Item P) → Prop} {c : Nat} {r : List (Item P)} {h f : Nat} {s : St σ β}
    (hs : 𝐀 [] r h f s) (hN : N r) (hf : 3 * r.length + c ≤ 2 * f + 5) : 𝐒 N c s :=
  ⟨r, hs.strm, hN, by rw [hs.free]; exact hf⟩

omit F in
theorem FitsAt.err {p r : List (Item P)} {h f : Nat} {s : St σ β} (hs : 𝐀 p r h f s) (hp : p = [] ∨ r = [])
    (hf : 3 * r.length ≤ 2 * f + 5) : 𝐄 s := ⟨p, r, hs.strm, hp, by rw [hs.free]; exact hf⟩

theorem Fits.t_checkEndChar {p r : List (Item P)} {h f : Nat} (hf : 3 * r.length ≤ 2 * f + 8) :
    Tr (𝐀 p r h f) E.checkEndChar (fun _ s => (∀ it ∈ r.head?, E.cc.isNestEnd it.ch = true) ∧ 𝐀 p r h f s) 𝐄 := by
  unfold Env.checkEndChar
  refine Tr.bind F.t_peek fun o => ?_
  refine Tr.prop fun ho => ?_
  subst ho
  refine Tr.bind (Q := fun _ s => (r.head?.map (fun it => E.cc.isNestEnd it.ch) = some true) ∧ 𝐀 p r h f s)
    (Tr.debugAssert fun s hs hb => ⟨by simpa using hb, hs⟩) fun _ => ?_
  refine Tr.prop fun hr => ?_
  cases r with
  | nil => cases hr
  | cons it r =>
    simp only [List.head?_cons, Option.map_some, Option.some.injEq] at hr
    refine Tr.bind (Q := fun _ s => 𝐀 p (it :: r) h f s) ?_ fun d => ?_
    · intro s o s' hs hx
      cases hx
      exact hs
    · refine Tr.ite (fun _ => Tr.pure fun s hs => ⟨?_, hs⟩) fun _ => ?_
      · intro x hx
        cases hx
        exact hr
      · refine Tr.bind F.t_next fun o => ?_
        cases o with
        | none => exact Tr.panic
        | some x =>
          refine Tr.throw (fun _ h => by cases h) ?_
          rintro s ⟨_, hs⟩
          refine hs.err (.inl rfl) ?_
          simp only [List.tail_cons, List.length_cons] at hf ⊢
          omega

/-- Where a text stops. -/
def StopsText (cc : Classifier) (mode : Mode) (r : List (Item P)) : Prop :=
  ∀ it ∈ r.head?, isEndChar cc mode it.ch = true ∨ cc.isNestEnd it.ch = true

theorem Fits.t_parseTextLoop {mode : Mode} (hm : mode ≠ .operands) {c₀ : Nat} (n : Nat) :
    ∀ {text : τ} {c p r : List (Item P)} {h f m : Nat}, RT text c → c.length + p.length ≤ m →
      (0 < m ∨ ∃ it r₀, r = it :: r₀ ∧ isEndChar E.cc mode it.ch = false ∧ E.cc.isNestEnd it.ch = false) →
      h ≤ p.length - 1 →
      3 * (r.length + m) + c₀ ≤ 2 * (f + refs text + h) + 5 →
      Tr (𝐀 p r h f) (E.parseTextLoop mode n text 0)
        (fun _ => 𝐒 (StopsText E.cc mode) (c₀ + 3)) 𝐄 := by
  induction n with
  | zero => intros; exact Tr.fuel
  | succ n ih =>
    intro text c p r h f m ht hc hm0 hh hf
    have hrt := F.refsBound _ _ ht
    have fin : 0 < m → StopsText E.cc mode r → Tr (𝐀 p r h f) (E.finishText text 0)
        (fun _ => 𝐒 (StopsText E.cc mode) (c₀ + 3)) 𝐄 := by
      intro hm1 hN
      unfold Env.finishText
      rw [if_pos rfl]
      refine (F.t_concatAccum ht (by simp only [List.length_append]; omega)).post ?_
      rintro t s ⟨h1, f', h2, h3⟩
      refine h3.slack hN ?_
      have := F.refsBound _ _ h1
      simp only [List.length_append] at this
      omega
    have acc : ∀ it r₀, r = it :: r₀ → Tr (𝐀 p r h f) (E.nextAccum >>= fun _ => E.parseTextLoop mode n text 0)
        (fun _ => 𝐒 (StopsText E.cc mode) (c₀ + 3)) 𝐄 := by
      rintro it r₀ rfl
      refine Tr.bind (F.t_nextAccum (by simp only [List.length_cons] at hf; omega)) fun o => ?_
      refine Tr.prop fun _ => Tr.exists fun h' => Tr.exists fun f' => Tr.prop fun hf' => ?_
      intro s o' s' hs hx
      have hb := F.heldBound _ _ hs.strm
      rw [hs.held] at hb
      simp only [List.head?_cons, Option.toList_some, List.length_append, List.length_cons,
        List.length_nil] at hb hf
      exact ih (m := m + 1) ht (by simp; omega) (.inl (by omega)) (by simpa using hb)
        (by simp only [List.tail_cons]; omega) s o' s' hs hx
    simp only [Env.parseTextLoop]
    refine Tr.bind F.t_peek fun o => Tr.prop fun ho => ?_
    subst ho
    cases r with
    | nil =>
      rcases hm0 with hm0 | ⟨_, _, h1, _⟩
      · exact fin hm0 (fun _ h => by cases h)
      · cases h1
    | cons it r =>
      simp only [List.head?_cons]
      refine Tr.ite (fun h1 => ?_) fun h1 => ?_
      · rcases hm0 with hm0 | ⟨_, _, h2, h3, _⟩
        · exact fin hm0 (fun x hx => by cases hx; exact .inl h1.2)
        · cases h2
          rw [h1.2] at h3
          cases h3
      · have hne : isEndChar E.cc mode it.ch = false := by
          cases hx : isEndChar E.cc mode it.ch
          · rfl
          · exact absurd ⟨trivial, hx⟩ h1
        refine Tr.ite (fun h2 => ?_) fun h2 => ?_
        · refine Tr.bind (F.t_concatAccum ht (by simp only [List.length_append]; omega)) fun t => ?_
          refine Tr.prop fun ht' => Tr.exists fun f₁ => Tr.prop fun hf₁ => ?_
          refine Tr.bind F.t_next fun _ => Tr.prop fun _ => ?_
          refine Tr.bind (F.t_nextAccum (by simp)) fun _ => ?_
          refine Tr.prop fun _ => Tr.exists fun h' => Tr.exists fun f' => Tr.prop fun hf' => ?_
          intro s o' s' hs hx
          have hb := F.heldBound _ _ hs.strm
          rw [hs.held] at hb
          simp only [List.tail_cons, List.nil_append] at hs hb
          simp only [List.length_cons] at hf
          refine ih (m := m + 1 + r.head?.toList.length) ht' (by simp only [List.length_append]; omega)
            (.inl (by omega)) hb ?_ s o' s' hs hx
          have hl : r.head?.toList.length + r.tail.length = r.length := by cases r <;> simp <;> omega
          omega
        · refine Tr.ite (fun h3 => ?_) fun h3 => Tr.ite (fun h4 => ?_) fun h4 => acc it r rfl
          · exfalso
            cases mode <;> simp_all [isEndChar]
          · rw [if_neg (by omega)]
            refine Tr.bind (F.t_checkEndChar (by simp only [List.length_cons] at hf ⊢; omega)) fun _ => ?_
            refine Tr.prop fun h5 => ?_
            rcases hm0 with hm0 | ⟨_, _, h6, _, h7⟩
            · exact fin hm0 (fun x hx => .inr (h5 x hx))
            · cases h6
              rw [h4] at h7
              cases h7

theorem Fits.t_parseText {mode : Mode} (hm : mode ≠ .operands) {c₀ : Nat} (n : Nat) {it : Item P}
    {r : List (Item P)} {f : Nat} (h1 : isEndChar E.cc mode it.ch = false) (h2 : E.cc.isNestEnd it.ch = false)
    (hf : 3 * (it :: r).length + c₀ ≤ 2 * f + 5) :
    Tr (𝐀 [] (it :: r) 0 f) (E.parseText n mode) (fun _ => 𝐒 (StopsText E.cc mode) (c₀ + 3)) 𝐄 :=
  F.t_parseTextLoop hm n (m := 0) F.empty (by simp) (.inr ⟨it, r, rfl, h1, h2⟩) (by simp)
    (by have := F.refsBound _ _ F.empty; simp only [List.length_nil] at this; omega)

theorem Fits.t_skipWhitespace {N : List (Item P) → Prop} {c : Nat} (n : Nat) :
    Tr (𝐒 N c) (E.skipWhitespace n)
      (fun _ => 𝐒 (fun r => ∀ it ∈ r.head?, E.cc.isWhitespace it.ch = false) c) 𝐄 := by
  induction n generalizing N with
  | zero => exact Tr.fuel
  | succ n ih =>
    simp only [Env.skipWhitespace]
    refine F.slack fun r f _ hf => ?_
    refine Tr.bind F.t_peek fun o => Tr.prop fun ho => ?_
    subst ho
    cases r with
    | nil => exact Tr.pure fun s hs => hs.slack (fun _ h => by cases h) hf
    | cons it r =>
      simp only [List.head?_cons]
      refine Tr.ite (fun h1 => ?_) fun h1 => ?_
      · refine Tr.bind F.t_next fun _ => Tr.prop fun _ => ?_
        refine (ih (N := fun _ => True)).pre fun s hs => hs.slack trivial ?_
        simp only [List.tail_cons, List.length_cons] at hf ⊢
        omega
      · refine Tr.pure fun s hs => hs.slack ?_ hf
        intro x hx
        cases hx
        simpa using h1

theorem Fits.t_nestEnd {N : List (Item P) → Prop} {c : Nat} :
    Tr (𝐒 N c) E.nestEnd (fun _ => 𝐒 (fun _ => True) (c + 3)) 𝐄 := by
  unfold Env.nestEnd
  refine F.slack fun r f _ hf => ?_
  refine Tr.bind F.t_next fun o => Tr.prop fun ho => ?_
  subst ho
  cases r with
  | nil => exact Tr.throw (fun _ h => by cases h) fun s hs => hs.err (.inl rfl) (by simp)
  | cons it r =>
    refine Tr.debugAssert fun s hs _ => hs.slack trivial ?_
    simp only [List.tail_cons, List.length_cons] at hf ⊢
    omega

/-- Where `parseAll` can start so that it ends with credit `b`. -/
def AllSlack (cc : Classifier) (RS : σ → Seq P → Prop) (free : β → Nat) (b : Nat) (s : St σ β) : Prop :=
  Slack RS free (StopsText cc .base) b s ∨ Slack RS free (fun _ => True) (b + 1) s

omit F in
theorem Slack.mono {N N' : List (Item P) → Prop} {c c' : Nat} {s : St σ β} (h : 𝐒 N c s) (hN : ∀ r, N r → N' r)
    (hc : c' ≤ c) : 𝐒 N' c' s := by
  obtain ⟨r, h1, h2, h3⟩ := h
  exact ⟨r, h1, hN r h2, by omega⟩

omit F in
theorem Slack.err {N : List (Item P) → Prop} {c : Nat} {s : St σ β} (h : 𝐒 N c s) : 𝐄 s := by
  obtain ⟨r, h1, h2, h3⟩ := h
  exact ⟨[], r, h1, .inl rfl, by omega⟩

theorem Fits.t_skipSeparator_any {N : List (Item P) → Prop} {c : Nat} :
    Tr (𝐒 N c) E.skipSeparator (fun _ => 𝐒 (fun _ => True) c) 𝐄 := by
  unfold Env.skipSeparator
  refine F.slack fun r f _ hf => ?_
  refine Tr.bind F.t_peek fun o => Tr.prop fun ho => ?_
  subst ho
  cases r with
  | nil => exact Tr.pure fun s hs => hs.slack trivial hf
  | cons it r =>
    simp only [List.head?_cons]
    refine Tr.ite (fun h1 => ?_) fun h1 => Tr.pure fun s hs => hs.slack trivial hf
    refine Tr.bind F.t_next fun _ => Tr.prop fun _ => Tr.pure fun s hs => hs.slack trivial ?_
    simp only [List.tail_cons, List.length_cons] at hf ⊢
    omega

theorem Fits.t_skipSeparator_text {c : Nat} :
    Tr (𝐒 (StopsText E.cc .operator) c) E.skipSeparator (fun _ => AllSlack E.cc RS free c) 𝐄 := by
  unfold Env.skipSeparator
  refine F.slack fun r f hN hf => ?_
  refine Tr.bind F.t_peek fun o => Tr.prop fun ho => ?_
  subst ho
  cases r with
  | nil => exact Tr.pure fun s hs => .inl (hs.slack (fun _ h => by cases h) hf)
  | cons it r =>
    simp only [List.head?_cons]
    refine Tr.ite (fun h1 => ?_) fun h1 => Tr.pure fun s hs => .inl (hs.slack ?_ hf)
    · refine Tr.bind F.t_next fun _ => Tr.prop fun _ => Tr.pure fun s hs => .inr (hs.slack trivial ?_)
      simp only [List.tail_cons, List.length_cons] at hf ⊢
      omega
    · intro x hx
      cases hx
      have := hN it rfl
      simp only [isEndChar, Bool.or_eq_true] at this ⊢
      rcases this with ((h | h) | h) | h
      · exact absurd h h1
      · exact .inl h
      · exact .inr h
      · exact .inr h

/-- What `parseNext` leaves. -/
def NextPost (cc : Classifier) (RS : σ → Seq P → Prop) (free : β → Nat) (mode : Mode) (N : List (Item P) → Prop)
    (c : Nat) (v : Option (Datum τ ε)) (s : St σ β) : Prop :=
  match v with
  | none => Slack RS free (fun _ => True) c s
  | some (.text _) => (mode = .base → ∃ r, N r ∧ ¬ StopsText cc .base r) ∧
      Slack RS free (StopsText cc mode) (c + 3) s
  | some _ => Slack RS free (fun _ => True) (c + 5) s

omit F in
theorem Tr.depth {V : Type} {Pre : St σ β → Prop} {x : Act (St σ β) (Err P CE) V} {Q : V → St σ β → Prop}
    {R : St σ β → Prop} (h : Tr Pre x Q R) (hP : ∀ s d, Pre s → Pre { s with ndepth := d })
    (hQ : ∀ v s d, Q v s → Q v { s with ndepth := d }) (hR : ∀ s d, R s → R { s with ndepth := d }) :
    Tr Pre (Env.nestedInDepth x) Q R := by
  intro s o s' hs hx
  simp only [Env.nestedInDepth] at hx
  rcases h1 : x { s with ndepth := s.ndepth + 1 } with ⟨o₁, s₁⟩
  rw [h1] at hx
  simp only at hx
  have := h _ _ _ (hP _ _ hs) h1
  split at hx
  · cases hx; trivial
  · cases hx
    rcases o with v | e | _ | _
    · exact hQ _ _ _ this
    · exact ⟨this.1, hR _ _ this.2⟩
    · trivial
    · trivial

/-- All three, by induction on the budget. -/
theorem Fits.t_parse (n : Nat) :
    (∀ {mode : Mode} {N : List (Item P) → Prop} {c : Nat}, mode ≠ .operands →
      Tr (𝐒 N c) (E.parseNext n mode) (NextPost E.cc RS free mode N c) 𝐄) ∧
    (∀ {N : List (Item P) → Prop} {c : Nat},
      Tr (𝐒 N c) (E.parseNested n)
        (fun v s => (∃ d, v = some d ∧ ∀ t, d ≠ .text t) ∧ 𝐒 (fun _ => True) (c + 5) s) 𝐄) ∧
    (∀ {c : Nat} {acc : List (Datum τ ε)}, 5 ≤ c →
      Tr (AllSlack E.cc RS free c) (E.parseAll n .base acc) (fun _ => 𝐒 (fun _ => True) c) 𝐄) := by
  induction n with
  | zero => exact ⟨fun _ => Tr.fuel, Tr.fuel, fun _ => Tr.fuel⟩
  | succ n ih =>
    obtain ⟨ih1, ih2, ih3⟩ := ih
    refine ⟨?_, ?_, ?_⟩
    · intro mode N c hm
      simp only [Env.parseNext]
      refine Tr.bind (Q := fun _ => 𝐒 (fun r => (mode = .base → N r) ∧
        (mode = .operator → ∀ it ∈ r.head?, E.cc.isWhitespace it.ch = false)) c) ?_ fun _ => ?_
      · unfold Env.skipLeading
        refine Tr.ite (fun h => ?_) fun h => Tr.pure fun s hs => hs.mono (fun r hr => ⟨fun _ => hr, fun h' => absurd h' h⟩) (Nat.le_refl _)
        subst h
        exact (F.t_skipWhitespace n).post fun _ s hs => hs.mono (fun r hr => ⟨(fun h => by cases h), fun _ => hr⟩) (Nat.le_refl _)
      · refine F.slack fun r f hN hf => ?_
        refine Tr.bind F.t_peek fun o => Tr.prop fun ho => ?_
        subst ho
        cases r with
        | nil =>
          simp only [List.head?_nil]
          refine Tr.bind (Q := fun _ => 𝐀 [] [] 0 f) ?_ fun d => ?_
          · intro s o s' hs hx
            cases hx
            exact hs
          · refine Tr.ite (fun _ => Tr.pure fun s hs => hs.slack trivial hf) fun _ => ?_
            exact Tr.throw (fun _ h => by cases h) fun s hs => hs.err (.inl rfl) (by omega)
        | cons it r =>
          simp only [List.head?_cons]
          refine Tr.ite (fun h1 => ?_) fun h1 => Tr.ite (fun h2 => ?_) fun h2 => ?_
          · refine Tr.bind (Q := fun v s => (∃ d, v = some d ∧ ∀ t, d ≠ .text t) ∧ 𝐒 (fun _ => True) (c + 5) s) ?_ fun v => ?_
            · refine Tr.pre (Pre := 𝐒 (fun _ => True) c) ?_ (fun s hs => hs.slack trivial hf)
              exact Tr.depth ih2 (fun _ _ h => h) (fun _ _ _ h => h) (fun _ _ h => h)
            · refine Tr.prop fun hv => ?_
              obtain ⟨d, rfl, hd⟩ := hv
              refine Tr.pure fun s hs => ?_
              cases d with
              | text t => exact absurd rfl (hd t)
              | emptyNest => exact hs
              | emptyList => exact hs
              | combination _ _ => exact hs
              | list _ _ => exact hs
              | extra _ => exact hs
          · refine Tr.bind (F.t_checkEndChar (by omega)) fun _ => ?_
            exact Tr.pure fun s hs => hs.2.slack trivial hf
          · have he : isEndChar E.cc mode it.ch = false := by
              cases mode with
              | base => simpa [isEndChar] using h1
              | operator =>
                have := hN.2 rfl it rfl
                simp [isEndChar, this, h1, h2]
              | operands => exact absurd rfl hm
            have h2' : E.cc.isNestEnd it.ch = false := by simpa using h2
            refine Tr.bind (F.t_parseText hm n he h2' hf) fun t => ?_
            refine Tr.pure fun s hs => ⟨fun hb => ⟨_, hN.1 hb, fun hst => ?_⟩, hs⟩
            subst hb
            rcases hst it rfl with h | h
            · rw [he] at h; cases h
            · rw [h2'] at h; cases h
    · intro N c
      simp only [Env.parseNested]
      refine Tr.bind (Q := fun o s => o ≠ none → 𝐒 (fun _ => True) (c + 3) s) ?_ fun o => ?_
      · refine F.slack fun r f _ hf => F.t_next.post ?_
        rintro o s ⟨rfl, hs⟩ ho
        cases r with
        | nil => exact absurd rfl ho
        | cons it r =>
          refine hs.slack trivial ?_
          simp only [List.tail_cons, List.length_cons] at hf ⊢
          omega
      · refine Tr.bind (Q := fun _ => 𝐒 (fun _ => True) (c + 3)) (Tr.debugAssert fun s hs hb => hs ?_) fun _ => ?_
        · rintro rfl
          cases hb
        · refine Tr.bind (ih1 (mode := .operator) (by intro h; cases h)) fun v => ?_
          cases v with
          | none =>
            refine Tr.bind F.t_skipSeparator_any fun _ => ?_
            refine Tr.bind F.t_nestEnd fun _ => ?_
            exact Tr.pure fun s hs => ⟨⟨_, rfl, fun _ h => by cases h⟩, hs.mono (fun _ _ => trivial) (by omega)⟩
          | some d =>
            refine Tr.bind (Q := fun _ => AllSlack E.cc RS free (c + 6)) ?_ fun _ => ?_
            · cases d with
              | text t => exact F.t_skipSeparator_text.pre fun s hs => hs.2
              | _ => exact F.t_skipSeparator_any.post fun _ s hs => .inr (hs.mono (fun _ h => h) (by omega))
            · simp only [F.unbound d]
              refine Tr.bind (ih3 (by omega)) fun os => ?_
              refine Tr.bind F.t_nestEnd fun _ => ?_
              refine F.slack fun r f _ hf => ?_
              refine Tr.bind (F.t_newDatum _ (by omega)) fun _ => ?_
              refine Tr.bind ((F.t_newDatum _ (by omega)).pre fun s hs => hs.1) fun _ => ?_
              exact Tr.pure fun s hs => ⟨⟨_, rfl, fun _ h => by cases h⟩, hs.1.slack trivial (by omega)⟩
    · intro c acc h5
      simp only [Env.parseAll]
      refine Tr.bind (Q := fun v s => match v with
          | none => 𝐒 (fun _ => True) c s
          | some _ => ∃ r f, 𝐀 [] r 0 f s ∧ 3 * r.length + c + 4 ≤ 2 * f + 5 ∧
              (StopsText E.cc .base r ∨ 3 * r.length + c + 5 ≤ 2 * f + 5)) ?_ fun v => ?_
      · have key : ∀ {N : List (Item P) → Prop} {c' : Nat} (v : Option (Datum τ ε)) (s : St σ β),
            NextPost E.cc RS free .base N c' v s → c ≤ c' → (c' = c → ∀ r, N r → StopsText E.cc .base r) →
            match v with
            | none => 𝐒 (fun _ => True) c s
            | some _ => ∃ r f, 𝐀 [] r 0 f s ∧ 3 * r.length + c + 4 ≤ 2 * f + 5 ∧
                (StopsText E.cc .base r ∨ 3 * r.length + c + 5 ≤ 2 * f + 5) := by
          intro N c' v s hp hc hN
          have at' : ∀ {N' : List (Item P) → Prop} {k : Nat}, 𝐒 N' k s → ∃ r f, 𝐀 [] r 0 f s ∧ N' r ∧ 3 * r.length + k ≤ 2 * f + 5 := by
            rintro N' k ⟨r, h1, h2, h3⟩
            exact ⟨r, _, ⟨h1, by simpa using F.heldBound _ _ h1, rfl⟩, h2, h3⟩
          cases v with
          | none => exact hp.mono (fun _ h => h) hc
          | some d =>
            cases d with
            | text t =>
              obtain ⟨h1, h2⟩ := hp
              obtain ⟨r₁, h3, h4⟩ := h1 rfl
              have hc' : c' ≠ c := fun h => h4 (hN h _ h3)
              obtain ⟨r, f, h5, h6, h7⟩ := at' h2
              exact ⟨r, f, h5, by omega, .inl h6⟩
            | _ =>
              obtain ⟨r, f, h5, h6, h7⟩ := at' hp
              exact ⟨r, f, h5, by omega, .inr (by omega)⟩
        intro s o s' hs hx
        rcases hs with hs | hs
        · have := ih1 (mode := .base) (by intro h; cases h) s o s' hs hx
          rcases o with v | e | _ | _
          · exact key v s' this (Nat.le_refl _) (fun _ r h => h)
          · exact this
          · trivial
          · trivial
        · have := ih1 (mode := .base) (by intro h; cases h) s o s' hs hx
          rcases o with v | e | _ | _
          · exact key v s' this (by omega) (fun h => by omega)
          · exact this
          · trivial
          · trivial
      · cases v with
        | none => exact Tr.pure fun s hs => hs
        | some d =>
          refine Tr.exists fun r => Tr.exists fun f => ?_
          intro s o s' ⟨hs, hf, hr⟩ hx
          refine (?_ : Tr (𝐀 [] r 0 f) _ _ _) s o s' hs hx
          refine Tr.bind (F.t_newDatum _ (by omega)) fun _ => ?_
          refine Tr.bind ((F.t_newDatum _ (by omega)).pre fun s hs => hs.1) fun _ => ?_
          refine Tr.bind (Q := fun m s => m = true ∧ 𝐀 [] r 0 (f - 1 - 1) s) ?_ fun m => ?_
          · intro s o s' hs hx
            cases hx
            exact ⟨hs.2, hs.1⟩
          · refine Tr.prop fun hm => ?_
            subst hm
            rw [if_pos rfl]
            refine (ih3 h5).pre fun s hs => ?_
            rcases hr with hr | hr
            · exact .inl (hs.slack hr (by omega))
            · exact .inr (hs.slack trivial (by omega))

/-- A call of `next` with enough free slots does not run out of memory and leaves enough for the rest. -/
theorem Fits.t_doNext (n : Nat) : Tr 𝐄 (E.doNext n) (fun _ => 𝐄) 𝐄 := by
  have main := (F.t_parse n).1 (mode := .base) (N := fun _ => True) (c := 0) (by intro h; cases h)
  rintro s o s' ⟨p, r, h1, h2, h3⟩ hx
  rcases h2 with rfl | rfl
  · have := main s o s' ⟨r, h1, trivial, h3⟩ hx
    rcases o with v | e | _ | _
    · rcases v with _ | d
      · exact Slack.err this
      · cases d with
        | text t => exact this.2.err
        | _ => exact Slack.err this
    · exact this
    · trivial
    · trivial
  · cases n with
    | zero => cases hx; trivial
    | succ n =>
      have hd : E.doNext (n + 1) = E.parseNext (n + 1) .base := rfl
      rw [hd] at hx
      simp only [Env.parseNext] at hx
      refine (?_ : Tr (𝐀 p [] (held s.strm) (free s.alloc)) _ _ _) s o s' ⟨h1, rfl, rfl⟩ hx
      refine Tr.bind (Q := fun _ => 𝐀 p [] (held s.strm) (free s.alloc)) (Tr.pure fun s hs => hs) fun _ => ?_
      refine Tr.bind F.t_peek fun o => Tr.prop fun ho => ?_
      subst ho
      refine Tr.bind (Q := fun _ => 𝐀 p [] (held s.strm) (free s.alloc)) ?_ fun d => ?_
      · intro s o s' hs hx
        cases hx
        exact hs
      · refine Tr.ite (fun _ => Tr.pure fun s hs => hs.err (.inr rfl) (by simp)) fun _ => ?_
        exact Tr.throw (fun _ h => by cases h) fun s hs => hs.err (.inr rfl) (by simp)

/-- **Enough slots.** No call ever runs out of memory, whatever the characters are and also after errors. -/
theorem Fits.calls {s s' : St σ β} {os : List (Outcome (Err P CE) (Option (Datum τ ε)))} (h : E.Calls s os s')
    (hs : 𝐄 s) (hp : .panic ∉ os) : (∀ y, .err (.failedAlloc y) ∉ os) ∧ 𝐄 s' := by
  induction h with
  | nil => exact ⟨(fun _ h => by cases h), hs⟩
  | @cons s o s₁ os s₂ h1 _ ih =>
    obtain ⟨n, hn, hne⟩ := h1
    have h2 := F.t_doNext n s o s₁ hs hn
    simp only [List.mem_cons, not_or] at hp
    rcases o with v | e | _ | _
    · obtain ⟨i1, i2⟩ := ih h2 hp.2
      exact ⟨fun y h => (List.mem_cons.1 h).elim (fun h => by cases h) (i1 y), i2⟩
    · obtain ⟨i1, i2⟩ := ih h2.2 hp.2
      refine ⟨fun y h => ?_, i2⟩
      rcases List.mem_cons.1 h with h | h
      · cases h
        exact h2.1 y rfl
      · exact i1 y h
    · exact absurd rfl hp.1
    · exact absurd rfl hne

/-- The same for a whole parse. -/
theorem Fits.yields {s s' : St σ β} {l : List (Except (Err P CE) (Datum τ ε))} (h : E.Yields s l s')
    (hs : 𝐄 s) : (∀ y, .error (.failedAlloc y) ∉ l) ∧ 𝐄 s' := by
  induction h with
  | done h1 =>
    obtain ⟨n, hn, hne⟩ := h1
    exact ⟨(fun _ h => by cases h), F.t_doNext n _ _ _ hs hn⟩
  | datum h1 _ ih =>
    obtain ⟨n, hn, hne⟩ := h1
    obtain ⟨i1, i2⟩ := ih (F.t_doNext n _ _ _ hs hn)
    refine ⟨fun y h => ?_, i2⟩
    rcases List.mem_cons.1 h with h | h
    · cases h
    · exact i1 y h
  | error h1 _ ih =>
    obtain ⟨n, hn, hne⟩ := h1
    have h2 := F.t_doNext n _ _ _ hs hn
    obtain ⟨i1, i2⟩ := ih h2.2
    refine ⟨fun y h => ?_, i2⟩
    rcases List.mem_cons.1 h with h | h
    · cases h
      exact h2.1 y rfl
    · exact i1 y h

end

end Kul
