import Verif.Spec.Unbound
import Verif.Proof.Stack
import Verif.Proof.Unwind

/-! # Bindings that are not used -/

namespace Kul

variable {σ P τ ε α CE A B : Type}

/-- Within a nest no end delimiter is reported. -/
def NoStray (x : Act (St σ α) (Err P CE) A) : Prop :=
  ∀ s, s.ndepth ≠ 0 → ∀ p, (x s).1 ≠ .err (.unbalancedEndChar p)

namespace NoStray

theorem bind {x : Act (St σ α) (Err P CE) A} {f : A → Act (St σ α) (Err P CE) B} (hx : NoStray x)
    (hk : KeepsDepth x) (hf : ∀ a, NoStray (f a)) : NoStray (x >>= f) := by
  intro s hs p
  show (Act.bind x f s).1 ≠ _
  unfold Act.bind
  have h1 := hx s hs p
  have h2 := hk s
  rcases hxs : x s with ⟨a | e | _ | _, s'⟩
  · rw [hxs] at h2
    exact hf a s' (by rw [h2]; exact hs) p
  · rw [hxs] at h1
    simp only
    intro h
    cases h
    exact h1 rfl
  · intro h; cases h
  · intro h; cases h

theorem pure (a : A) : NoStray (σ := σ) (P := P) (α := α) (CE := CE) (Pure.pure a) := fun _ _ _ h => by cases h

theorem ite {p : Prop} [Decidable p] {x y : Act (St σ α) (Err P CE) A} (hx : NoStray x) (hy : NoStray y) :
    NoStray (if p then x else y) := by
  split <;> assumption

theorem fuel : NoStray (σ := σ) (P := P) (α := α) (CE := CE) (A := A) Act.fuel := fun _ _ _ h => by cases h

theorem panic : NoStray (σ := σ) (P := P) (α := α) (CE := CE) (A := A) Act.panic := fun _ _ _ h => by cases h

theorem throw {e : Err P CE} (he : ∀ p, e ≠ .unbalancedEndChar p) :
    NoStray (σ := σ) (α := α) (A := A) (Act.throw e) := fun _ _ p h => by cases h; exact he p rfl

theorem debugAssert (b : Bool) : NoStray (σ := σ) (P := P) (α := α) (CE := CE) (Act.debugAssert b) := by
  unfold Act.debugAssert
  cases b
  · exact fun _ _ _ h => by cases h
  · exact fun _ _ _ h => by cases h

theorem liftEmpty (f : σ → Outcome Empty A × σ) : NoStray (P := P) (α := α) (CE := CE) (liftEmpty f) :=
  fun s _ _ => liftEmpty_no_err f s _

theorem liftAlloc (f : α → Outcome AllocErr A × α) : NoStray (P := P) (σ := σ) (CE := CE) (liftAlloc f) := by
  intro s _ p
  unfold Kul.liftAlloc
  rcases f s.alloc with ⟨_ | _ | _ | _, a⟩ <;> (intro h; cases h)

theorem liftAccum (f : σ → α → Outcome AllocErr A × σ × α) : NoStray (P := P) (CE := CE) (liftAccum f) := by
  intro s _ p
  unfold Kul.liftAccum
  rcases f s.strm s.alloc with ⟨_ | _ | _ | _, _, a⟩ <;> (intro h; cases h)

theorem nested {x : Act (St σ α) (Err P CE) A} (hx : NoStray x) (s : St σ α) (p : P) :
    (Env.nestedInDepth x s).1 ≠ .err (.unbalancedEndChar p) := by
  unfold Env.nestedInDepth
  have h := hx { s with ndepth := s.ndepth + 1 } (by simp) p
  rcases hxs : x { s with ndepth := s.ndepth + 1 } with ⟨o, s'⟩
  rw [hxs] at h
  simp only
  split
  · intro h; cases h
  · exact h

end NoStray

section
variable (E : Env σ P τ ε α CE)

theorem Env.noStray_concatAccum (t : τ) : NoStray (E.concatAccum t) :=
  .bind (.liftAccum _) (fun _ => rfl) fun _ => .liftAlloc _

theorem Env.noStray_checkEndChar : NoStray E.checkEndChar := by
  refine .bind (.liftEmpty _) E.keeps_peek fun o => .bind (.debugAssert _) (KeepsDepth.debugAssert _) fun _ => ?_
  intro s hs p
  show (Act.bind Env.getDepth _ s).1 ≠ _
  simp only [Act.bind, Env.getDepth]
  rw [if_pos (by omega)]
  intro h; cases h

theorem Env.noStray_finishText (t : τ) (l : Nat) : NoStray (E.finishText t l) :=
  .ite (E.noStray_concatAccum t) (.throw fun _ h => by cases h)

theorem Env.noStray_skipWhitespace (n : Nat) : NoStray (E.skipWhitespace n) := by
  induction n with
  | zero => exact .fuel
  | succ n ih =>
    refine .bind (.liftEmpty _) E.keeps_peek fun o => ?_
    cases o with
    | none => exact .pure _
    | some it => exact .ite (.bind (.liftEmpty _) E.keeps_next fun _ => ih) (.pure _)

theorem Env.noStray_skipLeading (n : Nat) (m : Mode) : NoStray (E.skipLeading n m) :=
  .ite (E.noStray_skipWhitespace n) (.pure _)

theorem Env.noStray_parseTextLoop (m : Mode) (n : Nat) : ∀ t l, NoStray (E.parseTextLoop m n t l) := by
  induction n with
  | zero => exact fun _ _ => .fuel
  | succ n ih =>
    intro t l
    refine .bind (.liftEmpty _) E.keeps_peek fun o => ?_
    cases o with
    | none => exact E.noStray_finishText _ _
    | some it =>
      refine .ite (E.noStray_finishText _ _) (.ite ?_ (.ite ?_ (.ite (.ite ?_ ?_) ?_)))
      · exact .bind (E.noStray_concatAccum _) (E.keeps_concatAccum _) fun _ => .bind (.liftEmpty _) E.keeps_next fun _ =>
          .bind (.liftAccum _) E.keeps_nextAccum fun _ => ih _ _
      · exact .bind (.liftAccum _) E.keeps_nextAccum fun _ => ih _ _
      · exact .bind (.liftAccum _) E.keeps_nextAccum fun _ => ih _ _
      · exact .bind E.noStray_checkEndChar E.keeps_checkEndChar fun _ => E.noStray_finishText _ _
      · exact .bind (.liftAccum _) E.keeps_nextAccum fun _ => ih _ _

theorem Env.noStray_nestEnd : NoStray E.nestEnd := by
  refine .bind (.liftEmpty _) E.keeps_next fun o => ?_
  cases o with
  | none => exact .throw fun _ h => by cases h
  | some it => exact .debugAssert _

theorem Env.noStray_skipSeparator : NoStray E.skipSeparator := by
  refine .bind (.liftEmpty _) E.keeps_peek fun o => ?_
  cases o with
  | none => exact .pure _
  | some it => exact .ite (.bind (.liftEmpty _) E.keeps_next fun _ => .pure _) (.pure _)

theorem Env.noStray_newDatum (d : Datum τ ε) : NoStray (E.newDatum d) := .liftAlloc _

/-- Without bindings. -/
theorem Env.noStray_parse (hb : ∀ d, E.lookup d = none) (n : Nat) :
    (∀ m, NoStray (E.parseNext n m)) ∧ NoStray (E.parseNested n) ∧ (∀ m acc, NoStray (E.parseAll n m acc)) := by
  induction n with
  | zero =>
    refine ⟨fun m => ?_, ?_, fun m acc => ?_⟩
    · unfold Env.parseNext; exact .fuel
    · unfold Env.parseNested; exact .fuel
    · unfold Env.parseAll; exact .fuel
  | succ n ih =>
    obtain ⟨ihn, ihd, iha⟩ := ih
    obtain ⟨kn, kd, ka⟩ := E.keeps_parse n
    refine ⟨fun m => ?_, ?_, fun m acc => ?_⟩
    · unfold Env.parseNext
      refine .bind (E.noStray_skipLeading n m) (E.keeps_skipLeading n m) fun _ => .bind (.liftEmpty _) E.keeps_peek fun o => ?_
      cases o with
      | none =>
        refine .bind (x := Env.getDepth) (fun _ _ _ h => by cases h) (fun _ => rfl) fun d => ?_
        exact .ite (.pure _) (.throw fun _ h => by cases h)
      | some it =>
        refine .ite (.bind (fun s _ p => ihd.nested s p) (Env.keeps_nestedInDepth kd) fun o => ?_) (.ite ?_ ?_)
        · cases o with
          | none => exact ihn m
          | some d => exact .pure _
        · exact .bind E.noStray_checkEndChar E.keeps_checkEndChar fun _ => .pure _
        · exact .bind (E.noStray_parseTextLoop _ _ _ _) (E.keeps_parseText _ _) fun _ => .pure _
    · unfold Env.parseNested
      refine .bind (.liftEmpty _) E.keeps_next fun _ => .bind (.debugAssert _) (KeepsDepth.debugAssert _) fun _ =>
        .bind (ihn _) (kn _) fun o => .bind E.noStray_skipSeparator E.keeps_skipSeparator fun _ => ?_
      cases o with
      | none => exact .bind E.noStray_nestEnd E.keeps_nestEnd fun _ => .pure _
      | some h =>
        simp only [hb]
        exact .bind (iha _ _) (ka _ _) fun _ => .bind E.noStray_nestEnd E.keeps_nestEnd fun _ =>
          .bind (E.noStray_newDatum _) (E.keeps_newDatum _) fun _ => .bind (E.noStray_newDatum _) (E.keeps_newDatum _) fun _ =>
          .pure _
    · unfold Env.parseAll
      refine .bind (ihn m) (kn m) fun o => ?_
      cases o with
      | none => exact .pure _
      | some it =>
        refine .bind (E.noStray_newDatum _) (E.keeps_newDatum _) fun _ =>
          .bind (E.noStray_newDatum _) (E.keeps_newDatum _) fun _ =>
          .bind (x := E.getMutFresh) (fun _ _ _ h => by cases h) E.keeps_getMutFresh fun m => ?_
        exact .ite (iha _ _) (.throw fun _ h => by cases h)

theorem Env.unbound_parseTextLoop (m : Mode) (n : Nat) : ∀ t l,
    E.unbound.parseTextLoop m n t l = E.parseTextLoop m n t l := by
  induction n with
  | zero => exact fun _ _ => rfl
  | succ n ih =>
    intro t l
    have : E.unbound.parseTextLoop m n = E.parseTextLoop m n := by funext t l; exact ih t l
    unfold Env.parseTextLoop
    rw [this]
    rfl

theorem Env.unbound_skipLeading (n : Nat) (m : Mode) : E.unbound.skipLeading n m = E.skipLeading n m := by
  have : E.unbound.skipWhitespace n = E.skipWhitespace n := by
    induction n with
    | zero => rfl
    | succ n ih => unfold Env.skipWhitespace; rw [ih]; rfl
  unfold Env.skipLeading
  rw [this]

end

/-- Every operator in the datum is unbound. -/
def Unbound (E : Env σ P τ ε α CE) (d : Datum τ ε) : Prop := ∀ h, OperatorIn h d → E.lookup h = none

/-- Results that do not come from a failed nest. -/
def Plain (E : Env σ P τ ε α CE) : Outcome (Err P CE) (Option (Datum τ ε)) → Prop
  | .ok none => True
  | .ok (some d) => Unbound E d
  | .err e => ∃ p, e = .unbalancedEndChar p
  | _ => False

theorem Act.bind_eq {S X : Type} {x : Act S X A} {f : A → Act S X B} {s s' : S} {o : Outcome X B}
    (h : (x >>= f) s = (o, s')) :
    (∃ a s₁, x s = (.ok a, s₁) ∧ f a s₁ = (o, s')) ∨ (∃ e, x s = (.err e, s') ∧ o = .err e) ∨
      o = .panic ∨ o = .fuel := by
  change Act.bind x f s = _ at h
  unfold Act.bind at h
  rcases hx : x s with ⟨a | e | _ | _, s₁⟩ <;> rw [hx] at h
  · exact Or.inl ⟨a, s₁, rfl, h⟩
  all_goals (simp only [Prod.mk.injEq] at h; obtain ⟨rfl, rfl⟩ := h)
  · exact Or.inr (Or.inl ⟨e, rfl, rfl⟩)
  · exact Or.inr (Or.inr (Or.inl rfl))
  · exact Or.inr (Or.inr (Or.inr rfl))

/-- A successful sequence. -/
theorem Act.bind_ok_eq {S X : Type} {x : Act S X A} {f : A → Act S X B} {s s' : S} {b : B}
    (h : (x >>= f) s = (.ok b, s')) : ∃ a s₁, x s = (.ok a, s₁) ∧ f a s₁ = (.ok b, s') := by
  rcases Act.bind_eq h with h | ⟨_, _, h⟩ | h | h
  · exact h
  all_goals cases h

section
variable (E : Env σ P τ ε α CE)

/-- The result of `parse_all` has the elements so far in front. -/
theorem Env.parseAll_list (n : Nat) : ∀ {m acc s L s'}, E.parseAll n m acc s = (.ok L, s') →
    ∃ ds, L = mkList (acc ++ ds) := by
  induction n with
  | zero => intro m acc s L s' h; unfold Env.parseAll at h; cases h
  | succ n ih =>
    intro m acc s L s' h
    unfold Env.parseAll at h
    obtain ⟨o, s₁, h1, h2⟩ := Act.bind_ok_eq h
    cases o with
    | none => cases h2; exact ⟨[], by simp⟩
    | some it =>
      obtain ⟨_, s₂, _, h3⟩ := Act.bind_ok_eq h2
      obtain ⟨_, s₃, _, h4⟩ := Act.bind_ok_eq h3
      obtain ⟨b, s₄, _, h5⟩ := Act.bind_ok_eq h4
      cases b with
      | false => cases h5
      | true =>
        obtain ⟨ds, rfl⟩ := ih h5
        exact ⟨it :: ds, by simp⟩

theorem OperatorIn.of_mem {h it : Datum τ ε} (hi : OperatorIn h it) : ∀ {l : List (Datum τ ε)}, it ∈ l →
    OperatorIn h (mkList l) := by
  intro l hm
  induction l with
  | nil => cases hm
  | cons x l ih =>
    rcases List.mem_cons.1 hm with rfl | hm
    · exact .element hi
    · exact .rest (ih hm)

theorem Env.unbound_parse (n : Nat) :
    (∀ m s o s', E.unbound.parseNext n m s = (o, s') → Plain E o → E.parseNext n m s = (o, s')) ∧
    (∀ s d s', E.unbound.parseNested n s = (.ok d, s') → (∀ d', d = some d' → Unbound E d') →
      d ≠ none ∧ E.parseNested n s = (.ok d, s')) ∧
    (∀ m acc s L s', E.unbound.parseAll n m acc s = (.ok L, s') → Unbound E L →
      E.parseAll n m acc s = (.ok L, s')) := by
  induction n with
  | zero =>
    refine ⟨fun m s o s' h ho => ?_, fun s d s' h => ?_, fun m acc s L s' h => ?_⟩
    · unfold Env.parseNext at h; cases h; exact absurd ho id
    · unfold Env.parseNested at h; cases h
    · unfold Env.parseAll at h; cases h
  | succ n ih =>
    obtain ⟨ihn, ihd, iha⟩ := ih
    refine ⟨fun m s o s' h ho => ?_, fun s d s' h hd => ?_, fun m acc s L s' h hL => ?_⟩
    · unfold Env.parseNext at h ⊢
      rw [E.unbound_skipLeading] at h
      rw [← h]
      refine (Act.bind_congr rfl fun _ s₁ hs₁ => ?_)
      rw [Act.bind_ok hs₁] at h
      refine (Act.bind_congr rfl fun o s₂ hs₂ => ?_)
      have h' := h
      rw [Act.bind_ok (x := E.unbound.peek) hs₂] at h'
      clear h
      cases o with
      | none => rfl
      | some it =>
        simp only at h' ⊢
        by_cases h1 : E.cc.isNestStart it.ch = true
        · rw [if_pos (show E.unbound.cc.isNestStart it.ch = true from h1)] at h' ⊢
          rw [if_pos h1, h']
          rcases Act.bind_eq h' with ⟨a, s₃, h3, h4⟩ | ⟨e, h3, h4⟩ | h3 | h3
          · have h5 : ∃ t, E.unbound.parseNested n { s₂ with ndepth := s₂.ndepth + 1 } = (.ok a, t) ∧ t.ndepth ≠ 0 ∧
                s₃ = { t with ndepth := t.ndepth - 1 } := by
              unfold Env.nestedInDepth at h3
              rcases hx : E.unbound.parseNested n { s₂ with ndepth := s₂.ndepth + 1 } with ⟨o₁, t⟩
              rw [hx] at h3
              simp only at h3
              split at h3
              · cases h3
              · cases h3; exact ⟨t, rfl, by assumption, rfl⟩
            obtain ⟨t, h5, h6, h7⟩ := h5
            have h8 := ihd _ _ _ h5 fun d' hd' => by
              subst hd'
              cases h4
              exact ho
            have h9 : Env.nestedInDepth (E.parseNested n) s₂ = (.ok a, s₃) := by
              unfold Env.nestedInDepth
              rw [h8.2]
              simp only [h6, if_false, h7]
            rw [Act.bind_ok h9]
            cases a with
            | none => exact absurd rfl h8.1
            | some d => exact h4
          · subst h4
            obtain ⟨p, rfl⟩ := ho
            exact absurd (by rw [h3]) (NoStray.nested (E.unbound.noStray_parse (fun _ => rfl) n).2.1 s₂ p)
          · subst h3; exact absurd ho id
          · subst h3; exact absurd ho id
        · rw [if_neg (show ¬ E.unbound.cc.isNestStart it.ch = true from h1), if_neg h1]
          by_cases h2 : E.cc.isNestEnd it.ch = true
          · rw [if_pos (show E.unbound.cc.isNestEnd it.ch = true from h2), if_pos h2]
            rfl
          · rw [if_neg (show ¬ E.unbound.cc.isNestEnd it.ch = true from h2), if_neg h2]
            unfold Env.parseText
            rw [E.unbound_parseTextLoop]
            rfl
    · unfold Env.parseNested at h ⊢
      obtain ⟨st, s₁, h1, h⟩ := Act.bind_ok_eq h
      obtain ⟨_, s₂, h2, h⟩ := Act.bind_ok_eq h
      obtain ⟨o, s₃, h3, h⟩ := Act.bind_ok_eq h
      obtain ⟨_, s₄, h4, h⟩ := Act.bind_ok_eq h
      change Act.debugAssert (Option.map (fun it => E.cc.isNestStart it.ch) st == some true) s₁ = _ at h2
      rw [Act.bind_ok (x := E.next) h1, Act.bind_ok (x := Act.debugAssert _) h2]
      cases o with
      | none =>
        rw [Act.bind_ok (ihn _ _ _ _ h3 trivial), Act.bind_ok (x := E.skipSeparator) h4]
        obtain ⟨_, s₅, h5, h6⟩ := Act.bind_ok_eq h
        refine ⟨?_, ?_⟩
        · cases h6; exact fun h => by cases h
        · simp only
          rw [Act.bind_ok (x := E.nestEnd) h5]
          exact h6
      | some op =>
        have hl : E.unbound.lookup op = none := rfl
        simp only [hl] at h
        obtain ⟨L, s₅, h5, h⟩ := Act.bind_ok_eq h
        obtain ⟨_, s₆, h6, h⟩ := Act.bind_ok_eq h
        obtain ⟨_, s₇, h7, h⟩ := Act.bind_ok_eq h
        obtain ⟨_, s₈, h8, h⟩ := Act.bind_ok_eq h
        cases h
        have hc := hd _ rfl
        rw [Act.bind_ok (ihn _ _ _ _ h3 fun k hk => hc k (.operator hk)), Act.bind_ok (x := E.skipSeparator) h4]
        refine ⟨fun h => (by cases h), ?_⟩
        simp only [hc op .here]
        rw [Act.bind_ok (iha _ _ _ _ _ h5 fun k hk => hc k (.operands hk)), Act.bind_ok (x := E.nestEnd) h6,
          Act.bind_ok (x := E.newDatum op) h7, Act.bind_ok (x := E.newDatum L) h8]
        rfl
    · unfold Env.parseAll at h ⊢
      obtain ⟨o, s₁, h1, h⟩ := Act.bind_ok_eq h
      cases o with
      | none =>
        rw [Act.bind_ok (ihn _ _ _ _ h1 trivial)]
        exact h
      | some it =>
        obtain ⟨_, s₂, h2, h⟩ := Act.bind_ok_eq h
        obtain ⟨_, s₃, h3, h⟩ := Act.bind_ok_eq h
        obtain ⟨b, s₄, h4, h⟩ := Act.bind_ok_eq h
        have hit : Unbound E it := by
          cases b with
          | false => cases h
          | true =>
            obtain ⟨ds, hds⟩ := E.unbound.parseAll_list n h
            subst hds
            exact fun k hk => hL k (hk.of_mem (by simp))
        rw [Act.bind_ok (ihn _ _ _ _ h1 hit)]
        simp only
        rw [Act.bind_ok (x := E.newDatum it) h2, Act.bind_ok (x := E.newDatum .emptyList) h3,
          Act.bind_ok (x := E.getMutFresh) h4]
        cases b with
        | false => cases h
        | true => exact iha _ _ _ _ _ h hL

end

end Kul
