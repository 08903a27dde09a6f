import Verif.Spec.AnyUser

/-! # What the parser does with any user code -/

namespace Kul

variable {W P τ ε CE A B E : Type}

namespace AnyUser

variable {U : AnyUser W P τ ε CE} {w₀ : W}

/-- Where an error is from. -/
def Known (U : AnyUser W P τ ε CE) (w₀ : W) (e : Err P CE) : Prop := U.CombinerGave w₀ e ∨ U.Cause w₀ e

/-- Only the user's functions have acted, and the depth is restored on returning. -/
def Fine (U : AnyUser W P τ ε CE) (w₀ : W) (x : Act (St W Unit) (Err P CE) A) : Prop := ∀ s, U.Reach w₀ s.strm →
  U.Reach w₀ (x s).2.strm ∧ s.ndepth ≤ (x s).2.ndepth ∧ (∀ a, (x s).1 = .ok a → (x s).2.ndepth = s.ndepth) ∧
  ∀ e, (x s).1 = .err e → (x s).2.ndepth = s.ndepth ∧ U.Known w₀ e

theorem Fine.pure (a : A) : Fine U w₀ (Pure.pure a : Act (St W Unit) (Err P CE) A) :=
  fun _ h => ⟨h, Nat.le_refl _, fun _ _ => rfl, nofun⟩

theorem Fine.throw {e : Err P CE} (h : U.Known w₀ e) : Fine U w₀ (Act.throw e : Act (St W Unit) (Err P CE) A) :=
  fun _ hs => ⟨hs, Nat.le_refl _, fun _ _ => rfl, fun e' he => ⟨rfl, by cases he; exact h⟩⟩

theorem Fine.panic : Fine U w₀ (Act.panic : Act (St W Unit) (Err P CE) A) :=
  fun _ hs => ⟨hs, Nat.le_refl _, nofun, nofun⟩

theorem Fine.fuel : Fine U w₀ (Act.fuel : Act (St W Unit) (Err P CE) A) :=
  fun _ hs => ⟨hs, Nat.le_refl _, nofun, nofun⟩

theorem Fine.depth : Fine U w₀ (Env.getDepth : Act (St W Unit) (Err P CE) Nat) :=
  fun _ hs => ⟨hs, Nat.le_refl _, fun _ _ => rfl, nofun⟩

theorem Fine.assert (b : Bool) : Fine U w₀ (Act.debugAssert b : Act (St W Unit) (Err P CE) Unit) := by
  intro s hs
  unfold Act.debugAssert
  split
  · exact ⟨hs, Nat.le_refl _, fun _ _ => rfl, nofun⟩
  · exact ⟨hs, Nat.le_refl _, nofun, nofun⟩

theorem Fine.bind {x : Act (St W Unit) (Err P CE) A} {f : A → Act (St W Unit) (Err P CE) B} (hx : Fine U w₀ x)
    (hf : ∀ a, (∃ s, U.Reach w₀ s.strm ∧ (x s).1 = .ok a) → Fine U w₀ (f a)) : Fine U w₀ (x >>= f) := by
  intro s hs
  have h := hx s hs
  change U.Reach w₀ (Act.bind x f s).2.strm ∧ s.ndepth ≤ (Act.bind x f s).2.ndepth ∧
    (∀ a, (Act.bind x f s).1 = .ok a → (Act.bind x f s).2.ndepth = s.ndepth) ∧
    ∀ e, (Act.bind x f s).1 = .err e → (Act.bind x f s).2.ndepth = s.ndepth ∧ U.Known w₀ e
  unfold Act.bind
  rcases hr : x s with ⟨a | e | _ | _, s'⟩
  · rw [hr] at h
    have h' := hf a ⟨s, hs, by rw [hr]⟩ s' h.1
    have e := h.2.2.1 a rfl
    simp only at e
    simp only [e] at h'
    exact h'
  all_goals
    rw [hr] at h
    refine ⟨h.1, h.2.1, fun _ h' => ?_, fun e' he => ?_⟩ <;> first | cases h' | cases he
  exact h.2.2.2 _ rfl

theorem Fine.bind' {x : Act (St W Unit) (Err P CE) A} {f : A → Act (St W Unit) (Err P CE) B} (hx : Fine U w₀ x)
    (hf : ∀ a, Fine U w₀ (f a)) : Fine U w₀ (x >>= f) := hx.bind fun a _ => hf a

theorem Fine.ite {c : Prop} [Decidable c] {x y : Act (St W Unit) (Err P CE) A} (hx : c → Fine U w₀ x)
    (hy : ¬ c → Fine U w₀ y) : Fine U w₀ (if c then x else y) := by
  split
  · exact hx ‹_›
  · exact hy ‹_›

theorem Fine.code {g : E → Err P CE} {f : W → Outcome E A × W} (hr : ∀ w, U.Reach w₀ w → U.Reach w₀ (f w).2)
    (he : ∀ w e, U.Reach w₀ w → (f w).1 = .err e → U.Known w₀ (g e)) : Fine U w₀ (ofUserCode g f) := by
  intro s hs
  refine ⟨hr _ hs, Nat.le_refl _, fun _ _ => rfl, fun e h => ⟨rfl, ?_⟩⟩
  unfold ofUserCode at h
  rcases ho : (f s.strm).1 with a | e' | _ | _
  all_goals simp only [ho, Outcome.mapErr] at h; cases h
  exact he _ _ hs ho

theorem Fine.fn {f : W → Outcome Empty A × W} (hr : ∀ w, U.Reach w₀ w → U.Reach w₀ (f w).2) :
    Fine U w₀ (ofUserFn f : Act (St W Unit) (Err P CE) A) := .code hr fun _ e => nomatch e

theorem ofUserCode_ok {g : E → Err P CE} {f : W → Outcome E A × W} {s : St W Unit} {a : A}
    (h : (ofUserCode g f s).1 = .ok a) : (f s.strm).1 = .ok a := by
  unfold ofUserCode at h
  rcases ho : (f s.strm).1 with a | e' | _ | _
  all_goals simp only [ho, Outcome.mapErr] at h; cases h
  rfl

variable (U w₀)

theorem fine_peek : Fine U w₀ (ofUserFn U.peek) := .fn fun _ => .peek
theorem fine_next : Fine U w₀ (ofUserFn U.next) := .fn fun _ => .next
theorem fine_empty : Fine U w₀ (ofUserFn U.emptyText) := .fn fun _ => .emptyText
theorem fine_ask (q : Ask) (ch : Char) : Fine U w₀ (ofUserFn (U.ask q ch)) := .fn fun _ => .ask q ch
theorem fine_getMut (d : Datum τ ε) : Fine U w₀ (ofUserFn (U.getMut d)) := .fn fun _ => .getMut d
theorem fine_lookup (d : Datum τ ε) : Fine U w₀ (ofUserFn (U.lookup d)) := .fn fun _ => .lookup d
theorem fine_nextAccum : Fine U w₀ (ofUserAlloc U.nextAccum) :=
  .code (fun _ => .nextAccum) fun _ _ h he => Or.inr (.failedAlloc h (Or.inl he))
theorem fine_accumDone : Fine U w₀ (ofUserAlloc U.accumDone) :=
  .code (fun _ => .accumDone) fun _ _ h he => Or.inr (.failedAlloc h (Or.inr (Or.inl he)))
theorem fine_concat (t u : τ) : Fine U w₀ (ofUserAlloc (U.concat t u)) :=
  .code (fun _ => .concat t u) fun _ _ h he => Or.inr (.failedAlloc h (Or.inr (Or.inr (Or.inl ⟨t, u, he⟩))))
theorem fine_newDatum (d : Datum τ ε) : Fine U w₀ (ofUserAlloc (U.newDatum d)) :=
  .code (fun _ => .newDatum d) fun _ _ h he => Or.inr (.failedAlloc h (Or.inr (Or.inr (Or.inr ⟨d, he⟩))))

theorem fine_concatAccum (t : τ) : Fine U w₀ (U.concatAccum t) :=
  (fine_accumDone U w₀).bind' fun _ => fine_concat U w₀ _ _

theorem fine_isEnd (m : Mode) (ch : Char) : Fine U w₀ (U.isEnd m ch) := by
  cases m with
  | base => exact fine_ask U w₀ _ _
  | operator =>
    exact (fine_ask U w₀ _ _).bind' fun _ => .ite (fun _ => .pure _) fun _ =>
      (fine_ask U w₀ _ _).bind' fun _ => .ite (fun _ => .pure _) fun _ => fine_ask U w₀ _ _
  | operands => exact fine_ask U w₀ _ _

theorem fine_stops (m : Mode) (k : Nat) (ch : Char) : Fine U w₀ (U.stops m k ch) :=
  .ite (fun _ => fine_isEnd U w₀ m ch) fun _ => .pure _

theorem stops_level {m : Mode} {k : Nat} {ch : Char} {s : St W Unit} (h : (U.stops m k ch s).1 = .ok true) : k = 0 := by
  unfold stops at h
  split at h
  · assumption
  · cases h

theorem fine_skipWhitespace (n : Nat) : Fine U w₀ (U.skipWhitespace n) := by
  induction n with
  | zero => exact .fuel
  | succ n ih =>
    refine (fine_peek U w₀).bind' fun o => ?_
    cases o with
    | none => exact .pure _
    | some it => exact (fine_ask U w₀ _ _).bind' fun _ => .ite (fun _ => (fine_next U w₀).bind' fun _ => ih) fun _ => .pure _

theorem fine_askItem (q : Ask) (o : Option (Item P)) : Fine U w₀ (U.askItem q o) := by
  cases o with
  | none => exact .pure _
  | some it => exact (fine_ask U w₀ _ _).bind' fun _ => .pure _

theorem askItem_ok {q : Ask} {o : Option (Item P)} {s : St W Unit} (h : (U.askItem q o s).1 = .ok (some true)) :
    ∃ ch, (U.ask q ch s.strm).1 = .ok true := by
  cases o with
  | none => cases h
  | some it =>
    refine ⟨it.ch, ?_⟩
    change (Act.bind (ofUserFn (U.ask q it.ch)) (fun b => Pure.pure (some b)) s).1 = .ok (some true) at h
    unfold Act.bind at h
    rcases hx : (ofUserFn (CE := CE) (P := P) (U.ask q it.ch) s) with ⟨b | _ | _ | _, s'⟩
    all_goals rw [hx] at h; cases h
    exact ofUserCode_ok (by rw [show ofUserCode _ _ _ = _ from hx])

theorem fine_checkEndChar : Fine U w₀ U.checkEndChar := by
  refine (fine_peek U w₀).bind' fun o => (fine_askItem U w₀ _ o).bind fun b hb => (Fine.assert _).bind fun _ ha =>
    Fine.depth.bind' fun d => .ite (fun _ => .pure _) fun _ => (fine_next U w₀).bind fun o ho => ?_
  have hb' : b = some true := by
    obtain ⟨_, _, ha⟩ := ha
    unfold Act.debugAssert at ha
    split at ha
    · next h => exact eq_of_beq h
    · cases ha
  subst hb'
  obtain ⟨s, hs, hb⟩ := hb
  obtain ⟨s', hs', ho⟩ := ho
  cases o with
  | none => exact .panic
  | some it => exact .throw (Or.inr (.unbalancedEndChar hs' (ofUserCode_ok ho) hs (askItem_ok U hb)))

theorem fine_finishText {t : τ} {k : Nat} (h : k = 0 ∨ U.Known w₀ .missingEndChar) : Fine U w₀ (U.finishText t k) :=
  .ite (fun _ => fine_concatAccum U w₀ t) fun hk => .throw (h.resolve_left hk)

theorem fine_parseTextLoop (m : Mode) (n : Nat) (t : τ) (k : Nat) : Fine U w₀ (U.parseTextLoop m n t k) := by
  induction n generalizing t k with
  | zero => exact .fuel
  | succ n ih =>
    refine (fine_peek U w₀).bind fun o ho => ?_
    cases o with
    | none =>
      obtain ⟨s, hs, ho⟩ := ho
      exact fine_finishText U w₀ (Or.inr (Or.inr (.missingEndChar hs (Or.inl (ofUserCode_ok ho)))))
    | some it =>
      refine (fine_stops U w₀ _ _ _).bind fun b hb => .ite (fun h => ?_) fun _ => ?_
      · subst h
        obtain ⟨s, _, hb⟩ := hb
        exact fine_finishText U w₀ (Or.inl (stops_level U hb))
      refine (fine_ask U w₀ _ _).bind' fun _ => .ite (fun _ => ?_) fun _ => ?_
      · exact (fine_concatAccum U w₀ t).bind' fun _ => (fine_next U w₀).bind' fun _ => (fine_nextAccum U w₀).bind' fun _ => ih _ _
      refine (fine_ask U w₀ _ _).bind' fun _ => .ite (fun _ => (fine_nextAccum U w₀).bind' fun _ => ih _ _) fun _ => ?_
      refine (fine_ask U w₀ _ _).bind' fun _ => .ite (fun _ => ?_) fun _ => (fine_nextAccum U w₀).bind' fun _ => ih _ _
      exact .ite (fun _ => (fine_nextAccum U w₀).bind' fun _ => ih _ _) fun h =>
        (fine_checkEndChar U w₀).bind' fun _ => fine_finishText U w₀ (Or.inl (by omega))

theorem fine_parseText (n : Nat) (m : Mode) : Fine U w₀ (U.parseText n m) :=
  (fine_empty U w₀).bind' fun _ => fine_parseTextLoop U w₀ _ _ _ _

theorem fine_nestEnd : Fine U w₀ U.nestEnd := by
  refine (fine_next U w₀).bind fun o ho => ?_
  cases o with
  | none =>
    obtain ⟨s, hs, ho⟩ := ho
    exact .throw (Or.inr (.missingEndChar hs (Or.inr (ofUserCode_ok ho))))
  | some it => exact (fine_ask U w₀ _ _).bind' fun _ => .assert _

theorem fine_skipSeparator : Fine U w₀ U.skipSeparator := by
  refine (fine_peek U w₀).bind' fun o => ?_
  cases o with
  | none => exact .pure _
  | some it => exact (fine_ask U w₀ _ _).bind' fun _ => .ite (fun _ => (fine_next U w₀).bind' fun _ => .pure _) fun _ => .pure _

theorem fine_skipLeading (n : Nat) (m : Mode) : Fine U w₀ (U.skipLeading n m) :=
  .ite (fun _ => fine_skipWhitespace U w₀ n) fun _ => .pure _

theorem Fine.nested {U : AnyUser W P τ ε CE} {w₀ : W} {x : Act (St W Unit) (Err P CE) A} (h : Fine U w₀ x) :
    Fine U w₀ (nestedUnwind x) := by
  intro s hs
  unfold nestedUnwind
  have hx := h { s with ndepth := s.ndepth + 1 } hs
  rcases hr : x { s with ndepth := s.ndepth + 1 } with ⟨a | e | _ | _, s'⟩ <;> rw [hr] at hx <;>
    obtain ⟨h1, h2, h3, h4⟩ := hx <;> simp only at h1 h2 h3 h4 ⊢
  · have := h3 a rfl
    rw [if_neg (by omega)]
    exact ⟨h1, by simp only; omega, fun _ _ => by simp only; omega, nofun⟩
  · have := h4 e rfl
    rw [if_neg (by omega)]
    exact ⟨h1, by simp only; omega, nofun, fun e' h => ⟨by simp only; omega, by cases h; exact this.2⟩⟩
  · exact ⟨h1, by omega, nofun, nofun⟩
  · rw [if_neg (by omega)]
    exact ⟨h1, by simp only; omega, nofun, nofun⟩

theorem fine_parse (n : Nat) :
    (∀ m, Fine U w₀ (U.parseNext n m)) ∧ Fine U w₀ (U.parseNested n) ∧ ∀ m acc last, Fine U w₀ (U.parseAll n m acc last) := by
  induction n with
  | zero =>
    refine ⟨fun m => ?_, ?_, fun m acc last => ?_⟩
    · unfold parseNext; exact .fuel
    · unfold parseNested; exact .fuel
    · unfold parseAll; exact .fuel
  | succ n ih =>
    obtain ⟨ihn, ihd, iha⟩ := ih
    refine ⟨fun m => ?_, ?_, fun m acc last => ?_⟩
    · unfold parseNext
      refine (fine_skipLeading U w₀ n m).bind' fun _ => (fine_peek U w₀).bind fun o ho => ?_
      cases o with
      | none =>
        obtain ⟨s, hs, ho⟩ := ho
        exact Fine.depth.bind' fun d => .ite (fun _ => .pure _) fun _ =>
          .throw (Or.inr (.missingEndChar hs (Or.inl (ofUserCode_ok ho))))
      | some it =>
        refine (fine_ask U w₀ _ _).bind' fun _ => .ite (fun _ => ihd.nested.bind' fun o => ?_) fun _ =>
          (fine_ask U w₀ _ _).bind' fun _ => .ite (fun _ => (fine_checkEndChar U w₀).bind' fun _ => .pure _) fun _ =>
          (fine_parseText U w₀ _ _).bind' fun _ => .pure _
        cases o with
        | none => exact ihn m
        | some d => exact .pure _
    · unfold parseNested
      refine (fine_next U w₀).bind' fun o => (fine_askItem U w₀ _ o).bind' fun b => (Fine.assert _).bind' fun _ =>
        (ihn _).bind' fun o => (fine_skipSeparator U w₀).bind' fun _ => ?_
      cases o with
      | none => exact (fine_nestEnd U w₀).bind' fun _ => .pure _
      | some d =>
        refine (fine_lookup U w₀ d).bind fun c hc => ?_
        obtain ⟨s, hs, hc⟩ := hc
        have hc := ofUserCode_ok hc
        rcases c with _ | (f | f)
        · exact (iha _ _ _).bind' fun _ => (fine_nestEnd U w₀).bind' fun _ => (fine_newDatum U w₀ _).bind' fun _ =>
            (fine_newDatum U w₀ _).bind' fun _ => .pure _
        · exact (fine_parseText U w₀ _ _).bind' fun t => (fine_nestEnd U w₀).bind' fun _ =>
            .code (fun w' h => .operative t hs hc h) fun w' e h he =>
              Or.inl ⟨s.strm, w', d, hs, h, Or.inl ⟨f, t, hc, he⟩⟩
        · exact (iha _ _ _).bind' fun l => (fine_nestEnd U w₀).bind' fun _ =>
            .code (fun w' h => .applicative l hs hc h) fun w' e h he =>
              Or.inl ⟨s.strm, w', d, hs, h, Or.inr ⟨f, l, hc, he⟩⟩
    · unfold parseAll
      refine (ihn _).bind' fun o => ?_
      cases o with
      | none => exact .pure _
      | some d =>
        refine (fine_newDatum U w₀ _).bind' fun _ => (fine_newDatum U w₀ _).bind' fun d' => (fine_getMut U w₀ _).bind fun b hb =>
          .ite (fun _ => iha _ _ _) fun h => ?_
        obtain ⟨s, hs, hb⟩ := hb
        have hb := ofUserCode_ok hb
        cases b with
        | true => exact absurd rfl h
        | false => exact .throw (Or.inr (.failedDerefTryMut hs hb))

end AnyUser

end Kul
