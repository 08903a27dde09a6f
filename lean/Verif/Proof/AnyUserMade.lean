import Verif.Proof.AnyUser

/-! # What the datums are made of, with any user code -/

namespace Kul

variable {W P τ ε CE A B E : Type}

namespace AnyUser

/-- Every value that is returned has the property. -/
def Gives (U : AnyUser W P τ ε CE) (w₀ : W) (x : Act (St W Unit) (Err P CE) A) (Q : A → Prop) : Prop :=
  ∀ s a, U.Reach w₀ s.strm → (x s).1 = .ok a → Q a

variable {U : AnyUser W P τ ε CE} {w₀ : W} {Q : A → Prop} {R : B → Prop}

theorem Gives.pure {a : A} (h : Q a) : Gives U w₀ (Pure.pure a : Act (St W Unit) (Err P CE) A) Q :=
  fun _ _ _ e => by cases e; exact h

theorem Gives.throw {e : Err P CE} : Gives U w₀ (Act.throw e : Act (St W Unit) (Err P CE) A) Q := nofun

theorem Gives.fuel : Gives U w₀ (Act.fuel : Act (St W Unit) (Err P CE) A) Q := nofun

theorem Gives.bind {x : Act (St W Unit) (Err P CE) A} {f : A → Act (St W Unit) (Err P CE) B} (hx : Fine U w₀ x)
    (hq : Gives U w₀ x Q) (hf : ∀ a, Q a → Gives U w₀ (f a) R) : Gives U w₀ (x >>= f) R := by
  intro s b hs hb
  have h := hx s hs
  change (Act.bind x f s).1 = .ok b at hb
  unfold Act.bind at hb
  rcases hr : x s with ⟨a | e | _ | _, s'⟩ <;> rw [hr] at hb h
  · exact hf a (hq s a hs (by rw [hr])) s' b h.1 hb
  all_goals cases hb

theorem Gives.any {x : Act (St W Unit) (Err P CE) A} : Gives U w₀ x fun _ => True := fun _ _ _ _ => trivial

/-- Nothing is needed of what the first action gives. -/
theorem Gives.after {x : Act (St W Unit) (Err P CE) A} {f : A → Act (St W Unit) (Err P CE) B} (hx : Fine U w₀ x)
    (hf : ∀ a, Gives U w₀ (f a) R) : Gives U w₀ (x >>= f) R := .bind hx .any fun a _ => hf a

theorem Gives.ite {c : Prop} [Decidable c] {x y : Act (St W Unit) (Err P CE) A} (hx : c → Gives U w₀ x Q)
    (hy : ¬ c → Gives U w₀ y Q) : Gives U w₀ (if c then x else y) Q := by
  split
  · exact hx ‹_›
  · exact hy ‹_›

theorem Gives.code {g : E → Err P CE} {f : W → Outcome E A × W} :
    Gives U w₀ (ofUserCode g f) fun a => ∃ w, U.Reach w₀ w ∧ (f w).1 = .ok a :=
  fun s _ hs h => ⟨s.strm, hs, ofUserCode_ok h⟩

theorem Gives.imp {x : Act (St W Unit) (Err P CE) A} {Q' : A → Prop} (h : Gives U w₀ x Q) (hi : ∀ a, Q a → Q' a) :
    Gives U w₀ x Q' := fun s a hs ha => hi a (h s a hs ha)

theorem Gives.nested {x : Act (St W Unit) (Err P CE) A} (h : Gives U w₀ x Q) : Gives U w₀ (nestedUnwind x) Q := by
  intro s a hs ha
  unfold nestedUnwind at ha
  have hx := h { s with ndepth := s.ndepth + 1 }
  rcases hr : x { s with ndepth := s.ndepth + 1 } with ⟨b | e | _ | _, s'⟩ <;> rw [hr] at ha hx <;>
    simp only at ha
  · refine hx a hs ?_
    split at ha <;> cases ha
    rfl
  all_goals first | cases ha | (split at ha <;> cases ha)

variable (U w₀)

theorem gives_concatAccum {t : τ} (h : U.MadeText w₀ t) : Gives U w₀ (U.concatAccum t) (U.MadeText w₀) :=
  .bind (fine_accumDone U w₀) .code fun _ hu => Gives.code.imp fun _ hv => by
    obtain ⟨w, h1, h2⟩ := hu
    obtain ⟨w', h3, h4⟩ := hv
    exact .concat h h1 h2 h3 h4

theorem gives_finishText {t : τ} {k : Nat} (h : U.MadeText w₀ t) : Gives U w₀ (U.finishText t k) (U.MadeText w₀) :=
  .ite (fun _ => gives_concatAccum U w₀ h) fun _ => .throw

theorem gives_parseTextLoop (m : Mode) (n : Nat) (t : τ) (k : Nat) (h : U.MadeText w₀ t) :
    Gives U w₀ (U.parseTextLoop m n t k) (U.MadeText w₀) := by
  induction n generalizing t k with
  | zero => exact .fuel
  | succ n ih =>
    refine .after (fine_peek U w₀) fun o => ?_
    cases o with
    | none => exact gives_finishText U w₀ h
    | some it =>
      refine .after (fine_stops U w₀ _ _ _) fun b => .ite (fun _ => gives_finishText U w₀ h) fun _ => ?_
      refine .after (fine_ask U w₀ _ _) fun _ => .ite (fun _ => ?_) fun _ => ?_
      · exact .bind (fine_concatAccum U w₀ t) (gives_concatAccum U w₀ h) fun _ h' => .after (fine_next U w₀) fun _ =>
          .after (fine_nextAccum U w₀) fun _ => ih _ _ h'
      refine .after (fine_ask U w₀ _ _) fun _ => .ite (fun _ => .after (fine_nextAccum U w₀) fun _ => ih _ _ h) fun _ => ?_
      refine .after (fine_ask U w₀ _ _) fun _ => .ite (fun _ => ?_) fun _ => .after (fine_nextAccum U w₀) fun _ => ih _ _ h
      exact .ite (fun _ => .after (fine_nextAccum U w₀) fun _ => ih _ _ h) fun _ =>
        .after (fine_checkEndChar U w₀) fun _ => gives_finishText U w₀ h

theorem gives_parseText (n : Nat) (m : Mode) : Gives U w₀ (U.parseText n m) (U.MadeText w₀) :=
  .bind (fine_empty U w₀) .code fun _ h => gives_parseTextLoop U w₀ _ _ _ _ <| by
    obtain ⟨w, h1, h2⟩ := h
    exact .empty h1 h2

theorem listOf_foldr (last : Datum τ ε) : ∀ es : List (Datum τ ε), AnyUser.listOf last es = es.foldr .list last
  | [] => rfl
  | d :: es => congrArg (Datum.list d) (listOf_foldr last es)

/-- A list that was made. -/
def IsMadeList (l : Datum τ ε) : Prop := ∃ es last, U.MadeList w₀ es last ∧ l = es.foldr .list last

theorem gives_parse (n : Nat) :
    (∀ m, Gives U w₀ (U.parseNext n m) fun o => ∀ d, o = some d → U.Made w₀ d) ∧
    (Gives U w₀ (U.parseNested n) fun o => ∀ d, o = some d → U.Made w₀ d) ∧
    ∀ m acc last, U.MadeList w₀ acc last → Gives U w₀ (U.parseAll n m acc last) (U.IsMadeList w₀) := by
  induction n with
  | zero =>
    refine ⟨fun m => ?_, ?_, fun m acc last _ => ?_⟩
    · unfold parseNext; exact .fuel
    · unfold parseNested; exact .fuel
    · unfold parseAll; exact .fuel
  | succ n ih =>
    obtain ⟨ihn, ihd, iha⟩ := ih
    have fn := fine_parse U w₀ n
    refine ⟨fun m => ?_, ?_, fun m acc last hl => ?_⟩
    · unfold parseNext
      refine .after (fine_skipLeading U w₀ n m) fun _ => .after (fine_peek U w₀) fun o => ?_
      cases o with
      | none => exact .after Fine.depth fun d => .ite (fun _ => .pure nofun) fun _ => .throw
      | some it =>
        refine .after (fine_ask U w₀ _ _) fun _ => .ite (fun _ => .bind fn.2.1.nested ihd.nested fun o ho => ?_) fun _ =>
          .after (fine_ask U w₀ _ _) fun _ => .ite (fun _ => .after (fine_checkEndChar U w₀) fun _ => .pure nofun) fun _ =>
          .bind (fine_parseText U w₀ _ _) (gives_parseText U w₀ _ _) fun _ h => .pure fun d e => by cases e; exact .text h
        cases o with
        | none => exact ihn m
        | some d => exact .pure ho
    · unfold parseNested
      refine .after (fine_next U w₀) fun o => .after (fine_askItem U w₀ _ o) fun b => .after (Fine.assert _) fun _ =>
        .bind (fn.1 _) (ihn _) fun o ho => .after (fine_skipSeparator U w₀) fun _ => ?_
      cases o with
      | none => exact .after (fine_nestEnd U w₀) fun _ => .pure fun d e => by cases e; exact .emptyNest
      | some h =>
        have hh := ho h rfl
        refine .bind (fine_lookup U w₀ h) .code fun c hc => ?_
        obtain ⟨w, hw, hc⟩ := hc
        rcases c with _ | (f | f)
        · refine .bind (fn.2.2 _ _ _) (iha _ _ _ .nil) fun l hl => .after (fine_nestEnd U w₀) fun _ =>
            .bind (fine_newDatum U w₀ _) .code fun h' hh' => .bind (fine_newDatum U w₀ _) .code fun l' hl' => .pure ?_
          obtain ⟨es, last, h1, rfl⟩ := hl
          obtain ⟨w', hw', hh'⟩ := hh'
          obtain ⟨w'', hw'', hl'⟩ := hl'
          intro d e
          cases e
          exact .combination hh hw hc h1 hw' hh' hw'' hl'
        · refine .bind (fine_parseText U w₀ _ _) (gives_parseText U w₀ _ _) fun t ht => .after (fine_nestEnd U w₀) fun _ =>
            Gives.code.imp fun o ho d e => ?_
          obtain ⟨w', hw', ho⟩ := ho
          subst e
          exact .operative hh hw hc ht hw' ho
        · refine .bind (fn.2.2 _ _ _) (iha _ _ _ .nil) fun l hl => .after (fine_nestEnd U w₀) fun _ =>
            Gives.code.imp fun o ho d e => ?_
          obtain ⟨es, last, h1, rfl⟩ := hl
          obtain ⟨w', hw', ho⟩ := ho
          subst e
          exact .applicative hh hw hc h1 hw' ho
    · unfold parseAll
      refine .bind (fn.1 _) (ihn _) fun o ho => ?_
      cases o with
      | none => exact .pure ⟨_, _, hl, listOf_foldr last acc⟩
      | some d =>
        refine .bind (fine_newDatum U w₀ _) .code fun e he => .bind (fine_newDatum U w₀ _) .code fun l' hl' =>
          .bind (fine_getMut U w₀ _) .code fun b hb => .ite (fun h => ?_) fun _ => .throw
        obtain ⟨w, hw, he⟩ := he
        obtain ⟨w', hw', hl'⟩ := hl'
        obtain ⟨w'', hw'', hb⟩ := hb
        subst h
        exact iha _ _ _ (.snoc hl (ho d rfl) hw he hw' hl' hw'' hb)

end AnyUser

end Kul
