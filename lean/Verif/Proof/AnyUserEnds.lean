import Verif.Proof.AnyUser

/-! # Every call ends -/

namespace Kul

variable {W P τ ε CE A B E : Type}

namespace AnyUser

/-- From `pre`, `x` ends; and if it returns a value then `post`. -/
def Ends (pre : W → Prop) (x : Act (St W Unit) (Err P CE) A) (post : A → W → Prop) : Prop :=
  ∀ s, pre s.strm → (x s).1 ≠ .fuel ∧ ∀ a s', x s = (.ok a, s') → post a s'.strm

theorem Ends.pure {pre : W → Prop} {a : A} {post : A → W → Prop} (h : ∀ w, pre w → post a w) :
    Ends pre (Pure.pure a : Act (St W Unit) (Err P CE) A) post :=
  fun s hs => ⟨nofun, fun a' s' e => by cases e; exact h _ hs⟩

theorem Ends.throw {pre : W → Prop} {e : Err P CE} {post : A → W → Prop} :
    Ends pre (Act.throw e : Act (St W Unit) (Err P CE) A) post := fun _ _ => ⟨nofun, nofun⟩

theorem Ends.panic {pre : W → Prop} {post : A → W → Prop} :
    Ends pre (Act.panic : Act (St W Unit) (Err P CE) A) post := fun _ _ => ⟨nofun, nofun⟩

theorem Ends.depth {pre : W → Prop} : Ends pre (Env.getDepth : Act (St W Unit) (Err P CE) Nat) fun _ => pre :=
  fun s hs => ⟨nofun, fun a s' e => by cases e; exact hs⟩

theorem Ends.assert {pre : W → Prop} {b : Bool} :
    Ends pre (Act.debugAssert b : Act (St W Unit) (Err P CE) Unit) fun _ => pre := by
  intro s hs
  unfold Act.debugAssert
  split
  · exact ⟨nofun, fun a s' e => by cases e; exact hs⟩
  · exact ⟨nofun, nofun⟩

theorem Ends.bind {pre : W → Prop} {x : Act (St W Unit) (Err P CE) A} {mid : A → W → Prop}
    {f : A → Act (St W Unit) (Err P CE) B} {post : B → W → Prop} (hx : Ends pre x mid)
    (hf : ∀ a, Ends (mid a) (f a) post) : Ends pre (x >>= f) post := by
  intro s hs
  have h := hx s hs
  change (Act.bind x f s).1 ≠ .fuel ∧ ∀ a s', Act.bind x f s = (.ok a, s') → post a s'.strm
  unfold Act.bind
  rcases hr : x s with ⟨a | e | _ | _, s'⟩
  · exact hf a s' (h.2 a s' hr)
  · exact ⟨nofun, nofun⟩
  · exact ⟨nofun, nofun⟩
  · rw [hr] at h; exact absurd rfl h.1

theorem Ends.ite {c : Prop} [Decidable c] {pre : W → Prop} {x y : Act (St W Unit) (Err P CE) A} {post : A → W → Prop}
    (hx : c → Ends pre x post) (hy : ¬ c → Ends pre y post) : Ends pre (if c then x else y) post := by
  split
  · exact hx ‹_›
  · exact hy ‹_›

/-- Something is known of the world. -/
theorem Ends.know {pre : W → Prop} {q : Prop} {x : Act (St W Unit) (Err P CE) A} {post : A → W → Prop}
    (h : ∀ w, pre w → q) (hx : q → Ends pre x post) : Ends pre x post := fun s hs => hx (h _ hs) s hs

theorem Ends.mono {pre pre' : W → Prop} {x : Act (St W Unit) (Err P CE) A} {post post' : A → W → Prop}
    (hx : Ends pre x post) (h : ∀ w, pre' w → pre w) (h' : ∀ a w, post a w → post' a w) : Ends pre' x post' :=
  fun s hs => ⟨(hx s (h _ hs)).1, fun a s' e => h' _ _ ((hx s (h _ hs)).2 a s' e)⟩

theorem Ends.code {g : E → Err P CE} {f : W → Outcome E A × W} {pre : W → Prop} {post : A → W → Prop}
    (h : ∀ w, pre w → (f w).1 ≠ .fuel ∧ ∀ a w', f w = (.ok a, w') → post a w') : Ends pre (ofUserCode g f) post := by
  intro s hs
  obtain ⟨h1, h2⟩ := h _ hs
  unfold ofUserCode
  rcases hr : f s.strm with ⟨a | e | _ | _, w'⟩
  · exact ⟨nofun, fun a' s' e => by cases e; exact h2 _ _ hr⟩
  · exact ⟨nofun, nofun⟩
  · exact ⟨nofun, nofun⟩
  · rw [hr] at h1; exact absurd rfl h1

theorem Ends.nested {pre : W → Prop} {x : Act (St W Unit) (Err P CE) A} {post : A → W → Prop} (h : Ends pre x post) :
    Ends pre (nestedUnwind x) post := by
  intro s hs
  unfold nestedUnwind
  have hx := h { s with ndepth := s.ndepth + 1 } hs
  rcases hr : x { s with ndepth := s.ndepth + 1 } with ⟨a | e | _ | _, s'⟩
  · simp only
    split
    · exact ⟨nofun, nofun⟩
    · exact ⟨nofun, fun a' s'' e => by cases e; exact (hx.2 _ _ hr :)⟩
  · simp only
    split <;> exact ⟨nofun, nofun⟩
  · exact ⟨nofun, nofun⟩
  · rw [hr] at hx; exact absurd rfl hx.1

section

variable {U : AnyUser W P τ ε CE} {μ : W → Nat} (F : U.Finite μ)

include F

set_option linter.unusedSectionVars false in
/-- A function that keeps what is still to come. -/
theorem ends_code {g : E → Err P CE} {f : W → Outcome E A × W} (h : ∀ w, (f w).1 ≠ .fuel ∧ μ (f w).2 ≤ μ w) (m : Nat) :
    Ends (fun w => μ w ≤ m) (ofUserCode g f) fun _ w => μ w ≤ m :=
  .code fun w hw => ⟨(h w).1, fun a w' e => by have := (h w).2; rw [e] at this; exact Nat.le_trans this hw⟩

theorem ends_peek (m : Nat) : Ends (fun w => μ w ≤ m) (ofUserFn (P := P) (CE := CE) U.peek) fun o w => μ w ≤ m ∧ (o ≠ none → 0 < m) :=
  .code fun w hw => ⟨(F.peek w).1, fun o w' e => by
    have h := (F.peek w).2
    rw [e] at h
    refine ⟨Nat.le_trans h hw, fun ho => ?_⟩
    cases o with
    | none => exact absurd rfl ho
    | some it => have := F.shown w it w' e; simp only at h; omega⟩

theorem ends_next {m : Nat} (hm : 0 < m) : Ends (fun w => μ w ≤ m) (ofUserFn (P := P) (CE := CE) U.next) fun _ w => μ w ≤ m - 1 :=
  .code fun w hw => ⟨(F.next w).1, fun a w' e => by
    have h := (F.next w).2
    rw [e] at h
    simp only at h
    rcases Nat.eq_zero_or_pos (μ w) with h0 | h0 <;> omega⟩

theorem ends_nextAccum {m : Nat} (hm : 0 < m) : Ends (fun w => μ w ≤ m) (ofUserAlloc (P := P) (CE := CE) U.nextAccum) fun _ w => μ w ≤ m - 1 :=
  .code fun w hw => ⟨(F.nextAccum w).1, fun a w' e => by
    have h := (F.nextAccum w).2
    rw [e] at h
    simp only at h
    rcases Nat.eq_zero_or_pos (μ w) with h0 | h0 <;> omega⟩

theorem ends_next' (m : Nat) : Ends (fun w => μ w ≤ m) (ofUserFn (P := P) (CE := CE) U.next) fun _ w => μ w ≤ m :=
  ends_code F (fun w => ⟨(F.next w).1, (F.next w).2.1⟩) m

theorem ends_nextAccum' (m : Nat) : Ends (fun w => μ w ≤ m) (ofUserAlloc (P := P) (CE := CE) U.nextAccum) fun _ w => μ w ≤ m :=
  ends_code F (fun w => ⟨(F.nextAccum w).1, (F.nextAccum w).2.1⟩) m

theorem ends_ask (q : Ask) (ch : Char) (m : Nat) : Ends (fun w => μ w ≤ m) (ofUserFn (P := P) (CE := CE) (U.ask q ch)) fun _ w => μ w ≤ m :=
  ends_code F (F.ask q ch) m

theorem ends_concatAccum (t : τ) (m : Nat) : Ends (fun w => μ w ≤ m) (U.concatAccum t) fun _ w => μ w ≤ m :=
  (ends_code F F.accumDone m).bind fun _ => ends_code F (F.concat _ _) m

theorem ends_stops (md : Mode) (k : Nat) (ch : Char) (m : Nat) :
    Ends (fun w => μ w ≤ m) (U.stops md k ch) fun _ w => μ w ≤ m := by
  refine .ite (fun _ => ?_) fun _ => .pure fun _ h => h
  cases md with
  | base => exact ends_ask F _ _ m
  | operator =>
    exact (ends_ask F _ _ m).bind fun _ => .ite (fun _ => .pure fun _ h => h) fun _ =>
      (ends_ask F _ _ m).bind fun _ => .ite (fun _ => .pure fun _ h => h) fun _ => ends_ask F _ _ m
  | operands => exact ends_ask F _ _ m

theorem ends_askItem (q : Ask) (o : Option (Item P)) (m : Nat) :
    Ends (fun w => μ w ≤ m) (U.askItem q o) fun _ w => μ w ≤ m := by
  cases o with
  | none => exact .pure fun _ h => h
  | some it => exact (ends_ask F _ _ m).bind fun _ => .pure fun _ h => h

theorem ends_checkEndChar (m : Nat) : Ends (fun w => μ w ≤ m) U.checkEndChar fun _ w => μ w ≤ m := by
  refine (ends_peek F m).bind fun o => Ends.mono (pre := fun w => μ w ≤ m) (post := fun _ w => μ w ≤ m) ?_ (fun _ h => h.1)
    fun _ _ h => h
  refine (ends_askItem F _ o m).bind fun b => Ends.assert.bind fun _ => Ends.depth.bind fun d =>
    .ite (fun _ => .pure fun _ h => h) fun _ => (ends_next' F m).bind fun o => ?_
  cases o with
  | none => exact .panic
  | some it => exact .throw

theorem ends_finishText (t : τ) (k m : Nat) : Ends (fun w => μ w ≤ m) (U.finishText t k) fun _ w => μ w ≤ m :=
  .ite (fun _ => ends_concatAccum F t m) fun _ => .throw

theorem ends_skipWhitespace (n : Nat) : ∀ m, m + 1 ≤ n → Ends (fun w => μ w ≤ m) (U.skipWhitespace n) fun _ w => μ w ≤ m := by
  induction n with
  | zero => intro m h; omega
  | succ n ih =>
    intro m hn
    refine (ends_peek F m).bind fun o => ?_
    cases o with
    | none => exact .pure fun _ h => h.1
    | some it =>
      refine .know (fun w h => h.2 (by simp)) fun hm => ?_
      refine ((ends_ask F _ _ m).mono (fun _ h => h.1) fun _ _ h => h).bind fun b => .ite (fun _ => ?_) fun _ => .pure fun _ h => h
      exact (ends_next F hm).bind fun _ => (ih (m - 1) (by omega)).mono (fun _ h => h) fun _ w h => by omega

theorem ends_parseTextLoop (md : Mode) (n : Nat) : ∀ m t k, m + 1 ≤ n →
    Ends (fun w => μ w ≤ m) (U.parseTextLoop md n t k) fun _ w => μ w ≤ m := by
  induction n with
  | zero => intro m t k h; omega
  | succ n ih =>
    intro m t k hn
    refine (ends_peek F m).bind fun o => ?_
    cases o with
    | none => exact (ends_finishText F t k m).mono (fun _ h => h.1) fun _ _ h => h
    | some it =>
      refine .know (fun w h => h.2 (by simp)) fun hm => ?_
      have next : ∀ t k, Ends (fun w => μ w ≤ m) (ofUserAlloc U.nextAccum >>= fun _ => U.parseTextLoop md n t k)
          fun _ w => μ w ≤ m := fun t k =>
        (ends_nextAccum F hm).bind fun _ => (ih (m - 1) t k (by omega)).mono (fun _ h => h) fun _ w h => by omega
      refine ((ends_stops F _ _ _ m).mono (fun _ h => h.1) fun _ _ h => h).bind fun b => .ite (fun _ => ends_finishText F t k m)
        fun _ => ?_
      refine (ends_ask F _ _ m).bind fun _ => .ite (fun _ => ?_) fun _ => ?_
      · exact (ends_concatAccum F t m).bind fun t => (ends_next F hm).bind fun _ => (ends_nextAccum' F (m - 1)).bind fun _ =>
          (ih (m - 1) t k (by omega)).mono (fun _ h => h) fun _ w h => by omega
      refine (ends_ask F _ _ m).bind fun _ => .ite (fun _ => next _ _) fun _ => ?_
      refine (ends_ask F _ _ m).bind fun _ => .ite (fun _ => ?_) fun _ => next _ _
      exact .ite (fun _ => next _ _) fun _ => (ends_checkEndChar F m).bind fun _ => ends_finishText F t k m

theorem ends_parseText (n : Nat) (md : Mode) (m : Nat) (h : m + 1 ≤ n) :
    Ends (fun w => μ w ≤ m) (U.parseText n md) fun _ w => μ w ≤ m :=
  (ends_code F F.emptyText m).bind fun t => ends_parseTextLoop F md n m t 0 h

theorem ends_nestEnd (m : Nat) : Ends (fun w => μ w ≤ m) U.nestEnd fun _ w => μ w ≤ m := by
  refine (ends_next' F m).bind fun o => ?_
  cases o with
  | none => exact .throw
  | some it => exact (ends_ask F _ _ m).bind fun _ => .assert

theorem ends_skipSeparator (m : Nat) : Ends (fun w => μ w ≤ m) U.skipSeparator fun _ w => μ w ≤ m := by
  refine (ends_peek F m).bind fun o => ?_
  cases o with
  | none => exact .pure fun _ h => h.1
  | some it =>
    exact ((ends_ask F _ _ m).mono (fun _ h => h.1) fun _ _ h => h).bind fun b => .ite
      (fun _ => (ends_next' F m).bind fun _ => .pure fun _ h => h) fun _ => .pure fun _ h => h

theorem ends_skipLeading (n : Nat) (md : Mode) (m : Nat) (h : m + 1 ≤ n) :
    Ends (fun w => μ w ≤ m) (U.skipLeading n md) fun _ w => μ w ≤ m :=
  .ite (fun _ => ends_skipWhitespace F n m h) fun _ => .pure fun _ h => h

variable {view : W → Option (Item P)} {cc : W → Classifier} (S : U.Steady view cc)

include S

/-- What is known after a character was seen and asked about. -/
def Seen (μ : W → Nat) (view : W → Option (Item P)) (cc : W → Classifier) (m : Nat) (it : Item P) (c : Classifier) (w : W) :
    Prop := μ w ≤ m ∧ view w = some it ∧ cc w = c

theorem seen_ask (q : Ask) (ch : Char) (m : Nat) (it : Item P) (c : Classifier) :
    Ends (Seen μ view cc m it c) (ofUserFn (P := P) (CE := CE) (U.ask q ch)) fun b w => Seen μ view cc m it c w ∧ b = q.of c ch :=
  .code fun w hw => ⟨(F.ask q ch w).1, fun b w' e => by
    have h := (F.ask q ch w).2
    rw [e] at h
    obtain ⟨h1, h2, h3⟩ := S.ask q ch w b w' e
    exact ⟨⟨Nat.le_trans h hw.1, h2.trans hw.2.1, h3.trans hw.2.2⟩, by rw [h1, hw.2.2]⟩⟩

theorem seen_peek (m : Nat) (it : Item P) (c : Classifier) :
    Ends (Seen μ view cc m it c) (ofUserFn (P := P) (CE := CE) U.peek) fun o w => Seen μ view cc m it c w ∧ o = some it :=
  .code fun w hw => ⟨(F.peek w).1, fun b w' e => by
    have h := (F.peek w).2
    rw [e] at h
    obtain ⟨h1, h2, h3⟩ := S.peek w b w' e
    exact ⟨⟨Nat.le_trans h hw.1, h2.trans hw.2.1, h3.trans hw.2.2⟩, h1.trans hw.2.1⟩⟩

/-- A text that is read where no text can be empty takes a character. -/
theorem ends_someText (n m : Nat) (hm : 0 < m) (h : m + 1 ≤ n) (it : Item P) (c : Classifier)
    (h1 : c.isNestStart it.ch = false) (h2 : c.isNestEnd it.ch = false) :
    Ends (Seen μ view cc m it c) (U.parseText n .base) fun _ w => μ w + 1 ≤ m := by
  obtain ⟨n, rfl⟩ : ∃ k, n = k + 1 := ⟨n - 1, by omega⟩
  have hE : Ends (Seen μ view cc m it c) (ofUserFn (P := P) (CE := CE) U.emptyText) fun _ => Seen μ view cc m it c :=
    .code fun w hw => ⟨(F.emptyText w).1, fun t w' e => by
      have h := (F.emptyText w).2
      rw [e] at h
      obtain ⟨h2, h3⟩ := S.emptyText w t w' e
      exact ⟨Nat.le_trans h hw.1, h2.trans hw.2.1, h3.trans hw.2.2⟩⟩
  refine hE.bind fun t => (seen_peek F S m it c).bind fun o => .know (fun _ h => h.2) ?_
  rintro rfl
  have asked : ∀ {B : Type} (q : Ask) (f : Bool → Act (St W Unit) (Err P CE) B) (post : B → W → Prop),
      Ends (Seen μ view cc m it c) (f (q.of c it.ch)) post →
      Ends (Seen μ view cc m it c) (ofUserFn (U.ask q it.ch) >>= f) post := fun q f post hf =>
    (seen_ask F S q it.ch m it c).bind fun b => .know (fun _ h => h.2) fun hb => by subst hb; exact hf.mono (fun _ h => h.1) fun _ _ h => h
  have rest : ∀ t k, Ends (fun w => μ w ≤ m - 1) (U.parseTextLoop .base n t k) fun _ w => μ w + 1 ≤ m := fun t k =>
    (ends_parseTextLoop F .base n (m - 1) t k (by omega)).mono (fun _ h => h) fun _ w h => by omega
  refine Ends.mono (pre := Seen μ view cc m it c) ?_ (fun _ h => h.1) fun _ _ h => h
  simp only [stops, isEnd, if_true]
  refine asked .nestStart _ _ ?_
  simp only [Ask.of, h1, Bool.false_eq_true, if_false]
  refine asked .nestEscape _ _ (.ite (fun _ => ?_) fun _ => ?_)
  · exact ((ends_concatAccum F t m).mono (fun _ h => h.1) fun _ _ h => h).bind fun t => (ends_next F hm).bind fun _ =>
      (ends_nextAccum' F (m - 1)).bind fun _ => rest t 0
  refine asked .nestStart _ _ ?_
  simp only [Ask.of, h1, Bool.false_eq_true, if_false]
  refine asked .nestEnd _ _ ?_
  simp only [Ask.of, h2, Bool.false_eq_true, if_false]
  exact ((ends_nextAccum F hm).mono (fun _ h => h.1) fun _ _ h => h).bind fun _ => rest t 0

theorem ends_parse (n : Nat) :
    (∀ m md, 3 * m + 2 ≤ n → Ends (fun w => μ w ≤ m) (U.parseNext n md)
      fun o w => μ w ≤ m ∧ (md = .base → o ≠ none → μ w + 1 ≤ m)) ∧
    (∀ m, 0 < m → 3 * m + 1 ≤ n → Ends (fun w => μ w ≤ m) (U.parseNested n) fun _ w => μ w + 1 ≤ m) ∧
    ∀ m acc last, 3 * m + 3 ≤ n → Ends (fun w => μ w ≤ m) (U.parseAll n .base acc last) fun _ w => μ w ≤ m := by
  induction n with
  | zero => exact ⟨fun _ _ h => by omega, fun _ _ h => by omega, fun _ _ _ h => by omega⟩
  | succ n ih =>
    obtain ⟨ihn, ihd, iha⟩ := ih
    refine ⟨fun m md hn => ?_, fun m hm hn => ?_, fun m acc last hn => ?_⟩
    · unfold parseNext
      refine (ends_skipLeading F n md m (by omega)).bind fun _ => ?_
      have hp : Ends (fun w => μ w ≤ m) (ofUserFn (P := P) (CE := CE) U.peek) fun o w => μ w ≤ m ∧ (o ≠ none → 0 < m) ∧ o = view w :=
        .code fun w hw => ⟨(F.peek w).1, fun o w' e => by
          have h := ((ends_peek (P := P) (CE := CE) F m) ⟨w, (), 0⟩ hw).2 o ⟨w', (), 0⟩ (by unfold ofUserFn ofUserCode; simp only [e, Outcome.mapErr])
          obtain ⟨h1, h2, _⟩ := S.peek w o w' e
          exact ⟨h.1, h.2, h1.trans h2.symm⟩⟩
      refine hp.bind fun o => ?_
      cases o with
      | none => exact Ends.depth.bind fun d => .ite (fun _ => .pure fun _ h => ⟨h.1, fun _ h => absurd rfl h⟩) fun _ => .throw
      | some it =>
        refine .know (fun w h => h.2.1 (by simp)) fun hm => ?_
        -- the classifier as it is now
        have now : ∀ {B : Type} {x : Act (St W Unit) (Err P CE) B} {post}, (∀ c, Ends (Seen μ view cc m it c) x post) →
            Ends (fun w => μ w ≤ m ∧ (some it ≠ none → 0 < m) ∧ some it = view w) x post :=
          fun h s hs => h (cc s.strm) s ⟨hs.1, hs.2.2.symm, rfl⟩
        refine now fun c => (seen_ask F S _ _ m it c).bind fun b => .ite (fun _ => ?_) fun hb => ?_
        · refine ((ihd m hm (by omega)).nested.mono (fun _ h => h.1.1) fun _ _ h => h).bind fun o => ?_
          cases o with
          | none =>
            exact (ihn (m - 1) md (by omega)).mono (fun _ h => by omega) fun o w h =>
              ⟨by omega, fun h1 h2 => by have := h.2 h1 h2; omega⟩
          | some d => exact .pure fun _ h => ⟨by omega, fun _ _ => h⟩
        · refine .know (fun _ h => h.2) fun hb' => ?_
          have h1 : c.isNestStart it.ch = false := by rw [hb'] at hb; exact Bool.eq_false_iff.2 hb
          refine ((seen_ask F S .nestEnd it.ch m it c).mono (fun _ h => h.1) fun _ _ h => h).bind fun b => .ite (fun _ => ?_) fun hb => ?_
          · exact ((ends_checkEndChar F m).mono (fun _ h => h.1.1) fun _ _ h => h).bind fun _ => .pure fun _ h =>
              ⟨h, fun _ h => absurd rfl h⟩
          · refine .know (fun _ h => h.2) fun hb' => ?_
            have h2 : c.isNestEnd it.ch = false := by rw [hb'] at hb; exact Bool.eq_false_iff.2 hb
            by_cases hmd : md = .base
            · subst hmd
              exact ((ends_someText F S n m hm (by omega) it c h1 h2).mono (fun _ h => h.1) fun _ _ h => h).bind fun t =>
                .pure fun _ h => ⟨by omega, fun _ _ => h⟩
            · exact ((ends_parseText F n md m (by omega)).mono (fun _ h => h.1.1) fun _ _ h => h).bind fun t =>
                .pure fun _ h => ⟨h, fun h => absurd h hmd⟩
    · unfold parseNested
      have hl : ∀ {x : Act (St W Unit) (Err P CE) (Option (Datum τ ε))}, Ends (fun w => μ w ≤ m - 1) x (fun _ w => μ w ≤ m - 1) →
          Ends (fun w => μ w ≤ m - 1) x fun _ w => μ w + 1 ≤ m := fun h => h.mono (fun _ h => h) fun _ w h => by omega
      refine (ends_next F hm).bind fun o => (ends_askItem F _ o (m - 1)).bind fun b => Ends.assert.bind fun _ =>
        ((ihn (m - 1) _ (by omega)).mono (fun _ h => h) fun _ _ h => h.1).bind fun o => (ends_skipSeparator F (m - 1)).bind fun _ => hl ?_
      cases o with
      | none => exact (ends_nestEnd F (m - 1)).bind fun _ => .pure fun _ h => h
      | some d =>
        have hl : Ends (fun w => μ w ≤ m - 1) (ofUserFn (P := P) (CE := CE) (U.lookup d)) fun c w => μ w ≤ m - 1 ∧ ∃ w', (U.lookup d w').1 = .ok c :=
          .code fun w hw => ⟨(F.lookup d w).1, fun c w' e => by
            have := (F.lookup d w).2
            rw [e] at this
            exact ⟨Nat.le_trans this hw, w, by rw [e]⟩⟩
        refine hl.bind fun c => .know (fun _ h => h.2) fun ⟨w', hc⟩ => Ends.mono (pre := fun w => μ w ≤ m - 1)
          (post := fun _ w => μ w ≤ m - 1) ?_ (fun _ h => h.1) fun _ _ h => h
        rcases c with _ | (f | f)
        · exact (iha (m - 1) _ _ (by omega)).bind fun _ => (ends_nestEnd F (m - 1)).bind fun _ => (ends_code F (F.newDatum _) _).bind fun _ =>
            (ends_code F (F.newDatum _) _).bind fun _ => .pure fun _ h => h
        · exact (ends_parseText F n _ (m - 1) (by omega)).bind fun t => (ends_nestEnd F (m - 1)).bind fun _ =>
            ends_code F (F.operative d w' f hc t) _
        · exact (iha (m - 1) _ _ (by omega)).bind fun l => (ends_nestEnd F (m - 1)).bind fun _ =>
            ends_code F (F.applicative d w' f hc l) _
    · unfold parseAll
      refine (ihn m .base (by omega)).bind fun o => ?_
      cases o with
      | none => exact .pure fun _ h => h.1
      | some d =>
        refine .know (q := 0 < m) (fun w h => by have := h.2 rfl (by simp); omega) fun hm => ?_
        refine ((ends_code F (F.newDatum _) (m - 1)).mono (fun w h => by have := h.2 rfl (by simp); omega) fun _ _ h => h).bind fun _ =>
          (ends_code F (F.newDatum _) (m - 1)).bind fun d' => (ends_code F (F.getMut _) (m - 1)).bind fun b => .ite (fun _ => ?_) fun _ => .throw
        exact (iha (m - 1) _ _ (by omega)).mono (fun _ h => h) fun _ w h => by omega

end

end AnyUser

end Kul
