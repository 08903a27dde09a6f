import Verif.Spec.AnyUser

/-! # The other models are instances -/

namespace Kul

variable {σ P τ ε α CE A B A' B' E : Type}

/-- The same result up to `R`, and the same state; after a panic if `p`. -/
def SameOut (p : Prop) (R : A → B → Prop) : Outcome E A × St σ α → Outcome E B × St (σ × α) Unit → Prop
  | (.ok a, s), (.ok b, t) => R a b ∧ t = s.joined
  | (.err e, s), (.err e', t) => e' = e ∧ t = s.joined
  | (.panic, s), (.panic, t) => p → t = s.joined
  | (.fuel, s), (.fuel, t) => t = s.joined
  | _, _ => False

/-- From state `s`. -/
def SameAs (p : Prop) (s : St σ α) (R : A → B → Prop) (x : Act (St σ α) (Err P CE) A)
    (y : Act (St (σ × α) Unit) (Err P CE) B) : Prop := SameOut p R (x s) (y s.joined)

section

variable {p : Prop} {s : St σ α} {R : A → B → Prop}

theorem SameAs.pure {a : A} {b : B} (h : R a b) : SameAs (P := P) (CE := CE) p s R (Pure.pure a) (Pure.pure b) := ⟨h, rfl⟩

theorem SameAs.throw {e : Err P CE} : SameAs p s R (Act.throw e) (Act.throw e) := ⟨rfl, rfl⟩

theorem SameAs.panic : SameAs (P := P) (CE := CE) p s R Act.panic Act.panic := fun _ => rfl

theorem SameAs.fuel : SameAs (P := P) (CE := CE) p s R Act.fuel Act.fuel := rfl

theorem SameAs.depth : SameAs (P := P) (CE := CE) p s Eq Env.getDepth Env.getDepth := ⟨rfl, rfl⟩

theorem SameAs.assert {a b : Bool} (h : b = a) :
    SameAs (P := P) (CE := CE) p s (fun _ _ => True) (Act.debugAssert a) (Act.debugAssert b) := by
  subst h
  cases b
  · exact fun _ => rfl
  · exact ⟨trivial, rfl⟩

theorem SameAs.bind {Q : A' → B' → Prop} {x : Act (St σ α) (Err P CE) A} {y : Act (St (σ × α) Unit) (Err P CE) B}
    {f : A → Act (St σ α) (Err P CE) A'} {g : B → Act (St (σ × α) Unit) (Err P CE) B'} (hx : SameAs p s R x y)
    (hf : ∀ a b s', R a b → SameAs p s' Q (f a) (g b)) : SameAs p s Q (x >>= f) (y >>= g) := by
  unfold SameAs at hx ⊢
  change SameOut p Q (Act.bind x f s) (Act.bind y g s.joined)
  unfold Act.bind
  rcases hr : x s with ⟨a | e | _ | _, s'⟩ <;> rcases hq : y s.joined with ⟨b | e' | _ | _, t'⟩ <;> rw [hr, hq] at hx <;>
    first | exact hx.elim | exact hx | skip
  obtain ⟨h1, h2⟩ := hx
  subst h2
  exact hf a b s' h1

theorem SameAs.ite {c : Prop} [Decidable c] {x x' : Act (St σ α) (Err P CE) A} {y y' : Act (St (σ × α) Unit) (Err P CE) B}
    (hx : c → SameAs p s R x y) (hy : ¬ c → SameAs p s R x' y') : SameAs p s R (if c then x else x') (if c then y else y') := by
  split
  · exact hx ‹_›
  · exact hy ‹_›

theorem SameAs.nested {x : Act (St σ α) (Err P CE) A} {y : Act (St (σ × α) Unit) (Err P CE) B}
    (h : ∀ s, SameAs p s R x y) : SameAs p s R (nestedUnwind x) (nestedUnwind y) := by
  have hx : SameOut p R (x { s with ndepth := s.ndepth + 1 }) (y { s.joined with ndepth := s.joined.ndepth + 1 }) :=
    h { s with ndepth := s.ndepth + 1 }
  unfold SameAs nestedUnwind
  rcases hr : x { s with ndepth := s.ndepth + 1 } with ⟨a | e | _ | _, s'⟩ <;>
    rcases hq : y { s.joined with ndepth := s.joined.ndepth + 1 } with ⟨b | e' | _ | _, t'⟩ <;> rw [hr, hq] at hx <;>
    first | exact hx.elim | exact hx | skip
  all_goals
    first | (obtain ⟨h1, h2⟩ := hx; subst h2) | subst hx
    by_cases hz : s'.ndepth = 0 <;> simp only [St.joined, hz, if_true, if_false]
    · exact fun _ => by simp only [St.joined, hz]
    · first | exact ⟨h1, rfl⟩ | exact rfl

/-- A call of a function of the user's. -/
theorem SameAs.code {g : E → Err P CE} {f : σ × α → Outcome E A × σ × α} {p : Prop} {s : St σ α} {x : Act (St σ α) (Err P CE) A}
    (h : x s = ((f (s.strm, s.alloc)).1.mapErr g,
      { s with strm := (f (s.strm, s.alloc)).2.1, alloc := (f (s.strm, s.alloc)).2.2 })) :
    SameAs p s Eq x (ofUserCode g f) := by
  unfold SameAs ofUserCode
  rw [h]
  change SameOut p Eq _ ((f (s.strm, s.alloc)).1.mapErr g, { s.joined with strm := (f (s.strm, s.alloc)).2 })
  rcases f (s.strm, s.alloc) with ⟨a | e | _ | _, w, v⟩
  · exact ⟨rfl, rfl⟩
  · exact ⟨rfl, rfl⟩
  · exact fun _ => rfl
  · exact rfl

/-- A panic is not distinguished from a panic. -/
theorem SameAs.nested' {x : Act (St σ α) (Err P CE) A} {y : Act (St (σ × α) Unit) (Err P CE) B}
    (h : ∀ s, SameAs False s R x y) : SameAs False s R (Env.nestedInDepth x) (nestedUnwind y) := by
  have hx := SameAs.nested (s := s) h
  unfold SameAs at hx ⊢
  have e : Env.nestedInDepth x s = nestedUnwind x s ∨ (Env.nestedInDepth x s).1 = .panic ∧ (nestedUnwind x s).1 = .panic := by
    unfold Env.nestedInDepth nestedUnwind
    rcases hr : x { s with ndepth := s.ndepth + 1 } with ⟨a | e | _ | _, s'⟩
    · exact .inl rfl
    · exact .inl rfl
    · refine .inr ⟨?_, rfl⟩
      simp only
      split <;> rfl
    · exact .inl rfl
  rcases e with e | ⟨e1, e2⟩
  · rw [e]; exact hx
  · rcases h1 : Env.nestedInDepth x s with ⟨o1, t1⟩
    rcases h2 : nestedUnwind x s with ⟨o2, t2⟩
    rw [h1] at e1
    rw [h2] at e2 hx
    cases e1
    cases e2
    rcases h3 : nestedUnwind y s.joined with ⟨b | e' | _ | _, t'⟩ <;> rw [h3] at hx <;> first | exact hx.elim | exact nofun

end

theorem listOf_emptyList : ∀ l : List (Datum τ ε), AnyUser.listOf .emptyList l = mkList l
  | [] => rfl
  | d :: ds => congrArg (Datum.list d) (listOf_emptyList ds)

/-! ## Panics -/

namespace PEnv

variable (U : PEnv σ P τ ε α CE) {s : St σ α}

/-- A step of the stream that may panic. -/
theorem ofStream_bind (c : StreamCall) (x : Act (St σ α) (Err P CE) A) : (U.ofStream c >>= fun _ => x) s =
    match U.strmPanics c s.strm s.alloc with
    | some (s', a') => (.panic, { s with strm := s', alloc := a' })
    | none => x s := by
  change Act.bind (U.ofStream c) (fun _ => x) s = _
  unfold Act.bind ofStream
  rcases U.strmPanics c s.strm s.alloc with _ | ⟨a, b⟩ <;> rfl

/-- Another step that may panic. -/
theorem ofUser_bind (c : UserCall τ ε) (x : Act (St σ α) (Err P CE) A) : (U.ofUser c >>= fun _ => x) s =
    match U.panics c s.alloc with
    | some a' => (.panic, { s with alloc := a' })
    | none => x s := by
  change Act.bind (U.ofUser c) (fun _ => x) s = _
  unfold Act.bind ofUser
  rcases U.panics c s.alloc with _ | a <;> rfl

theorem asAny_peek (w : σ × α) : U.asAny.peek w = orPanic (U.strmPanics .peek w.1 w.2)
    ((U.env.strm.peek w.1).1, (U.env.strm.peek w.1).2, w.2) := rfl
theorem asAny_next (w : σ × α) : U.asAny.next w = orPanic (U.strmPanics .next w.1 w.2)
    ((U.env.strm.next w.1).1, (U.env.strm.next w.1).2, w.2) := rfl
theorem asAny_nextAccum (w : σ × α) : U.asAny.nextAccum w = orPanic (U.strmPanics .nextAccum w.1 w.2)
    (U.env.strm.nextAccum w.1 w.2) := rfl
theorem asAny_accumDone (w : σ × α) : U.asAny.accumDone w = orPanic (U.strmPanics .accumDone w.1 w.2)
    (U.env.strm.accumDone w.1 w.2) := rfl
theorem asAny_concat (t u : τ) (w : σ × α) : U.asAny.concat t u w = orPanic ((U.panics (.concat t u) w.2).map (w.1, ·))
    ((U.env.text.concat t u w.2).1, w.1, (U.env.text.concat t u w.2).2) := rfl
theorem asAny_ask (q : Ask) (ch : Char) (w : σ × α) : U.asAny.ask q ch w = orPanic ((U.panics (.ask q ch) w.2).map (w.1, ·))
    (.ok (q.of U.env.cc ch), w) := rfl
theorem asAny_getMut (d : Datum τ ε) (w : σ × α) : U.asAny.getMut d w = orPanic ((U.panics .getMut w.2).map (w.1, ·))
    (.ok (U.env.alloc.getMutFresh w.2), w) := rfl

theorem same_peek : SameAs True s Eq U.peek (ofUserFn U.asAny.peek) := .code (by
  refine (ofStream_bind U _ _).trans ?_
  simp only [asAny_peek]
  rcases U.strmPanics .peek s.strm s.alloc with _ | ⟨a, b⟩ <;> rfl)

theorem same_next : SameAs True s Eq U.next (ofUserFn U.asAny.next) := .code (by
  refine (ofStream_bind U _ _).trans ?_
  simp only [asAny_next]
  rcases U.strmPanics .next s.strm s.alloc with _ | ⟨a, b⟩ <;> rfl)

theorem same_nextAccum : SameAs True s Eq U.nextAccum (ofUserAlloc U.asAny.nextAccum) := .code (by
  refine (ofStream_bind U _ _).trans ?_
  simp only [asAny_nextAccum]
  rcases U.strmPanics .nextAccum s.strm s.alloc with _ | ⟨a, b⟩ <;> rfl)

theorem same_ask (q : Ask) (ch : Char) : SameAs True s Eq (U.ask q ch) (ofUserFn (U.asAny.ask q ch)) := .code (by
  refine (ofUser_bind U _ _).trans ?_
  simp only [asAny_ask]
  rcases U.panics (.ask q ch) s.alloc with _ | a <;> rfl)

theorem same_concatAccum (t : τ) : SameAs True s Eq (U.concatAccum t) (U.asAny.concatAccum t) := by
  have h1 : SameAs True s Eq (U.ofStream .accumDone >>= fun _ => liftAccum U.env.strm.accumDone)
      (ofUserAlloc U.asAny.accumDone) := .code (by
    refine (ofStream_bind U _ _).trans ?_
    simp only [asAny_accumDone]
    rcases U.strmPanics .accumDone s.strm s.alloc with _ | ⟨a, b⟩ <;> rfl)
  have h2 : ∀ u s, SameAs True s Eq (U.ofUser (.concat t u) >>= fun _ => liftAlloc (U.env.text.concat t u))
      (ofUserAlloc (U.asAny.concat t u)) := fun u s => .code (by
    refine (ofUser_bind U _ _).trans ?_
    simp only [asAny_concat]
    rcases U.panics (.concat t u) s.alloc with _ | a <;> rfl)
  have h3 := h1.bind (g := fun a => ofUserAlloc (U.asAny.concat t a)) (Q := Eq)
    (f := fun a => U.ofUser (.concat t a) >>= fun _ => liftAlloc (U.env.text.concat t a)) fun a b s' hab => by
      subst hab; exact h2 a s'
  unfold SameAs at h3 ⊢
  have e : U.concatAccum t s = ((U.ofStream .accumDone >>= fun _ => liftAccum U.env.strm.accumDone) >>= fun a =>
      U.ofUser (.concat t a) >>= fun _ => liftAlloc (U.env.text.concat t a)) s := by
    change Act.bind _ _ s = Act.bind (Act.bind _ _) _ s
    unfold Act.bind
    rcases U.ofStream .accumDone s with ⟨_ | e | _ | _, t⟩ <;> rfl
  rw [e]
  exact h3

theorem same_newDatum (d : Datum τ ε) : SameAs True s (fun _ d' => d' = d) (U.newDatum d) (ofUserAlloc (U.asAny.newDatum d)) := by
  unfold SameAs newDatum
  rw [ofUser_bind]
  unfold ofUserAlloc ofUserCode PEnv.asAny
  change SameOut _ _ _ ((orPanic ((U.panics (.newDatum d) s.alloc).map (s.strm, ·)) (exceptOut (fun _ => d) (U.env.alloc.newDatum d s.alloc).1,
    s.strm, (U.env.alloc.newDatum d s.alloc).2)).1.mapErr _, { s.joined with strm :=
    (orPanic ((U.panics (.newDatum d) s.alloc).map (s.strm, ·)) (exceptOut (fun _ => d) (U.env.alloc.newDatum d s.alloc).1,
    s.strm, (U.env.alloc.newDatum d s.alloc).2)).2 })
  rcases U.panics (.newDatum d) s.alloc with _ | a
  · unfold Env.newDatum liftAlloc
    simp only [Option.map, orPanic]
    change SameOut _ _ (Outcome.mapErr _ (Outcome.ofExcept (U.env.alloc.newDatum d s.alloc).1),
      { s with alloc := (U.env.alloc.newDatum d s.alloc).2 }) _
    rcases U.env.alloc.newDatum d s.alloc with ⟨_ | e, t⟩ <;> exact ⟨rfl, rfl⟩
  · exact fun _ => rfl

theorem same_getMut (d : Datum τ ε) : SameAs True s Eq U.getMutFresh (ofUserFn (U.asAny.getMut d)) := .code (by
  refine (ofUser_bind U _ _).trans ?_
  simp only [asAny_getMut]
  rcases U.panics .getMut s.alloc with _ | a <;> rfl)

theorem same_askItem (q : Ask) (o : Option (Item P)) : SameAs True s Eq (U.askItem q o) (U.asAny.askItem q o) := by
  cases o with
  | none => exact .pure rfl
  | some it => exact (same_ask U _ _).bind fun a b s' h => .pure (by rw [h])

theorem same_isEnd (m : Mode) (ch : Char) : SameAs True s Eq (U.isEnd m ch) (U.asAny.isEnd m ch) := by
  cases m with
  | base => exact same_ask U _ _
  | operator =>
    refine (same_ask U _ _).bind fun a b s' h => ?_
    subst h
    refine .ite (fun _ => .pure rfl) fun _ => (same_ask U _ _).bind fun a b s' h => ?_
    subst h
    exact .ite (fun _ => .pure rfl) fun _ => same_ask U _ _
  | operands => exact same_ask U _ _

theorem same_stops (m : Mode) (k : Nat) (ch : Char) : SameAs True s Eq (U.stops m k ch) (U.asAny.stops m k ch) :=
  .ite (fun _ => same_isEnd U m ch) fun _ => .pure rfl

theorem same_skipWhitespace (n : Nat) : ∀ s, SameAs True s Eq (U.skipWhitespace n) (U.asAny.skipWhitespace n) := by
  induction n with
  | zero => exact fun _ => .fuel
  | succ n ih =>
    refine fun s => (same_peek U).bind fun a b s' h => ?_
    subst h
    cases a with
    | none => exact .pure rfl
    | some it =>
      refine (same_ask U _ _).bind fun a b s' h => ?_
      subst h
      exact .ite (fun _ => (same_next U).bind fun _ _ s' _ => ih s') fun _ => .pure rfl

theorem same_checkEndChar : SameAs True s Eq U.checkEndChar U.asAny.checkEndChar := by
  refine (same_peek U).bind fun a b s' h => ?_
  subst h
  refine (same_askItem U _ _).bind fun a b s' h => (SameAs.assert (by rw [h])).bind fun _ _ s' _ => SameAs.depth.bind fun a b s' h => ?_
  subst h
  refine .ite (fun _ => .pure rfl) fun _ => (same_next U).bind fun a b s' h => ?_
  subst h
  cases a with
  | none => exact .panic
  | some it => exact .throw

theorem same_finishText (t : τ) (k : Nat) : SameAs True s Eq (U.finishText t k) (U.asAny.finishText t k) :=
  .ite (fun _ => same_concatAccum U t) fun _ => .throw

theorem same_parseTextLoop (m : Mode) (n : Nat) : ∀ t k s, SameAs True s Eq (U.parseTextLoop m n t k) (U.asAny.parseTextLoop m n t k) := by
  induction n with
  | zero => exact fun _ _ _ => .fuel
  | succ n ih =>
    refine fun t k s => (same_peek U).bind fun a b s' h => ?_
    subst h
    cases a with
    | none => exact same_finishText U t k
    | some it =>
      refine (same_stops U _ _ _).bind fun a b s' h => ?_
      subst h
      refine .ite (fun _ => same_finishText U t k) fun _ => (same_ask U _ _).bind fun a b s' h => ?_
      subst h
      refine .ite (fun _ => ?_) fun _ => (same_ask U _ _).bind fun a b s' h => ?_
      · refine (same_concatAccum U t).bind fun a b s' h => ?_
        subst h
        exact (same_next U).bind fun _ _ s' _ => (same_nextAccum U).bind fun _ _ s' _ => ih a k s'
      subst h
      refine .ite (fun _ => (same_nextAccum U).bind fun _ _ s' _ => ih _ _ s') fun _ => (same_ask U _ _).bind fun a b s' h => ?_
      subst h
      refine .ite (fun _ => ?_) fun _ => (same_nextAccum U).bind fun _ _ s' _ => ih _ _ s'
      exact .ite (fun _ => (same_nextAccum U).bind fun _ _ s' _ => ih _ _ s') fun _ =>
        (same_checkEndChar U).bind fun _ _ s' _ => same_finishText U t k

theorem same_parseText (n : Nat) (m : Mode) : SameAs True s Eq (U.parseText n m) (U.asAny.parseText n m) := by
  have h1 : SameAs True s (fun _ t => t = U.env.text.empty) (U.ofUser .emptyText) (ofUserFn U.asAny.emptyText) := by
    unfold SameAs ofUserFn ofUserCode PEnv.asAny ofUser
    change SameOut _ _ _ ((orPanic ((U.panics .emptyText s.alloc).map (s.strm, ·)) (.ok U.env.text.empty, s.strm, s.alloc)).1.mapErr _,
      { s.joined with strm := (orPanic ((U.panics .emptyText s.alloc).map (s.strm, ·)) (.ok U.env.text.empty, s.strm, s.alloc)).2 })
    rcases U.panics .emptyText s.alloc with _ | a
    · exact ⟨rfl, rfl⟩
    · exact fun _ => rfl
  refine h1.bind fun a b s' h => ?_
  subst h
  exact same_parseTextLoop U m n _ 0 s'

theorem same_nestEnd : SameAs True s (fun _ _ => True) U.nestEnd U.asAny.nestEnd := by
  refine (same_next U).bind fun a b s' h => ?_
  subst h
  cases a with
  | none => exact .throw
  | some it => exact (same_ask U _ _).bind fun a b s' h => .assert h.symm

theorem same_skipSeparator : SameAs True s (fun _ _ => True) U.skipSeparator U.asAny.skipSeparator := by
  refine (same_peek U).bind fun a b s' h => ?_
  subst h
  cases a with
  | none => exact .pure trivial
  | some it =>
    refine (same_ask U _ _).bind fun a b s' h => ?_
    subst h
    exact .ite (fun _ => (same_next U).bind fun _ _ s' _ => .pure trivial) fun _ => .pure trivial

theorem same_skipLeading (n : Nat) (m : Mode) : SameAs True s Eq (U.skipLeading n m) (U.asAny.skipLeading n m) :=
  .ite (fun _ => same_skipWhitespace U n s) fun _ => .pure rfl

theorem same_parse (n : Nat) : (∀ m s, SameAs True s Eq (U.parseNext n m) (U.asAny.parseNext n m)) ∧
    (∀ s, SameAs True s Eq (U.parseNested n) (U.asAny.parseNested n)) ∧
    ∀ m acc s, SameAs True s Eq (U.parseAll n m acc) (U.asAny.parseAll n m acc .emptyList) := by
  induction n with
  | zero => exact ⟨fun _ _ => .fuel, fun _ => .fuel, fun _ _ _ => .fuel⟩
  | succ n ih =>
    obtain ⟨ihn, ihd, iha⟩ := ih
    refine ⟨fun m s => ?_, fun s => ?_, fun m acc s => ?_⟩
    · unfold parseNext AnyUser.parseNext
      refine (same_skipLeading U n m).bind fun _ _ s _ => (same_peek U).bind fun a b s h => ?_
      subst h
      cases a with
      | none =>
        refine SameAs.depth.bind fun a b s' h => ?_
        subst h
        exact .ite (fun _ => .pure rfl) fun _ => .throw
      | some it =>
        refine (same_ask U _ _).bind fun a b s' h => ?_
        subst h
        refine .ite (fun _ => ?_) fun _ => (same_ask U _ _).bind fun a b s' h => ?_
        · refine (SameAs.nested ihd).bind fun a b s' h => ?_
          subst h
          cases a with
          | none => exact ihn m s'
          | some d => exact .pure rfl
        subst h
        refine .ite (fun _ => (same_checkEndChar U).bind fun _ _ _ _ => .pure rfl) fun _ => (same_parseText U n m).bind fun a b s' h => ?_
        subst h
        exact .pure rfl
    · unfold parseNested AnyUser.parseNested
      refine (same_next U).bind fun a b s h => ?_
      subst h
      refine (same_askItem U _ _).bind fun a b s' h => (SameAs.assert (by rw [h])).bind fun _ _ s' _ => (ihn _ s').bind fun a b s' h => ?_
      subst h
      refine (same_skipSeparator U).bind fun _ _ s' _ => ?_
      cases a with
      | none => exact (same_nestEnd U).bind fun _ _ _ _ => .pure rfl
      | some d =>
        simp only
        have hl : SameAs (P := P) (CE := CE) True s' (fun (_ : Unit) o => (U.asAny.lookup d (s'.strm, s'.alloc)).1 = .ok o)
            (U.ofUser (.lookup d)) (ofUserFn (U.asAny.lookup d)) := by
          unfold SameAs ofUserFn ofUserCode ofUser
          have e : U.asAny.lookup d s'.joined.strm = U.asAny.lookup d (s'.strm, s'.alloc) := rfl
          rw [e]
          rcases hp : U.panics (.lookup d) s'.alloc with _ | a
          · have : ∃ o, U.asAny.lookup d (s'.strm, s'.alloc) = (.ok o, s'.strm, s'.alloc) := by
              unfold PEnv.asAny
              simp only [hp, Option.map, orPanic]
              exact ⟨_, rfl⟩
            obtain ⟨o, ho⟩ := this
            rw [ho]
            exact ⟨rfl, rfl⟩
          · have : U.asAny.lookup d (s'.strm, s'.alloc) = (.panic, s'.strm, a) := by
              unfold PEnv.asAny
              simp only [hp, Option.map, orPanic]
            rw [this]
            exact fun _ => rfl
        refine hl.bind fun _ o s'' ho => ?_
        have ho : o = (U.env.lookup d).map U.anyCombiner := by
          simp only [PEnv.asAny] at ho
          rcases h : U.panics (.lookup d) s'.alloc with _ | a <;> rw [h] at ho
          · cases ho; rfl
          · cases ho
        subst ho
        rcases U.env.lookup d with _ | (f | f) <;> simp only [Option.map, anyCombiner]
        · refine (iha _ _ _).bind fun a b s' h => ?_
          subst h
          refine (same_nestEnd U).bind fun _ _ _ _ => (same_newDatum U _).bind fun _ b _ hb => ?_
          subst hb
          refine (same_newDatum U _).bind fun _ b _ hb => ?_
          subst hb
          exact .pure rfl
        · refine (same_parseText U n _).bind fun a b s' h => ?_
          subst h
          refine (same_nestEnd U).bind fun _ _ s _ => ?_
          exact .code (by
            refine (ofUser_bind U _ _).trans ?_
            rcases U.panics (.operative d a) s.alloc with _ | x
            · simp only [liftCombiner, orPanic]
              rcases f d a s.alloc with ⟨_ | e, t⟩ <;> rfl
            · rfl)
        · refine (iha _ _ _).bind fun a b s' h => ?_
          subst h
          refine (same_nestEnd U).bind fun _ _ s _ => ?_
          exact .code (by
            refine (ofUser_bind U _ _).trans ?_
            rcases U.panics (.applicative d a) s.alloc with _ | x
            · simp only [liftCombiner, orPanic]
              rcases f d a s.alloc with ⟨_ | e, t⟩ <;> rfl
            · rfl)
    · unfold parseAll AnyUser.parseAll
      refine (ihn m s).bind fun a b s h => ?_
      subst h
      cases a with
      | none => exact .pure (listOf_emptyList acc).symm
      | some d =>
        refine (same_newDatum U _).bind fun _ b _ hb => ?_
        subst hb
        refine (same_newDatum U _).bind fun _ b' _ hb => ?_
        subst hb
        refine (same_getMut U _).bind fun a b s' h => ?_
        subst h
        exact .ite (fun _ => iha m _ s') fun _ => .throw

end PEnv

/-! ## Delimiters and bindings that change -/

namespace ClsEnv

variable (U : ClsEnv σ P τ ε α CE) {s : St σ α} {R : A → B → Prop}

theorem same_peek : SameAs False s Eq U.env.peek (ofUserFn U.asAny.peek) := .code rfl

theorem same_next : SameAs False s Eq U.env.next (ofUserFn U.asAny.next) := .code rfl

theorem same_nextAccum : SameAs False s Eq U.env.nextAccum (ofUserAlloc U.asAny.nextAccum) := .code rfl

theorem same_concatAccum (t : τ) : SameAs False s Eq (U.env.concatAccum t) (U.asAny.concatAccum t) := by
  refine SameAs.bind (R := Eq) (.code rfl) fun a b s' h => ?_
  subst h
  exact .code rfl

/-- The classifier is asked in the state that there is. -/
theorem SameAs.here {f : Classifier → Act (St σ α) (Err P CE) A} {y : Act (St (σ × α) Unit) (Err P CE) B}
    (h : SameAs False s R (f (U.cc s.alloc)) y) : SameAs False s R (U.here >>= f) y := h

theorem SameAs.asks {q : Ask} {ch : Char} {x : Act (St σ α) (Err P CE) A} {g : Bool → Act (St (σ × α) Unit) (Err P CE) B}
    (h : SameAs False s R x (g (q.of (U.cc s.alloc) ch))) : SameAs False s R x (ofUserFn (U.asAny.ask q ch) >>= g) := h

theorem SameAs.stops {m : Mode} {k : Nat} {ch : Char} {x : Act (St σ α) (Err P CE) A}
    {g : Bool → Act (St (σ × α) Unit) (Err P CE) B}
    (h : SameAs False s R x (g (decide (k = 0 ∧ isEndChar (U.cc s.alloc) m ch)))) :
    SameAs False s R x (U.asAny.stops m k ch >>= g) := by
  have e : U.asAny.stops m k ch s.joined = (.ok (decide (k = 0 ∧ isEndChar (U.cc s.alloc) m ch)), s.joined) := by
    unfold AnyUser.stops
    by_cases hk : k = 0
    · simp only [hk, if_true, true_and]
      cases m with
      | base =>
        refine congrArg (fun b => (Outcome.ok b, s.joined)) ?_
        exact Bool.eq_iff_iff.2 (by rw [decide_eq_true_iff]; rfl)
      | operator =>
        have e : ∀ (q : Ask) {B : Type} (g : Bool → Act (St (σ × α) Unit) (Err P CE) B),
            (ofUserFn (U.asAny.ask q ch) >>= g) s.joined = g (q.of (U.cc s.alloc) ch) s.joined := fun _ _ _ => rfl
        unfold AnyUser.isEnd
        simp only [e]
        rcases h1 : (U.cc s.alloc).isWhitespace ch with _ | _ <;> simp only [Ask.of, h1, isEndChar, Bool.false_eq_true, if_false, if_true]
        · simp only [e]
          rcases h2 : (U.cc s.alloc).isNestStart ch with _ | _ <;> simp only [Ask.of, h2, Bool.false_eq_true, if_false, if_true]
          · simp only [Bool.false_or, Bool.decide_eq_true]; rfl
          · simp; rfl
        · simp; rfl
      | operands =>
        refine congrArg (fun b => (Outcome.ok b, s.joined)) ?_
        exact Bool.eq_iff_iff.2 (by rw [decide_eq_true_iff]; rfl)
    · simp only [hk, if_false, false_and, decide_false]
      rfl
  unfold SameAs at h ⊢
  change SameOut False R _ (Act.bind _ _ _)
  unfold Act.bind
  rw [e]
  exact h

theorem same_skipWhitespace (n : Nat) : ∀ s, SameAs False s Eq (U.skipWhitespace n) (U.asAny.skipWhitespace n) := by
  induction n with
  | zero => exact fun _ => .fuel
  | succ n ih =>
    refine fun s => (same_peek U).bind fun a b s' h => ?_
    subst h
    cases a with
    | none => exact .pure rfl
    | some it =>
      exact SameAs.here U (SameAs.asks U (.ite (fun _ => (same_next U).bind fun _ _ s' _ => ih s') fun _ => .pure rfl))

theorem same_checkEndChar : SameAs False s Eq U.checkEndChar U.asAny.checkEndChar := by
  refine (same_peek U).bind fun a b s' h => SameAs.here U ?_
  subst h
  cases a with
  | none => exact nofun
  | some it =>
    refine SameAs.bind (R := fun _ _ => True) (y := Act.debugAssert ((U.cc s'.alloc).isNestEnd it.ch == true))
      (.assert (by simp)) fun _ _ s' _ => SameAs.depth.bind fun a b s' h => ?_
    subst h
    refine .ite (fun _ => .pure rfl) fun _ => (same_next U).bind fun a b s' h => ?_
    subst h
    cases a with
    | none => exact .panic
    | some it => exact .throw

theorem same_finishText (t : τ) (k : Nat) : SameAs False s Eq (U.env.finishText t k) (U.asAny.finishText t k) :=
  .ite (fun _ => same_concatAccum U t) fun _ => .throw

theorem same_parseTextLoop (m : Mode) (n : Nat) : ∀ t k s, SameAs False s Eq (U.parseTextLoop m n t k) (U.asAny.parseTextLoop m n t k) := by
  induction n with
  | zero => exact fun _ _ _ => .fuel
  | succ n ih =>
    refine fun t k s => (same_peek U).bind fun a b s' h => ?_
    subst h
    cases a with
    | none => exact same_finishText U t k
    | some it =>
      have next : ∀ t k, SameAs False s' Eq (U.env.nextAccum >>= fun _ => U.parseTextLoop m n t k)
          (ofUserAlloc U.asAny.nextAccum >>= fun _ => U.asAny.parseTextLoop m n t k) := fun t k =>
        (same_nextAccum U).bind fun _ _ s' _ => ih _ _ s'
      refine SameAs.here U (SameAs.stops U ?_)
      simp only [decide_eq_true_eq]
      refine .ite (fun _ => same_finishText U t k) fun _ => SameAs.asks U (.ite (fun _ => ?_) fun _ => SameAs.asks U
        (.ite (fun _ => next _ _) fun _ => SameAs.asks U (.ite (fun _ => .ite (fun _ => next _ _) fun _ => ?_) fun _ => next _ _)))
      · refine (same_concatAccum U t).bind fun a b s' h => ?_
        subst h
        exact (same_next U).bind fun _ _ s' _ => (same_nextAccum U).bind fun _ _ s' _ => ih a k s'
      · exact (same_checkEndChar U).bind fun _ _ s' _ => same_finishText U t k

theorem same_parseText (n : Nat) (m : Mode) : SameAs False s Eq (U.parseText n m) (U.asAny.parseText n m) :=
  same_parseTextLoop U m n _ 0 s

theorem same_nestEnd : SameAs False s (fun _ _ => True) U.nestEnd U.asAny.nestEnd := by
  refine (same_next U).bind fun a b s' h => ?_
  subst h
  cases a with
  | none => exact .throw
  | some it => exact SameAs.here U (SameAs.asks U (.assert rfl))

theorem same_skipSeparator : SameAs False s (fun _ _ => True) U.skipSeparator U.asAny.skipSeparator := by
  refine (same_peek U).bind fun a b s' h => ?_
  subst h
  cases a with
  | none => exact .pure trivial
  | some it =>
    exact SameAs.here U (SameAs.asks U (.ite (fun _ => (same_next U).bind fun _ _ s' _ => .pure trivial) fun _ => .pure trivial))

theorem same_skipLeading (n : Nat) (m : Mode) : SameAs False s Eq (U.skipLeading n m) (U.asAny.skipLeading n m) :=
  .ite (fun _ => same_skipWhitespace U n s) fun _ => .pure rfl

theorem same_newDatum (d : Datum τ ε) : SameAs False s (fun _ d' => d' = d) (U.env.newDatum d) (ofUserAlloc (U.asAny.newDatum d)) := by
  change SameOut _ _ (Outcome.mapErr _ (Outcome.ofExcept (U.env.alloc.newDatum d s.alloc).1),
      { s with alloc := (U.env.alloc.newDatum d s.alloc).2 })
    ((exceptOut (fun _ => d) (U.env.alloc.newDatum d s.alloc).1).mapErr _,
      { s.joined with strm := (s.strm, (U.env.alloc.newDatum d s.alloc).2) })
  rcases U.env.alloc.newDatum d s.alloc with ⟨_ | e, t⟩ <;> exact ⟨rfl, rfl⟩

theorem same_parse (n : Nat) : (∀ m s, SameAs False s Eq (U.parseNext n m) (U.asAny.parseNext n m)) ∧
    (∀ s, SameAs False s Eq (U.parseNested n) (U.asAny.parseNested n)) ∧
    ∀ m acc s, SameAs False s Eq (U.parseAll n m acc) (U.asAny.parseAll n m acc .emptyList) := by
  induction n with
  | zero => exact ⟨fun _ _ => .fuel, fun _ => .fuel, fun _ _ _ => .fuel⟩
  | succ n ih =>
    obtain ⟨ihn, ihd, iha⟩ := ih
    refine ⟨fun m s => ?_, fun s => ?_, fun m acc s => ?_⟩
    · unfold parseNext AnyUser.parseNext
      refine (same_skipLeading U n m).bind fun _ _ s _ => (same_peek U).bind fun a b s h => ?_
      subst h
      cases a with
      | none =>
        refine SameAs.depth.bind fun a b s' h => ?_
        subst h
        exact .ite (fun _ => .pure rfl) fun _ => .throw
      | some it =>
        refine SameAs.here U (SameAs.asks U (.ite (fun _ => ?_) fun _ => SameAs.asks U (.ite (fun _ => ?_) fun _ => ?_)))
        · refine (SameAs.nested' ihd).bind fun a b s' h => ?_
          subst h
          cases a with
          | none => exact ihn m s'
          | some d => exact .pure rfl
        · exact (same_checkEndChar U).bind fun _ _ _ _ => .pure rfl
        · refine (same_parseText U n m).bind fun a b s' h => ?_
          subst h
          exact .pure rfl
    · unfold parseNested AnyUser.parseNested
      refine (same_next U).bind fun a b s h => ?_
      subst h
      refine SameAs.here U ?_
      cases a with
      | none => exact nofun
      | some it =>
        refine SameAs.bind (R := fun _ _ => True) (y := Act.debugAssert ((U.cc s.alloc).isNestStart it.ch == true))
          (.assert ?_) fun _ _ s' _ => (ihn _ s').bind fun a b s' h => ?_
        · simp
        subst h
        refine (same_skipSeparator U).bind fun _ _ s' _ => ?_
        cases a with
        | none => exact (same_nestEnd U).bind fun _ _ _ _ => .pure rfl
        | some d =>
          have hl : SameAs (P := P) (CE := CE) False s' (fun c o => o = c.map Combiner.asAny)
              (U.find d) (ofUserFn (U.asAny.lookup d)) := ⟨rfl, rfl⟩
          refine hl.bind fun c o s'' ho => ?_
          subst ho
          rcases c with _ | (f | f) <;> simp only [Option.map, Combiner.asAny]
          · refine (iha _ _ _).bind fun a b s' h => ?_
            subst h
            refine (same_nestEnd U).bind fun _ _ _ _ => (same_newDatum U _).bind fun _ b _ hb => ?_
            subst hb
            refine (same_newDatum U _).bind fun _ b _ hb => ?_
            subst hb
            exact .pure rfl
          · refine (same_parseText U n _).bind fun a b s' h => ?_
            subst h
            refine (same_nestEnd U).bind fun _ _ s _ => ?_
            exact .code (by
              simp only [liftCombiner]
              rcases f d a s.alloc with ⟨_ | e, t⟩ <;> rfl)
          · refine (iha _ _ _).bind fun a b s' h => ?_
            subst h
            refine (same_nestEnd U).bind fun _ _ s _ => ?_
            exact .code (by
              simp only [liftCombiner]
              rcases f d a s.alloc with ⟨_ | e, t⟩ <;> rfl)
    · unfold parseAll AnyUser.parseAll
      refine (ihn m s).bind fun a b s h => ?_
      subst h
      cases a with
      | none => exact .pure (listOf_emptyList acc).symm
      | some d =>
        refine (same_newDatum U _).bind fun _ b _ hb => ?_
        subst hb
        refine (same_newDatum U _).bind fun _ b' s' hb => ?_
        subst hb
        refine SameAs.bind (R := Eq) (y := ofUserFn (U.asAny.getMut _)) (.code rfl) fun a b s' h => ?_
        subst h
        exact .ite (fun _ => iha m _ s') fun _ => .throw

end ClsEnv

end Kul
