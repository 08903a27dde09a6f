import Verif.Proof.LinkText

/-! # The parser with texts linked through memory does what the parser by value does -/

namespace Kul.Linked

open Mem (Addr Dat onErr)

variable {σ σ' C P ε CE : Type}

/-- Streams that own a text, and the same by value. -/
structure StreamLaws (S : StreamOps σ P (LText C) (Slice C ε)) (S' : StreamOps σ' P (VText C ε) (VSlice C ε))
    (RS : σ → σ' → List (Res C ε) → Prop) : Prop where
  peek : ∀ {s t ss}, RS s t ss → ∃ o s' t' ss', S.peek s = (o, s') ∧ S'.peek t = (o, t') ∧ RS s' t' ss' ∧
    ∀ {a b xs}, Own a b (ss ++ xs) → Own a b (ss' ++ xs)
  next : ∀ {s t ss}, RS s t ss → ∃ o s' t' ss', S.next s = (o, s') ∧ S'.next t = (o, t') ∧ RS s' t' ss' ∧
    ∀ {a b xs}, Own a b (ss ++ xs) → Own a b (ss' ++ xs)
  nextAccum : ∀ {s t ss a b xs}, RS s t ss → Own a b (ss ++ xs) → ∃ o s' a' t' b' ss',
    S.nextAccum s a = (o, s', a') ∧ S'.nextAccum t b = (o, t', b') ∧ RS s' t' ss' ∧ Own a' b' (ss' ++ xs)
  accumDone : ∀ {s t ss a b xs}, RS s t ss → Own a b (ss ++ xs) → ∃ x s' t' y ss',
    S.accumDone s a = (x.1, s', x.2) ∧ S'.accumDone t b = (y.1, t', y.2) ∧ RS s' t' ss' ∧ TextOut (ss' ++ xs) x y

/-- All that a parser uses. -/
structure Laws (E : Mem.Env σ P (LText C) ε (Slice C ε) CE) (V : Kul.Env σ' P (VText C ε) ε (VSlice C ε) CE)
    (RS : σ → σ' → List (Res C ε) → Prop) : Prop extends StreamLaws E.strm V.strm RS where
  alloc : E.alloc = Mem.sliceMem _ _
  valloc : V.alloc = sliceAlloc _ _
  cc : E.cc = V.cc
  empty : TParts (ε := ε) E.text.empty V.text.empty []
  concat : ∀ {a b t u T U ts us xs}, TParts t T ts → TParts u U us → Own a b (ts ++ (us ++ xs)) →
    TextOut xs (E.text.concat t u a) (V.text.concat T U b)
  lookup : SameBindings E.lookup V.lookup

/-- Related states, in which `xs` is owned besides what the streams own. -/
def Hold (RS : σ → σ' → List (Res C ε) → Prop) (s : St σ (Slice C ε)) (t : St σ' (VSlice C ε)) (xs : List (Res C ε)) : Prop :=
  s.ndepth = t.ndepth ∧ ∃ ss, RS s.strm t.strm ss ∧ Own s.alloc t.alloc (ss ++ xs)

section

variable {RS : σ → σ' → List (Res C ε) → Prop} {A B F G : Type}
variable {s : St σ (Slice C ε)} {t : St σ' (VSlice C ε)} {xs ys rs pre keep : List (Res C ε)}

theorem Hold.perm (h : Hold RS s t xs) (hp : xs.Perm ys) : Hold RS s t ys := by
  obtain ⟨h1, ss, h2, h3⟩ := h
  exact ⟨h1, ss, h2, h3.perm (hp.append_left ss)⟩

theorem Hold.drop (h : Hold RS s t (rs ++ xs)) : Hold RS s t xs := by
  obtain ⟨h1, ss, h2, h3⟩ := h
  refine ⟨h1, ss, h2, Own.drop (rs := rs) (h3.perm ?_)⟩
  rw [← List.append_assoc, ← List.append_assoc]
  exact List.perm_append_comm.append_right _

/-- Something done to what is owned. -/
theorem Hold.to (h : Hold RS s t xs) (f : ∀ {a b ss}, Own (C := C) (ε := ε) a b (xs ++ ss) → Own a b (ys ++ ss)) :
    Hold RS s t ys := by
  obtain ⟨h1, ss, h2, h3⟩ := h
  exact ⟨h1, ss, h2, (f (h3.perm List.perm_append_comm)).perm List.perm_append_comm⟩

/-- Related outcomes: what the result owns is added to what others own. -/
def Out (RS : σ → σ' → List (Res C ε) → Prop) (RV : A → B → List (Res C ε) → Prop) (xs : List (Res C ε))
    (r : Outcome (Err P CE) A × St σ (Slice C ε)) (r' : Outcome (Err P CE) B × St σ' (VSlice C ε)) : Prop :=
  (∃ a b rs, r.1 = .ok a ∧ r'.1 = .ok b ∧ RV a b rs ∧ Hold RS r.2 r'.2 (rs ++ xs)) ∨
  (∃ e, r.1 = .err e ∧ r'.1 = .err e ∧ Hold RS r.2 r'.2 xs) ∨
  (r.1 = .panic ∧ r'.1 = .panic) ∨ (r.1 = .fuel ∧ r'.1 = .fuel ∧ r.2.ndepth = r'.2.ndepth)

/-- Related actions, which use up `pre`. -/
def Rel (RS : σ → σ' → List (Res C ε) → Prop) (pre : List (Res C ε)) (RV : A → B → List (Res C ε) → Prop)
    (x : Act (St σ (Slice C ε)) (Err P CE) A) (y : Act (St σ' (VSlice C ε)) (Err P CE) B) : Prop :=
  ∀ s t xs, Hold RS s t (pre ++ xs) → Out RS RV xs (x s) (y t)

/-- The same value, and still `pre`. -/
def Same (pre : List (Res C ε)) (a b : A) (rs : List (Res C ε)) : Prop := a = b ∧ rs = pre

theorem Rel.pure {RV : A → B → List (Res C ε) → Prop} {a : A} {b : B}
    (h : RV a b pre) : Rel (P := P) (CE := CE) RS pre RV (Pure.pure a) (Pure.pure b) :=
  fun _ _ _ h1 => Or.inl ⟨a, b, pre, rfl, rfl, h, h1⟩

theorem Rel.throw {RV : A → B → List (Res C ε) → Prop} {e : Err P CE} : Rel RS pre RV (Act.throw e) (Act.throw e) :=
  fun _ _ _ h1 => Or.inr (Or.inl ⟨e, rfl, rfl, h1.drop⟩)

theorem Rel.panic {RV : A → B → List (Res C ε) → Prop} : Rel (P := P) (CE := CE) RS pre RV Act.panic Act.panic :=
  fun _ _ _ _ => Or.inr (Or.inr (Or.inl ⟨rfl, rfl⟩))

theorem Rel.fuel {RV : A → B → List (Res C ε) → Prop} : Rel (P := P) (CE := CE) RS pre RV Act.fuel Act.fuel :=
  fun _ _ _ h => Or.inr (Or.inr (Or.inr ⟨rfl, rfl, h.1⟩))

theorem Rel.debugAssert (b : Bool) (pre : List (Res C ε)) :
    Rel (P := P) (CE := CE) RS pre (Same pre) (Act.debugAssert b) (Act.debugAssert b) := by
  unfold Act.debugAssert
  split
  · exact Rel.pure ⟨rfl, rfl⟩
  · exact Rel.panic

theorem Rel.ite {RV : A → B → List (Res C ε) → Prop} {p : Prop} [Decidable p]
    {x x' : Act (St σ (Slice C ε)) (Err P CE) A} {y y' : Act (St σ' (VSlice C ε)) (Err P CE) B}
    (h : p → Rel RS pre RV x y) (h' : ¬ p → Rel RS pre RV x' y') :
    Rel RS pre RV (if p then x else x') (if p then y else y') := by
  by_cases hp : p
  · rw [if_pos hp, if_pos hp]; exact h hp
  · rw [if_neg hp, if_neg hp]; exact h' hp

theorem Rel.bind {RV : A → B → List (Res C ε) → Prop} {RW : F → G → List (Res C ε) → Prop}
    {x : Act (St σ (Slice C ε)) (Err P CE) A} {y : Act (St σ' (VSlice C ε)) (Err P CE) B}
    {f : A → Act (St σ (Slice C ε)) (Err P CE) F} {g : B → Act (St σ' (VSlice C ε)) (Err P CE) G}
    (hx : Rel RS pre RV x y) (hf : ∀ a b rs, RV a b rs → Rel RS rs RW (f a) (g b)) :
    Rel RS pre RW (x >>= f) (y >>= g) := by
  intro s t xs h1
  have h := hx s t _ h1
  change Out RS RW xs (Act.bind x f s) (Act.bind y g t)
  unfold Act.bind
  rcases hxs : x s with ⟨ox, s'⟩
  rcases hyt : y t with ⟨oy, t'⟩
  rw [hxs, hyt] at h
  rcases h with ⟨a, b, rs, e1, e2, h4, h5⟩ | ⟨e, e1, e2, h4⟩ | ⟨e1, e2⟩ | ⟨e1, e2, h4⟩ <;>
    simp only at e1 e2 <;> subst e1 <;> subst e2
  · exact hf a b rs h4 s' t' xs h5
  · exact Or.inr (Or.inl ⟨e, rfl, rfl, h4⟩)
  · exact Or.inr (Or.inr (Or.inl ⟨rfl, rfl⟩))
  · exact Or.inr (Or.inr (Or.inr ⟨rfl, rfl, h4⟩))

/-- Something is kept meanwhile, but forgotten upon an error. -/
theorem Rel.frame {RV : A → B → List (Res C ε) → Prop} {x : Act (St σ (Slice C ε)) (Err P CE) A}
    {y : Act (St σ' (VSlice C ε)) (Err P CE) B} (hx : Rel RS pre RV x y) (keep : List (Res C ε)) :
    Rel RS (pre ++ keep) (fun a b rs => ∃ rs', rs = rs' ++ keep ∧ RV a b rs') x y := by
  intro s t xs h
  rcases hx s t (keep ++ xs) (by rw [← List.append_assoc]; exact h) with
    ⟨a, b, rs, e1, e2, h4, h5⟩ | ⟨e, e1, e2, h4⟩ | h | h
  · exact Or.inl ⟨a, b, rs ++ keep, e1, e2, ⟨rs, rfl, h4⟩, by rw [List.append_assoc]; exact h5⟩
  · exact Or.inr (Or.inl ⟨e, e1, e2, h4.drop⟩)
  · exact Or.inr (Or.inr (Or.inl h))
  · exact Or.inr (Or.inr (Or.inr h))

omit xs ys rs pre keep s t in
theorem onErr_id {E : Type} {x : Act (St σ (Slice C ε)) E A} {cl : Slice C ε → Slice C ε} (h : ∀ a, cl a = a) :
    onErr x cl = x := by
  funext s
  unfold onErr
  rcases x s with ⟨o, s'⟩
  cases o <;> simp [h]

theorem Rel.bindKeep {RV : A → B → List (Res C ε) → Prop} {RW : F → G → List (Res C ε) → Prop}
    {x : Act (St σ (Slice C ε)) (Err P CE) A} {y : Act (St σ' (VSlice C ε)) (Err P CE) B}
    {f : A → Act (St σ (Slice C ε)) (Err P CE) F} {g : B → Act (St σ' (VSlice C ε)) (Err P CE) G}
    {cl : Slice C ε → Slice C ε} (hx : Rel RS pre RV x y) (hc : ∀ a, cl a = a)
    (hf : ∀ a b rs, RV a b rs → Rel RS (rs ++ keep) RW (f a) (g b)) :
    Rel RS (pre ++ keep) RW (onErr x cl >>= f) (y >>= g) := by
  rw [onErr_id hc]
  refine Rel.bind (hx.frame keep) fun a b rs h => ?_
  obtain ⟨rs', rfl, h⟩ := h
  exact hf a b rs' h

theorem Rel.bindSame {RW : F → G → List (Res C ε) → Prop}
    {x : Act (St σ (Slice C ε)) (Err P CE) A} {y : Act (St σ' (VSlice C ε)) (Err P CE) A}
    {f : A → Act (St σ (Slice C ε)) (Err P CE) F} {g : A → Act (St σ' (VSlice C ε)) (Err P CE) G}
    (hx : Rel RS pre (Same keep) x y) (hf : ∀ a, Rel RS keep RW (f a) (g a)) :
    Rel RS pre RW (x >>= f) (y >>= g) :=
  Rel.bind hx fun a b rs h => by obtain ⟨rfl, rfl⟩ := h; exact hf a

theorem Rel.to {RV : A → B → List (Res C ε) → Prop} {x : Act (St σ (Slice C ε)) (Err P CE) A}
    {y : Act (St σ' (VSlice C ε)) (Err P CE) B} (hx : Rel RS rs RV x y) (hp : pre.Perm rs) : Rel RS pre RV x y :=
  fun s t xs h => hx s t xs (h.perm (hp.append_right xs))

end

section

variable {E : Mem.Env σ P (LText C) ε (Slice C ε) CE} {V : Kul.Env σ' P (VText C ε) ε (VSlice C ε) CE}
variable {RS : σ → σ' → List (Res C ε) → Prop}
variable (L : Laws E V RS)
include L

theorem Laws.r_peek (pre : List (Res C ε)) : Rel RS pre (Same pre) E.scan.peek V.peek := by
  rintro s t xs ⟨h1, ss, h2, h3⟩
  obtain ⟨o, s', t', ss', e1, e2, h4, h5⟩ := L.peek h2
  unfold Kul.Env.peek liftEmpty
  have e1 : E.scan.strm.peek s.strm = (o, s') := e1
  rw [e1, e2]
  cases o with
  | ok a => exact Or.inl ⟨a, a, pre, rfl, rfl, ⟨rfl, rfl⟩, h1, ss', h4, h5 h3⟩
  | err e => exact nomatch e
  | panic => exact Or.inr (Or.inr (Or.inl ⟨rfl, rfl⟩))
  | fuel => exact Or.inr (Or.inr (Or.inr ⟨rfl, rfl, h1⟩))

theorem Laws.r_next (pre : List (Res C ε)) : Rel RS pre (Same pre) E.scan.next V.next := by
  rintro s t xs ⟨h1, ss, h2, h3⟩
  obtain ⟨o, s', t', ss', e1, e2, h4, h5⟩ := L.next h2
  unfold Kul.Env.next liftEmpty
  have e1 : E.scan.strm.next s.strm = (o, s') := e1
  rw [e1, e2]
  cases o with
  | ok a => exact Or.inl ⟨a, a, pre, rfl, rfl, ⟨rfl, rfl⟩, h1, ss', h4, h5 h3⟩
  | err e => exact nomatch e
  | panic => exact Or.inr (Or.inr (Or.inl ⟨rfl, rfl⟩))
  | fuel => exact Or.inr (Or.inr (Or.inr ⟨rfl, rfl, h1⟩))

theorem Laws.r_nextAccum (pre : List (Res C ε)) : Rel RS pre (Same pre) E.scan.nextAccum V.nextAccum := by
  rintro s t xs ⟨h1, ss, h2, h3⟩
  obtain ⟨o, s', a', t', b', ss', e1, e2, h4, h5⟩ := L.nextAccum h2 h3
  unfold Kul.Env.nextAccum Kul.liftAccum
  have e1 : E.scan.strm.nextAccum s.strm s.alloc = (o, s', a') := e1
  rw [e1, e2]
  cases o with
  | ok a => exact Or.inl ⟨a, a, pre, rfl, rfl, ⟨rfl, rfl⟩, h1, ss', h4, h5⟩
  | err e => exact Or.inr (Or.inl ⟨_, rfl, rfl, Hold.drop (rs := pre) ⟨h1, ss', h4, h5⟩⟩)
  | panic => exact Or.inr (Or.inr (Or.inl ⟨rfl, rfl⟩))
  | fuel => exact Or.inr (Or.inr (Or.inr ⟨rfl, rfl, h1⟩))

omit L in
theorem r_getDepth (pre : List (Res C ε)) : Rel RS pre (Same pre)
    (Kul.Env.getDepth (P := P) (CE := CE)) Kul.Env.getDepth :=
  fun _ _ _ h => Or.inl ⟨_, _, _, rfl, rfl, ⟨h.1, rfl⟩, h⟩

theorem Laws.r_concatAccum {t : LText C} {T : VText C ε} {ts : List (Res C ε)} (ht : TParts t T ts) :
    Rel RS ts TParts (E.scan.concatAccum t) (V.concatAccum T) := by
  have h1 : Rel RS [] TParts (Kul.liftAccum (P := P) (CE := CE) E.scan.strm.accumDone) (Kul.liftAccum V.strm.accumDone) := by
    rintro s t xs ⟨h1, ss, h2, h3⟩
    obtain ⟨⟨o, a'⟩, s', t', ⟨o', b'⟩, ss', e1, e2, h4, h5⟩ := L.accumDone h2 h3
    unfold Kul.liftAccum
    have e1 : E.scan.strm.accumDone s.strm s.alloc = (o, s', a') := e1
    rw [e1, e2]
    rcases h5 with ⟨u, U, us, e1, e2, h6, h7⟩ | ⟨e, e1, e2, h6⟩ | ⟨e1, e2, _⟩ <;> simp only at e1 e2 <;> subst e1 <;> subst e2
    · refine Or.inl ⟨_, _, us, rfl, rfl, h6, h1, ss', h4, h7.perm ?_⟩
      rw [List.nil_append, ← List.append_assoc, ← List.append_assoc]
      exact List.perm_append_comm.append_right _
    · exact Or.inr (Or.inl ⟨_, rfl, rfl, h1, ss', h4, h6⟩)
    · exact Or.inr (Or.inr (Or.inl ⟨rfl, rfl⟩))
  refine Rel.bind (h1.frame ts) fun u U rs hu => ?_
  obtain ⟨us, rfl, hu⟩ := hu
  rintro s t' xs ⟨h1, ss, h2, h3⟩
  have h4 := L.concat (xs := ss ++ xs) ht hu (h3.perm (by
    have : (ss ++ (us ++ ts)).Perm (ts ++ (us ++ ss)) := by
      refine List.perm_append_comm.trans ?_
      rw [← List.append_assoc]
      exact List.perm_append_comm.append_right _
    simpa using this.append_right xs))
  unfold Kul.liftAlloc
  rcases e1 : E.text.concat t u s.alloc with ⟨o, a'⟩
  rcases e2 : V.text.concat T U t'.alloc with ⟨o', b'⟩
  rw [e1, e2] at h4
  have e1 : E.scan.text.concat t u s.alloc = (o, a') := e1
  simp only [e1]
  clear e1 e2
  rcases h4 with ⟨u, U, us, e1, e2, h6, h7⟩ | ⟨e, e1, e2, h6⟩ | ⟨e1, e2, _⟩ <;> simp only at e1 e2 <;> subst e1 <;> subst e2
  · refine Or.inl ⟨_, _, us, rfl, rfl, h6, h1, ss, h2, h7.perm ?_⟩
    rw [← List.append_assoc, ← List.append_assoc]
    exact List.perm_append_comm.append_right _
  · exact Or.inr (Or.inl ⟨_, rfl, rfl, h1, ss, h2, h6⟩)
  · exact Or.inr (Or.inr (Or.inl ⟨rfl, rfl⟩))

theorem Laws.r_skipWhitespace (n : Nat) : Rel RS [] (Same []) (E.scan.skipWhitespace n) (V.skipWhitespace n) := by
  induction n with
  | zero => exact Rel.fuel
  | succ n ih =>
    refine Rel.bindSame (L.r_peek []) fun a => ?_
    cases a with
    | none => exact Rel.pure ⟨rfl, rfl⟩
    | some it =>
      change Rel RS [] _ (if E.cc.isWhitespace it.ch then _ else _) _
      rw [L.cc]
      exact Rel.ite (fun _ => Rel.bindSame (L.r_next []) fun _ => ih) fun _ => Rel.pure ⟨rfl, rfl⟩

theorem Laws.r_checkEndChar (pre : List (Res C ε)) : Rel RS pre (Same pre) E.scan.checkEndChar V.checkEndChar := by
  refine Rel.bindSame (L.r_peek pre) fun a => ?_
  change Rel RS pre _ (Act.debugAssert (a.map (fun it => E.cc.isNestEnd it.ch) == some true) >>= _) _
  rw [L.cc]
  refine Rel.bindSame (Rel.debugAssert _ _) fun _ => ?_
  refine Rel.bindSame (r_getDepth pre) fun d => ?_
  refine Rel.ite (fun _ => Rel.pure ⟨rfl, rfl⟩) fun _ => ?_
  refine Rel.bindSame (L.r_next pre) fun o => ?_
  cases o with
  | none => exact Rel.panic
  | some it => exact Rel.throw

theorem Laws.r_finishText {t : LText C} {T : VText C ε} {ts : List (Res C ε)} (ht : TParts t T ts) (l : Nat) :
    Rel RS ts TParts (E.scan.finishText t l) (V.finishText T l) :=
  Rel.ite (fun _ => L.r_concatAccum ht) fun _ => Rel.throw

theorem Laws.r_parseTextLoop (mode : Mode) (n : Nat) : ∀ {t : LText C} {T : VText C ε} {ts : List (Res C ε)},
    TParts t T ts → ∀ (l : Nat), Rel RS ts TParts (E.scan.parseTextLoop mode n t l) (V.parseTextLoop mode n T l) := by
  induction n with
  | zero => intro t T ts _ l; exact Rel.fuel
  | succ n ih =>
    intro t T ts ht l
    refine Rel.bindSame (L.r_peek ts) fun a => ?_
    cases a with
    | none => exact L.r_finishText ht l
    | some it =>
      have hcc : E.scan.cc = V.cc := L.cc
      simp only [hcc]
      refine Rel.ite (fun _ => L.r_finishText ht l) fun _ => ?_
      refine Rel.ite (fun _ => ?_) fun _ => ?_
      · refine Rel.bind (L.r_concatAccum ht) fun t' T' ts' ht' => ?_
        refine Rel.bindSame (L.r_next ts') fun _ => ?_
        exact Rel.bindSame (L.r_nextAccum ts') fun _ => ih ht' l
      refine Rel.ite (fun _ => ?_) fun _ => ?_
      · exact Rel.bindSame (L.r_nextAccum ts) fun _ => ih ht (l + 1)
      refine Rel.ite (fun _ => ?_) fun _ => ?_
      · refine Rel.ite (fun _ => ?_) fun _ => ?_
        · exact Rel.bindSame (L.r_nextAccum ts) fun _ => ih ht (l - 1)
        · exact Rel.bindSame (L.r_checkEndChar ts) fun _ => L.r_finishText ht l
      · exact Rel.bindSame (L.r_nextAccum ts) fun _ => ih ht l

theorem Laws.r_parseText (n : Nat) (mode : Mode) : Rel RS [] TParts (E.scan.parseText n mode) (V.parseText n mode) :=
  L.r_parseTextLoop mode n L.empty 0

theorem Laws.r_nestEnd : Rel RS [] (Same []) E.scan.nestEnd V.nestEnd := by
  refine Rel.bindSame (L.r_next []) fun o => ?_
  cases o with
  | none => exact Rel.throw
  | some it =>
    change Rel RS [] _ (Act.debugAssert (E.cc.isNestEnd it.ch)) _
    rw [L.cc]
    exact Rel.debugAssert _ _

theorem Laws.r_skipSeparator (pre : List (Res C ε)) : Rel RS pre (Same pre) E.scan.skipSeparator V.skipSeparator := by
  refine Rel.bindSame (L.r_peek pre) fun o => ?_
  cases o with
  | none => exact Rel.pure ⟨rfl, rfl⟩
  | some it =>
    change Rel RS pre _ (if E.cc.isWhitespace it.ch then _ else _) _
    rw [L.cc]
    exact Rel.ite (fun _ => Rel.bindSame (L.r_next pre) fun _ => Rel.pure ⟨rfl, rfl⟩) fun _ => Rel.pure ⟨rfl, rfl⟩

/-- The datum `d` with the references `rs` that it owns is the root of `D`. -/
def OptParts (d : Option (Dat (LText C) ε)) (D : Option (VDatum C ε)) (rs : List (Res C ε)) : Prop :=
  (d = none ∧ D = none ∧ rs = []) ∨ ∃ x X, d = some x ∧ D = some X ∧ Parts x X rs

/-- `new_datum`, in states that correspond. -/
theorem Laws.newDatum {d : Dat (LText C) ε} {D : VDatum C ε} {rs xs : List (Res C ε)} (h : Parts d D rs)
    {s : St σ (Slice C ε)} {t : St σ' (VSlice C ε)} (hs : Hold RS s t (rs ++ xs)) :
    (∃ p a' b', E.newDatum d s = (.ok p, { s with alloc := a' }) ∧ V.newDatum D t = (.ok (), { t with alloc := b' }) ∧
      Hold RS { s with alloc := a' } { t with alloc := b' } (.ref p D :: xs)) ∨
    (∃ e a' b', E.newDatum d s = (.err e, { s with alloc := a' }) ∧ V.newDatum D t = (.err e, { t with alloc := b' }) ∧
      Hold RS { s with alloc := a' } { t with alloc := b' } xs) := by
  obtain ⟨h1, ss, h2, h3⟩ := hs
  have h4 := Own.newDatum (xs := ss ++ xs) h (h3.perm (by
    rw [← List.append_assoc, ← List.append_assoc]
    exact List.perm_append_comm.append_right _))
  simp only [Mem.Env.newDatum, Kul.Env.newDatum, Kul.liftAlloc, L.alloc, L.valloc, Mem.sliceMem]
  rcases h4 with ⟨p, a', b', e1, e2, h4⟩ | ⟨e, a', b', e1, e2, h4⟩ <;> simp only [e1, e2]
  · exact Or.inl ⟨p, a', b', rfl, rfl, h1, ss, h2, h4.perm List.perm_middle.symm⟩
  · exact Or.inr ⟨_, a', b', rfl, rfl, h1, ss, h2, h4⟩

theorem Laws.r_newDatum {d : Dat (LText C) ε} {D : VDatum C ε} {rs : List (Res C ε)} (h : Parts d D rs) :
    Rel RS rs (fun p _ xs => xs = [.ref p D]) (E.newDatum d) (V.newDatum D) := by
  intro s t xs hs
  rcases L.newDatum h hs with ⟨p, a', b', e1, e2, h4⟩ | ⟨e, a', b', e1, e2, h4⟩ <;> rw [e1, e2]
  · exact Or.inl ⟨p, (), _, rfl, rfl, rfl, h4⟩
  · exact Or.inr (Or.inl ⟨_, rfl, rfl, h4⟩)

theorem Laws.dropRef (p : Addr) (a : Slice C ε) : E.alloc.dropRef p a = a := by
  rw [L.alloc]; rfl

theorem Laws.dropDat (d : Dat (LText C) ε) (a : Slice C ε) : E.alloc.dropDat d a = a := by
  unfold Mem.AllocOps.dropDat
  rw [L.alloc]
  change d.refs.foldl (fun a _ => a) a = a
  induction d.refs with
  | nil => rfl
  | cons _ _ ih => exact ih

end

section

/-- The slots of a list that is being built, from slot `n` on, up to slot `tail` at its end, and the
elements after `n`. What is owned of the end is `fin`. -/
inductive Chain (tail : Addr) (fin : Res C ε) : Addr → List (VDatum C ε) → List (Res C ε) → Prop where
  | last : Chain tail fin tail [] [fin]
  | more {n e n' D Ds rs} : Chain tail fin n' Ds rs →
      Chain tail fin n (D :: Ds) (.place n (.list e n') :: .ref e D :: rs)

/-- The local variables of `parse_all`, when it has got the elements `Ds`. -/
inductive Building : Dat (LText C) ε → Option Addr → List (VDatum C ε) → List (Res C ε) → Prop where
  | start : Building .emptyList none [] []
  | more {e n tail D Ds rs} : Chain tail (.place tail .emptyList) n Ds rs →
      Building (.list e n) (some tail) (D :: Ds) (.ref e D :: rs)

theorem Chain.close {tail n : Addr} {fin : Res C ε} {Ds : List (VDatum C ε)} {rs : List (Res C ε)}
    (hfin : ∀ {a b xs}, Own a b (fin :: xs) → Own a b (.ref tail .emptyList :: xs))
    (h : Chain tail fin n Ds rs) : ∀ {a b xs}, Own a b (rs ++ xs) → Own a b (.ref n (mkList Ds) :: xs) := by
  induction h with
  | last => intro a b xs h; exact hfin h
  | @more n e n' D Ds rs _ ih =>
    intro a b xs h
    refine Own.giveBack (rs := [.ref e D, .ref n' (mkList Ds)]) .list ?_
    refine (ih (xs := .place n (.list e n') :: .ref e D :: xs) (h.perm ?_)).perm ?_
    · simp only [List.cons_append]
      exact (List.perm_middle.trans (List.Perm.cons _ List.perm_middle)).symm
    · refine (List.Perm.swap _ _ _).trans (List.Perm.cons _ (List.Perm.swap _ _ _))

/-- What is owned of the list is what is owned of a datum that is a list. -/
theorem Chain.parts {tail n e : Addr} {fin : Res C ε} {D : VDatum C ε} {Ds : List (VDatum C ε)}
    {rs : List (Res C ε)} (hfin : ∀ {a b xs}, Own a b (fin :: xs) → Own a b (.ref tail .emptyList :: xs))
    (h : Chain tail fin n Ds rs) : ∀ {a b xs}, Own a b (.ref e D :: rs ++ xs) →
      Own a b ([.ref e D, .ref n (mkList Ds)] ++ xs) := by
  intro a b xs ho
  have := h.close hfin (xs := .ref e D :: xs) (ho.perm (by simpa using List.perm_middle.symm))
  exact this.perm (List.Perm.swap _ _ _)

theorem Building.parts {head : Dat (LText C) ε} {tail : Option Addr} {Ds : List (VDatum C ε)}
    {rs : List (Res C ε)} (h : Building head tail Ds rs) :
    ∃ rs', Parts head (mkList Ds) rs' ∧ ∀ {a b xs}, Own a b (rs ++ xs) → Own a b (rs' ++ xs) := by
  cases h with
  | start => exact ⟨[], .emptyList, fun h => h⟩
  | @more e n tail D Ds rs hc => exact ⟨_, .list, fun h => hc.parts (fun h => Own.giveBack .emptyList h) h⟩

theorem Chain.extend {tail n : Addr} {Ds : List (VDatum C ε)} {rs : List (Res C ε)}
    (h : Chain tail (.place tail .emptyList) n Ds rs) :
    ∃ rs0, rs.Perm (.place tail .emptyList :: rs0) ∧ ∀ e n' D fin, ∃ rs', Chain n' fin n (Ds ++ [D]) rs' ∧
      rs'.Perm (.place tail (.list e n') :: .ref e D :: fin :: rs0) := by
  induction h with
  | last => exact ⟨[], .refl _, fun e n' D fin => ⟨_, .more .last, .refl _⟩⟩
  | @more n f n1 D1 Ds rs _ ih =>
    obtain ⟨rs0, h1, h2⟩ := ih
    refine ⟨.place n (.list f n1) :: .ref f D1 :: rs0, ?_, fun e n' D fin => ?_⟩
    · exact ((h1.cons _).cons _).trans (((List.Perm.swap _ _ _).cons _).trans (List.Perm.swap _ _ _))
    · obtain ⟨rs', h3, h4⟩ := h2 e n' D fin
      refine ⟨_, .more (e := f) h3, ((h4.cons _).cons _).trans ?_⟩
      have : ∀ (a b x y z : Res C ε) l, (a :: b :: x :: y :: z :: l).Perm (x :: y :: z :: a :: b :: l) :=
        fun a b x y z l => (List.perm_append_comm (l₁ := [a, b]) (l₂ := [x, y, z])).append_right l
      exact this ..

end

section

variable {E : Mem.Env σ P (LText C) ε (Slice C ε) CE} {V : Kul.Env σ' P (VText C ε) ε (VSlice C ε) CE}
variable {RS : σ → σ' → List (Res C ε) → Prop}
variable (L : Laws E V RS)
include L

/-- The local variables of `parse_all` after an element was added at the tail. -/
theorem Laws.extend {head : Dat (LText C) ε} {tail : Option Addr} {Ds : List (VDatum C ε)} {rs : List (Res C ε)}
    (hb : Building head tail Ds rs) {e p : Addr} {D : VDatum C ε} (s : St σ (Slice C ε)) {t : St σ' (VSlice C ε)}
    {xs : List (Res C ε)} (ho : Hold RS s t (.ref p .emptyList :: .ref e D :: rs ++ xs)) :
    ∃ head' a', E.setTail head tail (.list e p) s = (.ok head', { s with alloc := a' }) ∧
      ∃ rs', Building head' (some p) (Ds ++ [D]) rs' ∧ Hold RS { s with alloc := a' } t (rs' ++ xs) := by
  obtain ⟨h1, ss, h2, ho⟩ := ho
  have ho' : Own s.alloc t.alloc (.place p .emptyList :: .ref e D :: (rs ++ (ss ++ xs))) := by
    have : (ss ++ (Res.ref p .emptyList :: .ref e D :: rs ++ xs)).Perm
        (.ref p .emptyList :: .ref e D :: (rs ++ (ss ++ xs))) := by
      refine List.perm_append_comm.trans ?_
      simp only [List.cons_append, List.append_assoc]
      exact ((List.perm_append_comm.append_left _).cons _).cons _
    obtain ⟨d, rs1, _, h3, h4⟩ := (ho.perm this).getMut
    cases h3
    exact h4
  cases hb with
  | start =>
    exact ⟨_, s.alloc, rfl, _, .more .last, h1, ss, h2, ho'.perm (by
      refine (List.Perm.swap _ _ _).trans ?_
      have := (List.perm_append_comm (l₁ := [Res.ref e D, .place p .emptyList]) (l₂ := ss)).append_right xs
      simpa using this)⟩
  | @more e0 n tl D0 Ds rs hc =>
    obtain ⟨rs0, k1, k2⟩ := hc.extend
    have h3 : Own s.alloc t.alloc (.place tl .emptyList :: .place p .emptyList :: .ref e D :: .ref e0 D0 :: (rs0 ++ (ss ++ xs))) := by
      refine ho'.perm ?_
      have : (rs ++ (ss ++ xs)).Perm (.place tl .emptyList :: (rs0 ++ (ss ++ xs))) := k1.append_right _
      refine (((this.cons _).cons _).cons _).trans ?_
      exact (((List.Perm.swap _ _ _).cons _).cons _).trans (((List.Perm.swap _ _ _).cons _).trans (List.Perm.swap _ _ _))
    have h4 := h3.write (d' := .list e p)
    obtain ⟨rs', h5, h6⟩ := k2 e p D (.place p .emptyList)
    refine ⟨.list e0 n, { s.alloc with mem := s.alloc.mem.set tl (.list e p) }, ?_, _, .more (e := e0) h5, h1, ss, h2, h4.perm ?_⟩
    · simp only [Mem.Env.setTail, L.alloc, Mem.sliceMem]
    · have h8 := (h6.append_right xs).cons (.ref e0 D0)
      refine List.Perm.trans ?_ (h8.symm.append_left ss)
      have : ∀ (x y z w : Res C ε) l, (x :: y :: z :: w :: l).Perm (w :: x :: z :: y :: l) := fun x y z w l => by
        have : [x, y, z, w].Perm [w, x, z, y] := by
          refine (List.perm_append_comm (l₁ := [x, y, z]) (l₂ := [w])).trans (List.Perm.cons _ (List.Perm.cons _ ?_))
          exact List.Perm.swap _ _ _
        exact this.append_right l
      refine (this ..).trans ?_
      have h9 : (rs0 ++ (ss ++ xs)).Perm (ss ++ (rs0 ++ xs)) := by
        rw [← List.append_assoc, ← List.append_assoc]
        exact List.perm_append_comm.append_right _
      refine ((((h9.cons _).cons _).cons _).cons _).trans ?_
      have := (List.perm_append_comm (l₁ := [Res.ref e0 D0, .place tl (.list e p), .ref e D, .place p .emptyList])
        (l₂ := ss)).append_right (rs0 ++ xs)
      simpa using this

/-- Adding an element at the tail. -/
theorem Laws.r_extend {n : Nat} {mode : Mode}
    (iha : ∀ head tail Ds rs, Building head tail Ds rs →
      Rel RS rs Parts (E.parseAll n mode head tail) (V.parseAll n mode Ds))
    {head : Dat (LText C) ε} {tail : Option Addr} {Ds : List (VDatum C ε)} {rs : List (Res C ε)}
    (hb : Building head tail Ds rs) {e : Addr} {D : VDatum C ε} :
    Rel RS (.ref e D :: rs) Parts
      (do
        let next ← onErr (E.newDatum .emptyList) fun a => E.alloc.dropDat head (E.alloc.dropRef e a)
        let head ← E.setTail head tail (.list e next)
        let m ← E.getMut next
        if m then E.parseAll n mode head (some next)
        else onErr (Act.throw .failedDerefTryMut) (E.alloc.dropDat head))
      (do
        V.newDatum .emptyList
        let m ← V.getMutFresh
        if m then V.parseAll n mode (Ds ++ [D]) else Act.throw .failedDerefTryMut) := by
  intro s t xs hs
  rw [onErr_id (fun a => by rw [L.dropDat, L.dropRef])]
  change Out RS _ xs (Act.bind _ (fun next => Act.bind _ fun head => Act.bind _ _) s)
    (Act.bind _ (fun _ => Act.bind _ _) t)
  rcases L.newDatum (rs := []) .emptyList hs with ⟨p, a', b', e1, e2, h4⟩ | ⟨x, a', b', e1, e2, h4⟩
  · obtain ⟨head', a'', h6, rs', h9, h10⟩ := L.extend hb _ h4
    simp only [Act.bind, e1, e2, h6, Mem.Env.getMut, Kul.Env.getMutFresh, L.alloc, L.valloc, Mem.sliceMem, sliceAlloc]
    exact iha _ _ _ _ h9 _ _ _ h10
  · simp only [Act.bind, e1, e2]
    exact Or.inr (Or.inl ⟨_, rfl, rfl, Hold.drop (rs := .ref e D :: rs) h4⟩)

theorem Laws.r_find {d : Dat (LText C) ε} {D : VDatum C ε} {rs : List (Res C ε)} (h : Parts d D rs) {A B : Type}
    {RV : A → B → List (Res C ε) → Prop}
    {f : Option (Mem.Combiner (LText C) ε (Slice C ε) P CE) → Act (St σ (Slice C ε)) (Err P CE) A}
    {y : Act (St σ' (VSlice C ε)) (Err P CE) B}
    (hf : ∀ c, OptRel CombRel c (V.lookup D) → Rel RS rs RV (f c) y) : Rel RS rs RV (E.find d >>= f) y := by
  intro s t xs hs
  obtain ⟨_, ss, _, h3⟩ := id hs
  exact hf _ (L.lookup (xs := ss ++ xs) h (h3.perm (by
    rw [← List.append_assoc, ← List.append_assoc]
    exact List.perm_append_comm.append_right _))) s t xs hs

omit L in
theorem Rel.nestedInDepth {A B : Type} {RV : A → B → List (Res C ε) → Prop} {x : Act (St σ (Slice C ε)) (Err P CE) A}
    {y : Act (St σ' (VSlice C ε)) (Err P CE) B} (ky : KeepsDepth y) (h : Rel RS [] RV x y) :
    Rel RS [] RV (Kul.Env.nestedInDepth x) (Kul.Env.nestedInDepth y) := by
  rintro s t xs ⟨h1, ss, h2, h3⟩
  have h := h { s with ndepth := s.ndepth + 1 } { t with ndepth := t.ndepth + 1 } xs ⟨by simp [h1], ss, h2, h3⟩
  have hk := ky { t with ndepth := t.ndepth + 1 }
  unfold Kul.Env.nestedInDepth
  rcases hx : x { s with ndepth := s.ndepth + 1 } with ⟨o, s'⟩
  rcases hy : y { t with ndepth := t.ndepth + 1 } with ⟨o', t'⟩
  rw [hx, hy] at h
  rw [hy] at hk
  dsimp only at hk ⊢
  rcases h with ⟨a, b, rs, e1, e2, h4, h5, h6⟩ | ⟨e, e1, e2, h4, h5⟩ | ⟨e1, e2⟩ | ⟨e1, e2, h4⟩ <;>
    simp only at e1 e2 <;> subst e1 <;> subst e2
  · simp only at h5 h6
    rw [if_neg (by omega), if_neg (by omega)]
    exact Or.inl ⟨a, b, rs, rfl, rfl, h4, by simp [h5], h6⟩
  · simp only at h4 h5
    rw [if_neg (by omega), if_neg (by omega)]
    exact Or.inr (Or.inl ⟨e, rfl, rfl, by simp [h4], h5⟩)
  · refine Or.inr (Or.inr (Or.inl ⟨?_, ?_⟩)) <;> split <;> rfl
  · simp only at h4
    rw [if_neg (by omega), if_neg (by omega)]
    exact Or.inr (Or.inr (Or.inr ⟨rfl, rfl, by simp [h4]⟩))

omit L in
/-- What a combiner gives. -/
theorem Rel.liftCombiner {f : Slice C ε → Except (Err P CE) (Option (Dat (LText C) ε)) × Slice C ε}
    {g : VSlice C ε → Except (Err P CE) (Option (VDatum C ε)) × VSlice C ε} {pre : List (Res C ε)}
    (h : ∀ a b xs, Own a b (pre ++ xs) → CombOut xs (f a) (g b)) :
    Rel RS pre OptParts (Kul.liftCombiner f) (Kul.liftCombiner g) := by
  rintro s u xs ⟨h1, ss, h2, h3⟩
  have := h s.alloc u.alloc (ss ++ xs) (h3.perm (by
    rw [← List.append_assoc, ← List.append_assoc]
    exact List.perm_append_comm.append_right _))
  unfold Kul.liftCombiner
  rcases hf : f s.alloc with ⟨r, a'⟩
  rcases hg : g u.alloc with ⟨r', b'⟩
  rw [hf, hg] at this
  rcases this with ⟨e1, e2, h4⟩ | ⟨d', D', rs', e1, e2, h4, h5⟩ | ⟨e, e1, e2, h4⟩ <;> simp only at e1 e2 <;>
    subst e1 <;> subst e2
  · exact Or.inl ⟨_, _, [], rfl, rfl, Or.inl ⟨rfl, rfl, rfl⟩, h1, ss, h2, h4⟩
  · refine Or.inl ⟨_, _, rs', rfl, rfl, Or.inr ⟨_, _, rfl, rfl, h4⟩, h1, ss, h2, h5.perm ?_⟩
    rw [← List.append_assoc, ← List.append_assoc]
    exact List.perm_append_comm.append_right _
  · exact Or.inr (Or.inl ⟨e, rfl, rfl, h1, ss, h2, h4⟩)

/-- **Lock-step theorem** for memory with linked texts. -/
theorem Laws.r_parse (n : Nat) :
    (∀ mode, Rel RS [] OptParts (E.parseNext n mode) (V.parseNext n mode)) ∧
    Rel RS [] OptParts (E.parseNested n) (V.parseNested n) ∧
    (∀ mode head tail Ds rs, Building head tail Ds rs →
      Rel RS rs Parts (E.parseAll n mode head tail) (V.parseAll n mode Ds)) := by
  induction n with
  | zero =>
    refine ⟨fun mode => ?_, ?_, fun mode head tail Ds rs _ => ?_⟩
    · unfold Mem.Env.parseNext Kul.Env.parseNext; exact Rel.fuel
    · unfold Mem.Env.parseNested Kul.Env.parseNested; exact Rel.fuel
    · unfold Mem.Env.parseAll Kul.Env.parseAll; exact Rel.fuel
  | succ n ih =>
    obtain ⟨ihn, ihd, iha⟩ := ih
    refine ⟨fun mode => ?_, ?_, fun mode head tail Ds rs hb => ?_⟩
    · unfold Mem.Env.parseNext Kul.Env.parseNext
      refine Rel.bindSame (keep := []) (Rel.ite (fun _ => L.r_skipWhitespace n) fun _ => Rel.pure ⟨rfl, rfl⟩) fun _ => ?_
      refine Rel.bindSame (L.r_peek []) fun o => ?_
      cases o with
      | none =>
        refine Rel.bindSame (r_getDepth []) fun d => ?_
        exact Rel.ite (fun _ => Rel.pure (Or.inl ⟨rfl, rfl, rfl⟩)) fun _ => Rel.throw
      | some it =>
        simp only [L.cc]
        refine Rel.ite (fun _ => ?_) fun _ => Rel.ite (fun _ => ?_) fun _ => ?_
        · refine Rel.bind (Rel.nestedInDepth (V.keeps_parse n).2.1 ihd) fun a b rs h => ?_
          rcases h with ⟨rfl, rfl, rfl⟩ | ⟨d, D, rfl, rfl, h⟩
          · exact ihn mode
          · exact Rel.pure (Or.inr ⟨d, D, rfl, rfl, h⟩)
        · exact Rel.bindSame (L.r_checkEndChar []) fun _ => Rel.pure (Or.inl ⟨rfl, rfl, rfl⟩)
        · exact Rel.bind (L.r_parseText n mode) fun t T ts ht => Rel.pure (Or.inr ⟨_, _, rfl, rfl, .text ht⟩)
    · unfold Mem.Env.parseNested Kul.Env.parseNested
      refine Rel.bindSame (L.r_next []) fun start => ?_
      simp only [L.cc]
      refine Rel.bindSame (Rel.debugAssert _ _) fun _ => ?_
      refine Rel.bind (ihn .operator) fun d D rs h => ?_
      refine Rel.bindSame (L.r_skipSeparator rs) fun _ => ?_
      rcases h with ⟨rfl, rfl, rfl⟩ | ⟨d, D, rfl, rfl, h⟩
      · exact Rel.bindSame L.r_nestEnd fun _ => Rel.pure (Or.inr ⟨_, _, rfl, rfl, .emptyNest⟩)
      refine L.r_find h fun c hc => ?_
      rcases hc.cases with ⟨rfl, e2⟩ | ⟨c, g, rfl, e2, hcr⟩ <;> simp only [e2]
      · -- no combiner
        refine Rel.bindKeep (pre := []) (keep := rs) (iha .base .emptyList none [] [] .start) (L.dropDat d)
          fun ds Ds rs' h' => ?_
        refine Rel.bindKeep (pre := []) (keep := rs' ++ rs) L.r_nestEnd (fun a => by rw [L.dropDat, L.dropDat]) fun _ _ _ hs => ?_
        obtain ⟨-, rfl⟩ := hs
        refine Rel.to (rs := rs ++ rs') ?_ (by simpa using List.perm_append_comm)
        refine Rel.bindKeep (keep := rs') (L.r_newDatum h) (L.dropDat ds) fun p _ xs hp => ?_
        subst hp
        refine Rel.to (rs := rs' ++ [.ref p D]) ?_ List.perm_append_comm
        refine Rel.bindKeep (keep := [.ref p D]) (L.r_newDatum h') (L.dropRef p) fun q _ xs hq => ?_
        subst hq
        exact Rel.to (rs := [.ref p D, .ref q Ds]) (Rel.pure (Or.inr ⟨_, _, rfl, rfl, .combination⟩)) (List.Perm.swap _ _ _)
      · cases hcr with
        | @operative f g hcr =>
          refine Rel.bindKeep (pre := []) (keep := rs) (L.r_parseText n .operands) (L.dropDat d) fun t T ts ht => ?_
          refine Rel.bindKeep (pre := []) (keep := ts ++ rs) L.r_nestEnd (L.dropDat d) fun _ _ _ hs => ?_
          obtain ⟨-, rfl⟩ := hs
          exact Rel.to (rs := rs ++ ts) (Rel.liftCombiner fun a b xs ho =>
            hcr d D rs t T ts a b xs h ht (by rw [← List.append_assoc]; exact ho)) (by simpa using List.perm_append_comm)
        | @applicative f g hcr =>
          refine Rel.bindKeep (pre := []) (keep := rs) (iha .base .emptyList none [] [] .start) (L.dropDat d)
            fun ds Ds rs' h' => ?_
          refine Rel.bindKeep (pre := []) (keep := rs' ++ rs) L.r_nestEnd (fun a => by rw [L.dropDat, L.dropDat]) fun _ _ _ hs => ?_
          obtain ⟨-, rfl⟩ := hs
          exact Rel.to (rs := rs ++ rs') (Rel.liftCombiner fun a b xs ho =>
            hcr d D rs ds Ds rs' a b xs h h' (by rw [← List.append_assoc]; exact ho)) (by simpa using List.perm_append_comm)
    · unfold Mem.Env.parseAll Kul.Env.parseAll
      obtain ⟨rs', hp, hp'⟩ := hb.parts
      refine Rel.bindKeep (pre := []) (keep := rs) (ihn mode) (L.dropDat head) fun d D rs1 h => ?_
      rcases h with ⟨rfl, rfl, rfl⟩ | ⟨d, D, rfl, rfl, h⟩
      · intro s t xs hs
        refine Or.inl ⟨_, _, rs', rfl, rfl, hp, hs.to fun ho => ?_⟩
        rw [List.append_assoc] at ho ⊢
        exact hp' ho
      · refine Rel.bindKeep (keep := rs) (L.r_newDatum h) (L.dropDat head) fun e _ xs hx => ?_
        subst hx
        exact L.r_extend (fun head tail Ds rs hb => iha mode head tail Ds rs hb) hb

end

end Kul.Linked
