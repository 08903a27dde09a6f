import Verif.Spec.MemParser
import Verif.Proof.SimParser

/-! # The parser with datums in memory does what the parser by value does -/

namespace Kul.Mem

section

variable {σ P τ ε α β CE : Type} {A B C D : Type}
variable {Own : α → β → List (Res τ ε) → Prop}

/-- Related outcomes: equal streams and depths; what the result owns is added to what others own. -/
def Out (Own : α → β → List (Res τ ε) → Prop) (RV : A → B → List (Res τ ε) → Prop) (xs : List (Res τ ε))
    (r : Outcome (Err P CE) A × St σ α) (r' : Outcome (Err P CE) B × St σ β) : Prop :=
  r.2.strm = r'.2.strm ∧ r.2.ndepth = r'.2.ndepth ∧
  ((∃ a b rs, r.1 = .ok a ∧ r'.1 = .ok b ∧ RV a b rs ∧ Own r.2.alloc r'.2.alloc (rs ++ xs)) ∨
   (∃ e, r.1 = .err e ∧ r'.1 = .err e ∧ Own r.2.alloc r'.2.alloc xs) ∨
   (r.1 = .panic ∧ r'.1 = .panic) ∨ (r.1 = .fuel ∧ r'.1 = .fuel))

/-- Related actions, which use up `pre`. -/
def Rel (Own : α → β → List (Res τ ε) → Prop) (pre : List (Res τ ε)) (RV : A → B → List (Res τ ε) → Prop)
    (x : Act (St σ α) (Err P CE) A) (y : Act (St σ β) (Err P CE) B) : Prop :=
  ∀ s t xs, s.strm = t.strm → s.ndepth = t.ndepth → Own s.alloc t.alloc (pre ++ xs) →
    Out Own RV xs (x s) (y t)

/-- The same value, and still `pre`. -/
def Same (pre : List (Res τ ε)) (a b : A) (rs : List (Res τ ε)) : Prop := a = b ∧ rs = pre

theorem Rel.pure {pre : List (Res τ ε)} {RV : A → B → List (Res τ ε) → Prop} {a : A} {b : B}
    (h : RV a b pre) : Rel (σ := σ) (P := P) (CE := CE) Own pre RV (Pure.pure a) (Pure.pure b) :=
  fun _ _ _ h1 h2 h3 => ⟨h1, h2, Or.inl ⟨a, b, pre, rfl, rfl, h, h3⟩⟩

theorem Rel.throw {RV : A → B → List (Res τ ε) → Prop} {e : Err P CE} :
    Rel (σ := σ) Own [] RV (Act.throw e) (Act.throw e) :=
  fun _ _ _ h1 h2 h3 => ⟨h1, h2, Or.inr (Or.inl ⟨e, rfl, rfl, h3⟩)⟩

theorem Rel.panic {pre : List (Res τ ε)} {RV : A → B → List (Res τ ε) → Prop} :
    Rel (σ := σ) (P := P) (CE := CE) Own pre RV Act.panic Act.panic :=
  fun _ _ _ h1 h2 _ => ⟨h1, h2, Or.inr (Or.inr (Or.inl ⟨rfl, rfl⟩))⟩

theorem Rel.fuel {pre : List (Res τ ε)} {RV : A → B → List (Res τ ε) → Prop} :
    Rel (σ := σ) (P := P) (CE := CE) Own pre RV Act.fuel Act.fuel :=
  fun _ _ _ h1 h2 _ => ⟨h1, h2, Or.inr (Or.inr (Or.inr ⟨rfl, rfl⟩))⟩

theorem Rel.debugAssert (b : Bool) (pre : List (Res τ ε)) :
    Rel (σ := σ) (P := P) (CE := CE) Own pre (Same pre) (Act.debugAssert b) (Act.debugAssert b) := by
  unfold Act.debugAssert
  split
  · exact Rel.pure ⟨rfl, rfl⟩
  · exact Rel.panic

theorem Rel.ite {pre : List (Res τ ε)} {RV : A → B → List (Res τ ε) → Prop} {p : Prop} [Decidable p]
    {x x' : Act (St σ α) (Err P CE) A} {y y' : Act (St σ β) (Err P CE) B}
    (h : p → Rel Own pre RV x y) (h' : ¬ p → Rel Own pre RV x' y') :
    Rel Own pre RV (if p then x else x') (if p then y else y') := by
  by_cases hp : p
  · rw [if_pos hp, if_pos hp]; exact h hp
  · rw [if_neg hp, if_neg hp]; exact h' hp

/-- Sequencing, when something is kept meanwhile, which is dropped upon an error. -/
theorem Rel.bindKeep {pre keep : List (Res τ ε)} {RV : A → B → List (Res τ ε) → Prop}
    {RW : C → D → List (Res τ ε) → Prop} {x : Act (St σ α) (Err P CE) A} {y : Act (St σ β) (Err P CE) B}
    {f : A → Act (St σ α) (Err P CE) C} {g : B → Act (St σ β) (Err P CE) D} {cl : α → α}
    (hx : Rel Own pre RV x y) (hc : ∀ a b xs, Own a b (keep ++ xs) → Own (cl a) b xs)
    (hf : ∀ a b rs, RV a b rs → Rel Own (rs ++ keep) RW (f a) (g b)) :
    Rel Own (pre ++ keep) RW (onErr x cl >>= f) (y >>= g) := by
  intro s t xs h1 h2 h3
  rw [List.append_assoc] at h3
  have h := hx s t _ h1 h2 h3
  change Out Own RW xs (Act.bind (onErr x cl) f s) (Act.bind y g t)
  unfold Act.bind onErr
  rcases hxs : x s with ⟨ox, s'⟩
  rcases hyt : y t with ⟨oy, t'⟩
  rw [hxs, hyt] at h
  obtain ⟨k1, k2, h⟩ := h
  rcases h with ⟨a, b, rs, e1, e2, h4, h5⟩ | ⟨e, e1, e2, h4⟩ | ⟨e1, e2⟩ | ⟨e1, e2⟩ <;>
    simp only at e1 e2 <;> subst e1 <;> subst e2
  · exact hf a b rs h4 s' t' xs k1 k2 (by rw [List.append_assoc]; exact h5)
  · exact ⟨k1, k2, Or.inr (Or.inl ⟨e, rfl, rfl, hc _ _ _ h4⟩)⟩
  · exact ⟨k1, k2, Or.inr (Or.inr (Or.inl ⟨rfl, rfl⟩))⟩
  · exact ⟨k1, k2, Or.inr (Or.inr (Or.inr ⟨rfl, rfl⟩))⟩

theorem Rel.bind {pre : List (Res τ ε)} {RV : A → B → List (Res τ ε) → Prop}
    {RW : C → D → List (Res τ ε) → Prop} {x : Act (St σ α) (Err P CE) A} {y : Act (St σ β) (Err P CE) B}
    {f : A → Act (St σ α) (Err P CE) C} {g : B → Act (St σ β) (Err P CE) D}
    (hx : Rel Own pre RV x y) (hf : ∀ a b rs, RV a b rs → Rel Own rs RW (f a) (g b)) :
    Rel Own pre RW (x >>= f) (y >>= g) := by
  intro s t xs h1 h2 h3
  have h := hx s t _ h1 h2 h3
  change Out Own RW xs (Act.bind x f s) (Act.bind y g t)
  unfold Act.bind
  rcases hxs : x s with ⟨ox, s'⟩
  rcases hyt : y t with ⟨oy, t'⟩
  rw [hxs, hyt] at h
  obtain ⟨k1, k2, h⟩ := h
  rcases h with ⟨a, b, rs, e1, e2, h4, h5⟩ | ⟨e, e1, e2, h4⟩ | ⟨e1, e2⟩ | ⟨e1, e2⟩ <;>
    simp only at e1 e2 <;> subst e1 <;> subst e2
  · exact hf a b rs h4 s' t' xs k1 k2 h5
  · exact ⟨k1, k2, Or.inr (Or.inl ⟨e, rfl, rfl, h4⟩)⟩
  · exact ⟨k1, k2, Or.inr (Or.inr (Or.inl ⟨rfl, rfl⟩))⟩
  · exact ⟨k1, k2, Or.inr (Or.inr (Or.inr ⟨rfl, rfl⟩))⟩

theorem Rel.bindSame {pre keep : List (Res τ ε)} {RW : C → D → List (Res τ ε) → Prop}
    {x : Act (St σ α) (Err P CE) A} {y : Act (St σ β) (Err P CE) A}
    {f : A → Act (St σ α) (Err P CE) C} {g : A → Act (St σ β) (Err P CE) D}
    (hx : Rel Own pre (Same keep) x y) (hf : ∀ a, Rel Own keep RW (f a) (g a)) :
    Rel Own pre RW (x >>= f) (y >>= g) :=
  Rel.bind hx fun a b rs h => by obtain ⟨rfl, rfl⟩ := h; exact hf a

end

section

variable {σ P τ ε α β CE : Type}
variable {E : Env σ P τ ε α CE} {V : Kul.Env σ P τ ε β CE} {Own : α → β → List (Res τ ε) → Prop}
variable (L : Laws E V Own)
include L

theorem Laws.r_peek (pre : List (Res τ ε)) : Rel Own pre (Same pre) E.scan.peek V.peek := by
  intro s t xs h1 h2 h3
  have e : E.scan.strm.peek s.strm = V.strm.peek t.strm := by rw [← h1, ← L.peek]; rfl
  unfold Kul.Env.peek liftEmpty
  rw [e]
  rcases V.strm.peek t.strm with ⟨o, u⟩
  cases o with
  | ok a => exact ⟨rfl, h2, Or.inl ⟨a, a, pre, rfl, rfl, ⟨rfl, rfl⟩, h3⟩⟩
  | err e => exact nomatch e
  | panic => exact ⟨rfl, h2, Or.inr (Or.inr (Or.inl ⟨rfl, rfl⟩))⟩
  | fuel => exact ⟨rfl, h2, Or.inr (Or.inr (Or.inr ⟨rfl, rfl⟩))⟩

theorem Laws.r_next (pre : List (Res τ ε)) : Rel Own pre (Same pre) E.scan.next V.next := by
  intro s t xs h1 h2 h3
  have e : E.scan.strm.next s.strm = V.strm.next t.strm := by rw [← h1, ← L.next]; rfl
  unfold Kul.Env.next liftEmpty
  rw [e]
  rcases V.strm.next t.strm with ⟨o, u⟩
  cases o with
  | ok a => exact ⟨rfl, h2, Or.inl ⟨a, a, pre, rfl, rfl, ⟨rfl, rfl⟩, h3⟩⟩
  | err e => exact nomatch e
  | panic => exact ⟨rfl, h2, Or.inr (Or.inr (Or.inl ⟨rfl, rfl⟩))⟩
  | fuel => exact ⟨rfl, h2, Or.inr (Or.inr (Or.inr ⟨rfl, rfl⟩))⟩

omit L in
theorem Rel.liftAccum {A : Type} {f : σ → α → Outcome AllocErr A × σ × α} {g : σ → β → Outcome AllocErr A × σ × β}
    (h : ∀ {a b xs}, Own a b xs → ∀ s, ∃ o s' a' b', f s a = (o, s', a') ∧ g s b = (o, s', b') ∧ Own a' b' xs) :
    Rel (P := P) (CE := CE) Own [] (Same []) (Kul.liftAccum f) (Kul.liftAccum g) := by
  intro s t xs h1 h2 h3
  obtain ⟨o, s', a', b', e1, e2, h4⟩ := h h3 s.strm
  unfold Kul.liftAccum
  rw [← h1, e1, e2]
  cases o with
  | ok a => exact ⟨rfl, h2, Or.inl ⟨a, a, [], rfl, rfl, ⟨rfl, rfl⟩, h4⟩⟩
  | err e => exact ⟨rfl, h2, Or.inr (Or.inl ⟨_, rfl, rfl, h4⟩)⟩
  | panic => exact ⟨rfl, h2, Or.inr (Or.inr (Or.inl ⟨rfl, rfl⟩))⟩
  | fuel => exact ⟨rfl, h2, Or.inr (Or.inr (Or.inr ⟨rfl, rfl⟩))⟩

theorem Laws.r_nextAccum : Rel Own [] (Same []) E.scan.nextAccum V.nextAccum :=
  Rel.liftAccum L.nextAccum

omit L in
theorem r_getDepth (pre : List (Res τ ε)) : Rel Own pre (Same pre)
    (Kul.Env.getDepth (σ := σ) (α := α) (P := P) (CE := CE)) Kul.Env.getDepth :=
  fun _ _ _ h1 h2 h3 => ⟨h1, h2, Or.inl ⟨_, _, _, rfl, rfl, ⟨h2, rfl⟩, h3⟩⟩

theorem Laws.r_concatAccum (t : τ) : Rel Own [] (Same []) (E.scan.concatAccum t) (V.concatAccum t) := by
  refine Rel.bindSame (Rel.liftAccum L.accumDone) fun u => ?_
  intro s t' xs h1 h2 h3
  obtain ⟨o, a', b', e1, e2, h4⟩ := L.concat h3 t u
  unfold Kul.liftAlloc
  have e1 : E.scan.text.concat t u s.alloc = (o, a') := e1
  rw [e1, e2]
  cases o with
  | ok a => exact ⟨h1, h2, Or.inl ⟨a, a, [], rfl, rfl, ⟨rfl, rfl⟩, h4⟩⟩
  | err e => exact ⟨h1, h2, Or.inr (Or.inl ⟨_, rfl, rfl, h4⟩)⟩
  | panic => exact ⟨h1, h2, Or.inr (Or.inr (Or.inl ⟨rfl, rfl⟩))⟩
  | fuel => exact ⟨h1, h2, Or.inr (Or.inr (Or.inr ⟨rfl, rfl⟩))⟩

theorem Laws.r_skipWhitespace (n : Nat) : Rel Own [] (Same []) (E.scan.skipWhitespace n) (V.skipWhitespace n) := by
  induction n with
  | zero => exact Rel.fuel
  | succ n ih =>
    refine Rel.bindSame (L.r_peek []) fun a => ?_
    cases a with
    | none => exact Rel.pure ⟨rfl, rfl⟩
    | some it =>
      change Rel Own [] _ (if E.cc.isWhitespace it.ch then _ else _) _
      rw [L.cc]
      exact Rel.ite (fun _ => Rel.bindSame (L.r_next []) fun _ => ih) fun _ => Rel.pure ⟨rfl, rfl⟩

theorem Laws.r_checkEndChar : Rel Own [] (Same []) E.scan.checkEndChar V.checkEndChar := by
  refine Rel.bindSame (L.r_peek []) fun a => ?_
  change Rel Own [] _ (Act.debugAssert (a.map (fun it => E.cc.isNestEnd it.ch) == some true) >>= _) _
  rw [L.cc]
  refine Rel.bindSame (Rel.debugAssert _ _) fun _ => ?_
  refine Rel.bindSame (r_getDepth []) fun d => ?_
  refine Rel.ite (fun _ => Rel.pure ⟨rfl, rfl⟩) fun _ => ?_
  refine Rel.bindSame (L.r_next []) fun o => ?_
  cases o with
  | none => exact Rel.panic
  | some it => exact Rel.throw

theorem Laws.r_finishText (t : τ) (l : Nat) : Rel Own [] (Same []) (E.scan.finishText t l) (V.finishText t l) :=
  Rel.ite (fun _ => L.r_concatAccum t) fun _ => Rel.throw

theorem Laws.r_parseTextLoop (mode : Mode) (n : Nat) : ∀ (t : τ) (l : Nat),
    Rel Own [] (Same []) (E.scan.parseTextLoop mode n t l) (V.parseTextLoop mode n t l) := by
  induction n with
  | zero => intro t l; exact Rel.fuel
  | succ n ih =>
    intro t l
    refine Rel.bindSame (L.r_peek []) fun a => ?_
    cases a with
    | none => exact L.r_finishText t l
    | some it =>
      have hcc : E.scan.cc = V.cc := L.cc
      simp only [hcc]
      refine Rel.ite (fun _ => L.r_finishText t l) fun _ => ?_
      refine Rel.ite (fun _ => ?_) fun _ => ?_
      · refine Rel.bindSame (L.r_concatAccum t) fun t' => ?_
        refine Rel.bindSame (L.r_next []) fun _ => ?_
        exact Rel.bindSame L.r_nextAccum fun _ => ih t' l
      refine Rel.ite (fun _ => ?_) fun _ => ?_
      · exact Rel.bindSame L.r_nextAccum fun _ => ih t (l + 1)
      refine Rel.ite (fun _ => ?_) fun _ => ?_
      · refine Rel.ite (fun _ => ?_) fun _ => ?_
        · exact Rel.bindSame L.r_nextAccum fun _ => ih t (l - 1)
        · exact Rel.bindSame L.r_checkEndChar fun _ => L.r_finishText t l
      · exact Rel.bindSame L.r_nextAccum fun _ => ih t l

theorem Laws.r_parseText (n : Nat) (mode : Mode) :
    Rel Own [] (Same []) (E.scan.parseText n mode) (V.parseText n mode) := by
  unfold Kul.Env.parseText
  have : E.scan.text.empty = V.text.empty := L.empty
  rw [this]
  exact L.r_parseTextLoop mode n _ 0

theorem Laws.r_nestEnd : Rel Own [] (Same []) E.scan.nestEnd V.nestEnd := by
  refine Rel.bindSame (L.r_next []) fun o => ?_
  cases o with
  | none => exact Rel.throw
  | some it =>
    change Rel Own [] _ (Act.debugAssert (E.cc.isNestEnd it.ch)) _
    rw [L.cc]
    exact Rel.debugAssert _ _

theorem Laws.r_skipSeparator (pre : List (Res τ ε)) :
    Rel Own pre (Same pre) E.scan.skipSeparator V.skipSeparator := by
  refine Rel.bindSame (L.r_peek pre) fun o => ?_
  cases o with
  | none => exact Rel.pure ⟨rfl, rfl⟩
  | some it =>
    change Rel Own pre _ (if E.cc.isWhitespace it.ch then _ else _) _
    rw [L.cc]
    exact Rel.ite (fun _ => Rel.bindSame (L.r_next pre) fun _ => Rel.pure ⟨rfl, rfl⟩) fun _ => Rel.pure ⟨rfl, rfl⟩

/-- The datum `d` with the references `rs` that it owns is the root of `D`. -/
def OptParts (d : Option (Dat τ ε)) (D : Option (Datum τ ε)) (rs : List (Res τ ε)) : Prop :=
  (d = none ∧ D = none ∧ rs = []) ∨ ∃ x X, d = some x ∧ D = some X ∧ Parts x X rs

theorem Laws.r_newDatum {d : Dat τ ε} {D : Datum τ ε} {rs : List (Res τ ε)} (h : Parts d D rs) :
    Rel Own rs (fun p _ xs => xs = [.ref p D]) (E.newDatum d) (V.newDatum D) := by
  intro s t xs h1 h2 h3
  rcases L.newDatum h h3 with ⟨p, a', b', e1, e2, h4, _⟩ | ⟨e, a', b', e1, e2, h4⟩ <;>
    simp only [Env.newDatum, Kul.Env.newDatum, Kul.liftAlloc, e1, e2]
  · exact ⟨h1, h2, Or.inl ⟨p, (), _, rfl, rfl, rfl, h4⟩⟩
  · exact ⟨h1, h2, Or.inr (Or.inl ⟨_, rfl, rfl, h4⟩)⟩

omit L in
theorem OwnLaws.dropDat {al : AllocOps τ ε α} (L : OwnLaws al Own) {d : Dat τ ε} {D : Datum τ ε} {rs : List (Res τ ε)}
    (h : Parts d D rs) (a : α) (b : β) (xs : List (Res τ ε)) (ho : Own a b (rs ++ xs)) : Own (al.dropDat d a) b xs := by
  cases h with
  | text | emptyNest | emptyList | extra => exact ho
  | combination | list => exact L.dropRef (L.dropRef ho)

end

section

variable {σ P τ ε α β CE : Type}
variable {E : Env σ P τ ε α CE} {V : Kul.Env σ P τ ε β CE} {Own : α → β → List (Res τ ε) → Prop}

/-- The places of a list that is being built, from place `n` on, up to place `tail` at its end, and the
elements after `n`. What is owned of the end is `fin`. -/
inductive Chain (tail : Addr) (fin : Res τ ε) : Addr → List (Datum τ ε) → List (Res τ ε) → Prop where
  | last : Chain tail fin tail [] [fin]
  | more {n e n' D Ds rs} : Chain tail fin n' Ds rs →
      Chain tail fin n (D :: Ds) (.place n (.list e n') :: .ref e D :: rs)

/-- The local variables of `parse_all`, when it has got the elements `Ds`. -/
inductive Building : Dat τ ε → Option Addr → List (Datum τ ε) → List (Res τ ε) → Prop where
  | start : Building .emptyList none [] []
  | more {e n tail D Ds rs} : Chain tail (.place tail .emptyList) n Ds rs →
      Building (.list e n) (some tail) (D :: Ds) (.ref e D :: rs)

theorem Chain.close {al : AllocOps τ ε α} (L : OwnLaws al Own) {tail n : Addr} {fin : Res τ ε} {Ds : List (Datum τ ε)} {rs : List (Res τ ε)}
    (hfin : ∀ {a b xs}, Own a b (fin :: xs) → Own a b (.ref tail .emptyList :: xs))
    (h : Chain tail fin n Ds rs) : ∀ {a b xs}, Own a b (rs ++ xs) → Own a b (.ref n (mkList Ds) :: xs) := by
  induction h with
  | last => intro a b xs h; exact hfin h
  | @more n e n' D Ds rs _ ih =>
    intro a b xs h
    refine L.giveBack (rs := [.ref e D, .ref n' (mkList Ds)]) .list ?_
    refine L.perm (ih (xs := .place n (.list e n') :: .ref e D :: xs) (L.perm h ?_)) ?_
    · simp only [List.cons_append]
      exact (List.perm_middle.trans (List.Perm.cons _ List.perm_middle)).symm
    · refine (List.Perm.swap _ _ _).trans (List.Perm.cons _ (List.Perm.swap _ _ _))

/-- What is owned of the list is what is owned of a datum that is a list. -/
theorem Chain.parts {al : AllocOps τ ε α} (L : OwnLaws al Own) {tail n e : Addr} {fin : Res τ ε} {D : Datum τ ε} {Ds : List (Datum τ ε)}
    {rs : List (Res τ ε)} (hfin : ∀ {a b xs}, Own a b (fin :: xs) → Own a b (.ref tail .emptyList :: xs))
    (h : Chain tail fin n Ds rs) : ∀ {a b xs}, Own a b (.ref e D :: rs ++ xs) →
      Own a b ([.ref e D, .ref n (mkList Ds)] ++ xs) := by
  intro a b xs ho
  have := h.close L hfin (xs := .ref e D :: xs) (L.perm ho (by simpa using List.perm_middle.symm))
  exact L.perm this (List.Perm.swap _ _ _)

theorem Building.parts {al : AllocOps τ ε α} (L : OwnLaws al Own) {head : Dat τ ε} {tail : Option Addr} {Ds : List (Datum τ ε)}
    {rs : List (Res τ ε)} (h : Building head tail Ds rs) :
    ∃ rs', Parts head (mkList Ds) rs' ∧ ∀ {a b xs}, Own a b (rs ++ xs) → Own a b (rs' ++ xs) := by
  cases h with
  | start => exact ⟨[], .emptyList, fun h => h⟩
  | @more e n tail D Ds rs hc => exact ⟨_, .list, fun h => hc.parts L (fun h => L.giveBack .emptyList h) h⟩

theorem Chain.extend {tail n : Addr} {Ds : List (Datum τ ε)} {rs : List (Res τ ε)}
    (h : Chain tail (.place tail .emptyList) n Ds rs) :
    ∃ rs0, rs.Perm (.place tail .emptyList :: rs0) ∧ ∀ e n' D fin, ∃ rs', Chain n' fin n (Ds ++ [D]) rs' ∧
      rs'.Perm (.place tail (.list e n') :: .ref e D :: fin :: rs0) := by
  induction h with
  | last => exact ⟨[], .refl _, fun e n' D fin => ⟨_, .more .last, .refl _⟩⟩
  | @more n f n1 D1 Ds rs _ ih =>
    obtain ⟨rs0, h1, h2⟩ := ih
    refine ⟨.place n (.list f n1) :: .ref f D1 :: rs0, ?_, fun e n' D fin => ?_⟩
    · exact ((h1.cons _).cons _).trans (((List.Perm.swap _ _ _).cons _).trans (List.Perm.swap _ _ _))
    · obtain ⟨rs', h3, h4⟩ := h2 e n' D fin
      refine ⟨_, .more (e := f) h3, ((h4.cons _).cons _).trans ?_⟩
      have : ∀ (a b x y z : Res τ ε) l, (a :: b :: x :: y :: z :: l).Perm (x :: y :: z :: a :: b :: l) :=
        fun a b x y z l => (List.perm_append_comm (l₁ := [a, b]) (l₂ := [x, y, z])).append_right l
      exact this ..

end

section

variable {σ P τ ε α β CE : Type}
variable {E : Env σ P τ ε α CE} {V : Kul.Env σ P τ ε β CE} {Own : α → β → List (Res τ ε) → Prop}
variable (L : Laws E V Own)
include L

omit L in
theorem OwnLaws.openEmpty {al : AllocOps τ ε α} (L : OwnLaws al Own) {a : α} {b : β} {p : Addr} {xs : List (Res τ ε)}
    (h : Own a b (.ref p .emptyList :: xs)) (hm : al.getMut p a = true) : Own a b (.place p .emptyList :: xs) := by
  obtain ⟨d, rs, h1, h2⟩ := L.getMut h hm
  cases h1
  exact h2

/-- The local variables of `parse_all` after an element was added at the tail. -/
theorem Laws.extend {head : Dat τ ε} {tail : Option Addr} {Ds : List (Datum τ ε)} {rs : List (Res τ ε)}
    (hb : Building head tail Ds rs) {e p : Addr} {D : Datum τ ε} (s : St σ α) {b : β} {xs : List (Res τ ε)}
    (ho : Own s.alloc b (.ref p .emptyList :: .ref e D :: rs ++ xs)) (hm : E.alloc.getMut p s.alloc = true) :
    ∃ head' a', E.setTail head tail (.list e p) s = (.ok head', { s with alloc := a' }) ∧
      E.alloc.getMut p a' = true ∧ ∃ rs', Building head' (some p) (Ds ++ [D]) rs' ∧ Own a' b (rs' ++ xs) := by
  have ho' := L.openEmpty ho hm
  cases hb with
  | start => exact ⟨_, s.alloc, rfl, hm, _, .more .last, L.perm ho' (List.Perm.swap _ _ _)⟩
  | @more e0 n tl D0 Ds rs hc =>
    obtain ⟨rs0, h1, h2⟩ := hc.extend
    have h3 : Own s.alloc b (.place tl .emptyList :: .place p .emptyList :: .ref e D :: .ref e0 D0 :: (rs0 ++ xs)) := by
      refine L.perm ho' ?_
      have : (rs ++ xs).Perm (.place tl .emptyList :: (rs0 ++ xs)) := h1.append_right xs
      refine (((this.cons _).cons _).cons _).trans ?_
      exact (((List.Perm.swap _ _ _).cons _).cons _).trans (((List.Perm.swap _ _ _).cons _).trans (List.Perm.swap _ _ _))
    have h4 := L.perm (L.write (d' := .list e p) h3) (List.Perm.swap _ _ _)
    obtain ⟨rs', h5, h6⟩ := h2 e p D (.place p .emptyList)
    refine ⟨_, E.alloc.write tl (.list e p) s.alloc, rfl, L.sole h4, _, .more h5, L.perm h4 ?_⟩
    have h8 := (h6.append_right xs).cons (.ref e0 D0)
    refine List.Perm.trans ?_ h8.symm
    have : ∀ (x y z w : Res τ ε) l, (x :: y :: z :: w :: l).Perm (w :: y :: z :: x :: l) := fun x y z w l => by
      have : [x, y, z, w].Perm [w, y, z, x] := by
        refine (List.perm_append_comm (l₁ := [x, y, z]) (l₂ := [w])).trans (List.Perm.cons _ ?_)
        exact List.perm_append_comm (l₁ := [x]) (l₂ := [y, z])
      exact this.append_right l
    exact this ..

/-- Adding an element at the tail. -/
theorem Laws.r_extend {n : Nat} {mode : Mode}
    (iha : ∀ head tail Ds rs, Building head tail Ds rs →
      Rel Own rs (Parts (τ := τ) (ε := ε)) (E.parseAll n mode head tail) (V.parseAll n mode Ds))
    {head : Dat τ ε} {tail : Option Addr} {Ds : List (Datum τ ε)} {rs : List (Res τ ε)}
    (hb : Building head tail Ds rs) {e : Addr} {D : Datum τ ε} :
    Rel Own (.ref e D :: rs) (Parts (τ := τ) (ε := ε))
      (do
        let next ← onErr (E.newDatum .emptyList) fun a => E.alloc.dropDat head (E.alloc.dropRef e a)
        let head ← E.setTail head tail (.list e next)
        let m ← E.getMut next
        if m then E.parseAll n mode head (some next)
        else onErr (Act.throw .failedDerefTryMut) (E.alloc.dropDat head))
      (do
        V.newDatum .emptyList
        let m ← V.getMutFresh
        if m then V.parseAll n mode (Ds ++ [D]) else Act.throw .failedDerefTryMut) := by
  intro s t xs h1 h2 h3
  rcases L.newDatum (rs := []) .emptyList h3 with ⟨p, a', b', e1, e2, h4, h5⟩ | ⟨x, a', b', e1, e2, h4⟩
  · obtain ⟨head', a'', h6, h7, rs', h9, h10⟩ := L.extend hb { s with alloc := a' } h4 (h5.trans (L.fresh b'))
    have f1 : E.newDatum .emptyList s = (.ok p, { s with alloc := a' }) := by
      simp only [Env.newDatum, Kul.liftAlloc, e1]; rfl
    have f2 : V.newDatum .emptyList t = (.ok (), { t with alloc := b' }) := by
      simp only [Kul.Env.newDatum, Kul.liftAlloc, e2]; rfl
    change Out Own _ xs (Act.bind (onErr _ _) (fun next => Act.bind _ fun head => Act.bind _ _) s)
      (Act.bind _ (fun _ => Act.bind _ _) t)
    simp only [Act.bind, onErr, f1, f2, h6, Env.getMut, Kul.Env.getMutFresh, h7, L.fresh b']
    exact iha _ _ _ _ h9 _ _ _ h1 h2 h10
  · have f1 : E.newDatum .emptyList s = (.err (.failedAlloc x), { s with alloc := a' }) := by
      simp only [Env.newDatum, Kul.liftAlloc, e1]; rfl
    have f2 : V.newDatum .emptyList t = (.err (.failedAlloc x), { t with alloc := b' }) := by
      simp only [Kul.Env.newDatum, Kul.liftAlloc, e2]; rfl
    change Out Own _ xs (Act.bind (onErr _ _) (fun next => _) s) (Act.bind _ (fun _ => _) t)
    simp only [Act.bind, onErr, f1, f2]
    obtain ⟨rs', h6, h7⟩ := hb.parts L.toOwnLaws
    exact ⟨h1, h2, Or.inr (Or.inl ⟨_, rfl, rfl, L.dropDat h6 _ _ _ (h7 (L.dropRef h4))⟩)⟩

theorem Laws.r_find {d : Dat τ ε} {D : Datum τ ε} {rs : List (Res τ ε)} (h : Parts d D rs) {A B : Type}
    {RV : A → B → List (Res τ ε) → Prop}
    {f : Option (Combiner τ ε α P CE) → Act (St σ α) (Err P CE) A} {y : Act (St σ β) (Err P CE) B}
    (hf : ∀ c, OptRel (CombRel Own) c (V.lookup D) → Rel Own rs RV (f c) y) :
    Rel Own rs RV (E.find d >>= f) y := by
  intro s t xs h1 h2 h3
  exact hf _ (L.lookup h h3) s t xs h1 h2 h3

omit L in
theorem Rel.nestedInDepth {A B : Type} {RV : A → B → List (Res τ ε) → Prop} {x : Act (St σ α) (Err P CE) A}
    {y : Act (St σ β) (Err P CE) B} (ky : KeepsDepth y) (h : Rel Own [] RV x y) :
    Rel Own [] RV (Kul.Env.nestedInDepth x) (Kul.Env.nestedInDepth y) := by
  intro s t xs h1 h2 h3
  have h := h { s with ndepth := s.ndepth + 1 } { t with ndepth := t.ndepth + 1 } xs h1 (by simp [h2]) h3
  have hk := ky { t with ndepth := t.ndepth + 1 }
  unfold Kul.Env.nestedInDepth
  rcases hx : x { s with ndepth := s.ndepth + 1 } with ⟨o, s'⟩
  rcases hy : y { t with ndepth := t.ndepth + 1 } with ⟨o', t'⟩
  rw [hx, hy] at h
  rw [hy] at hk
  obtain ⟨k1, k2, h⟩ := h
  simp only at hk k1 k2 h ⊢
  rw [if_neg (by omega), if_neg (by omega)]
  exact ⟨k1, by simp [k2], h⟩

/-- **Lock-step theorem** for memory. -/
theorem Laws.r_parse (n : Nat) :
    (∀ mode, Rel Own [] (OptParts (τ := τ) (ε := ε)) (E.parseNext n mode) (V.parseNext n mode)) ∧
    Rel Own [] (OptParts (τ := τ) (ε := ε)) (E.parseNested n) (V.parseNested n) ∧
    (∀ mode head tail Ds rs, Building head tail Ds rs →
      Rel Own rs (Parts (τ := τ) (ε := ε)) (E.parseAll n mode head tail) (V.parseAll n mode Ds)) := by
  induction n with
  | zero =>
    refine ⟨fun mode => ?_, ?_, fun mode head tail Ds rs _ => ?_⟩
    · unfold Env.parseNext Kul.Env.parseNext; exact Rel.fuel
    · unfold Env.parseNested Kul.Env.parseNested; exact Rel.fuel
    · unfold Env.parseAll Kul.Env.parseAll; exact Rel.fuel
  | succ n ih =>
    obtain ⟨ihn, ihd, iha⟩ := ih
    refine ⟨fun mode => ?_, ?_, fun mode head tail Ds rs hb => ?_⟩
    · unfold Env.parseNext Kul.Env.parseNext
      refine Rel.bindSame (keep := []) (Rel.ite (fun _ => L.r_skipWhitespace n) fun _ => Rel.pure ⟨rfl, rfl⟩) fun _ => ?_
      refine Rel.bindSame (L.r_peek []) fun o => ?_
      cases o with
      | none =>
        refine Rel.bindSame (r_getDepth []) fun d => ?_
        exact Rel.ite (fun _ => Rel.pure (Or.inl ⟨rfl, rfl, rfl⟩)) fun _ => Rel.throw
      | some it =>
        simp only [L.cc]
        refine Rel.ite (fun _ => ?_) fun _ => Rel.ite (fun _ => ?_) fun _ => ?_
        · refine Rel.bind (Rel.nestedInDepth (V.keeps_parse n).2.1 ihd) fun a b rs h => ?_
          rcases h with ⟨rfl, rfl, rfl⟩ | ⟨d, D, rfl, rfl, h⟩
          · exact ihn mode
          · exact Rel.pure (Or.inr ⟨d, D, rfl, rfl, h⟩)
        · exact Rel.bindSame L.r_checkEndChar fun _ => Rel.pure (Or.inl ⟨rfl, rfl, rfl⟩)
        · exact Rel.bindSame (L.r_parseText n mode) fun t => Rel.pure (Or.inr ⟨_, _, rfl, rfl, .text⟩)
    · unfold Env.parseNested Kul.Env.parseNested
      refine Rel.bindSame (L.r_next []) fun start => ?_
      simp only [L.cc]
      refine Rel.bindSame (Rel.debugAssert _ _) fun _ => ?_
      refine Rel.bind (ihn .operator) fun d D rs h => ?_
      refine Rel.bindSame (L.r_skipSeparator rs) fun _ => ?_
      rcases h with ⟨rfl, rfl, rfl⟩ | ⟨d, D, rfl, rfl, h⟩
      · exact Rel.bindSame L.r_nestEnd fun _ => Rel.pure (Or.inr ⟨_, _, rfl, rfl, .emptyNest⟩)
      refine L.r_find h fun c hc => ?_
      rcases hc.cases with ⟨rfl, e2⟩ | ⟨c, g, rfl, e2, hcr⟩ <;> simp only [e2]
      · -- no combiner
        refine Rel.bindKeep (pre := []) (keep := rs) (iha .base .emptyList none [] [] .start) (L.dropDat h)
          fun ds Ds rs' h' => ?_
        refine Rel.bindKeep (pre := []) (keep := rs' ++ rs) L.r_nestEnd (fun a b xs ho => ?_) fun _ _ _ hs => ?_
        · rw [List.append_assoc] at ho
          exact L.dropDat h _ _ _ (L.dropDat h' _ _ _ ho)
        obtain ⟨-, rfl⟩ := hs
        have key := Rel.bindKeep (keep := rs') (cl := E.alloc.dropDat ds) (L.r_newDatum h) (L.dropDat h') (RW := OptParts (τ := τ) (ε := ε))
          (f := fun p => onErr (E.newDatum ds) (E.alloc.dropRef p) >>= fun q => pure (some (.combination p q)))
          (g := fun _ => V.newDatum Ds >>= fun _ => pure (some (.combination D Ds))) fun p _ xs hp => by
            subst hp
            have key := Rel.bindKeep (keep := [.ref p D]) (cl := E.alloc.dropRef p) (L.r_newDatum h')
              (fun a b xs ho => L.dropRef ho) (RW := OptParts (τ := τ) (ε := ε))
              (f := fun q => pure (some (.combination p q))) (g := fun _ => pure (some (.combination D Ds)))
              fun q _ xs hq => by
                subst hq
                intro s t ys h1 h2 h3
                exact ⟨h1, h2, Or.inl ⟨_, _, [.ref p D, .ref q Ds], rfl, rfl, Or.inr ⟨_, _, rfl, rfl, .combination⟩,
                  L.perm h3 (List.Perm.swap _ _ _)⟩⟩
            intro s t ys h1 h2 h3
            exact key s t ys h1 h2 (L.perm h3 (List.perm_append_comm.append_right ys))
        intro s t ys h1 h2 h3
        exact key s t ys h1 h2 (L.perm h3 ((List.perm_append_comm (l₁ := rs') (l₂ := rs)).append_right ys))
      · cases hcr with
        | @operative f g hcr =>
          refine Rel.bindKeep (pre := []) (keep := rs) (L.r_parseText n .operands) (L.dropDat h) fun t t' rs' ht => ?_
          obtain ⟨rfl, rfl⟩ := ht
          refine Rel.bindKeep (pre := []) (keep := rs) L.r_nestEnd (L.dropDat h) fun _ _ _ hs => ?_
          obtain ⟨-, rfl⟩ := hs
          intro s u xs h1 h2 h3
          have := hcr d D rs t s.alloc u.alloc xs h h3
          unfold liftCombiner
          rcases hf : f d t s.alloc with ⟨r, a'⟩
          rcases hg : g D t u.alloc with ⟨r', b'⟩
          rw [hf, hg] at this
          rcases this with ⟨e1, e2, h4⟩ | ⟨d', D', rs', e1, e2, h4, h5⟩ | ⟨e, e1, e2, h4⟩ <;> simp only at e1 e2 <;>
            subst e1 <;> subst e2
          · exact ⟨h1, h2, Or.inl ⟨_, _, [], rfl, rfl, Or.inl ⟨rfl, rfl, rfl⟩, h4⟩⟩
          · exact ⟨h1, h2, Or.inl ⟨_, _, rs', rfl, rfl, Or.inr ⟨_, _, rfl, rfl, h4⟩, h5⟩⟩
          · exact ⟨h1, h2, Or.inr (Or.inl ⟨e, rfl, rfl, h4⟩)⟩
        | @applicative f g hcr =>
          refine Rel.bindKeep (pre := []) (keep := rs) (iha .base .emptyList none [] [] .start) (L.dropDat h)
            fun ds Ds rs' h' => ?_
          refine Rel.bindKeep (pre := []) (keep := rs' ++ rs) L.r_nestEnd (fun a b xs ho => ?_) fun _ _ _ hs => ?_
          · rw [List.append_assoc] at ho
            exact L.dropDat h _ _ _ (L.dropDat h' _ _ _ ho)
          obtain ⟨-, rfl⟩ := hs
          intro s u xs h1 h2 h3
          have := hcr d D rs ds Ds rs' s.alloc u.alloc xs h h' (L.perm h3 (by
            rw [← List.append_assoc rs]
            exact (List.perm_append_comm (l₁ := rs') (l₂ := rs)).append_right xs))
          unfold liftCombiner
          rcases hf : f d ds s.alloc with ⟨r, a'⟩
          rcases hg : g D Ds u.alloc with ⟨r', b'⟩
          rw [hf, hg] at this
          rcases this with ⟨e1, e2, h4⟩ | ⟨d', D', rs', e1, e2, h4, h5⟩ | ⟨e, e1, e2, h4⟩ <;> simp only at e1 e2 <;>
            subst e1 <;> subst e2
          · exact ⟨h1, h2, Or.inl ⟨_, _, [], rfl, rfl, Or.inl ⟨rfl, rfl, rfl⟩, h4⟩⟩
          · exact ⟨h1, h2, Or.inl ⟨_, _, rs', rfl, rfl, Or.inr ⟨_, _, rfl, rfl, h4⟩, h5⟩⟩
          · exact ⟨h1, h2, Or.inr (Or.inl ⟨e, rfl, rfl, h4⟩)⟩
    · unfold Env.parseAll Kul.Env.parseAll
      obtain ⟨rs', hp, hp'⟩ := hb.parts L.toOwnLaws
      refine Rel.bindKeep (pre := []) (keep := rs) (ihn mode) (fun a b xs ho => L.dropDat hp _ _ _ (hp' ho)) fun d D rs1 h => ?_
      rcases h with ⟨rfl, rfl, rfl⟩ | ⟨d, D, rfl, rfl, h⟩
      · intro s t xs h1 h2 h3
        exact ⟨h1, h2, Or.inl ⟨_, _, rs', rfl, rfl, hp, hp' h3⟩⟩
      · refine Rel.bindKeep (keep := rs) (L.r_newDatum h) (fun a b xs ho => L.dropDat hp _ _ _ (hp' ho)) fun e _ xs hx => ?_
        subst hx
        exact L.r_extend (fun head tail Ds rs hb => iha mode head tail Ds rs hb) hb

end

end Kul.Mem
