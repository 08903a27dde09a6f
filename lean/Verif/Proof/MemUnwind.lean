import Verif.Spec.MemUnwind
import Verif.Proof.MemUse
import Verif.Proof.Unwind
import Verif.Proof.Panics

/-! # Memory when user-supplied code panics -/

namespace Kul.Mem

variable {σ P τ ε α CE : Type} {A B : Type}

/-- In a given memory a datum is the root of one tree. -/
theorem Reads.det {m : Addr → Option (Dat τ ε)} {d : Dat τ ε} {D D' : Datum τ ε} (h : Reads m d D)
    (h' : Reads m d D') : D = D' := by
  induction h generalizing D' with
  | text | emptyNest | emptyList | extra => cases h'; rfl
  | combination h1 _ h3 _ ih1 ih2 =>
    cases h' with
    | combination k1 k2 k3 k4 =>
      rw [h1] at k1; cases k1
      rw [h3] at k3; cases k3
      rw [ih1 k2, ih2 k4]
  | list h1 _ h3 _ ih1 ih2 =>
    cases h' with
    | list k1 k2 k3 k4 =>
      rw [h1] at k1; cases k1
      rw [h3] at k3; cases k3
      rw [ih1 k2, ih2 k4]

variable (Own : α → List (Res τ ε) → Prop)

/-- An action that has nothing to do with datums. -/
def Calm (x : Act (St σ α) (Err P CE) A) : Prop :=
  ∀ s, s.ndepth ≤ (x s).2.ndepth ∧ ∀ xs, Own s.alloc xs → Own (x s).2.alloc xs

/-- An action, for which `pre` is needed, gives something of which `post` says what is owned, and otherwise nothing is
left. -/
def Keeps (pre : List (Res τ ε)) (post : A → List (Res τ ε) → Prop) (x : Act (St σ α) (Err P CE) A) : Prop :=
  ∀ s xs, Own s.alloc (pre ++ xs) → s.ndepth ≤ (x s).2.ndepth ∧
    ((∃ v rs, (x s).1 = .ok v ∧ post v rs ∧ Own (x s).2.alloc (rs ++ xs)) ∨
      (((∃ e, (x s).1 = .err e) ∨ (x s).1 = .panic) ∧ Own (x s).2.alloc xs) ∨ (x s).1 = .fuel)

variable {Own} {pre keep rs : List (Res τ ε)} {post : A → List (Res τ ε) → Prop} {post' : B → List (Res τ ε) → Prop}
  {x : Act (St σ α) (Err P CE) A} {f : A → Act (St σ α) (Err P CE) B}

theorem Calm.pure (v : A) : Calm (σ := σ) (P := P) (CE := CE) Own (pure v) := fun _ => ⟨Nat.le_refl _, fun _ h => h⟩
theorem Calm.throw (e : Err P CE) : Calm (σ := σ) (A := A) Own (Act.throw e) := fun _ => ⟨Nat.le_refl _, fun _ h => h⟩
theorem Calm.panic : Calm (σ := σ) (P := P) (CE := CE) (A := A) Own Act.panic := fun _ => ⟨Nat.le_refl _, fun _ h => h⟩
theorem Calm.fuel : Calm (σ := σ) (P := P) (CE := CE) (A := A) Own Act.fuel := fun _ => ⟨Nat.le_refl _, fun _ h => h⟩

theorem Calm.ite {p : Prop} [Decidable p] {x y : Act (St σ α) (Err P CE) A} (hx : Calm Own x) (hy : Calm Own y) :
    Calm Own (if p then x else y) := by
  split
  · exact hx
  · exact hy

theorem Calm.bind (hx : Calm Own x) (hf : ∀ v, Calm Own (f v)) : Calm Own (x >>= f) := by
  intro s
  change s.ndepth ≤ (Act.bind x f s).2.ndepth ∧ ∀ xs, Own s.alloc xs → Own (Act.bind x f s).2.alloc xs
  have h := hx s
  unfold Act.bind
  rcases hs : x s with ⟨o, s'⟩
  rw [hs] at h
  cases o with
  | ok v => exact ⟨h.1.trans (hf v s').1, fun xs ho => (hf v s').2 xs (h.2 xs ho)⟩
  | _ => exact h

theorem Calm.debugAssert (b : Bool) : Calm (σ := σ) (P := P) (CE := CE) Own (Act.debugAssert b) := by
  unfold Act.debugAssert
  exact Calm.ite (Calm.pure ()) Calm.panic

theorem Keeps.pure {v : A} (h : post v pre) : Keeps (σ := σ) (P := P) (CE := CE) Own pre post (Pure.pure v) :=
  fun _ _ ho => ⟨Nat.le_refl _, Or.inl ⟨v, pre, rfl, h, ho⟩⟩

theorem Keeps.fuel : Keeps (σ := σ) (P := P) (CE := CE) Own pre post Act.fuel :=
  fun _ _ _ => ⟨Nat.le_refl _, Or.inr (Or.inr rfl)⟩

theorem Keeps.throw (e : Err P CE) : Keeps (σ := σ) Own [] post (Act.throw e) :=
  fun _ _ ho => ⟨Nat.le_refl _, Or.inr (Or.inl ⟨Or.inl ⟨e, rfl⟩, ho⟩)⟩

theorem Keeps.ite {p : Prop} [Decidable p] {y : Act (St σ α) (Err P CE) A} (hx : Keeps Own pre post x)
    (hy : Keeps Own pre post y) : Keeps Own pre post (if p then x else y) := by
  split
  · exact hx
  · exact hy

theorem Calm.keeps (h : Calm Own x) (hp : ∀ v, post v []) : Keeps Own [] post x := by
  intro s xs ho
  obtain ⟨h1, h2⟩ := h s
  refine ⟨h1, ?_⟩
  have h2 := h2 xs ho
  cases hx : (x s).1 with
  | ok v => exact Or.inl ⟨v, [], rfl, hp v, h2⟩
  | err e => exact Or.inr (Or.inl ⟨Or.inl ⟨e, rfl⟩, h2⟩)
  | panic => exact Or.inr (Or.inl ⟨Or.inr rfl, h2⟩)
  | fuel => exact Or.inr (Or.inr rfl)

theorem Keeps.bind (hx : Keeps Own pre post x) (hf : ∀ v rs, post v rs → Keeps Own rs post' (f v)) :
    Keeps Own pre post' (x >>= f) := by
  intro s xs ho
  change s.ndepth ≤ (Act.bind x f s).2.ndepth ∧ (_ ∨ (_ ∧ _) ∨ _)
  obtain ⟨h1, h2⟩ := hx s xs ho
  change s.ndepth ≤ (Act.bind x f s).2.ndepth ∧ ((∃ v rs, (Act.bind x f s).1 = .ok v ∧ post' v rs ∧
    Own (Act.bind x f s).2.alloc (rs ++ xs)) ∨ (((∃ e, (Act.bind x f s).1 = .err e) ∨ (Act.bind x f s).1 = .panic) ∧
    Own (Act.bind x f s).2.alloc xs) ∨ (Act.bind x f s).1 = .fuel)
  unfold Act.bind
  rcases hs : x s with ⟨o, s'⟩
  rw [hs] at h1 h2
  rcases h2 with ⟨v, rs, e, h3, h4⟩ | ⟨⟨e, h3⟩ | h3, h4⟩ | h3
  · cases e
    obtain ⟨h5, h6⟩ := hf v rs h3 s' xs h4
    exact ⟨h1.trans h5, h6⟩
  · cases h3
    exact ⟨h1, Or.inr (Or.inl ⟨Or.inl ⟨e, rfl⟩, h4⟩)⟩
  · cases h3
    exact ⟨h1, Or.inr (Or.inl ⟨Or.inr rfl, h4⟩)⟩
  · cases h3
    exact ⟨h1, Or.inr (Or.inr rfl)⟩

/-- While `keep` is owned, which is dropped in the end unless all goes well. -/
theorem Keeps.onUnwind {clean : α → α} (hx : Keeps Own pre post x) (hc : ∀ {a xs}, Own a (keep ++ xs) → Own (clean a) xs) :
    Keeps Own (pre ++ keep) (fun v rs => ∃ rs', post v rs' ∧ rs = rs' ++ keep) (onUnwind x clean) := by
  intro s xs ho
  rw [List.append_assoc] at ho
  obtain ⟨h1, h2⟩ := hx s _ ho
  unfold Mem.onUnwind
  rcases hs : x s with ⟨o, s'⟩
  rw [hs] at h1 h2
  rcases h2 with ⟨v, rs, e, h3, h4⟩ | ⟨⟨e, h3⟩ | h3, h4⟩ | h3
  · cases e
    refine ⟨h1, Or.inl ⟨v, rs ++ keep, rfl, ⟨rs, h3, rfl⟩, ?_⟩⟩
    rw [List.append_assoc]
    exact h4
  · cases h3
    exact ⟨h1, Or.inr (Or.inl ⟨Or.inl ⟨e, rfl⟩, hc h4⟩)⟩
  · cases h3
    exact ⟨h1, Or.inr (Or.inl ⟨Or.inr rfl, hc h4⟩)⟩
  · cases h3
    exact ⟨h1, Or.inr (Or.inr rfl)⟩

theorem Keeps.bindKeep {clean : α → α} (hx : Keeps Own pre post x) (hc : ∀ {a xs}, Own a (keep ++ xs) → Own (clean a) xs)
    (hf : ∀ v rs, post v rs → Keeps Own (rs ++ keep) post' (f v)) :
    Keeps Own (pre ++ keep) post' (Mem.onUnwind x clean >>= f) := by
  refine Keeps.bind (hx.onUnwind hc) ?_
  rintro v _ ⟨rs, h, rfl⟩
  exact hf v rs h

/-- The same for an action that has nothing to do with datums. -/
theorem Calm.bindKeep {clean : α → α} (hx : Calm Own x) (hc : ∀ {a xs}, Own a (keep ++ xs) → Own (clean a) xs)
    (hf : ∀ v, Keeps Own keep post' (f v)) : Keeps Own keep post' (Mem.onUnwind x clean >>= f) :=
  Keeps.bindKeep (pre := []) (post := fun _ rs => rs = []) (hx.keeps fun _ => rfl) hc fun v rs h => by subst h; exact hf v

theorem Calm.thenKeeps (hx : Calm Own x) (hf : ∀ v, Keeps Own [] post' (f v)) : Keeps Own [] post' (x >>= f) :=
  Keeps.bind (post := fun _ rs => rs = []) (hx.keeps fun _ => rfl) fun v rs h => by subst h; exact hf v

theorem Keeps.nested (h : Keeps Own [] post x) : Keeps Own [] post (nestedUnwind x) := by
  intro s xs ho
  obtain ⟨h1, h2⟩ := h { s with ndepth := s.ndepth + 1 } xs ho
  unfold nestedUnwind
  rcases hs : x { s with ndepth := s.ndepth + 1 } with ⟨o, s'⟩
  rw [hs] at h1 h2
  simp only at h1
  have h0 : s'.ndepth ≠ 0 := by omega
  rcases h2 with ⟨v, rs, e, h3, h4⟩ | ⟨⟨e, h3⟩ | h3, h4⟩ | h3
  · cases e
    simp only [if_neg h0]
    exact ⟨by omega, Or.inl ⟨v, rs, rfl, h3, h4⟩⟩
  · cases h3
    simp only [if_neg h0]
    exact ⟨by omega, Or.inr (Or.inl ⟨Or.inl ⟨e, rfl⟩, h4⟩)⟩
  · cases h3
    exact ⟨by simp only; omega, Or.inr (Or.inl ⟨Or.inr rfl, h4⟩)⟩
  · cases h3
    simp only [if_neg h0]
    exact ⟨by omega, Or.inr (Or.inr trivial)⟩

/-! ## Functions that have nothing to do with datums -/

section

variable {U : UEnv σ P τ ε α CE} (H : U.Careful Own)

theorem calm_getDepth : Calm (P := P) (CE := CE) Own (Kul.Env.getDepth (σ := σ)) := fun _ => ⟨Nat.le_refl _, fun _ h => h⟩

/-- Whatever panics. -/
theorem fair_any (W : PEnv σ P τ ε α CE) : W.Fair (fun _ _ => True) (fun _ _ => True) where
  peek _ _ _ := trivial
  next _ _ _ := trivial
  nextAccum _ _ _ := trivial
  accumDone _ _ _ := trivial
  concat _ _ _ _ _ := trivial
  newDatum _ _ _ _ := trivial
  operative _ _ _ _ _ _ _ := trivial
  applicative _ _ _ _ _ _ _ := trivial
  strm _ _ _ _ _ _ _ := ⟨trivial, trivial⟩
  user _ _ _ _ _ _ := ⟨trivial, trivial⟩

include H

theorem fair_own (xs : List (Res τ ε)) : U.scan.Fair (fun _ _ => True) (fun _ a => Own a xs) where
  peek _ _ h := h
  next _ _ h := h
  nextAccum _ _ h := H.nextAccum h
  accumDone _ _ h := H.accumDone h
  concat _ _ _ _ h := H.concat h
  newDatum _ _ _ h := h
  operative _ _ h := by cases h
  applicative _ _ h := by cases h
  strm _ _ _ _ _ h hp := ⟨trivial, H.strmPanics h hp⟩
  user _ _ _ _ h hp := ⟨trivial, H.panics h hp⟩

theorem Calm.ofCut {y : Act (St σ α) (Err P CE) A}
    (h : ∀ I : σ → α → Prop, U.scan.Fair (fun _ _ => True) I → CutOff (fun _ _ => True) I x y) : Calm Own x := fun s =>
  ⟨(h _ (fair_any _) s trivial).2.1, fun xs ho => (h _ (fair_own H xs) s ho).1⟩

theorem calm_peek : Calm Own U.scan.peek := Calm.ofCut H fun _ h => h.c_peek
theorem calm_next : Calm Own U.scan.next := Calm.ofCut H fun _ h => h.c_next

theorem calm_ask (q : Ask) (ch : Char) : Calm Own (U.scan.ask q ch) :=
  Calm.ofCut H (y := pure (q.of U.scan.env.cc ch)) fun _ h => (h.ofUser _).after (CutOff.pure _)

theorem calm_askItem (q : Ask) (o : Option (Item P)) : Calm Own (U.scan.askItem q o) := by
  cases o with
  | none => exact Calm.pure none
  | some it => exact Calm.bind (calm_ask H q it.ch) fun _ => Calm.pure _

theorem calm_skipLeading (n : Nat) (mode : Mode) : Calm Own (U.scan.skipLeading n mode) :=
  Calm.ofCut H fun _ h => CutOff.ite (h.c_skipWhitespace n) (CutOff.pure ())

theorem calm_checkEndChar : Calm Own U.scan.checkEndChar := Calm.ofCut H fun _ h => h.c_checkEndChar
theorem calm_nestEnd : Calm Own U.scan.nestEnd := Calm.ofCut H fun _ h => h.c_nestEnd
theorem calm_skipSeparator : Calm Own U.scan.skipSeparator := Calm.ofCut H fun _ h => h.c_skipSeparator

theorem calm_parseText (n : Nat) (mode : Mode) : Calm Own (U.scan.parseText n mode) :=
  Calm.ofCut H fun _ h => h.c_parseText n mode

theorem calm_getMut (p : Addr) : Calm Own (U.getMut p) :=
  Calm.bind (Calm.ofCut H fun _ h => h.ofUser _) fun _ _ => ⟨Nat.le_refl _, fun _ h => h⟩

end

/-! ## The parser -/

section

variable {U : UEnv σ P τ ε α CE} (L : OwnLaws U.env.alloc fun a (_ : Unit) => Own a) (H : U.Careful Own)

/-- What is owned of a datum. -/
def HasParts (d : Dat τ ε) (rs : List (Res τ ε)) : Prop := ∃ D, Parts d D rs

/-- What is owned of a datum, if there is one. -/
def MayHaveParts (d : Option (Dat τ ε)) (rs : List (Res τ ε)) : Prop :=
  match d with
  | some d => HasParts d rs
  | none => rs = []

include H in
theorem keeps_new {d : Dat τ ε} {D : Datum τ ε} (h : Parts d D rs) :
    Keeps Own rs (fun p xs => xs = [.ref p D]) (U.new d) := by
  intro s xs ho
  have := H.newDatum h ho
  unfold UEnv.new
  rcases hn : U.newDatum d s.alloc with ⟨_ | (e | p), a⟩ <;> rw [hn] at this
  · exact ⟨Nat.le_refl _, Or.inr (Or.inl ⟨Or.inr rfl, this⟩)⟩
  · exact ⟨Nat.le_refl _, Or.inr (Or.inl ⟨Or.inl ⟨_, rfl⟩, this⟩)⟩
  · exact ⟨Nat.le_refl _, Or.inl ⟨p, _, rfl, rfl, this⟩⟩

include L in
theorem UEnv.dropDat {d : Dat τ ε} {D : Datum τ ε} (h : Parts d D rs) {a : α} {xs : List (Res τ ε)}
    (ho : Own a (rs ++ xs)) : Own (U.env.alloc.dropDat d a) xs := L.dropDat h a () xs ho

include L in
theorem UEnv.dropTwo {d d' : Dat τ ε} {D D' : Datum τ ε} {rs' : List (Res τ ε)} (h : Parts d D rs) (h' : Parts d' D' rs')
    {a : α} {xs : List (Res τ ε)} (ho : Own a ((rs' ++ rs) ++ xs)) :
    Own (U.env.alloc.dropDat d (U.env.alloc.dropDat d' a)) xs := by
  rw [List.append_assoc] at ho
  exact UEnv.dropDat L h (UEnv.dropDat L h' ho)

theorem keeps_call {f : α → Option (Except (Err P CE) (Option (Dat τ ε))) × α}
    (h : ∀ a xs, Own a (pre ++ xs) → UOut Own xs (f a)) :
    Keeps (σ := σ) Own pre MayHaveParts (callUnwind f) := by
  intro s xs ho
  have := h s.alloc xs ho
  unfold callUnwind
  rcases hf : f s.alloc with ⟨_ | (e | (_ | d)), a⟩ <;> rw [hf] at this
  · exact ⟨Nat.le_refl _, Or.inr (Or.inl ⟨Or.inr rfl, this⟩)⟩
  · exact ⟨Nat.le_refl _, Or.inr (Or.inl ⟨Or.inl ⟨e, rfl⟩, this⟩)⟩
  · exact ⟨Nat.le_refl _, Or.inl ⟨none, [], rfl, rfl, this⟩⟩
  · obtain ⟨D, rs, h1, h2⟩ := this
    exact ⟨Nat.le_refl _, Or.inl ⟨some d, rs, rfl, ⟨D, h1⟩, h2⟩⟩

include L in
/-- The local variables of `parse_all` after an element was added at the tail. -/
theorem UEnv.extend {head : Dat τ ε} {tail : Option Addr} {Ds : List (Datum τ ε)} (hb : Building head tail Ds rs)
    {e p : Addr} {D : Datum τ ε} (s : St σ α) {xs : List (Res τ ε)}
    (ho : Own s.alloc (.ref p .emptyList :: (.ref e D :: rs) ++ xs)) :
    ∃ head' a', U.env.setTail head tail (.list e p) s = (.ok head', { s with alloc := a' }) ∧
      (U.env.alloc.getMut p a' = true → ∃ Ds' rs', Building head' (some p) Ds' rs' ∧ Own a' (rs' ++ xs)) ∧
      ∃ D' rs', Parts head' D' rs' ∧ Own a' (rs' ++ xs) := by
  cases hb with
  | start =>
    have ho' : Own s.alloc (([.ref e D, .ref p .emptyList] : List (Res τ ε)) ++ xs) := L.perm (b := ()) ho (List.Perm.swap _ _ _)
    refine ⟨_, s.alloc, rfl, fun hm => ?_, _, _, .list, ho'⟩
    have := L.openEmpty (b := ()) ho hm
    exact ⟨_, _, .more .last, L.perm (b := ()) this (List.Perm.swap _ _ _)⟩
  | @more e0 n tl D0 Ds rs hc =>
    obtain ⟨rs0, h1, h2⟩ := hc.extend
    have h3 : Own s.alloc (.place tl .emptyList :: .ref p .emptyList :: .ref e D :: .ref e0 D0 :: (rs0 ++ xs)) := by
      refine L.perm (b := ()) ho ?_
      have : (rs ++ xs).Perm (.place tl .emptyList :: (rs0 ++ xs)) := h1.append_right xs
      refine (((this.cons _).cons _).cons _).trans ?_
      exact (((List.Perm.swap _ _ _).cons _).cons _).trans (((List.Perm.swap _ _ _).cons _).trans (List.Perm.swap _ _ _))
    have h4 := L.perm (b := ()) (L.write (b := ()) (d' := .list e p) h3) (List.Perm.swap _ _ _)
    have key : ∀ {fin : Res τ ε}, Own (U.env.alloc.write tl (.list e p) s.alloc)
        (fin :: .place tl (.list e p) :: .ref e D :: .ref e0 D0 :: (rs0 ++ xs)) →
        ∃ rs', Chain p fin n (Ds ++ [D]) rs' ∧
          Own (U.env.alloc.write tl (.list e p) s.alloc) ((.ref e0 D0 :: rs') ++ xs) := by
      intro fin ho
      obtain ⟨rs', h5, h6⟩ := h2 e p D fin
      refine ⟨rs', h5, L.perm (b := ()) ho ?_⟩
      have h8 := (h6.append_right xs).cons (.ref e0 D0)
      refine List.Perm.trans ?_ h8.symm
      have : ∀ (x y z w : Res τ ε) l, (x :: y :: z :: w :: l).Perm (w :: y :: z :: x :: l) := fun x y z w l => by
        have : [x, y, z, w].Perm [w, y, z, x] := by
          refine (List.perm_append_comm (l₁ := [x, y, z]) (l₂ := [w])).trans (List.Perm.cons _ ?_)
          exact List.perm_append_comm (l₁ := [x]) (l₂ := [y, z])
        exact this.append_right l
      exact this ..
    refine ⟨_, U.env.alloc.write tl (.list e p) s.alloc, rfl, fun hm => ?_, ?_⟩
    · obtain ⟨rs', h5, h6⟩ := key (L.openEmpty (b := ()) h4 hm)
      exact ⟨_, _, .more h5, h6⟩
    · obtain ⟨rs', h5, h6⟩ := key h4
      exact ⟨_, _, .list, h5.parts L (fun h => h) (b := ()) h6⟩

include L H

theorem keeps_parse (n : Nat) :
    (∀ mode, Keeps Own [] MayHaveParts (U.parseNext n mode)) ∧
    Keeps Own [] MayHaveParts (U.parseNested n) ∧
    (∀ mode head tail Ds rs, Building head tail Ds rs → Keeps Own rs HasParts (U.parseAll n mode head tail)) := by
  induction n with
  | zero =>
    refine ⟨fun mode => ?_, ?_, fun mode head tail Ds rs _ => ?_⟩
    · unfold UEnv.parseNext; exact Keeps.fuel
    · unfold UEnv.parseNested; exact Keeps.fuel
    · unfold UEnv.parseAll; exact Keeps.fuel
  | succ n ih =>
    obtain ⟨ihn, ihd, iha⟩ := ih
    refine ⟨fun mode => ?_, ?_, fun mode head tail Ds rs hb => ?_⟩
    · unfold UEnv.parseNext
      refine Calm.thenKeeps (calm_skipLeading H n mode) fun _ => Calm.thenKeeps (calm_peek H) fun o => ?_
      cases o with
      | none => exact Calm.thenKeeps calm_getDepth fun d => Keeps.ite (Keeps.pure rfl) (Keeps.throw _)
      | some it =>
        refine Calm.thenKeeps (calm_ask H _ _) fun b => Keeps.ite (Keeps.bind ihd.nested fun o rs h => ?_) ?_
        rotate_left
        refine Calm.thenKeeps (calm_ask H _ _) fun b => Keeps.ite ?_ ?_
        rotate_right
        · cases o with
          | none => cases h; exact ihn mode
          | some d => exact Keeps.pure h
        · exact Calm.thenKeeps (calm_checkEndChar H) fun _ => Keeps.pure rfl
        · exact Calm.thenKeeps (calm_parseText H n mode) fun t => Keeps.pure ⟨_, .text⟩
    · unfold UEnv.parseNested
      refine Calm.thenKeeps (calm_next H) fun st => Calm.thenKeeps (calm_askItem H _ _) fun b => ?_
      refine Calm.thenKeeps (Calm.debugAssert _) fun _ => ?_
      refine Keeps.bind (ihn .operator) fun o rs h => ?_
      cases o with
      | none =>
        cases h
        refine Calm.bindKeep (keep := []) (calm_skipSeparator H) (fun h => h) fun _ => ?_
        exact Calm.thenKeeps (calm_nestEnd H) fun _ => Keeps.pure ⟨_, .emptyNest⟩
      | some d =>
        obtain ⟨D, h⟩ := h
        refine Calm.bindKeep (calm_skipSeparator H) (UEnv.dropDat L h) fun _ => ?_
        -- `lookup` says of a combiner that it respects ownership, if it is one
        have hfind : ∀ f : Option (UCombiner τ ε α P CE) → Act (St σ α) (Err P CE) (Option (Dat τ ε)),
            (∀ c, (∀ k, c = some k → k.Careful Own) → Keeps Own rs MayHaveParts (f c)) →
            Keeps Own rs MayHaveParts (onUnwind (U.find d) (U.env.alloc.dropDat d) >>= f) := by
          intro f hf s xs ho
          change s.ndepth ≤ (Act.bind (onUnwind (U.find d) (U.env.alloc.dropDat d)) f s).2.ndepth ∧ (_ ∨ (_ ∧ _) ∨ _)
          cases hl : U.lookup d s.alloc with
          | none =>
            have e : (onUnwind (U.find d) (U.env.alloc.dropDat d) >>= f) s =
                (.panic, { s with alloc := U.env.alloc.dropDat d s.alloc }) := by
              change Act.bind _ _ s = _
              simp only [Act.bind, onUnwind, UEnv.find, hl]
            have e' : Act.bind (onUnwind (U.find d) (U.env.alloc.dropDat d)) f s =
                (.panic, { s with alloc := U.env.alloc.dropDat d s.alloc }) := e
            rw [e', e]
            exact ⟨Nat.le_refl _, Or.inr (Or.inl ⟨Or.inr rfl, UEnv.dropDat L h ho⟩)⟩
          | some c =>
            have e : (onUnwind (U.find d) (U.env.alloc.dropDat d) >>= f) s = f c s := by
              change Act.bind _ _ s = _
              simp only [Act.bind, onUnwind, UEnv.find, hl]
            have e' : Act.bind (onUnwind (U.find d) (U.env.alloc.dropDat d)) f s = f c s := e
            rw [e', e]
            exact hf c (fun k hk => H.lookup h ho (hk ▸ hl)) s xs ho
        refine hfind _ fun c hc => ?_
        match c with
        | some (.operative opr) =>
          have hc := hc _ rfl
          refine Calm.bindKeep (calm_parseText H n .operands) (UEnv.dropDat L h) fun t => ?_
          refine Calm.bindKeep (calm_nestEnd H) (UEnv.dropDat L h) fun _ => ?_
          exact keeps_call fun a xs ho => hc d D rs t a xs h ho
        | some (.applicative apl) =>
          have hc := hc _ rfl
          refine Keeps.bindKeep (pre := []) (iha .base .emptyList none [] [] .start) (UEnv.dropDat L h) fun l rs' h' => ?_
          obtain ⟨D', h'⟩ := h'
          refine Calm.bindKeep (calm_nestEnd H) (UEnv.dropTwo L h h') fun _ => ?_
          refine keeps_call fun a xs ho => hc d D rs l D' rs' a xs h h' (L.perm (b := ()) ho ?_)
          rw [← List.append_assoc]
          exact List.perm_append_comm.append_right xs
        | none =>
          refine Keeps.bindKeep (pre := []) (iha .base .emptyList none [] [] .start) (UEnv.dropDat L h) fun l rs' h' => ?_
          obtain ⟨D', h'⟩ := h'
          refine Calm.bindKeep (calm_nestEnd H) (UEnv.dropTwo L h h') fun _ => ?_
          have swap : ∀ {f : Act (St σ α) (Err P CE) (Option (Dat τ ε))}, Keeps Own (rs ++ rs') MayHaveParts f →
              Keeps Own (rs' ++ rs) MayHaveParts f := fun hf s xs ho =>
            hf s xs (L.perm (b := ()) ho (List.perm_append_comm.append_right xs))
          refine swap (Keeps.bindKeep (keeps_new H h) (UEnv.dropDat L h') fun p xs hx => ?_)
          subst hx
          have swap : ∀ {f : Act (St σ α) (Err P CE) (Option (Dat τ ε))}, Keeps Own (rs' ++ [.ref p D]) MayHaveParts f →
              Keeps Own ([.ref p D] ++ rs') MayHaveParts f := fun hf s xs ho =>
            hf s xs (L.perm (b := ()) ho (List.perm_append_comm.append_right xs))
          refine swap (Keeps.bindKeep (keeps_new H h') (fun ho => L.dropRef (b := ()) ho) fun q xs hx => ?_)
          subst hx
          intro s xs ho
          exact ⟨Nat.le_refl _, Or.inl ⟨_, [.ref p D, .ref q D'], rfl, ⟨_, .combination⟩,
            L.perm (b := ()) ho (List.Perm.swap _ _ _)⟩⟩
    · unfold UEnv.parseAll
      obtain ⟨rs', hp, hp'⟩ := hb.parts L
      have hdrop : ∀ {a xs}, Own a (rs ++ xs) → Own (U.env.alloc.dropDat head a) xs := fun ho =>
        UEnv.dropDat L hp (hp' (b := ()) ho)
      refine Keeps.bindKeep (pre := []) (ihn mode) hdrop fun o rs1 h => ?_
      cases o with
      | none =>
        cases h
        exact fun s xs ho => ⟨Nat.le_refl _, Or.inl ⟨head, rs', rfl, ⟨_, hp⟩, hp' (b := ()) ho⟩⟩
      | some d =>
        obtain ⟨D, h⟩ := h
        refine Keeps.bindKeep (keeps_new H h) hdrop fun e xs hx => ?_
        subst hx
        refine Keeps.bindKeep (pre := []) (keep := [.ref e D] ++ rs) (keeps_new H .emptyList)
          (fun ho => hdrop (L.dropRef (b := ()) ho)) fun p xs hx => ?_
        subst hx
        intro s xs ho
        obtain ⟨head', a', h1, h2, D', rs3, h3, h4⟩ := UEnv.extend L hb s ho
        have e1 : ∀ f : Dat τ ε → Act (St σ α) (Err P CE) (Dat τ ε),
            (U.env.setTail head tail (.list e p) >>= f) s = f head' { s with alloc := a' } := by
          intro f
          change Act.bind _ _ s = _
          simp only [Act.bind, h1]
        simp only [e1]
        cases hp : U.panics .getMut a' with
        | some a'' =>
          have e2 : ∀ f : Bool → Act (St σ α) (Err P CE) (Dat τ ε),
              (onUnwind (U.getMut p) (U.env.alloc.dropDat head') >>= f) { s with alloc := a' } =
                (.panic, { s with alloc := U.env.alloc.dropDat head' a'' }) := by
            intro f
            have : U.getMut p { s with alloc := a' } = (.panic, { s with alloc := a'' }) := by
              change Act.bind _ _ _ = _
              simp only [Act.bind, PEnv.ofUser, UEnv.scan, hp]
            change Act.bind _ _ _ = _
            simp only [Act.bind, onUnwind, this]
          simp only [e2]
          exact ⟨Nat.le_refl _, Or.inr (Or.inl ⟨Or.inr trivial, UEnv.dropDat L h3 (H.panics h4 hp)⟩)⟩
        | none =>
          have e2 : ∀ f : Bool → Act (St σ α) (Err P CE) (Dat τ ε),
              (onUnwind (U.getMut p) (U.env.alloc.dropDat head') >>= f) { s with alloc := a' } =
                f (U.env.alloc.getMut p a') { s with alloc := a' } := by
            intro f
            have : U.getMut p { s with alloc := a' } = (.ok (U.env.alloc.getMut p a'), { s with alloc := a' }) := by
              change Act.bind _ _ _ = _
              simp only [Act.bind, PEnv.ofUser, UEnv.scan, hp]
              rfl
            change Act.bind _ _ _ = _
            simp only [Act.bind, onUnwind, this]
          simp only [e2]
          by_cases hm : U.env.alloc.getMut p a' = true
          · obtain ⟨Ds', rs2, h5, h6⟩ := h2 hm
            simp only [hm, if_true]
            exact iha mode head' (some p) Ds' rs2 h5 { s with alloc := a' } xs h6
          · simp only [hm]
            exact ⟨Nat.le_refl _, Or.inr (Or.inl ⟨Or.inl ⟨_, rfl⟩, UEnv.dropDat L h3 h4⟩)⟩

end

/-! ## Histories -/

/-- What is held, each with what it is the root of, and what it owns. -/
inductive Holds : List (Datum τ ε × Dat τ ε) → List (Res τ ε) → Prop where
  | nil : Holds [] []
  | cons {D d rs held xs} : Parts d D rs → Holds held xs → Holds ((D, d) :: held) (rs ++ xs)

theorem Holds.snoc {held : List (Datum τ ε × Dat τ ε)} {xs} (h : Holds held xs) {D d rs} (hp : Parts d D rs) :
    Holds (held ++ [(D, d)]) (xs ++ rs) := by
  induction h with
  | nil => simpa using Holds.cons hp .nil
  | cons h2 _ ih => rw [List.append_assoc]; exact .cons h2 ih

theorem Holds.remove {held held' : List (Datum τ ε × Dat τ ε)} {D d} :
    ∀ {xs}, Holds (held ++ (D, d) :: held') xs →
      ∃ rs ys, Parts d D rs ∧ Holds (held ++ held') ys ∧ xs.Perm (rs ++ ys) := by
  induction held with
  | nil =>
    intro xs h
    cases h with
    | cons h2 h3 => exact ⟨_, _, h2, h3, List.Perm.refl _⟩
  | cons x held ih =>
    intro xs h
    cases h with
    | cons h2 h3 =>
      obtain ⟨rs, ys, h4, h5, h6⟩ := ih h3
      refine ⟨rs, _, h4, .cons h2 h5, ?_⟩
      refine (h6.append_left _).trans ?_
      rw [← List.append_assoc, ← List.append_assoc]
      exact (List.perm_append_comm).append_right _

theorem Holds.pick {held : List (Datum τ ε × Dat τ ε)} {xs} (h : Holds held xs) {D d} (hi : (D, d) ∈ held) :
    ∃ rs ys, Parts d D rs ∧ xs.Perm (rs ++ ys) := by
  obtain ⟨l, l', rfl⟩ := List.append_of_mem hi
  obtain ⟨rs, ys, h1, _, h3⟩ := h.remove
  exact ⟨rs, ys, h1, h3⟩

theorem Holds.addrs {held : List (Datum τ ε × Dat τ ε)} {xs} (h : Holds held xs) :
    xs.map Res.addr = (held.map (·.2)).flatMap Dat.refs ∧ places xs = [] := by
  induction h with
  | nil => exact ⟨rfl, rfl⟩
  | cons h2 _ ih =>
    constructor
    · rw [List.map_append, ih.1, h2.addrs]
      rfl
    · rw [places_append, ih.2, h2.places]
      rfl

section

variable {U : UEnv σ P τ ε α CE} (L : OwnLaws U.env.alloc fun a (_ : Unit) => Own a) (H : U.Careful Own)
include L H

/-- What a call leaves. -/
theorem UEnv.call {s s' : St σ α} {o : Outcome (Err P CE) (Option (Dat τ ε))} (hc : U.Call s o s') {xs : List (Res τ ε)}
    (ho : Own s.alloc xs) :
    (∃ d D rs, o = .ok (some d) ∧ Parts d D rs ∧ Own s'.alloc (rs ++ xs)) ∨
      ((∀ d, o ≠ .ok (some d)) ∧ Own s'.alloc xs) := by
  obtain ⟨n, hn, hf⟩ := hc
  obtain ⟨_, h⟩ := (keeps_parse L H n).1 .base s xs ho
  rw [hn] at h
  rcases h with ⟨v, rs, e, h3, h4⟩ | ⟨⟨e, h3⟩ | h3, h4⟩ | h3
  · cases v with
    | none =>
      cases h3
      cases e
      exact Or.inr ⟨by simp, h4⟩
    | some d =>
      obtain ⟨D, h3⟩ := h3
      exact Or.inl ⟨d, D, rs, e, h3, h4⟩
  · cases h3
    exact Or.inr ⟨by simp, h4⟩
  · cases h3
    exact Or.inr ⟨by simp, h4⟩
  · exact absurd h3 hf

/-- **History theorem**, with panics. -/
theorem UEnv.history (hcl : ∀ {n a d D rs xs d' a'}, Parts d D rs → Own a (rs ++ xs) →
      U.env.alloc.clone n d a = some (d', a') → ∃ rs', Parts d' D rs' ∧ Own a' (rs' ++ (rs ++ xs)))
    {s₀ : St σ α} (h₀ : Own s₀.alloc []) {held s} (h : U.Uses s₀ held s) : ∃ xs, Holds held xs ∧ Own s.alloc xs := by
  induction h with
  | start => exact ⟨[], .nil, h₀⟩
  | datum _ hc hr ih =>
    obtain ⟨xs, h1, h2⟩ := ih
    rcases UEnv.call L H hc h2 with ⟨d, D, rs, e, h3, h4⟩ | ⟨h3, _⟩
    · cases e
      cases hr.det (L.readsDat (b := ()) h3 h4)
      exact ⟨xs ++ rs, h1.snoc h3, L.perm (b := ()) h4 List.perm_append_comm⟩
    · exact absurd rfl (h3 _)
  | other _ hc hn ih =>
    obtain ⟨xs, h1, h2⟩ := ih
    rcases UEnv.call L H hc h2 with ⟨d, D, rs, e, _⟩ | ⟨_, h4⟩
    · exact absurd e (hn _)
    · exact ⟨xs, h1, h4⟩
  | drop _ ih =>
    obtain ⟨xs, h1, h2⟩ := ih
    obtain ⟨rs, ys, m1, m2, m3⟩ := h1.remove
    exact ⟨ys, m2, UEnv.dropDat L m1 (L.perm (b := ()) h2 m3)⟩
  | clone _ hi he ih =>
    obtain ⟨xs, h1, h2⟩ := ih
    obtain ⟨rs, ys, m2, m3⟩ := h1.pick hi
    obtain ⟨rs', m4, m5⟩ := hcl m2 (L.perm (b := ()) h2 m3) he
    exact ⟨xs ++ rs', h1.snoc m4, L.perm (b := ()) m5 ((m3.symm.append_left rs').trans List.perm_append_comm)⟩
  | parse _ _ ih => exact ih

end

/-! ## Until a panic -/

/-- The first action panics, or it does what the second one does. -/
def Below (x y : Act (St σ α) (Err P CE) A) : Prop := ∀ s, (x s).1 = .panic ∨ x s = y s

namespace Below

variable {x y : Act (St σ α) (Err P CE) A} {f g : A → Act (St σ α) (Err P CE) B}

theorem refl (x : Act (St σ α) (Err P CE) A) : Below x x := fun _ => Or.inr rfl

theorem bind (h : Below x y) (hf : ∀ v, Below (f v) (g v)) : Below (x >>= f) (y >>= g) := by
  intro s
  change (Act.bind x f s).1 = .panic ∨ Act.bind x f s = Act.bind y g s
  unfold Act.bind
  rcases h s with h | h
  · rcases hx : x s with ⟨o, s'⟩
    rw [hx] at h
    cases h
    exact Or.inl rfl
  · rw [h]
    rcases y s with ⟨_ | _ | _ | _, s'⟩
    · exact hf _ s'
    all_goals exact Or.inr rfl

theorem ite {p : Prop} [Decidable p] {x' y' : Act (St σ α) (Err P CE) A} (h : Below x y) (h' : Below x' y') :
    Below (if p then x else x') (if p then y else y') := by
  split
  · exact h
  · exact h'

theorem onUnwind (h : Below x y) (clean : α → α) : Below (Mem.onUnwind x clean) (onErr y clean) := by
  intro s
  unfold Mem.onUnwind onErr
  rcases h s with h | h
  · rcases hx : x s with ⟨o, s'⟩
    rw [hx] at h
    cases h
    exact Or.inl rfl
  · rw [h]
    rcases y s with ⟨_ | _ | _ | _, s'⟩
    · exact Or.inr rfl
    · exact Or.inr rfl
    · exact Or.inl rfl
    · exact Or.inr rfl

/-- Where there is no error, there is nothing to clean up. -/
theorem onUnwind_calm (h : Below x y) (he : ∀ s e, (y s).1 ≠ .err e) (clean : α → α) : Below (Mem.onUnwind x clean) y := by
  intro s
  unfold Mem.onUnwind
  rcases h s with h | h
  · rcases hx : x s with ⟨o, s'⟩
    rw [hx] at h
    cases h
    exact Or.inl rfl
  · rw [h]
    have he := he s
    rcases hy : y s with ⟨_ | e | _ | _, s'⟩
    · exact Or.inr rfl
    · rw [hy] at he
      exact absurd rfl (he e)
    · exact Or.inl rfl
    · exact Or.inr rfl

theorem nested (h : Below x y) : Below (nestedUnwind x) (Kul.Env.nestedInDepth y) := by
  intro s
  unfold nestedUnwind Kul.Env.nestedInDepth
  rcases h { s with ndepth := s.ndepth + 1 } with h | h
  · rcases hx : x { s with ndepth := s.ndepth + 1 } with ⟨o, s'⟩
    rw [hx] at h
    cases h
    exact Or.inl rfl
  · rw [h]
    rcases y { s with ndepth := s.ndepth + 1 } with ⟨_ | _ | _ | _, s'⟩
    · exact Or.inr rfl
    · exact Or.inr rfl
    · exact Or.inl rfl
    · exact Or.inr rfl

theorem ofCut (h : CutOff (fun _ _ => True) (fun _ _ => True) x y) : Below x y := fun s =>
  (h s trivial).2.2.imp (·.1) (·.1)

end Below

/-- A question to the classifier, and then what depends on the answer. -/
theorem below_ask {W : PEnv σ P τ ε α CE} (q : Ask) (ch : Char) {f : Bool → Act (St σ α) (Err P CE) A} {y}
    (h : Below (f (q.of W.env.cc ch)) y) : Below (W.ask q ch >>= f) y := by
  intro s
  cases hp : W.panics (.ask q ch) s.alloc with
  | some a =>
    left
    change (Act.bind (Act.bind _ _) _ s).1 = _
    simp only [Act.bind, PEnv.ofUser, hp]
  | none =>
    have : (W.ask q ch >>= f) s = f (q.of W.env.cc ch) s := by
      change Act.bind (Act.bind _ _) _ s = _
      simp only [Act.bind, PEnv.ofUser, hp]
      rfl
    rw [this]
    exact h s

theorem below_askItem {W : PEnv σ P τ ε α CE} (q : Ask) (o : Option (Item P)) {f : Option Bool → Act (St σ α) (Err P CE) A}
    {y} (h : Below (f (o.map fun it => q.of W.env.cc it.ch)) y) : Below (W.askItem q o >>= f) y := by
  cases o with
  | none => exact h
  | some it =>
    unfold PEnv.askItem
    simp only
    rw [Act.bind_assoc]
    exact below_ask _ _ h

section

variable {U : UEnv σ P τ ε α CE} (G : U.Agrees)

theorem liftEmpty_ok {A : Type} (f : σ → Outcome Empty A × σ) (s : St σ α) (e : Err P CE) :
    (liftEmpty (E := Err P CE) f s).1 ≠ .err e := by
  unfold liftEmpty
  rcases f s.strm with ⟨_ | e | _ | _, _⟩
  · intro h; cases h
  · exact e.elim
  · intro h; cases h
  · intro h; cases h

theorem bind_ok {A B : Type} {x : Act (St σ α) (Err P CE) A} {f : A → Act (St σ α) (Err P CE) B}
    (hx : ∀ s e, (x s).1 ≠ .err e) (hf : ∀ v s e, (f v s).1 ≠ .err e) (s : St σ α) (e : Err P CE) :
    ((x >>= f) s).1 ≠ .err e := by
  change (Act.bind x f s).1 ≠ _
  unfold Act.bind
  have hx := hx s
  rcases h : x s with ⟨_ | e' | _ | _, s'⟩
  · exact hf _ s' e
  · rw [h] at hx
    exact absurd rfl (hx e')
  · intro h; cases h
  · intro h; cases h

theorem skipSeparator_ok (s : St σ α) (e : Err P CE) : (U.env.scan.skipSeparator s).1 ≠ .err e := by
  unfold Kul.Env.skipSeparator
  refine bind_ok (fun s e => liftEmpty_ok _ s e) (fun o s e => ?_) s e
  cases o with
  | none => intro h; cases h
  | some it =>
    simp only
    split
    · exact bind_ok (fun s e => liftEmpty_ok _ s e) (fun _ s e => (by intro h; cases h)) s e
    · intro h; cases h

include G

theorem below_new (d : Dat τ ε) : Below (U.new d) (U.env.newDatum d) := by
  intro s
  unfold UEnv.new Env.newDatum liftAlloc
  rcases hn : U.newDatum d s.alloc with ⟨_ | r, a⟩
  · exact Or.inl rfl
  · right
    simp only [G.newDatum hn]
    cases r <;> rfl

theorem below_parse (n : Nat) :
    (∀ mode, Below (U.parseNext n mode) (U.env.parseNext n mode)) ∧
    Below (U.parseNested n) (U.env.parseNested n) ∧
    (∀ mode head tail, Below (U.parseAll n mode head tail) (U.env.parseAll n mode head tail)) := by
  have F := fair_any U.scan
  have hT : ∀ n mode, Below (U.scan.parseText n mode) (U.env.scan.parseText n mode) := fun n mode => .ofCut (F.c_parseText n mode)
  have hE : Below U.scan.nestEnd U.env.scan.nestEnd := .ofCut F.c_nestEnd
  induction n with
  | zero =>
    refine ⟨fun mode => ?_, ?_, fun mode head tail => ?_⟩
    · unfold UEnv.parseNext Env.parseNext; exact .refl _
    · unfold UEnv.parseNested Env.parseNested; exact .refl _
    · unfold UEnv.parseAll Env.parseAll; exact .refl _
  | succ n ih =>
    obtain ⟨ihn, ihd, iha⟩ := ih
    refine ⟨fun mode => ?_, ?_, fun mode head tail => ?_⟩
    · unfold UEnv.parseNext Env.parseNext
      refine .bind (.ofCut (CutOff.ite (F.c_skipWhitespace n) (CutOff.pure ()))) fun _ => .bind (.ofCut F.c_peek) fun o => ?_
      cases o with
      | none => exact .refl _
      | some it =>
        refine below_ask _ _ (.ite (.bind ihd.nested fun o => ?_) (below_ask _ _ (.ite ?_ ?_)))
        · cases o with
          | none => exact ihn mode
          | some d => exact .refl _
        · exact .bind (.ofCut F.c_checkEndChar) fun _ => .refl _
        · exact .bind (hT _ _) fun _ => .refl _
    · unfold UEnv.parseNested Env.parseNested
      refine .bind (.ofCut F.c_next) fun _ => below_askItem _ _ (.bind (.refl _) fun _ => .bind (ihn _) fun o => ?_)
      refine .bind (.onUnwind_calm (.ofCut F.c_skipSeparator) skipSeparator_ok _) fun _ => ?_
      cases o with
      | none => exact .bind hE fun _ => .refl _
      | some d =>
        have hfind : ∀ (f : Option (UCombiner τ ε α P CE) → Act (St σ α) (Err P CE) (Option (Dat τ ε)))
            (g : Option (Combiner τ ε α P CE) → Act (St σ α) (Err P CE) (Option (Dat τ ε))),
            (∀ c c', OptRel UCombiner.Agrees c c' → Below (f c) (g c')) →
            Below (onUnwind (U.find d) (U.env.alloc.dropDat d) >>= f) (U.env.find d >>= g) := by
          intro f g hf s
          change (Act.bind (onUnwind (U.find d) _) f s).1 = .panic ∨
            Act.bind (onUnwind (U.find d) _) f s = Act.bind (U.env.find d) g s
          cases hl : U.lookup d s.alloc with
          | none =>
            left
            simp only [Act.bind, onUnwind, UEnv.find, hl]
          | some c =>
            simp only [Act.bind, onUnwind, UEnv.find, hl, Env.find]
            exact hf c _ (G.lookup hl) s
        refine hfind _ _ fun c c' hc => ?_
        match c, c', hc with
        | some (.operative f), some (.operative g), hc =>
          refine .bind (.onUnwind (hT _ _) _) fun t => .bind (.onUnwind hE _) fun _ => ?_
          intro s
          unfold callUnwind liftCombiner
          rcases hf : f d t s.alloc with ⟨_ | r, a⟩
          · exact Or.inl rfl
          · right
            simp only [hc _ _ _ _ _ hf]
        | some (.applicative f), some (.applicative g), hc =>
          refine .bind (.onUnwind (iha _ _ _) _) fun l => .bind (.onUnwind hE _) fun _ => ?_
          intro s
          unfold callUnwind liftCombiner
          rcases hf : f d l s.alloc with ⟨_ | r, a⟩
          · exact Or.inl rfl
          · right
            simp only [hc _ _ _ _ _ hf]
        | none, none, _ =>
          refine .bind (.onUnwind (iha _ _ _) _) fun l => .bind (.onUnwind hE _) fun _ => ?_
          exact .bind (.onUnwind (below_new G _) _) fun p => .bind (.onUnwind (below_new G _) _) fun _ => .refl _
    · unfold UEnv.parseAll Env.parseAll
      refine .bind (.onUnwind (ihn _) _) fun o => ?_
      cases o with
      | none => exact .refl _
      | some d =>
        refine .bind (.onUnwind (below_new G _) _) fun e => .bind (.onUnwind (below_new G _) _) fun p => ?_
        refine .bind (.refl _) fun _ => .bind (.onUnwind_calm ?_ (fun s e => ?_) _) fun m => .ite (iha _ _ _) ?_
        · exact Below.ofCut ((F.ofUser _).after (CutOff.same (fun _ => rfl) fun _ _ => trivial))
        · intro h; cases h
        exact .onUnwind (.refl _) _

end

end Kul.Mem
