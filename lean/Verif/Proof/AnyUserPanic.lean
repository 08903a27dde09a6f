import Verif.Proof.AnyUser

/-! # No call panics, if the user code does not and is orderly -/

namespace Kul

variable {W P τ ε CE A B E : Type}

namespace AnyUser

/-- At depth `d` and from `pre`, `x` does not panic; and if it returns a value then at the same depth, and `post`. -/
def Safe (d : Nat) (pre : W → Prop) (x : Act (St W Unit) (Err P CE) A) (post : A → W → Prop) : Prop :=
  ∀ s, s.ndepth = d → pre s.strm → (x s).1 ≠ .panic ∧ ∀ a s', x s = (.ok a, s') → s'.ndepth = d ∧ post a s'.strm

variable {d : Nat}

theorem Safe.pure {pre : W → Prop} {a : A} {post : A → W → Prop} (h : ∀ w, pre w → post a w) :
    Safe d pre (Pure.pure a : Act (St W Unit) (Err P CE) A) post :=
  fun s hd hs => ⟨nofun, fun a' s' e => by cases e; exact ⟨hd, h _ hs⟩⟩

theorem Safe.throw {pre : W → Prop} {e : Err P CE} {post : A → W → Prop} :
    Safe d pre (Act.throw e : Act (St W Unit) (Err P CE) A) post := fun _ _ _ => ⟨nofun, nofun⟩

theorem Safe.fuel {pre : W → Prop} {post : A → W → Prop} :
    Safe d pre (Act.fuel : Act (St W Unit) (Err P CE) A) post := fun _ _ _ => ⟨nofun, nofun⟩

theorem Safe.depth {pre : W → Prop} :
    Safe d pre (Env.getDepth : Act (St W Unit) (Err P CE) Nat) fun a w => pre w ∧ a = d :=
  fun s hd hs => ⟨nofun, fun a s' e => by cases e; exact ⟨hd, hs, hd⟩⟩

theorem Safe.assert {pre : W → Prop} {b : Bool} (hb : b = true) :
    Safe d pre (Act.debugAssert b : Act (St W Unit) (Err P CE) Unit) fun _ => pre := by
  subst hb
  exact fun s hd hs => ⟨nofun, fun a s' e => by cases e; exact ⟨hd, hs⟩⟩

theorem Safe.bind {pre : W → Prop} {x : Act (St W Unit) (Err P CE) A} {mid : A → W → Prop}
    {f : A → Act (St W Unit) (Err P CE) B} {post : B → W → Prop} (hx : Safe d pre x mid)
    (hf : ∀ a, Safe d (mid a) (f a) post) : Safe d pre (x >>= f) post := by
  intro s hd hs
  have h := hx s hd hs
  change (Act.bind x f s).1 ≠ .panic ∧ ∀ a s', Act.bind x f s = (.ok a, s') → s'.ndepth = d ∧ post a s'.strm
  unfold Act.bind
  rcases hr : x s with ⟨a | e | _ | _, s'⟩
  · exact hf a s' (h.2 a s' hr).1 (h.2 a s' hr).2
  · exact ⟨nofun, nofun⟩
  · rw [hr] at h; exact absurd rfl h.1
  · exact ⟨nofun, nofun⟩

theorem Safe.ite {c : Prop} [Decidable c] {pre : W → Prop} {x y : Act (St W Unit) (Err P CE) A} {post : A → W → Prop}
    (hx : c → Safe d pre x post) (hy : ¬ c → Safe d pre y post) : Safe d pre (if c then x else y) post := by
  split
  · exact hx ‹_›
  · exact hy ‹_›

theorem Safe.know {pre : W → Prop} {q : Prop} {x : Act (St W Unit) (Err P CE) A} {post : A → W → Prop}
    (h : ∀ w, pre w → q) (hx : q → Safe d pre x post) : Safe d pre x post := fun s hd hs => hx (h _ hs) s hd hs

theorem Safe.mono {pre pre' : W → Prop} {x : Act (St W Unit) (Err P CE) A} {post post' : A → W → Prop}
    (hx : Safe d pre x post) (h : ∀ w, pre' w → pre w) (h' : ∀ a w, post a w → post' a w) : Safe d pre' x post' :=
  fun s hd hs => ⟨(hx s hd (h _ hs)).1, fun a s' e =>
    ⟨((hx s hd (h _ hs)).2 a s' e).1, h' _ _ ((hx s hd (h _ hs)).2 a s' e).2⟩⟩

theorem Safe.code {g : E → Err P CE} {f : W → Outcome E A × W} {pre : W → Prop} {post : A → W → Prop}
    (h : ∀ w, pre w → (f w).1 ≠ .panic ∧ ∀ a w', f w = (.ok a, w') → post a w') : Safe d pre (ofUserCode g f) post := by
  intro s hd hs
  obtain ⟨h1, h2⟩ := h _ hs
  unfold ofUserCode
  rcases hr : f s.strm with ⟨a | e | _ | _, w'⟩
  · exact ⟨nofun, fun a' s' e => by cases e; exact ⟨hd, h2 _ _ hr⟩⟩
  · exact ⟨nofun, nofun⟩
  · rw [hr] at h1; exact absurd rfl h1
  · exact ⟨nofun, nofun⟩

theorem Safe.nested {U : AnyUser W P τ ε CE} {pre : W → Prop} {x : Act (St W Unit) (Err P CE) A} {post : A → W → Prop}
    (hf : ∀ w₀, Fine U w₀ x) (h : Safe (d + 1) pre x post) : Safe d pre (nestedUnwind x) post := by
  intro s hd hs
  have hx := h { s with ndepth := s.ndepth + 1 } (by simp only [hd]) hs
  have hF := hf s.strm { s with ndepth := s.ndepth + 1 } .start
  unfold nestedUnwind
  rcases hr : x { s with ndepth := s.ndepth + 1 } with ⟨a | e | _ | _, s'⟩
  · have hk := hx.2 _ _ hr
    simp only
    split
    · omega
    · exact ⟨nofun, fun a' s'' e => by cases e; exact ⟨by simp only; omega, (hx.2 _ _ hr).2⟩⟩
  · rw [hr] at hF
    have := hF.2.2
    simp only
    split
    · simp_all
    · exact ⟨nofun, nofun⟩
  · rw [hr] at hx; exact absurd rfl hx.1
  · rw [hr] at hF
    have := hF.2.1
    simp only at this ⊢
    split
    · omega
    · exact ⟨nofun, nofun⟩

section

variable {U : AnyUser W P τ ε CE} {view : W → Option (Item P)} {cc : W → Classifier}

/-- What is seen. -/
def Ctx (view : W → Option (Item P)) (cc : W → Classifier) (v : Option (Item P)) (c : Classifier) (w : W) : Prop :=
  view w = v ∧ cc w = c

/-- A character that ends nests is next. -/
def AtEnd (view : W → Option (Item P)) (cc : W → Classifier) (w : W) : Prop :=
  ∃ it, view w = some it ∧ (cc w).isNestEnd it.ch = true

/-- If a character is next, it ends nests. -/
def NestOver (view : W → Option (Item P)) (cc : W → Classifier) (w : W) : Prop :=
  ∀ it, view w = some it → (cc w).isNestEnd it.ch = true

theorem Safe.ctx {pre : W → Prop} {x : Act (St W Unit) (Err P CE) A} {post : A → W → Prop}
    (h : ∀ v c, Safe d (fun w => pre w ∧ Ctx view cc v c w) x post) : Safe d pre x post :=
  fun s hd hs => h _ _ s hd ⟨hs, rfl, rfl⟩

theorem Safe.any {x : Act (St W Unit) (Err P CE) A} {post : A → W → Prop}
    (h : ∀ v c, Safe d (Ctx view cc v c) x post) {pre : W → Prop} : Safe d pre x post :=
  fun s hd _ => h _ _ s hd ⟨rfl, rfl⟩

/-- Any function. -/
theorem safe_code {g : E → Err P CE} {f : W → Outcome E A × W} (h : ∀ w, (f w).1 ≠ .panic) {pre : W → Prop} :
    Safe d pre (ofUserCode g f) fun _ _ => True := .code fun w _ => ⟨h w, fun _ _ _ => trivial⟩

variable (O : U.Orderly view cc) (C : U.Calm) {v : Option (Item P)} {c : Classifier}

include O C

theorem safe_peek : Safe d (Ctx view cc v c) (ofUserFn (P := P) (CE := CE) U.peek) fun o w => Ctx view cc v c w ∧ o = v :=
  .code fun w hw => ⟨C.peek w, fun o w' e => by
    obtain ⟨h1, h2, h3⟩ := O.peek w o w' e
    exact ⟨⟨h2.trans hw.1, h3.trans hw.2⟩, h1.trans hw.1⟩⟩

theorem safe_ask (q : Ask) (ch : Char) :
    Safe d (Ctx view cc v c) (ofUserFn (P := P) (CE := CE) (U.ask q ch)) fun b w => Ctx view cc v c w ∧ b = q.of c ch :=
  .code fun w hw => ⟨C.ask q ch w, fun o w' e => by
    obtain ⟨h1, h2, h3⟩ := O.ask q ch w o w' e
    exact ⟨⟨h2.trans hw.1, h3.trans hw.2⟩, by rw [h1, hw.2]⟩⟩

theorem safe_next : Safe d (Ctx view cc v c) (ofUserFn (P := P) (CE := CE) U.next) fun o w => cc w = c ∧ o = v :=
  .code fun w hw => ⟨C.next w, fun o w' e => by
    obtain ⟨h1, h2⟩ := O.next w o w' e
    exact ⟨h2.trans hw.2, h1.trans hw.1⟩⟩

omit O in
theorem safe_next' {pre : W → Prop} : Safe d pre (ofUserFn (P := P) (CE := CE) U.next) fun _ _ => True := safe_code C.next

omit O in
theorem safe_nextAccum {pre : W → Prop} : Safe d pre (ofUserAlloc (P := P) (CE := CE) U.nextAccum) fun _ _ => True :=
  safe_code C.nextAccum

theorem safe_concatAccum (t : τ) : Safe d (Ctx view cc v c) (U.concatAccum t) fun _ w => Ctx view cc v c w := by
  refine Safe.bind (mid := fun _ => Ctx view cc v c) (.code fun w hw => ⟨C.accumDone w, fun o w' e => ?_⟩) fun a =>
    .code fun w hw => ⟨C.concat t a w, fun o w' e => ?_⟩
  · obtain ⟨h1, h2⟩ := O.accumDone w o w' e
    exact ⟨h1.trans hw.1, h2.trans hw.2⟩
  · obtain ⟨h1, h2⟩ := O.concat t a w o w' e
    exact ⟨h1.trans hw.1, h2.trans hw.2⟩

/-- A question: its answer is known. -/
theorem Safe.asked {q : Ask} {ch : Char} {f : Bool → Act (St W Unit) (Err P CE) B} {post : B → W → Prop}
    (h : ∀ b, b = q.of c ch → Safe d (Ctx view cc v c) (f b) post) :
    Safe d (Ctx view cc v c) (ofUserFn (U.ask q ch) >>= f) post :=
  (safe_ask O C q ch).bind fun b => .know (fun _ h => h.2) fun hb => (h b hb).mono (fun _ h => h.1) fun _ _ h => h

theorem Safe.peeked {f : Option (Item P) → Act (St W Unit) (Err P CE) B} {post : B → W → Prop}
    (h : Safe d (Ctx view cc v c) (f v) post) :
    Safe d (Ctx view cc v c) (ofUserFn U.peek >>= f) post :=
  (safe_peek O C).bind fun b => .know (fun _ h => h.2) fun hb => by subst hb; exact h.mono (fun _ h => h.1) fun _ _ h => h

/-- What it answers about the character where a text may stop. -/
theorem safe_stops (md : Mode) (k : Nat) (ch : Char) : Safe d (Ctx view cc v c) (U.stops md k ch)
    fun b w => Ctx view cc v c w ∧ (b = true → k = 0 ∧ (md = .operands → c.isNestEnd ch = true)) := by
  refine .ite (fun hk => ?_) fun _ => .pure fun _ h => ⟨h, nofun⟩
  cases md with
  | base => exact (safe_ask O C _ _).mono (fun _ h => h) fun _ _ h => ⟨h.1, fun _ => ⟨hk, nofun⟩⟩
  | operator =>
    refine .asked O C fun b _ => .ite (fun _ => .pure fun _ h => ⟨h, fun _ => ⟨hk, nofun⟩⟩) fun _ =>
      .asked O C fun b _ => .ite (fun _ => .pure fun _ h => ⟨h, fun _ => ⟨hk, nofun⟩⟩) fun _ => ?_
    exact (safe_ask O C _ _).mono (fun _ h => h) fun _ _ h => ⟨h.1, fun _ => ⟨hk, nofun⟩⟩
  | operands => exact (safe_ask O C _ _).mono (fun _ h => h) fun b _ h => ⟨h.1, fun hb => ⟨hk, fun _ => h.2.symm.trans hb⟩⟩

theorem safe_checkEndChar (it : Item P) (hit : c.isNestEnd it.ch = true) :
    Safe d (Ctx view cc (some it) c) U.checkEndChar fun _ w => Ctx view cc (some it) c w ∧ 0 < d := by
  refine .peeked O C ?_
  refine Safe.bind (mid := fun b w => Ctx view cc (some it) c w ∧ b = some true) ?_ fun b => .know (fun _ h => h.2) fun hb => ?_
  · exact .asked O C fun b hb => .pure fun _ h => ⟨h, by rw [hb]; exact congrArg _ hit⟩
  refine (Safe.assert (by rw [hb]; rfl)).bind fun _ => Safe.depth.bind fun a => .know (fun _ h => h.2) fun ha => ?_
  refine .ite (fun hd => .pure fun _ h => ⟨h.1.1, by omega⟩) fun _ => ?_
  refine ((safe_next O C).mono (fun _ h => h.1.1) fun _ _ h => h).bind fun o => .know (fun _ h => h.2) fun ho => ?_
  subst ho
  exact .throw

theorem safe_finishText (t : τ) (k : Nat) {pre : W → Prop} (h : ∀ w, pre w → Ctx view cc v c w) :
    Safe d pre (U.finishText t k) fun _ w => Ctx view cc v c w :=
  .ite (fun _ => (safe_concatAccum O C t).mono h fun _ _ h => h) fun _ => .throw

theorem safe_skipWhitespace (n : Nat) {pre : W → Prop} : Safe d pre (U.skipWhitespace n) fun _ _ => True := by
  induction n generalizing pre with
  | zero => exact .fuel
  | succ n ih =>
    refine .any (view := view) (cc := cc) fun v c => .peeked O C ?_
    cases v with
    | none => exact .pure fun _ _ => trivial
    | some it =>
      exact .asked O C fun b _ => .ite (fun _ => (safe_next' C).bind fun _ => ih) fun _ => .pure fun _ _ => trivial

theorem safe_parseTextLoop (md : Mode) (n : Nat) : ∀ t k {pre : W → Prop}, Safe d pre (U.parseTextLoop md n t k)
    fun _ w => md = .operands → NestOver view cc w := by
  induction n with
  | zero => exact fun _ _ _ => .fuel
  | succ n ih =>
    intro t k pre
    refine .any (view := view) (cc := cc) fun v c => .peeked O C ?_
    have next : ∀ t k {pre : W → Prop}, Safe d pre (ofUserAlloc U.nextAccum >>= fun _ => U.parseTextLoop md n t k)
        fun _ w => md = .operands → NestOver view cc w := fun t k _ => (safe_nextAccum C).bind fun _ => ih t k
    cases v with
    | none =>
      exact (safe_finishText O C t k fun _ h => h).mono (fun _ h => h) fun _ w h _ it hit => by rw [h.1] at hit; cases hit
    | some it =>
      have over : ∀ w, c.isNestEnd it.ch = true → Ctx view cc (some it) c w → NestOver view cc w := fun w hc h it' hit => by
        rw [h.1] at hit
        cases hit
        rw [h.2]
        exact hc
      refine (safe_stops O C md k it.ch).bind fun b => .ite (fun hb => ?_) fun _ => ?_
      · exact .know (fun _ h => h.2 hb) fun hc => (safe_finishText O C t k fun _ h => h.1).mono (fun _ h => h) fun _ w h hm =>
          over w (hc.2 hm) h
      refine Safe.mono (pre := Ctx view cc (some it) c) ?_ (fun _ h => h.1) fun _ _ h => h
      refine .asked O C fun _ _ => .ite (fun _ => ?_) fun _ => .asked O C fun _ _ => .ite (fun _ => next _ _) fun _ =>
        .asked O C fun _ he => .ite (fun hb => ?_) fun _ => next _ _
      · exact (safe_concatAccum O C t).bind fun t => (safe_next' C).bind fun _ => (safe_nextAccum C).bind fun _ => ih t k
      · have hc : c.isNestEnd it.ch = true := he.symm.trans hb
        exact .ite (fun _ => next _ _) fun _ => (safe_checkEndChar O C it hc).bind fun _ =>
          (safe_finishText O C t k fun _ h => h.1).mono (fun _ h => h) fun _ w h _ => over w hc h

theorem safe_parseText (n : Nat) (md : Mode) {pre : W → Prop} :
    Safe d pre (U.parseText n md) fun _ w => md = .operands → NestOver view cc w :=
  (safe_code C.emptyText).bind fun t => safe_parseTextLoop O C md n t 0

theorem safe_nestEnd {pre : W → Prop} (hp : ∀ w, pre w → NestOver view cc w) : Safe d pre U.nestEnd fun _ _ => True := by
  refine .ctx (view := view) (cc := cc) fun v c => .know (q := ∀ it, v = some it → c.isNestEnd it.ch = true) (fun w h it hv => ?_) fun hq => ?_
  · have := hp w h.1 it (h.2.1.trans hv)
    rwa [h.2.2] at this
  refine ((safe_next O C).mono (fun _ h => h.2) fun _ _ h => h).bind fun o => .know (fun _ h => h.2) fun ho => ?_
  subst ho
  cases o with
  | none => exact .throw
  | some it =>
    refine .ctx (view := view) (cc := cc) fun v c' => .know (q := c' = c) (fun w h => h.2.2.symm.trans h.1.1) fun hc => ?_
    subst hc
    refine Safe.mono (pre := Ctx view cc v c') (.asked O C fun b hb => ?_) (fun _ h => h.2) fun _ _ h => h
    exact (Safe.assert (hb.trans (hq it rfl))).mono (fun _ h => h) fun _ _ _ => trivial

theorem safe_skipSeparator {pre : W → Prop} : Safe d pre U.skipSeparator fun _ _ => True := by
  refine .any (view := view) (cc := cc) fun v c => .peeked O C ?_
  cases v with
  | none => exact .pure fun _ _ => trivial
  | some it =>
    exact .asked O C fun b _ => .ite (fun _ => (safe_next' C).bind fun _ => .pure fun _ _ => trivial) fun _ => .pure fun _ _ => trivial

/-- No character that ends nests is skipped. -/
theorem safe_skipSeparator_end : Safe d (AtEnd view cc) U.skipSeparator fun _ w => AtEnd view cc w := by
  refine .ctx (view := view) (cc := cc) fun v c => .know (q := ∃ it, v = some it ∧ c.isNestEnd it.ch = true ∧ c.isWhitespace it.ch = false)
    (fun w h => ?_) fun ⟨it, hv, he, hw⟩ => ?_
  · obtain ⟨⟨it, hi, he⟩, h1, h2⟩ := h
    refine ⟨it, h1.symm.trans hi, h2 ▸ he, ?_⟩
    rw [← h2]
    refine Bool.eq_false_iff.2 fun hw => ?_
    rw [O.disjoint w _ hw] at he
    cases he
  subst hv
  refine Safe.mono (pre := Ctx view cc (some it) c) (.peeked O C (.asked O C fun b hb => .ite (fun h => ?_) fun _ => ?_))
    (fun _ h => h.2) fun _ _ h => h
  · rw [hb] at h
    exact absurd h (by simp only [Ask.of, hw]; exact nofun)
  · exact .pure fun w h => ⟨it, h.1, by rw [h.2]; exact he⟩

theorem safe_skipLeading (n : Nat) (md : Mode) {pre : W → Prop} : Safe d pre (U.skipLeading n md) fun _ _ => True :=
  .ite (fun _ => safe_skipWhitespace O C n) fun _ => .pure fun _ _ => trivial

theorem safe_parse (n : Nat) :
    (∀ d md {pre : W → Prop}, Safe d pre (U.parseNext n md) fun o w => o = none → 0 < d → AtEnd view cc w) ∧
    (∀ d it c, c.isNestStart it.ch = true → Safe (d + 1) (Ctx view cc (some it) c) (U.parseNested n) fun _ _ => True) ∧
    ∀ d md acc last {pre : W → Prop}, Safe (d + 1) pre (U.parseAll n md acc last) fun _ w => AtEnd view cc w := by
  induction n with
  | zero => exact ⟨fun _ _ _ => .fuel, fun _ _ _ _ => .fuel, fun _ _ _ _ _ => .fuel⟩
  | succ n ih =>
    obtain ⟨ihn, ihd, iha⟩ := ih
    have over : ∀ w, AtEnd view cc w → NestOver view cc w := fun w ⟨it, h, he⟩ it' h' => by
      rw [h] at h'
      cases h'
      exact he
    refine ⟨fun d md pre => ?_, fun d it c hc => ?_, fun d md acc last pre => ?_⟩
    · unfold parseNext
      refine (safe_skipLeading O C n md).bind fun _ => .any (view := view) (cc := cc) fun v c => .peeked O C ?_
      cases v with
      | none =>
        exact Safe.depth.bind fun a => .know (fun _ h => h.2) fun ha =>
          .ite (fun h => .pure fun _ _ _ hd => by omega) fun _ => .throw
      | some it =>
        refine .asked O C fun b hb => .ite (fun h => ?_) fun _ => .asked O C fun b hb => .ite (fun h => ?_) fun _ => ?_
        · refine (Safe.nested (fun w₀ => (fine_parse U w₀ n).2.1) (ihd d it c (hb.symm.trans h))).bind fun o => ?_
          cases o with
          | none => exact ihn d md
          | some x => exact .pure fun _ _ => nofun
        · exact (safe_checkEndChar O C it (hb.symm.trans h)).bind fun _ => .pure fun w hw _ _ =>
            ⟨it, hw.1.1, by rw [hw.1.2]; exact hb.symm.trans h⟩
        · exact (safe_parseText O C n md).bind fun t => .pure fun _ _ => nofun
    · unfold parseNested
      refine (safe_next O C).bind fun o => .know (fun _ h => h.2) fun ho => ?_
      subst ho
      refine Safe.bind (mid := fun b w => b = some true) ?_ fun b => .know (fun _ h => h) fun hb => ?_
      · refine .ctx (view := view) (cc := cc) fun v c' => .know (q := c' = c) (fun w h => h.2.2.symm.trans h.1.1) fun h => ?_
        subst h
        exact Safe.mono (pre := Ctx view cc v c') (.asked O C fun b hb => .pure fun _ _ => by rw [hb]; exact congrArg _ hc)
          (fun _ h => h.2) fun _ _ h => h
      refine (Safe.assert (by rw [hb]; rfl)).bind fun _ => (ihn (d + 1) .operator).bind fun o => ?_
      cases o with
      | none =>
        refine ((safe_skipSeparator_end O C).mono (fun _ h => h rfl (Nat.succ_pos d)) fun _ _ h => h).bind fun _ => ?_
        exact (safe_nestEnd O C over).bind fun _ => .pure fun _ _ => trivial
      | some x =>
        refine (safe_skipSeparator O C).bind fun _ => ?_
        have hl : ∀ {pre : W → Prop}, Safe (d + 1) pre (ofUserFn (P := P) (CE := CE) (U.lookup x)) fun c _ => ∃ w', (U.lookup x w').1 = .ok c :=
          .code fun w _ => ⟨C.lookup x w, fun c w' e => ⟨w, by rw [e]⟩⟩
        refine hl.bind fun o => .know (fun _ h => h) fun ⟨w', ho⟩ => ?_
        rcases o with _ | (f | f)
        · exact (iha d _ _ _).bind fun _ => (safe_nestEnd O C over).bind fun _ => (safe_code (C.newDatum _)).bind fun _ =>
            (safe_code (C.newDatum _)).bind fun _ => .pure fun _ _ => trivial
        · exact (safe_parseText O C n _).bind fun t => (safe_nestEnd O C fun _ h => h rfl).bind fun _ =>
            safe_code (C.operative x w' f ho t)
        · exact (iha d _ _ _).bind fun l => (safe_nestEnd O C over).bind fun _ => safe_code (C.applicative x w' f ho l)
    · unfold parseAll
      refine (ihn (d + 1) md).bind fun o => ?_
      cases o with
      | none => exact .pure fun _ h => h rfl (Nat.succ_pos d)
      | some x =>
        exact (safe_code (C.newDatum _)).bind fun _ => (safe_code (C.newDatum _)).bind fun _ => (safe_code (C.getMut _)).bind fun b =>
          .ite (fun _ => iha d _ _ _) fun _ => .throw

end

end AnyUser

end Kul
