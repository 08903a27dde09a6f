import Verif.Proof.Live
import Verif.Proof.GramPlain
import Verif.Props.Streams

/-!
# C54: reading from an iterator on demand

`liveCharEnv M T cc al lookup` is a parser over `CharIterSourceStream`, whose characters come
from any iterator `M`, which may never end. The text type `T`, the classifier, the allocator
and the bindings are arbitrary. `pulled` is the number of characters taken out of the iterator.
-/

namespace Kul

section

variable {I τ ε α CE : Type} {M : Machine I Char} {T : TextType PosStrish τ α} {cc : Classifier}
  {al : AllocOps τ ε α} {lookup : Datum τ ε → Option (Combiner τ ε α CharPos CE)}

/-- C54, an iterator that ends. If the iterator gives the characters `l` and from then on only
`None`, then the possible histories of calls are those of the parser over the list `l`, with the
same results and the same use of memory. -/
theorem C54_iterator_that_ends {i j : I} {l : Str} (h : Gives M i l j) (he : Ended M j) (a : α) :
    (∀ {os s'}, (liveCharEnv M T cc al lookup).Calls (St.init (.new i) a) os s' →
      ∃ t', (charEnv T cc al lookup).Calls (St.init (.new l) a) os t' ∧ t'.alloc = s'.alloc) ∧
    (∀ {os t'}, (charEnv T cc al lookup).Calls (St.init (.new l) a) os t' →
      ∃ s', (liveCharEnv M T cc al lookup).Calls (St.init (.new i) a) os s' ∧ s'.alloc = t'.alloc) := by
  have hr : LiveRel (Ahead M (EndsWith M) (Ended M)) (.new i) (.new l) := by
    have := LiveRel.new (W := EndsWith M) (Z := Ended M) (w := []) h ⟨he, rfl⟩
    rwa [List.append_nil] at this
  constructor
  · intro os s' hc
    obtain ⟨t', h1, h2⟩ := (live_tracks' (T := T) Ended.track_peek' Ended.track_next').calls
      (E := charEnv T cc al lookup) hc trivial (s := St.init (.new l) a) ⟨hr, rfl, rfl⟩
    exact ⟨t', h1, h2.2.1⟩
  · intro os t' hc
    obtain ⟨s', h1, h2⟩ := (live_tracks (T := T) Ended.track_peek Ended.track_next).calls
      (E := charEnv T cc al lookup) hc trivial (s := St.init (.new i) a) ⟨hr, rfl, rfl⟩
    exact ⟨s', h1, h2.2.1⟩

/-- C54, results come as soon as their characters. Suppose the iterator gives the characters `l`
first, no matter what then. If a history of calls on the list `l` does not come to the end of the
list, then the same is a history of calls on the iterator; and the characters taken out of the
iterator are those consumed and at most one more. -/
theorem C54_as_soon_as_given {i j : I} {l : Str} (h : Gives M i l j) (a : α) {os t'}
    (hc : (charEnv T cc al lookup).Calls (St.init (.new l) a) os t') (ht : t'.strm.peIter ≠ []) :
    ∃ s', (liveCharEnv M T cc al lookup).Calls (St.init (.new i) a) os s' ∧ s'.alloc = t'.alloc ∧
      s'.strm.pulled + t'.strm.peIter.length = l.length + s'.strm.held ∧ s'.strm.held ≤ 1 := by
  have hr : LiveRel (Ahead M (First j l.length) (fun _ => False)) (.new i) (.new l) := by
    have := LiveRel.new (W := First j l.length) (Z := fun _ => False) (w := []) h ⟨rfl, rfl, rfl⟩
    rwa [List.append_nil] at this
  obtain ⟨s', h1, ⟨_, h2⟩, h3, _⟩ := (live_tracks (T := T) First.track_peek First.track_next).calls
    (E := charEnv T cc al lookup) hc ht (s := St.init (.new i) a) ⟨hr, rfl, rfl⟩
  refine ⟨s', h1, h3, ?_⟩
  unfold LiveChar.pulled LiveChar.held
  unfold Ahead at h2
  rcases hp : s'.strm.peIter.peeked with _ | _ | x <;> rw [hp] at h2
  · obtain ⟨l', _, w, _, h4, _, h5, rfl⟩ := h2
    rw [h4, List.append_nil, itemsFrom_length]
    dsimp only
    omega
  · exact h2.2.elim
  · obtain ⟨_, h6, l', _, w, _, h4, _, h5, rfl⟩ := h2
    rw [h6, h4, List.append_nil, List.length_cons, itemsFrom_length]
    dsimp only
    omega

/-- C54, only what has been taken matters. Suppose that in a history of calls exactly the
characters `l` were taken out of the iterator, and that it was not at its end then. Then any
iterator that gives `l` first, no matter what then, gives the same history, and no more of it
are taken. -/
theorem C54_only_taken_matter {I' : Type} {M' : Machine I' Char} {i j : I} {i' j' : I'} {l : Str}
    (h : Gives M i l j) (hj : (M j).1 ≠ none) (h' : Gives M' i' l j') (a : α) {os s}
    (hc : (liveCharEnv M T cc al lookup).Calls (St.init (.new i) a) os s)
    (hp : s.strm.pulled ≤ l.length) :
    ∃ s', (liveCharEnv M' T cc al lookup).Calls (St.init (.new i') a) os s' ∧ s'.alloc = s.alloc ∧
      s'.strm.pulled = s.strm.pulled := by
  obtain ⟨s', h1, ⟨_, h2⟩, h3, _⟩ := (twin_tracks (T := T) (M := M') (J := j') hj (N := l.length)).calls
    (E := charEnv T cc al lookup) hc hp (s := St.init (.new i') a)
    ⟨⟨rfl, rfl, by simp [LiveChar.new, St.init], rfl, l, h', h, by simp [LiveChar.new, St.init]⟩, rfl, rfl⟩
  exact ⟨s', h1, h3, h2.2.2.1⟩

/-- C54, an iterator that never ends. After any history of calls the characters `l` taken out of
the iterator are its first ones, and for every `w` the list `l ++ w` gives the same results, with
`w` and at most the last character of `l` unread. -/
theorem C54_never_ending {i : I} (he : Endless M i) (a : α) {os s}
    (hc : (liveCharEnv M T cc al lookup).Calls (St.init (.new i) a) os s) :
    ∃ l j, Gives M i l j ∧ l.length = s.strm.pulled ∧ ∀ w : Str, ∃ t,
      (charEnv T cc al lookup).Calls (St.init (.new (l ++ w)) a) os t ∧ t.alloc = s.alloc ∧
      ∃ u, u.length = s.strm.held ∧ t.strm.peIter = u ++ (charItems (l ++ w)).drop l.length := by
  obtain ⟨l, j, h1, h2, h3⟩ := he.gives (n := s.strm.pulled)
  refine ⟨l, j, h1, h2, fun w => ?_⟩
  have hr : LiveRel (Ahead M (Beyond M j l.length (numberedFrom l.length w)) (fun _ => False)) (.new i)
      (.new (l ++ w)) := LiveRel.new h1 ⟨rfl, rfl, rfl, h3.next.1⟩
  have hd : (charItems (l ++ w)).drop l.length = numberedFrom l.length w := by
    rw [charItems, itemsFrom_append, advs_charPos, Nat.zero_add,
      List.drop_left' (by rw [itemsFrom_length])]
  obtain ⟨t, h4, ⟨_, h5⟩, h6, _⟩ := (live_tracks' (T := T) Beyond.track_peek Beyond.track_next).calls
    (E := charEnv T cc al lookup) hc (Nat.le_of_eq h2.symm) (s := St.init (.new (l ++ w)) a)
    ⟨hr, rfl, rfl⟩
  refine ⟨t, h4, h6, ?_⟩
  rw [hd]
  unfold Ahead at h5
  have h2' : l.length = s.strm.peIter.iter.2 := h2
  rcases hp : s.strm.peIter.peeked with _ | _ | x <;> rw [hp] at h5
  · obtain ⟨l', _, _, _, h7, _, h8, rfl, _⟩ := h5
    obtain rfl : l' = [] := List.length_eq_zero_iff.mp (by omega)
    exact ⟨[], by simp [LiveChar.held, hp], h7⟩
  · exact h5.2.elim
  · obtain ⟨_, h9, l', _, _, _, h7, _, h8, rfl, _⟩ := h5
    obtain rfl : l' = [] := List.length_eq_zero_iff.mp (by omega)
    exact ⟨[x], by simp [LiveChar.held, hp], by rw [h9, h7]; rfl⟩

/-- C54, nests are returned promptly. When a call returns a datum other than a text, no
character that has been taken out of the iterator is unread. -/
theorem C54_nothing_peeked_after_nest {s d s'}
    (h : (liveCharEnv M T cc al lookup).Call s (.ok (some d)) s') (hd : ∀ x, d ≠ .text x) :
    s'.strm.held = 0 := by
  obtain ⟨⟨⟨i, pk⟩, ac⟩, c, hq⟩ := h.ends hd
  rw [← show _ = s'.strm from congrArg Prod.snd hq]
  simp only [liveCharEnv, liveCharOps, LiveChar.next, Peekable.next, LiveChar.held]
  cases pk <;> rfl

/-- C54, `None` is final. Once a call has returned `None`, every later call returns `None` and
does not even ask the iterator, also if the iterator would give more. -/
theorem C54_none_is_final {s s' : St (LiveChar I) α} (hd : s.ndepth = 0)
    (h : (liveCharEnv M T cc al lookup).Call s (.ok none) s') {os t}
    (hc : (liveCharEnv M T cc al lookup).Calls s' os t) : (∀ o ∈ os, o = .ok none) ∧ t = s' := by
  obtain ⟨n, h1, _⟩ := h
  obtain ⟨⟨⟨i, pk⟩, ac⟩, h2, h3⟩ := Env.none_peeked n h1 hd
  have h4 : s'.strm.peIter.peeked = some none := by
    cases pk with
    | none =>
      simp only [liveCharEnv, liveCharOps, LiveChar.peek, Peekable.peek] at h2
      obtain ⟨h2, h5⟩ := Prod.mk.inj h2
      rw [← h5]
      simp only [Outcome.ok.injEq] at h2
      rw [h2]
    | some v =>
      simp only [liveCharEnv, liveCharOps, LiveChar.peek, Peekable.peek] at h2
      obtain ⟨h2, h5⟩ := Prod.mk.inj h2
      rw [← h5]
      simp only [Outcome.ok.injEq] at h2
      rw [h2]
  have step : ∀ {o t}, (liveCharEnv M T cc al lookup).Call s' o t → o = .ok none ∧ t = s' := by
    rintro o t ⟨m, h6, h7⟩
    obtain ⟨⟨⟨i, pk⟩, ac⟩, a, d⟩ := s'
    obtain rfl : pk = some none := h4
    obtain rfl : d = 0 := h3
    cases m with
    | zero => cases h6; exact (h7 rfl).elim
    | succ m => cases h6; exact ⟨rfl, rfl⟩
  clear h1 h2 h3 h4
  induction hc with
  | nil => exact ⟨by simp, rfl⟩
  | cons h _ ih =>
    obtain ⟨rfl, rfl⟩ := step h
    obtain ⟨h8, h9⟩ := ih step
    refine ⟨?_, h9⟩
    intro o ho
    rcases List.mem_cons.mp ho with rfl | ho
    · rfl
    · exact h8 o ho

/-- A parser without bindings, at the start of nests written one after the other, returns their
meanings, one for each call, and is then just behind them. -/
theorem Conf.calls_nests {σ P : Type} {E : Env σ P τ ε α CE} {RS : σ → Seq P → Prop}
    {X : TextSem P τ α} (C : Conf E RS X) (D : E.cc.Disjoint) (hb : ∀ d, E.lookup d = none)
    (A : E.alloc.Reliable) (hF : ¬ X.F) {rs : List (List (Item P))}
    {ds : List (Datum (List (Item P)) ε)} (h : List.Forall₂ (fun r d => Gram E.cc .nest r [d]) rs ds)
    (rest : List (Item P)) : ∀ {s}, AtItems RS s (rs.flatten ++ rest) → ∀ a, ∃ xs s' a',
      E.Calls ⟨s, a, 0⟩ (xs.map fun x => .ok (some x)) ⟨s', a', 0⟩ ∧ AtItems RS s' rest ∧
      List.Forall₂ (DatumRel X.RT Eq) xs ds := by
  induction h with
  | nil => exact fun hs a => ⟨[], _, a, .nil, hs, .nil⟩
  | @cons r d rs ds hd _ ih =>
    intro s hs a
    rw [List.flatten_cons, List.append_assoc] at hs
    have S := C.sim_plain hb A hF
    obtain ⟨x, s', r', a', h1, h2, _⟩ := C.call hs a
    obtain ⟨p, hp, hq⟩ := hs
    rcases S.call (t := ⟨⟨p, r ++ (rs.flatten ++ rest)⟩, (), 0⟩)
      ⟨⟨_, _, hp, rfl, forall₂_itemRel_eq.mpr rfl, forall₂_itemRel_eq.mpr rfl⟩, trivial, rfl⟩ h1 with
      ⟨o, t, h3, h4, h5⟩ | ⟨hf, _⟩
    · obtain ⟨y, q, r₂, b, rfl, rfl, ⟨p₂, h6, h7⟩, h8⟩ := (seqConf _ _ _).call_inv ⟨p, rfl, hq⟩ h3
      have h9 : Eval E.cc (seqSem P Unit) (freeAlloc _ ε Unit) (noBindings _ ε Unit P CE) (.next .base 0)
          (r ++ (rs.flatten ++ rest)) () (.ok [d]) (rs.flatten ++ rest) () := by
        have hR := Gram.reads (lookup := noBindings _ ε Unit P CE) (fun _ => rfl) () hd
        obtain ⟨it, r1, g1, g2, _⟩ := start_not_ws D hR (rs.flatten ++ rest)
        refine .next_nest (it := it) (r1 := r1) g1 g2 ?_ (by simp)
        rw [← g1]
        exact hR.complete D (X := seqSem P Unit) (fun _ => rfl) freeAlloc_free _ 1 (by simp)
      obtain ⟨rfl, rfl, rfl⟩ := h8.det (seqSem_func P Unit) h9
      generalize optOut x = ox at h1 h4 h5
      change CallRel Eq Eq (DatumRel (SameText X (seqSem P Unit) (ItemRel Eq Eq)) Eq) ox (.ok (some d)) at h4
      rw [sameText_seq] at h4
      cases h4 with
      | @datum z _ hz =>
      obtain ⟨⟨⟨p₃, r₃⟩, q₂, g1, rfl, g2, g3⟩, _⟩ := h5 (by simp)
      cases forall₂_itemRel_eq.mp g2
      cases forall₂_itemRel_eq.mp g3
      cases h6
      obtain ⟨xs, s₂, a₂, g4, g5, g6⟩ := ih ⟨p₂, g1, h7⟩ a'
      exact ⟨z :: xs, s₂, a₂, .cons h1 g4, g5, .cons hz g6⟩
    · exact hf.elim

theorem forall₂_mem_left {A B : Type} {R : A → B → Prop} {l : List A} {m : List B}
    (h : List.Forall₂ R l m) {a : A} (ha : a ∈ l) : ∃ b, b ∈ m ∧ R a b := by
  induction h with
  | nil => cases ha
  | cons h _ ih =>
    rcases List.mem_cons.mp ha with rfl | ha
    · exact ⟨_, List.mem_cons_self, h⟩
    · obtain ⟨b, h1, h2⟩ := ih ha
      exact ⟨b, List.mem_cons_of_mem _ h1, h2⟩

theorem forall₂_mem_right {A B : Type} {R : A → B → Prop} {l : List A} {m : List B}
    (h : List.Forall₂ R l m) {b : B} (hb : b ∈ m) : ∃ a, a ∈ l ∧ R a b := by
  obtain ⟨a, h1, h2⟩ := forall₂_mem_left h.flip hb
  exact ⟨a, h1, h2⟩

/-- The characters of a list, and then `x` for ever. -/
def thenForever : Machine Str Char
  | [] => (some 'x', [])
  | c :: l => (some c, l)

theorem thenForever_gives (l w : Str) : Gives thenForever (l ++ w) l w := by
  induction l with
  | nil => exact .nil
  | cons c l ih => exact .cons rfl ih

theorem Env.Calls.last {σ P : Type} {E : Env σ P τ ε α CE} {t os t'} (h : E.Calls t os t') :
    (os = [] ∧ t = t') ∨ ∃ o t₁, o ∈ os ∧ E.Call t₁ o t' := by
  induction h with
  | nil => exact Or.inl ⟨rfl, rfl⟩
  | @cons _ o _ os _ h _ ih =>
    rcases ih with ⟨_, rfl⟩ | ⟨o', t₁, h1, h2⟩
    · exact Or.inr ⟨o, _, List.mem_cons_self, h⟩
    · exact Or.inr ⟨o', t₁, List.mem_cons_of_mem _ h1, h2⟩

/-- C54, nests on demand. Suppose the characters `v` that the iterator gives first are nests
written one after the other, and let `ds` be their meanings. Then as many calls of `next`, of a
parser without bindings and with memory that does not run out, return these meanings one after
the other, and take no more out of the iterator than `v`: whatever it would do when asked for
more (end, go on, or wait) plays no role. -/
theorem C54_nests_on_demand {RA : α → α → Prop} {F : Prop} (K : TextConf T PosStrish.Means RA F) (hF : ¬ F)
    (D : cc.Disjoint) (hb : ∀ d, lookup d = none) (A : al.Reliable) {i j : I} {v : Str}
    (h : Gives M i v j) {rs : List (List (Item CharPos))} {ds : List (Datum (List (Item CharPos)) ε)}
    (hv : charItems v = rs.flatten) (hr : List.Forall₂ (fun r d => Gram cc .nest r [d]) rs ds) (a : α) :
    ∃ xs s', (liveCharEnv M T cc al lookup).Calls (St.init (.new i) a) (xs.map fun x => .ok (some x)) s' ∧
      List.Forall₂ (DatumRel (T.sem PosStrish.Means RA F).RT Eq) xs ds ∧ s'.strm.pulled = v.length := by
  have e : charItems (v ++ ['x']) = rs.flatten ++ [⟨'x', ⟨v.length⟩⟩] := by
    rw [← hv, charItems, itemsFrom_append, advs_charPos, Nat.zero_add]
    rfl
  obtain ⟨xs, t, a', h1, ⟨p, h2, _⟩, h3⟩ := (charEnv_conf (cc := cc) (al := al) (lookup := lookup) K).calls_nests
    D hb A hF hr [⟨'x', ⟨v.length⟩⟩] (s := .new (v ++ ['x'])) (by rw [← e]; exact AtItems.fresh (CharIter.new_means _)) a
  have h4 : t.peIter = [⟨'x', ⟨v.length⟩⟩] := by
    obtain ⟨_, _, _, _, h, _⟩ := h2
    exact h.symm
  obtain ⟨s, h5, _, h6, _⟩ := C54_as_soon_as_given (M := thenForever) (i := v ++ ['x'])
    (by have := thenForever_gives (v ++ ['x']) []; rwa [List.append_nil] at this) a h1
    (by change t.peIter ≠ []; rw [h4]; simp)
  have h7 : s.strm.held = 0 := by
    rcases h5.last with ⟨_, rfl⟩ | ⟨o, s₁, g1, g2⟩
    · rfl
    · obtain ⟨x, g3, rfl⟩ := List.mem_map.mp g1
      refine C54_nothing_peeked_after_nest g2 ?_
      rintro y rfl
      obtain ⟨d, g4, g5⟩ := forall₂_mem_left h3 g3
      cases g5
      obtain ⟨r, _, g6⟩ := forall₂_mem_right hr g4
      cases g6
  have h8 : s.strm.pulled = v.length := by
    change s.strm.pulled + t.peIter.length = _ at h6
    rw [h4, h7, List.length_append] at h6
    simpa using h6
  obtain ⟨s', h9, _, h10⟩ := C54_only_taken_matter (thenForever_gives v ['x']) (by simp [thenForever]) h a h5
    (Nat.le_of_eq h8)
  exact ⟨xs, s', h9, h3, h10.trans h8⟩

/-- The items that uses of a stream over an iterator give: at `true` with `next`, at `false` with `peek`,
whose results are left out. -/
def LiveChar.taken (M : Machine I Char) : List Bool → LiveChar I → List (Item CharPos)
  | [], _ => []
  | true :: us, it => (it.next M).1.toList ++ LiveChar.taken M us (it.next M).2
  | false :: us, it => LiveChar.taken M us (it.peek M).2

/-- C54, numbering. Whatever is peeked in between, and even if the iterator gives `None` in between and then
goes on, the characters that a stream gives are numbered one after the other from zero. -/
theorem C54_numbered (M : Machine I Char) (i : I) (us : List Bool) :
    (LiveChar.taken M us (.new i)).map (·.pos.n) = List.range (LiveChar.taken M us (.new i)).length := by
  have key : ∀ (us : List Bool) (it : LiveChar I) (n : Nat), it.pulled = n + it.held →
      (∀ x, it.peIter.peeked = some (some x) → x.pos.n = n) →
      (LiveChar.taken M us it).map (·.pos.n) = List.range' n (LiveChar.taken M us it).length := by
    intro us
    induction us with
    | nil => intro it n _ _; rfl
    | cons u us ih =>
      rintro ⟨⟨⟨i, k⟩, pk⟩, ac⟩ n h1 h2
      simp only [LiveChar.pulled, LiveChar.held] at h1
      cases u <;> rcases pk with _ | _ | x <;>
        simp only [LiveChar.taken, LiveChar.next, LiveChar.peek, Peekable.next, Peekable.peek]
      · rcases hm : M i with ⟨_ | c, i'⟩ <;> simp only [enumerated, hm]
        · exact ih _ n (by simpa [LiveChar.pulled, LiveChar.held] using h1) (by simp)
        · refine ih _ n (by simp [LiveChar.pulled, LiveChar.held] at h1 ⊢; omega) ?_
          rintro x hx
          cases hx
          simpa using h1
      · exact ih _ n (by simpa [LiveChar.pulled, LiveChar.held] using h1) (by simp)
      · exact ih _ n (by simpa [LiveChar.pulled, LiveChar.held] using h1) h2
      · rcases hm : M i with ⟨_ | c, i'⟩ <;> simp only [enumerated, hm, Option.toList]
        · exact ih _ n (by simpa [LiveChar.pulled, LiveChar.held] using h1) (by simp)
        · simp only [List.singleton_append, List.map_cons, List.length_cons, List.range'_succ]
          rw [ih _ (n + 1) (by simp [LiveChar.pulled, LiveChar.held] at h1 ⊢; omega) (by simp)]
          simp at h1
          rw [h1]
      · exact ih _ n (by simpa [LiveChar.pulled, LiveChar.held] using h1) (by simp)
      · simp only [Option.toList, List.singleton_append, List.map_cons, List.length_cons, List.range'_succ]
        rw [ih _ (n + 1) (by simp [LiveChar.pulled, LiveChar.held] at h1 ⊢; omega) (by simp), h2 x rfl]
  rw [key us (.new i) 0 rfl (by intro x hx; cases hx), List.range_eq_range']

end

/-! ## Non-vacuity -/

/-- `{a} {a} {a} …` without end. -/
def againAndAgain : Machine Nat Char := fun n =>
  (some (if n % 4 = 0 then '{' else if n % 4 = 1 then 'a' else if n % 4 = 2 then '}' else ' '), n + 1)

/-- A parser over an iterator, with heap texts. -/
abbrev liveSample {I : Type} (M : Machine I Char) :=
  liveCharEnv M (textVec Unit posStrishOps) defaultClassifier (boxAlloc _ Empty _)
    (noBindings _ Empty Unit CharPos Empty)

theorem againAndAgain_endless (i : Nat) : Endless againAndAgain i := by
  intro n
  simp [againAndAgain]

theorem Env.callsOf_calls {σ P τ ε α CE : Type} {E : Env σ P τ ε α CE} (n k : Nat) {s : St σ α}
    (hf : ∀ o ∈ (E.callsOf n k s).1, o ≠ .fuel) : E.Calls s (E.callsOf n k s).1 (E.callsOf n k s).2 := by
  induction k generalizing s with
  | zero => exact .nil
  | succ k ih =>
    simp only [Env.callsOf] at hf ⊢
    exact .cons ⟨n, rfl, hf _ (by simp)⟩ (ih (s := (E.doNext n s).2) fun o ho => hf o (by simp [ho]))

/-- The shape of a result: 0 none, 1 a text, 2 a combination without operands, 3 an error. -/
def shapeOf {P τ ε CE : Type} : Outcome (Err P CE) (Option (Datum τ ε)) → Nat
  | .ok none => 0
  | .ok (some (.text _)) => 1
  | .ok (some (.combination (.text _) .emptyList)) => 2
  | .err _ => 3
  | _ => 4

theorem Env.callsOf_shape {σ P τ ε α CE β : Type} {E : Env σ P τ ε α CE} (n k : Nat) {s : St σ α} {v : List Nat}
    (f : St σ α → β) {w : β}
    (h : (fun r : _ × St σ α => (r.1.map shapeOf, f r.2)) (E.callsOf n k s) = (v, w)) (hv : 4 ∉ v) :
    ∃ os t, E.Calls s os t ∧ os.map shapeOf = v ∧ f t = w := by
  have h1 := congrArg Prod.fst h
  have h2 := congrArg Prod.snd h
  refine ⟨_, _, Env.callsOf_calls n k ?_, h1, h2⟩
  rintro o ho rfl
  have := List.mem_map_of_mem (f := shapeOf) ho
  rw [show List.map shapeOf _ = v from h1] at this
  exact hv this

/-- C54: five calls on an endless iterator, three nests with texts between. After the last
result, a nest, exactly 11 characters have been taken out of the iterator. -/
example : ∃ os t, (liveSample againAndAgain).Calls (St.init (.new 0) ()) os t ∧
    os.map shapeOf = [2, 1, 2, 1, 2] ∧ t.strm.pulled = 11 ∧ t.strm.held = 0 := by
  obtain ⟨os, t, h1, h2, h3⟩ := Env.callsOf_shape (E := liveSample againAndAgain) 20 5
    (s := St.init (.new 0) ()) (v := [2, 1, 2, 1, 2]) (fun t => (t.strm.pulled, t.strm.held)) (w := (11, 0))
    (by decide +kernel) (by decide)
  exact ⟨os, t, h1, h2, congrArg Prod.fst h3, congrArg Prod.snd h3⟩

/-- C54: after a text, one character more has been taken than were consumed. -/
example : ∃ os t, (liveSample againAndAgain).Calls (St.init (.new 0) ()) os t ∧
    os.map shapeOf = [2, 1] ∧ t.strm.pulled = 5 ∧ t.strm.held = 1 := by
  obtain ⟨os, t, h1, h2, h3⟩ := Env.callsOf_shape (E := liveSample againAndAgain) 20 2
    (s := St.init (.new 0) ()) (v := [2, 1]) (fun t => (t.strm.pulled, t.strm.held)) (w := (5, 1))
    (by decide +kernel) (by decide)
  exact ⟨os, t, h1, h2, congrArg Prod.fst h3, congrArg Prod.snd h3⟩

/-- C54: on the list `{a} {a}` a first call does not come to the end. -/
example : ∃ o t, (charEnv (textVec Unit posStrishOps) defaultClassifier (boxAlloc _ Empty _)
    (noBindings _ Empty Unit CharPos Empty)).Calls (St.init (.new "{a} {a}".toList) ()) o t ∧
    o.map shapeOf = [2] ∧ t.strm.peIter ≠ [] ∧ ∃ j, Gives againAndAgain 0 "{a} {a}".toList j := by
  obtain ⟨os, t, h1, h2, h3⟩ := Env.callsOf_shape (E := charEnv (textVec Unit posStrishOps)
    defaultClassifier (boxAlloc _ Empty _) (noBindings _ Empty Unit CharPos Empty)) 20 1
    (s := St.init (.new "{a} {a}".toList) ()) (v := [2]) (fun t => t.strm.peIter.length) (w := 4)
    (by decide +kernel) (by decide)
  refine ⟨os, t, h1, h2, (fun h => by rw [h] at h3; cases h3), 7, ?_⟩
  exact .cons rfl (.cons rfl (.cons rfl (.cons rfl (.cons rfl (.cons rfl (.cons rfl .nil))))))

/-- An iterator that gives `a`, then `None`, and then `b` for ever. -/
def interrupted : Machine Nat Char
  | 0 => (some 'a', 1)
  | 1 => (none, 2)
  | n + 2 => (some 'b', n + 2)

/-- C54: a stream over an iterator that goes on after `None`. -/
example : LiveChar.taken interrupted [true, false, true, false, true, true] (.new 0) =
    [⟨'a', ⟨0⟩⟩, ⟨'b', ⟨1⟩⟩, ⟨'b', ⟨2⟩⟩] := by decide

/-- C54: the parse ends with the `None` of the iterator, and stays at the end. -/
example : ∃ os t, (liveSample interrupted).Calls (St.init (.new 0) ()) os t ∧
    os.map shapeOf = [1, 0, 0, 0] ∧ t.strm.pulled = 1 := by
  exact Env.callsOf_shape (E := liveSample interrupted) 20 4 (s := St.init (.new 0) ())
    (v := [1, 0, 0, 0]) (fun t => t.strm.pulled) (w := 1) (by decide +kernel) (by decide)

/-- C54: an iterator that ends. -/
example : Gives (fun l : Str => (l.head?, l.tail)) "{a".toList "{a".toList [] ∧
    Ended (fun l : Str => (l.head?, l.tail)) ([] : Str) :=
  ⟨.cons rfl (.cons rfl .nil), fun n => by induction n with
    | zero => rfl
    | succ n ih => exact ih⟩

/-- C54: `{a}{}` are two nests. -/
example : ∃ (rs : List (List (Item CharPos))) (ds : List (Datum (List (Item CharPos)) Empty)),
    charItems "{a}{}".toList = rs.flatten ∧ ds.length = 2 ∧
    List.Forall₂ (fun r d => Gram defaultClassifier .nest r [d]) rs ds := by
  refine ⟨[[⟨'{', ⟨0⟩⟩, ⟨'a', ⟨1⟩⟩, ⟨'}', ⟨2⟩⟩], [⟨'{', ⟨3⟩⟩, ⟨'}', ⟨4⟩⟩]],
    [.combination (.text [⟨'a', ⟨1⟩⟩]) (listOf []), .emptyNest], by decide, rfl, .cons ?_ (.cons ?_ .nil)⟩
  · refine Gram.combination (b := (⟨'{', ⟨0⟩⟩ : Item CharPos)) (e := (⟨'}', ⟨2⟩⟩ : Item CharPos)) (h := [(⟨'a', ⟨1⟩⟩ : Item CharPos)]) (k := true)
      (sep := []) (r := []) (by decide) (by decide) ?_ .empty .nil
    exact Gram.textHead (ws := []) (s := [(⟨'a', ⟨1⟩⟩ : Item CharPos)]) (by intro _ h; cases h) (by simp)
      (.plain (by decide) (by decide) .nil)
  · exact Gram.emptyNest (b := (⟨'{', ⟨3⟩⟩ : Item CharPos)) (e := (⟨'}', ⟨4⟩⟩ : Item CharPos)) (h := []) (by decide) (by decide)
      (.noHead (by intro _ h; cases h))

end Kul
