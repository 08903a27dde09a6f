import Verif.Props.Live
import Verif.Proof.LiveStrish

/-!
# C55: reading strings from an iterator on demand

`liveStrishEnv M k T cc al lookup` is a parser over `StrishIterSourceStream`, whose strings come
from any iterator `M`, which may never end. The text type `T`, the classifier, the allocator
and the bindings are arbitrary. `k` is a bound on how often the iterator is asked in a row while
it gives only empty strings; a history of calls (`Calls`) is one in which it was not exceeded.

To say how often and for what the iterator has been asked, it is run with a record of its answers
(`recorded M`); `C55_recorded` says that this changes nothing. `charIdx` of the stream is the
number of characters that have been consumed, and `charsIn` of a record is the number of
characters in it.
-/

namespace Kul

section

variable {I J τ ε α CE : Type} {M : Machine I Str} {k : Nat} {T : TextType PosStrish τ α} {cc : Classifier}
  {al : AllocOps τ ε α} {lookup : Datum τ ε → Option (Combiner τ ε α CharPos CE)}

theorem LiveStrish.Rel.new {Q : I → J → Prop} {G : J → Prop}
    {pull₁ : Nat → I → Outcome Empty (Option PosStrishIter) × I}
    {pull₂ : Nat → J → Outcome Empty (Option PosStrishIter) × J} (h : ∀ c, TrackOut Q G (pull₁ c) (pull₂ c))
    {i : I} {j : J} (hq : Q i j) {t : LiveStrish J τ} (ht : LiveStrish.new pull₂ j = .ok t) (hg : G t.strishIter) :
    ∃ s : LiveStrish I τ, LiveStrish.new pull₁ i = .ok s ∧ LiveStrish.Rel Q s t := by
  unfold LiveStrish.new at ht ⊢
  have h2 := (h 0).2 i j hq
  rcases hp : pull₂ 0 j with ⟨o, j'⟩
  rcases hp' : pull₁ 0 i with ⟨o', i'⟩
  rw [hp] at ht h2
  rw [hp'] at h2
  cases o with
  | ok c =>
    cases ht
    obtain ⟨h3, h4⟩ := h2 hg (by simp)
    cases h3
    exact ⟨_, rfl, rfl, rfl, rfl, rfl, h4⟩
  | err e => cases e
  | _ => cases ht

theorem LiveStrish.new_list (l : List Str) :
    LiveStrish.new listPull l = .ok (StrishIter.new (τ := τ) l).live := rfl

/-- C55, the record of the answers changes nothing. -/
theorem C55_recorded {i : I} {it : LiveStrish I τ} (hn : LiveStrish.new (LiveStrish.nextPosstrishOf M k) i = .ok it)
    (a : α) {os s} (hc : (liveStrishEnv M k T cc al lookup).Calls (St.init it a) os s) :
    ∃ it' s', LiveStrish.new (LiveStrish.nextPosstrishOf (recorded M) k) (i, []) = .ok it' ∧
      (liveStrishEnv (recorded M) k T cc al lookup).Calls (St.init it' a) os s' ∧ s'.alloc = s.alloc ∧
      s'.strm.charIdx = s.strm.charIdx ∧ s'.strm.strishIter.1 = s.strm.strishIter := by
  obtain ⟨it', h1, h2⟩ := LiveStrish.Rel.new (G := fun _ => True) (recorded_track (M := M) (k := k)) (i := (i, [])) rfl hn trivial
  obtain ⟨s', h3, ⟨-, h4, -, -, h5⟩, h6, -⟩ := (liveStrish_tracks (T := T) (recorded_track (M := M) (k := k))).calls
    (E := strishEnv T cc al lookup) hc trivial (s := St.init it' a) ⟨h2, rfl, rfl⟩
  exact ⟨it', s', h1, h3, h6, h4, h5⟩

/-- C55, an iterator that ends. If the iterator gives the strings `l` and from then on only
`None`, then the stream can be made, and the possible histories of calls are those of the parser
over the list `l`, with the same results and the same use of memory. -/
theorem C55_iterator_that_ends {i j : I} {l : List Str} (h : Gives M i l j) (he : Ended M j) (hk : l.length < k) (a : α) :
    ∃ it : LiveStrish I τ, LiveStrish.new (LiveStrish.nextPosstrishOf M k) i = .ok it ∧
      (∀ {os s'}, (liveStrishEnv M k T cc al lookup).Calls (St.init it a) os s' →
        ∃ t', (strishEnv T cc al lookup).Calls (St.init (.new l) a) os t' ∧ t'.alloc = s'.alloc ∧
          t'.strm.charIdx = s'.strm.charIdx) ∧
      (∀ {os t'}, (strishEnv T cc al lookup).Calls (St.init (.new l) a) os t' →
        ∃ s', (liveStrishEnv M k T cc al lookup).Calls (St.init it a) os s' ∧ s'.alloc = t'.alloc ∧
          s'.strm.charIdx = t'.strm.charIdx) := by
  obtain ⟨it, h1, h2⟩ := LiveStrish.Rel.new (G := fun _ => True) (GivesJust.track (M := M) (k := k))
    (i := i) ⟨⟨j, h, he⟩, hk⟩ (LiveStrish.new_list (τ := τ) l) trivial
  refine ⟨it, h1, ?_, ?_⟩
  · intro os s' hc
    obtain ⟨u, h3, ⟨-, h4, -⟩, h5, -⟩ := (liveStrish_tracks (T := T) (GivesJust.track' (M := M) (k := k))).calls
      (E := strishEnv T cc al lookup) hc trivial (s := St.init (StrishIter.new l).live a)
      ⟨⟨h2.1.symm, h2.2.1.symm, h2.2.2.1.symm, h2.2.2.2.1.symm, h2.2.2.2.2⟩, rfl, rfl⟩
    obtain ⟨t', h6, h7, h8, -⟩ := (StrishIter.tracks' T).calls (E := strishEnv T cc al lookup) h3 trivial
      (s := St.init (StrishIter.new l) a) ⟨rfl, rfl, rfl⟩
    refine ⟨t', h6, h8.trans h5, ?_⟩
    rw [← h4, h7]
    rfl
  · intro os t' hc
    obtain ⟨u, h3, h4, h5, -⟩ := (StrishIter.tracks T).calls (E := strishEnv T cc al lookup) hc trivial
      (s := St.init (StrishIter.new l).live a) ⟨rfl, rfl, rfl⟩
    obtain ⟨s', h6, ⟨-, h7, -⟩, h8, -⟩ := (liveStrish_tracks (T := T) (GivesJust.track (M := M) (k := k))).calls
      (E := strishEnv T cc al lookup) h3 trivial (s := St.init it a) ⟨h2, rfl, rfl⟩
    refine ⟨s', h6, h8.trans h5, ?_⟩
    rw [h7, h4]
    rfl

/-- C55, only what has been asked for matters. Suppose the iterator gives the strings `l` first,
and was asked no more than that often in a history of calls. Then any iterator that gives `l`
first, no matter what then, gives the same history, and is asked for the same strings. -/
theorem C55_only_asked_matter {I' : Type} {M' : Machine I' Str} {k' : Nat} (hk : k ≤ k') {i j : I} {i' j' : I'}
    {l : List Str} (h : Gives M i l j) (h' : Gives M' i' l j') {it : LiveStrish (I × List (Option Str)) τ}
    (hn : LiveStrish.new (LiveStrish.nextPosstrishOf (recorded M) k) (i, []) = .ok it) (a : α) {os s}
    (hc : (liveStrishEnv (recorded M) k T cc al lookup).Calls (St.init it a) os s)
    (hp : s.strm.asked.length ≤ l.length) :
    ∃ it' s', LiveStrish.new (LiveStrish.nextPosstrishOf (recorded M') k') (i', []) = .ok it' ∧
      (liveStrishEnv (recorded M') k' T cc al lookup).Calls (St.init it' a) os s' ∧ s'.alloc = s.alloc ∧
      s'.strm.charIdx = s.strm.charIdx ∧ s'.strm.asked = s.strm.asked := by
  have ht := Same.track (M := M') (M' := M) (j := j') (j' := j) (N := l.length) (k := k') (k' := k) hk
  have hg := (liveStrish_tracks (T := T) ht).calls_good (E := strishEnv T cc al lookup) hc hp
  obtain ⟨it', h1, h2⟩ := LiveStrish.Rel.new ht (i := (i', [])) ⟨rfl, l, h', h, Nat.zero_add _⟩ hn hg
  obtain ⟨s', h3, ⟨-, h4, -, -, h5⟩, h6, -⟩ := (liveStrish_tracks (T := T) ht).calls
    (E := strishEnv T cc al lookup) hc hp (s := St.init it' a) ⟨h2, rfl, rfl⟩
  exact ⟨it', s', h1, h3, h6, h4, h5.1⟩

/-- C55, strings are asked for on demand. After any history of calls, on any iterator, all the
characters of all the strings but the last one asked for have been consumed; and no more have
been consumed than given. -/
theorem C55_on_demand {i : I} {it : LiveStrish (I × List (Option Str)) τ}
    (hn : LiveStrish.new (LiveStrish.nextPosstrishOf (recorded M) k) (i, []) = .ok it) (a : α) {os s}
    (hc : (liveStrishEnv (recorded M) k T cc al lookup).Calls (St.init it a) os s) :
    charsIn s.strm.asked.dropLast ≤ s.strm.charIdx ∧ s.strm.charIdx ≤ charsIn s.strm.asked := by
  obtain ⟨s', -, ⟨-, ⟨h1, h2⟩, -⟩, -⟩ := (onDemand_tracks (M := M) (T := T) (k := k)).calls
    (E := strishEnv T cc al lookup) hc trivial (s := St.init (it, false) a)
    ⟨⟨rfl, OnDemand.new hn, by simp [St.init]⟩, rfl, rfl⟩
  refine ⟨h1, ?_⟩
  unfold LiveStrish.asked
  rcases h2 with ⟨-, h2⟩ | ⟨_, n, -, -, ⟨-, h2⟩ | ⟨-, _, m, -, -, h2⟩⟩ <;> omega

/-- C55, nests are returned promptly. When a call returns a datum other than a text, some
character of the last string asked for has been consumed: the iterator has not been asked for
the string after the one that ended the nest. -/
theorem C55_not_asked_after_nest {i : I} {it : LiveStrish (I × List (Option Str)) τ}
    (hn : LiveStrish.new (LiveStrish.nextPosstrishOf (recorded M) k) (i, []) = .ok it) (a : α) {os s d s'}
    (hc : (liveStrishEnv (recorded M) k T cc al lookup).Calls (St.init it a) os s)
    (h : (liveStrishEnv (recorded M) k T cc al lookup).Call s (.ok (some d)) s') (hd : ∀ x, d ≠ .text x) :
    charsIn s'.strm.asked.dropLast < s'.strm.charIdx := by
  obtain ⟨t, -, h1⟩ := (onDemand_tracks (M := M) (T := T) (k := k)).calls
    (E := strishEnv T cc al lookup) hc trivial (s := St.init (it, false) a)
    ⟨⟨rfl, OnDemand.new hn, by simp [St.init]⟩, rfl, rfl⟩
  obtain ⟨t', h2, ⟨-, -, h3⟩, -⟩ := (onDemand_tracks (M := M) (T := T) (k := k)).call
    (E := strishEnv T cc al lookup) h1 h trivial
  refine h3 ?_
  obtain ⟨q, c, h4⟩ := h2.ends hd
  obtain ⟨h5, h6⟩ := Prod.mk.inj h4
  rw [← h6]
  dsimp only
  rw [h5]

/-- The history on a list, with a record. -/
theorem recorded_ofList {L : List Str} (hk : L.length < k) (a : α) {os t}
    (hc : (strishEnv T cc al lookup).Calls (St.init (.new L) a) os t) :
    ∃ it s l, LiveStrish.new (LiveStrish.nextPosstrishOf (recorded ofList) k) (L, []) = .ok it ∧
      (liveStrishEnv (recorded ofList) k T cc al lookup).Calls (St.init it a) os s ∧ s.alloc = t.alloc ∧
      s.strm.charIdx = t.strm.charIdx ∧ Recorded L l s.strm.asked := by
  have ht := Recorded.track (L := L) (k := k)
  obtain ⟨u, h3, h4, h5, -⟩ := (StrishIter.tracks T).calls (E := strishEnv T cc al lookup) hc trivial
    (s := St.init (StrishIter.new L).live a) ⟨rfl, rfl, rfl⟩
  obtain ⟨it, h1, h2⟩ := LiveStrish.Rel.new ht (i := (L, [])) ⟨rfl, ⟨0, by simp, by simp⟩, hk⟩
    (LiveStrish.new_list (τ := τ) L) trivial
  obtain ⟨s, h6, ⟨-, h7, -, -, h8⟩, h9, -⟩ := (liveStrish_tracks (T := T) ht).calls
    (E := strishEnv T cc al lookup) h3 trivial (s := St.init it a) ⟨h2, rfl, rfl⟩
  refine ⟨it, s, _, h1, h6, h9.trans h5, ?_, h8.2.1⟩
  rw [h7, h4]
  rfl

theorem Recorded.asked_le {L R l : List Str} {g : List (Option Str)} (h : Recorded (L ++ R) l g)
    (hg : charsIn g.dropLast < L.flatten.length) : g.length ≤ L.length := by
  obtain ⟨n, h1, -⟩ := h
  by_contra hl
  have h2 : L.map some <+: g.dropLast := by
    have h3 : L.map some <+: g ++ l.map some := by
      rw [h1, List.map_append, List.append_assoc]
      exact List.prefix_append _ _
    refine List.prefix_of_prefix_length_le h3 ((List.dropLast_prefix g).trans (List.prefix_append _ _)) ?_
    simp only [List.length_map, List.length_dropLast]
    omega
  obtain ⟨r, h3⟩ := h2
  have h4 : charsIn (L.map some) = L.flatten.length := by
    simp [charsIn, List.length_flatten, Function.comp_def]
  rw [← h3, charsIn_append, h4] at hg
  omega

theorem Env.Calls.last' {σ P : Type} {E : Env σ P τ ε α CE} {t os t'} (h : E.Calls t os t') :
    (os = [] ∧ t = t') ∨ ∃ os₁ o t₁, o ∈ os ∧ E.Calls t os₁ t₁ ∧ E.Call t₁ o t' := by
  induction h with
  | nil => exact Or.inl ⟨rfl, rfl⟩
  | @cons _ o _ os _ h _ ih =>
    rcases ih with ⟨_, rfl⟩ | ⟨os₁, o', t₁, h1, h2, h3⟩
    · exact Or.inr ⟨[], o, _, List.mem_cons_self, .nil, h⟩
    · exact Or.inr ⟨_, o', t₁, List.mem_cons_of_mem _ h1, .cons h h2, h3⟩

/-- C55, results come as soon as their strings. Suppose the iterator gives the strings `l` first,
no matter what then. If a history of calls on the list `l` does not consume all the characters,
then the same is a history of calls on the iterator, and it is asked for no more than `l`. -/
theorem C55_as_soon_as_given {i j : I} {l : List Str} (h : Gives M i l j) (hk : l.length < k) (a : α) {os t}
    (hc : (strishEnv T cc al lookup).Calls (St.init (.new l) a) os t) (ht : t.strm.charIdx < l.flatten.length) :
    ∃ it s, LiveStrish.new (LiveStrish.nextPosstrishOf (recorded M) k) (i, []) = .ok it ∧
      (liveStrishEnv (recorded M) k T cc al lookup).Calls (St.init it a) os s ∧ s.alloc = t.alloc ∧
      s.strm.charIdx = t.strm.charIdx ∧ s.strm.asked.length ≤ l.length := by
  obtain ⟨it, s, l', h1, h2, h3, h4, h5⟩ := recorded_ofList hk a hc
  have h6 : s.strm.asked.length ≤ l.length := by
    refine Recorded.asked_le (R := []) (by rw [List.append_nil]; exact h5) ?_
    have := (C55_on_demand h1 a h2).1
    omega
  have hl := ofList_gives l []
  rw [List.append_nil] at hl
  obtain ⟨it', s', h7, h8, h9, h10, h11⟩ := C55_only_asked_matter (Nat.le_refl k) hl h h1 a h2 h6
  exact ⟨it', s', h7, h8, h9.trans h3, h10.trans h4, by rw [h11]; exact h6⟩

/-- C55, nests on demand. Suppose the characters of the strings `l` that the iterator gives first
are one or more nests written one after the other, and let `ds` be their meanings. Then as many
calls of `next`, of a parser without bindings and with memory that does not run out, return these
meanings one after the other, and the iterator is asked for no more than `l`: whatever it would
do when asked for more (end, go on, or wait) plays no role. -/
theorem C55_nests_on_demand {RA : α → α → Prop} {F : Prop} (K : TextConf T PosStrish.Means RA F) (hF : ¬ F)
    (D : cc.Disjoint) (hb : ∀ d, lookup d = none) (A : al.Reliable) {i j : I} {l : List Str}
    (h : Gives M i l j) (hk : l.length + 1 < k) {rs : List (List (Item CharPos))}
    {ds : List (Datum (List (Item CharPos)) ε)} (hv : charItems l.flatten = rs.flatten) (hne : rs ≠ [])
    (hr : List.Forall₂ (fun r d => Gram cc .nest r [d]) rs ds) (a : α) :
    ∃ it xs s, LiveStrish.new (LiveStrish.nextPosstrishOf (recorded M) k) (i, []) = .ok it ∧
      (liveStrishEnv (recorded M) k T cc al lookup).Calls (St.init it a) (xs.map fun x => .ok (some x)) s ∧
      List.Forall₂ (DatumRel (T.sem PosStrish.Means RA F).RT Eq) xs ds ∧
      s.strm.charIdx = l.flatten.length ∧ s.strm.asked.length ≤ l.length := by
  have e : charItems (l ++ [['x']]).flatten = rs.flatten ++ [⟨'x', ⟨l.flatten.length⟩⟩] := by
    rw [← hv, List.flatten_append, charItems, itemsFrom_append, advs_charPos, Nat.zero_add]
    rfl
  obtain ⟨xs, t, a', h1, ⟨p, h2, _⟩, h3⟩ := (strishEnv_conf (cc := cc) (al := al) (lookup := lookup) K).calls_nests
    D hb A hF hr [⟨'x', ⟨l.flatten.length⟩⟩] (s := .new (l ++ [['x']]))
    (by rw [← e]; exact AtItems.fresh (StrishIter.new_means _ _)) a
  have h4 : t.charIdx = l.flatten.length := by
    have hi : ∀ (w : Str) (r), itemsFrom CharPos.adv ⟨t.charIdx⟩ w = ⟨'x', ⟨l.flatten.length⟩⟩ :: r → t.charIdx = l.flatten.length := by
      intro w r h
      cases w with
      | nil => cases h
      | cons c w =>
        have h := congrArg (fun l => (l.head?.map fun (x : Item CharPos) => x.pos.n)) h
        exact Option.some.inj h
    obtain ⟨_, _, -, -, ⟨-, -, h⟩ | ⟨_, _, -, -, ⟨-, h⟩ | ⟨-, _, _, -, -, -, h⟩⟩⟩ := h2
    · cases h
    · exact hi _ _ h.symm
    · exact hi _ _ h.symm
  obtain ⟨it, s, l', g1, g2, -, g4, g5⟩ := recorded_ofList (k := k) (by simpa using hk) a h1
  have h6 : s.strm.asked.length ≤ l.length := by
    refine g5.asked_le ?_
    rw [← h4]
    refine Nat.lt_of_lt_of_eq ?_ g4
    rcases g2.last' with ⟨h, -⟩ | ⟨os₁, o, s₁, hm, hc₁, hc₂⟩
    · exfalso
      cases h3 with
      | nil => cases hr; exact hne rfl
      | cons _ _ => cases h
    · obtain ⟨x, k3, rfl⟩ := List.mem_map.mp hm
      refine C55_not_asked_after_nest g1 a hc₁ hc₂ ?_
      rintro y rfl
      obtain ⟨d, k4, k5⟩ := forall₂_mem_left h3 k3
      cases k5
      obtain ⟨r, _, k6⟩ := forall₂_mem_right hr k4
      cases k6
  obtain ⟨it', s', h7, h8, -, h10, h11⟩ := C55_only_asked_matter (Nat.le_refl k) (ofList_gives l [['x']]) h g1 a g2 h6
  exact ⟨it', xs, s', h7, h8, h3, h10.trans (g4.trans h4), by rw [h11]; exact h6⟩

/-- Stream at its end, with an iterator at its end. -/
def LiveStrish.Done (M : Machine I Str) (it : LiveStrish I τ) : Prop :=
  it.cur = none ∨ ∃ s, it.cur = some s ∧ s.peek = (.ok none, s) ∧
    ((it.peekedStrm = none ∧ Ended M it.strishIter) ∨ ∃ p, it.peekedStrm = some p ∧ p.peek = (.ok none, p))

theorem Ended.pull {i : I} (h : Ended M i) (c : Nat) :
    LiveStrish.nextPosstrishOf M k c i = (.fuel, i) ∨
      ∃ i', LiveStrish.nextPosstrishOf M k c i = (.ok none, i') ∧ Ended M i' := by
  cases k with
  | zero => exact Or.inl rfl
  | succ k =>
    have h1 := h.next
    rcases hm : M i with ⟨_ | s, i'⟩
    · rw [hm] at h1
      exact Or.inr ⟨i', by simp [LiveStrish.nextPosstrishOf, hm], h1.2⟩
    · rw [hm] at h1
      cases h1.1

theorem LiveStrish.Done.peek {it : LiveStrish I τ} (h : it.Done M) :
    (∃ it', LiveStrish.peek (LiveStrish.nextPosstrishOf M k) it = (.fuel, it')) ∨
    ∃ it', LiveStrish.peek (LiveStrish.nextPosstrishOf M k) it = (.ok none, it') ∧ it'.Done M := by
  obtain ⟨cur, ci, i, pk, ac⟩ := it
  rcases h with h | ⟨s, h1, h2, ⟨h3, h4⟩ | ⟨p, h3, h4⟩⟩
  · cases h
    exact Or.inr ⟨_, rfl, Or.inl rfl⟩
  · cases h1
    cases h3
    rcases h4.pull (k := k) ci with h5 | ⟨i', h5, h6⟩
    · simp only [LiveStrish.peek, h2, LiveStrish.peekStrm, h5]
      exact Or.inl ⟨_, rfl⟩
    · simp only [LiveStrish.peek, h2, LiveStrish.peekStrm, h5]
      exact Or.inr ⟨_, rfl, Or.inr ⟨s, rfl, h2, Or.inl ⟨rfl, h6⟩⟩⟩
  · cases h1
    cases h3
    simp only [LiveStrish.peek, h2, LiveStrish.peekStrm, h4]
    exact Or.inr ⟨_, rfl, Or.inr ⟨s, rfl, h2, Or.inr ⟨p, rfl, h4⟩⟩⟩

theorem PosStrishIter.peek_none {s s'} (h : PosStrishIter.peek s = (.ok none, s')) : s'.peek = (.ok none, s') := by
  obtain ⟨c, b, n, pk, ac⟩ := s
  cases pk with
  | some x => cases h
  | none =>
    simp only [PosStrishIter.peek, PosStrishIter.doNextNoPeeked] at h
    split at h
    · rename_i h1
      split at h1
      · cases h1
      · cases h1
        cases h
        rename_i h1
        simp only [PosStrishIter.peek, PosStrishIter.doNextNoPeeked, h1]
      · cases h1
        cases h
    · cases h
      simp_all

theorem Fused.pull (hM : Fused M) {i i' : I} {c : Nat}
    (h : LiveStrish.nextPosstrishOf M k c i = (.ok none, i')) : Ended M i' := by
  induction k generalizing i with
  | zero => cases h
  | succ k ih =>
    simp only [LiveStrish.nextPosstrishOf] at h
    rcases hm : M i with ⟨_ | s, i₁⟩ <;> rw [hm] at h <;> dsimp only at h
    · cases h
      have := hM i (by rw [hm])
      rwa [hm] at this
    · split at h
      · cases h
      · exact ih h

theorem Fused.peek (hM : Fused M) {it it' : LiveStrish I τ}
    (h : LiveStrish.peek (LiveStrish.nextPosstrishOf M k) it = (.ok none, it')) : it'.Done M := by
  obtain ⟨cur, ci, i, pk, ac⟩ := it
  cases cur with
  | none => cases h; exact Or.inl rfl
  | some s =>
    simp only [LiveStrish.peek] at h
    rcases hs : s.peek with ⟨(_ | x) | _ | _ | _, s'⟩ <;> rw [hs] at h <;> dsimp only at h
    · have hs' := PosStrishIter.peek_none hs
      cases pk with
      | some p =>
        simp only [LiveStrish.peekStrm] at h
        rcases hp : p.peek with ⟨o, p'⟩
        rw [hp] at h
        cases h
        exact Or.inr ⟨s', rfl, hs', Or.inr ⟨p', rfl, PosStrishIter.peek_none hp⟩⟩
      | none =>
        simp only [LiveStrish.peekStrm] at h
        rcases hp : LiveStrish.nextPosstrishOf M k ci i with ⟨(_ | p) | _ | _ | _, i'⟩ <;> rw [hp] at h <;>
          dsimp only at h
        · cases h
          exact Or.inr ⟨s', rfl, hs', Or.inl ⟨rfl, hM.pull hp⟩⟩
        · rcases hp : p.peek with ⟨o, p'⟩
          rw [hp] at h
          cases h
          exact Or.inr ⟨s', rfl, hs', Or.inr ⟨p', rfl, PosStrishIter.peek_none hp⟩⟩
        all_goals cases h
    all_goals cases h

/-- C55, `None` is final, if the iterator is fused: once a call has returned `None`, every later
call returns `None`. -/
theorem C55_none_is_final (hM : Fused M) {s s' : St (LiveStrish I τ) α} (hd : s.ndepth = 0)
    (h : (liveStrishEnv M k T cc al lookup).Call s (.ok none) s') {os t}
    (hc : (liveStrishEnv M k T cc al lookup).Calls s' os t) (o) (ho : o ∈ os) : o = .ok none := by
  obtain ⟨n, h1, _⟩ := h
  obtain ⟨q, h2, h3⟩ := Env.none_peeked n h1 hd
  have h4 : s'.strm.Done M := hM.peek h2
  clear h1 h2
  induction hc with
  | nil => cases ho
  | @cons s₁ o' s₂ os _ hc _ ih =>
    have step : o' = .ok none ∧ s₂.ndepth = 0 ∧ s₂.strm.Done M := by
      obtain ⟨m, h6, h7⟩ := hc
      obtain ⟨q₁, a, d⟩ := s₁
      obtain rfl : d = 0 := h3
      cases m with
      | zero => cases h6; exact (h7 rfl).elim
      | succ m =>
        unfold Env.doNext Env.parseNext at h6
        change Act.bind (Env.peek _) _ _ = _ at h6
        unfold Act.bind at h6
        simp only [Env.peek, liftEmpty, liveStrishEnv, liveStrishOps] at h6
        rcases h4.peek (k := k) with ⟨q₂, h8⟩ | ⟨q₂, h8, h9⟩
        · rw [h8] at h6
          cases h6
          exact (h7 rfl).elim
        · rw [h8] at h6
          cases h6
          exact ⟨rfl, rfl, h9⟩
    obtain ⟨rfl, h8, h9⟩ := step
    rcases List.mem_cons.mp ho with rfl | ho
    · rfl
    · exact ih ho h8 h9

end

/-! ## Not all iterators are fused -/

/-- The iterator that gives `{a}`, then `None`, then `{a}`, and then only `None`. -/
def breathing : Machine Nat Str
  | 0 => (some "{a}".toList, 1)
  | 1 => (none, 2)
  | 2 => (some "{a}".toList, 3)
  | n + 3 => (none, n + 3)

/-- A parser over an iterator of strings, with heap texts. -/
abbrev liveStrSample {I : Type} (M : Machine I Str) (k : Nat) :=
  liveStrishEnv M k (textVec Unit posStrishOps) defaultClassifier (boxAlloc _ Empty _)
    (noBindings _ Empty Unit CharPos Empty)

/-- C55: with an iterator that is not fused `None` is not final: there is one such that the calls
return a combination, `None`, another combination, and `None` again. (A stream of characters is
different, see `C54_none_is_final`.) -/
theorem C55_none_not_final : ∃ it os t, LiveStrish.new (LiveStrish.nextPosstrishOf breathing 1) 0 = .ok it ∧
    (liveStrSample breathing 1).Calls (St.init it ()) os t ∧ os.map shapeOf = [2, 0, 2, 0] := by
  obtain ⟨os, t, h1, h2, -⟩ := Env.callsOf_shape (E := liveStrSample breathing 1) 20 4
    (s := St.init ⟨some (.new (.new "{a}".toList ⟨0⟩)), 0, 1, none, none⟩ ()) (v := [2, 0, 2, 0])
    (fun _ => ()) (w := ()) (by decide +kernel) (by decide)
  exact ⟨_, os, t, rfl, h1, h2⟩

/-! ## Non-vacuity -/

/-- `{`, nothing, `a} `, and so on without end. -/
def pieces : Machine Nat Str := fun n =>
  (some (if n % 3 = 0 then "{".toList else if n % 3 = 1 then [] else "a} ".toList), n + 1)

/-- C55: three calls on an endless iterator of strings. After the last result, a nest, 7
characters have been consumed and the iterator has been asked for the 6 strings they are in. -/
example : ∃ it os t, LiveStrish.new (LiveStrish.nextPosstrishOf (recorded pieces) 3) (0, []) = .ok it ∧
    (liveStrSample (recorded pieces) 3).Calls (St.init it ()) os t ∧
    os.map shapeOf = [2, 1, 2] ∧ t.strm.charIdx = 7 ∧ t.strm.asked.length = 6 := by
  obtain ⟨os, t, h1, h2, h3⟩ := Env.callsOf_shape (E := liveStrSample (recorded pieces) 3) 20 3
    (s := St.init ⟨some (.new (.new "{".toList ⟨0⟩)), 0, (1, [some "{".toList]), none, none⟩ ()) (v := [2, 1, 2])
    (fun t => (t.strm.charIdx, t.strm.asked.length)) (w := (7, 6)) (by decide +kernel) (by decide)
  exact ⟨_, os, t, rfl, h1, h2, congrArg Prod.fst h3, congrArg Prod.snd h3⟩

/-- C55: and after the second, a text, the first string of the next nest has been asked for,
though none of its characters is consumed: the bounds of `C55_on_demand` are met, and
`C55_not_asked_after_nest` needs its hypothesis. -/
example : ∃ it os t, LiveStrish.new (LiveStrish.nextPosstrishOf (recorded pieces) 3) (0, []) = .ok it ∧
    (liveStrSample (recorded pieces) 3).Calls (St.init it ()) os t ∧
    os.map shapeOf = [2, 1] ∧ t.strm.charIdx = 4 ∧ charsIn t.strm.asked.dropLast = 4 ∧ charsIn t.strm.asked = 5 := by
  obtain ⟨os, t, h1, h2, h3⟩ := Env.callsOf_shape (E := liveStrSample (recorded pieces) 3) 20 2
    (s := St.init ⟨some (.new (.new "{".toList ⟨0⟩)), 0, (1, [some "{".toList]), none, none⟩ ()) (v := [2, 1])
    (fun t => (t.strm.charIdx, charsIn t.strm.asked.dropLast, charsIn t.strm.asked)) (w := (4, 4, 5))
    (by decide +kernel) (by decide)
  exact ⟨_, os, t, rfl, h1, h2, congrArg Prod.fst h3, congrArg (·.2.1) h3, congrArg (·.2.2) h3⟩

/-- C55: a first call on the list `{`, ``, `a} ` does not consume all. -/
example : ∃ os t, (strishEnv (textVec Unit posStrishOps) defaultClassifier (boxAlloc _ Empty _)
    (noBindings _ Empty Unit CharPos Empty)).Calls (St.init (.new ["{".toList, [], "a} ".toList]) ()) os t ∧
    os.map shapeOf = [2] ∧ t.strm.charIdx < 4 ∧ ∃ j, Gives pieces 0 ["{".toList, [], "a} ".toList] j := by
  obtain ⟨os, t, h1, h2, h3⟩ := Env.callsOf_shape (E := strishEnv (textVec Unit posStrishOps)
    defaultClassifier (boxAlloc _ Empty _) (noBindings _ Empty Unit CharPos Empty)) 20 1
    (s := St.init (.new ["{".toList, [], "a} ".toList]) ()) (v := [2]) (fun t => t.strm.charIdx) (w := 3)
    (by decide +kernel) (by decide)
  exact ⟨os, t, h1, h2, by rw [h3]; decide, 3, .cons rfl (.cons rfl (.cons rfl .nil))⟩

/-- C55: a fused iterator, whose parse ends. -/
example : Fused (ofList (A := Str)) ∧ ∃ it os t,
    LiveStrish.new (LiveStrish.nextPosstrishOf ofList 3) ["a".toList, []] = .ok it ∧
    (liveStrSample ofList 3).Calls (St.init it ()) os t ∧ os.map shapeOf = [1, 0, 0] := by
  constructor
  · rintro (_ | ⟨s, l⟩) h n
    · change (ofList (after ofList n [])).1 = none
      induction n with
      | zero => rfl
      | succ n ih => exact ih
    · cases h
  · obtain ⟨os, t, h1, h2, -⟩ := Env.callsOf_shape (E := liveStrSample ofList 3) 20 3
      (s := St.init ⟨some (.new (.new "a".toList ⟨0⟩)), 0, [[]], none, none⟩ ()) (v := [1, 0, 0])
      (fun _ => ()) (w := ()) (by decide +kernel) (by decide)
    exact ⟨_, os, t, rfl, h1, h2⟩

/-- C55: `{a}{}`, in three pieces, are two nests. -/
example : ∃ (rs : List (List (Item CharPos))) (ds : List (Datum (List (Item CharPos)) Empty)),
    charItems ["{".toList, "a}{".toList, "}".toList].flatten = rs.flatten ∧ rs ≠ [] ∧ ds.length = 2 ∧
    List.Forall₂ (fun r d => Gram defaultClassifier .nest r [d]) rs ds := by
  refine ⟨[[⟨'{', ⟨0⟩⟩, ⟨'a', ⟨1⟩⟩, ⟨'}', ⟨2⟩⟩], [⟨'{', ⟨3⟩⟩, ⟨'}', ⟨4⟩⟩]],
    [.combination (.text [⟨'a', ⟨1⟩⟩]) (listOf []), .emptyNest], by decide, by simp, rfl, .cons ?_ (.cons ?_ .nil)⟩
  · refine Gram.combination (b := (⟨'{', ⟨0⟩⟩ : Item CharPos)) (e := (⟨'}', ⟨2⟩⟩ : Item CharPos)) (h := [(⟨'a', ⟨1⟩⟩ : Item CharPos)]) (k := true)
      (sep := []) (r := []) (by decide) (by decide) ?_ .empty .nil
    exact Gram.textHead (ws := []) (s := [(⟨'a', ⟨1⟩⟩ : Item CharPos)]) (by intro _ h; cases h) (by simp)
      (.plain (by decide) (by decide) .nil)
  · exact Gram.emptyNest (b := (⟨'{', ⟨3⟩⟩ : Item CharPos)) (e := (⟨'}', ⟨4⟩⟩ : Item CharPos)) (h := []) (by decide) (by decide)
      (.noHead (by intro _ h; cases h))

end Kul
