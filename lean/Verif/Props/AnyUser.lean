import Verif.Proof.AnyUserEnds
import Verif.Proof.AnyUserPanic
import Verif.Proof.AnyUserMono
import Verif.Proof.AnyUserAgree
import Verif.Proof.AnyUserMade
import Verif.Proof.Sample

/-!
# C81: any user code

Nothing is assumed of the source stream, the classifier, the bindings, the combiners, the allocator and the text
type, unless it is said: they may answer differently each time, share state, take characters, panic and never return.
-/

namespace Kul

variable {W P τ ε CE σ α : Type}

namespace AnyUser

theorem call_deterministic (U : AnyUser W P τ ε CE) {s : St W Unit} {o o' : Outcome (Err P CE) (Option (Datum τ ε))}
    {s' s'' : St W Unit} (h : U.Call s o s') (h' : U.Call s o' s'') : o' = o ∧ s'' = s' := by
  obtain ⟨n, e, hf⟩ := h
  obtain ⟨k, e', hf'⟩ := h'
  have h1 := parseNext_le U (Nat.le_max_left n k) .base s (by rw [e]; exact hf)
  have h2 := parseNext_le U (Nat.le_max_right n k) .base s (by rw [e']; exact hf')
  rw [h1, e, e'] at h2
  cases h2
  exact ⟨rfl, rfl⟩

/-- **C81** (one result). A call has at most one result and leaves one state, given the world it is made in. -/
theorem C81_one_result (U : AnyUser W P τ ε CE) {s : St W Unit} {o o' : Outcome (Err P CE) (Option (Datum τ ε))}
    {s' s'' : St W Unit} (h : U.Call s o s') (h' : U.Call s o' s'') : o' = o ∧ s'' = s' := call_deterministic U h h'

/-- **C81** (depth). A call that returns leaves the depth as it was; one that panics does not make it less. -/
theorem C81_depth (U : AnyUser W P τ ε CE) {s s' : St W Unit} {o : Outcome (Err P CE) (Option (Datum τ ε))}
    (h : U.Call s o s') : s.ndepth ≤ s'.ndepth ∧ (o ≠ .panic → s'.ndepth = s.ndepth) := by
  obtain ⟨n, e', hf⟩ := h
  have hF := (fine_parse U s.strm n).1 .base s .start
  rw [e'] at hF
  refine ⟨hF.2.1, fun hp => ?_⟩
  cases o with
  | ok a => exact hF.2.2.1 a rfl
  | err e => exact (hF.2.2.2 e rfl).1
  | panic => exact absurd rfl hp
  | fuel => exact absurd rfl hf

theorem Reach.trans {U : AnyUser W P τ ε CE} {a b c : W} (h : U.Reach a b) (h' : U.Reach b c) : U.Reach a c := by
  induction h' with
  | start => exact h
  | peek _ ih => exact ih.peek
  | next _ ih => exact ih.next
  | nextAccum _ ih => exact ih.nextAccum
  | accumDone _ ih => exact ih.accumDone
  | emptyText _ ih => exact ih.emptyText
  | concat t u _ ih => exact ih.concat t u
  | ask q ch _ ih => exact ih.ask q ch
  | newDatum d _ ih => exact ih.newDatum d
  | getMut d _ ih => exact ih.getMut d
  | lookup d _ ih => exact ih.lookup d
  | operative t _ hl _ ih ih' => exact .operative t ih hl ih'
  | applicative l _ hl _ ih ih' => exact .applicative l ih hl ih'

theorem Known.trans {U : AnyUser W P τ ε CE} {a b : W} {e : Err P CE} (h : U.Reach a b) (h' : U.Known b e) : U.Known a e := by
  rcases h' with ⟨w, w', d, h1, h2, h3⟩ | hc
  · exact .inl ⟨w, w', d, h.trans h1, h.trans h2, h3⟩
  · refine .inr ?_
    cases hc with
    | unbalancedEndChar h1 h2 h3 h4 => exact .unbalancedEndChar (h.trans h1) h2 (h.trans h3) h4
    | missingEndChar h1 h2 => exact .missingEndChar (h.trans h1) h2
    | failedAlloc h1 h2 => exact .failedAlloc (h.trans h1) h2
    | failedDerefTryMut h1 h2 => exact .failedDerefTryMut (h.trans h1) h2

theorem uses_fine (U : AnyUser W P τ ε CE) {s s' : St W Unit} {os : List (Outcome (Err P CE) (Option (Datum τ ε)))}
    (h : U.Uses s os s') : U.Reach s.strm s'.strm ∧ ∀ e, .err e ∈ os → U.Known s.strm e := by
  induction h with
  | nil => exact ⟨.start, nofun⟩
  | @call s o s' os s'' hc _ ih =>
    obtain ⟨n, e, _⟩ := hc
    have hF := (fine_parse U s.strm n).1 .base s .start
    rw [e] at hF
    refine ⟨hF.1.trans ih.1, fun e' he => ?_⟩
    rcases List.mem_cons.1 he with he | he
    · exact (hF.2.2.2 e' he.symm).2
    · exact (ih.2 e' he).trans hF.1
  | renew _ ih => exact ih

/-- **C81** (the world). Whatever is used and in whatever order, and whatever panics: the world is one that calls of the
user's functions lead to; the parser does nothing else to it. In particular, what every function of the user's keeps is kept. -/
theorem C81_world (U : AnyUser W P τ ε CE) {s s' : St W Unit} {os : List (Outcome (Err P CE) (Option (Datum τ ε)))}
    (h : U.Uses s os s') : U.Reach s.strm s'.strm := (uses_fine U h).1

/-- **C81** (errors). Every error that is ever given is one that a combiner has given, or has the cause that its name says. -/
theorem C81_errors (U : AnyUser W P τ ε CE) {s s' : St W Unit} {os : List (Outcome (Err P CE) (Option (Datum τ ε)))}
    (h : U.Uses s os s') (e : Err P CE) (he : .err e ∈ os) : U.CombinerGave s.strm e ∨ U.Cause s.strm e :=
  (uses_fine U h).2 e he

theorem uses_made (U : AnyUser W P τ ε CE) {w₀ : W} {s s' : St W Unit} {os : List (Outcome (Err P CE) (Option (Datum τ ε)))}
    (h : U.Uses s os s') (hw : U.Reach w₀ s.strm) (d : Datum τ ε) (hd : .ok (some d) ∈ os) : U.Made w₀ d := by
  induction h with
  | nil => cases hd
  | @call s o s' os s'' hc _ ih =>
    obtain ⟨n, e, _⟩ := hc
    have hF := (fine_parse U w₀ n).1 .base s hw
    rw [e] at hF
    rcases List.mem_cons.1 hd with hd | hd
    · exact (gives_parse U w₀ n).1 .base s _ hw (by rw [e]; exact hd.symm) d rfl
    · exact ih hF.1 hd
  | renew _ ih => exact ih hw hd

/-- **C81** (datums). Every datum that is ever given is made of nothing but what the user's functions gave: a text that they
made, an empty nest, a combination of what the allocator gave for a head without a combiner and for its operands, or what a
combiner gave. -/
theorem C81_made (U : AnyUser W P τ ε CE) {s s' : St W Unit} {os : List (Outcome (Err P CE) (Option (Datum τ ε)))}
    (h : U.Uses s os s') (d : Datum τ ε) (hd : .ok (some d) ∈ os) : U.Made s.strm d := uses_made U h .start d hd

/-- **C81** (ends). If the source is finite, every function of the user's returns, and looking does not change what is
seen, then every call ends. -/
theorem C81_ends (U : AnyUser W P τ ε CE) {μ : W → Nat} {view : W → Option (Item P)} {cc : W → Classifier}
    (F : U.Finite μ) (S : U.Steady view cc) (s : St W Unit) : ∃ o s', U.Call s o s' :=
  ⟨_, _, 3 * μ s.strm + 2, rfl, ((ends_parse F S _).1 (μ s.strm) .base (Nat.le_refl _) s (Nat.le_refl _)).1⟩

/-- **C81** (progress). Then also a call that gives a datum has taken a character, so that a loop over the parser ends. -/
theorem C81_progress (U : AnyUser W P τ ε CE) {μ : W → Nat} {view : W → Option (Item P)} {cc : W → Classifier}
    (F : U.Finite μ) (S : U.Steady view cc) {s s' : St W Unit} {d : Datum τ ε} (h : U.Call s (.ok (some d)) s') :
    μ s'.strm < μ s.strm := by
  obtain ⟨n, e, hf⟩ := h
  have h1 := parseNext_le U (Nat.le_max_left n (3 * μ s.strm + 2)) .base s (by rw [e]; exact hf)
  have h2 := (ends_parse F S _).1 (μ s.strm) .base (Nat.le_max_right n (3 * μ s.strm + 2)) s (Nat.le_refl _)
  exact (h2.2 _ _ (h1.trans e)).2 rfl nofun

/-- **C81** (no panic). If no function of the user's panics, what is shown is what comes next, looking, taking a character and
finishing a text do not reclassify characters, and no whitespace ends nests: then no call panics, whatever else they do. -/
theorem C81_no_panic (U : AnyUser W P τ ε CE) {view : W → Option (Item P)} {cc : W → Classifier}
    (O : U.Orderly view cc) (C : U.Calm) {s s' : St W Unit} {o : Outcome (Err P CE) (Option (Datum τ ε))}
    (h : U.Call s o s') : o ≠ .panic := by
  obtain ⟨n, e, _⟩ := h
  have := ((safe_parse O C n).1 s.ndepth .base (pre := fun _ => True) s rfl trivial).1
  rwa [e] at this

/-! ## Classifiers that contradict themselves -/

/-- Character 2 is `{`, character 1 is `x`, then the source ends; the second part is the classifier's, who answers about
`x` alternately that it starts no nest and that it does. -/
def fickle : AnyUser (Nat × Bool) Unit Unit Unit Unit where
  peek w := (.ok (if w.1 = 2 then some ⟨'{', ()⟩ else if w.1 = 1 then some ⟨'x', ()⟩ else none), w)
  next w := (.ok (if w.1 = 2 then some ⟨'{', ()⟩ else if w.1 = 1 then some ⟨'x', ()⟩ else none), w.1 - 1, w.2)
  nextAccum w := (.ok (if w.1 = 2 then some ⟨'{', ()⟩ else if w.1 = 1 then some ⟨'x', ()⟩ else none), w.1 - 1, w.2)
  accumDone w := (.ok (), w)
  emptyText w := (.ok (), w)
  concat _ _ w := (.ok (), w)
  ask q ch w := if q = .nestStart then (if ch = '{' then (.ok true, w) else (.ok w.2, w.1, !w.2)) else (.ok false, w)
  newDatum d w := (.ok d, w)
  getMut _ w := (.ok true, w)
  lookup _ w := (.ok none, w)

theorem fickle_finite : fickle.Finite Prod.fst where
  peek w := ⟨nofun, Nat.le_refl _⟩
  shown w it w' h := by
    have hw : w = w' := congrArg Prod.snd h
    subst hw
    by_cases h2 : w.1 = 2
    · omega
    · by_cases h1 : w.1 = 1
      · omega
      · simp [fickle, h1, h2] at h
  next w := ⟨nofun, Nat.sub_le _ _, fun h => Nat.sub_lt h Nat.one_pos⟩
  nextAccum w := ⟨nofun, Nat.sub_le _ _, fun h => Nat.sub_lt h Nat.one_pos⟩
  accumDone w := ⟨nofun, Nat.le_refl _⟩
  emptyText w := ⟨nofun, Nat.le_refl _⟩
  concat t u w := ⟨nofun, Nat.le_refl _⟩
  ask q ch w := by
    simp only [fickle]
    split
    · split <;> exact ⟨nofun, Nat.le_refl _⟩
    · exact ⟨nofun, Nat.le_refl _⟩
  newDatum d w := ⟨nofun, Nat.le_refl _⟩
  getMut d w := ⟨nofun, Nat.le_refl _⟩
  lookup d w := ⟨nofun, Nat.le_refl _⟩
  operative d w f h := by cases h
  applicative d w f h := by cases h

theorem bind_fuel {A B : Type} {x : Act (St W Unit) (Err P CE) A} {f : A → Act (St W Unit) (Err P CE) B} {s : St W Unit}
    (h : (x s).1 = .fuel) : ((x >>= f) s).1 = .fuel := by
  change (Act.bind x f s).1 = _
  unfold Act.bind
  rcases hr : x s with ⟨o, t⟩
  rw [hr] at h
  simp only at h
  subst h
  rfl

theorem step_fuel {A B : Type} {x : Act (St W Unit) (Err P CE) A} {f : A → Act (St W Unit) (Err P CE) B} {s : St W Unit}
    (a : A) (s' : St W Unit) (h : x s = (.ok a, s')) (h' : (f a s').1 = .fuel) : ((x >>= f) s).1 = .fuel := by
  change (Act.bind x f s).1 = _
  unfold Act.bind
  rw [h]
  exact h'

theorem nested_fuel {A : Type} {U : AnyUser W P τ ε CE} {x : Act (St W Unit) (Err P CE) A} (hF : ∀ w₀, Fine U w₀ x)
    {s : St W Unit} (h : (x { s with ndepth := s.ndepth + 1 }).1 = .fuel) : (nestedUnwind x s).1 = .fuel := by
  have hd := (hF s.strm { s with ndepth := s.ndepth + 1 } .start).2.1
  unfold nestedUnwind
  rcases hr : x { s with ndepth := s.ndepth + 1 } with ⟨o, t⟩
  rw [hr] at h hd
  simp only at h hd
  subst h
  have : t.ndepth ≠ 0 := by omega
  simp only [this, if_false]

/-- An empty text is read, again and again. -/
theorem fickle_all (n : Nat) : ∀ acc last, (fickle.parseAll n .base acc last ⟨(1, false), (), 1⟩).1 = .fuel := by
  induction n with
  | zero => exact fun _ _ => rfl
  | succ n ih =>
    intro acc last
    rw [parseAll]
    rcases n with _ | _ | n
    · exact bind_fuel rfl
    · exact bind_fuel rfl
    · have e : fickle.parseNext (n + 2) .base ⟨(1, false), (), 1⟩ = (.ok (some (.text ())), ⟨(1, false), (), 1⟩) := by
        rw [parseNext]
        rfl
      exact step_fuel _ _ e (ih _ _)

theorem fickle_nested (n : Nat) : (fickle.parseNested n ⟨(2, false), (), 1⟩).1 = .fuel := by
  rcases n with _ | n
  · rfl
  rw [parseNested]
  refine step_fuel (some ⟨'{', ()⟩) ⟨(1, false), (), 1⟩ rfl (step_fuel (some true) ⟨(1, false), (), 1⟩ rfl
    (step_fuel () ⟨(1, false), (), 1⟩ rfl ?_))
  rcases n with _ | _ | n
  · exact bind_fuel rfl
  · exact bind_fuel rfl
  · have e : fickle.parseNext (n + 2) .operator ⟨(1, false), (), 1⟩ = (.ok (some (.text ())), ⟨(1, false), (), 1⟩) := by
      rw [parseNext]
      rfl
    exact step_fuel _ _ e (step_fuel () ⟨(1, false), (), 1⟩ rfl (step_fuel none ⟨(1, false), (), 1⟩ rfl
      (bind_fuel (fickle_all _ _ _))))

/-- **C81** (a call that does not end). Without the condition on the classifier it is not so: there are a source of two characters
and a classifier, who contradicts itself, such that the first call never ends, although every function of the user's returns
and none panics. The parser reads an empty text, again and again. -/
theorem C81_hangs : ∃ U : AnyUser (Nat × Bool) Unit Unit Unit Unit, U.Finite Prod.fst ∧ U.Calm ∧
    ∀ o s', ¬ U.Call (St.init (2, false) ()) o s' := by
  refine ⟨fickle, fickle_finite, ⟨nofun, nofun, nofun, nofun, nofun, nofun, fun q ch w => ?_, nofun, nofun, nofun, ?_, ?_⟩, ?_⟩
  · simp only [fickle]
    split
    · split <;> exact nofun
    · exact nofun
  · intro d w f h; cases h
  · intro d w f h; cases h
  · rintro o s' ⟨n, e, hf⟩
    refine hf ?_
    have : (fickle.parseNext n .base (St.init (2, false) ())).1 = .fuel := by
      rcases n with _ | n
      · rfl
      rw [parseNext]
      exact step_fuel () (St.init (2, false) ()) rfl (step_fuel (some ⟨'{', ()⟩) (St.init (2, false) ()) rfl
        (step_fuel true (St.init (2, false) ()) rfl
          (bind_fuel (nested_fuel (fun w₀ => (fine_parse fickle w₀ n).2.1) (fickle_nested n)))))
    rw [e] at this
    exact this

/-- One character; the classifier answers first that it ends nests, then that it does not. -/
def wavering : AnyUser (Nat × Bool) Unit Unit Unit Unit where
  peek w := (.ok (if w.1 = 1 then some ⟨'x', ()⟩ else none), w)
  next w := (.ok (if w.1 = 1 then some ⟨'x', ()⟩ else none), w.1 - 1, w.2)
  nextAccum w := (.ok (if w.1 = 1 then some ⟨'x', ()⟩ else none), w.1 - 1, w.2)
  accumDone w := (.ok (), w)
  emptyText w := (.ok (), w)
  concat _ _ w := (.ok (), w)
  ask q _ w := (.ok (q = .nestEnd && w.2), w.1, if q = .nestEnd then !w.2 else w.2)
  newDatum d w := (.ok d, w)
  getMut _ w := (.ok true, w)
  lookup _ w := (.ok none, w)

/-- **C81** (a panic of the parser's own). Also without the condition on the classifier, a call can panic although no function of
the user's does: by an assertion of the parser that is compiled if `debug_assertions` are. -/
theorem C81_wavering : ∃ U : AnyUser (Nat × Bool) Unit Unit Unit Unit, U.Calm ∧
    ∃ s', U.Call (St.init (1, true) ()) .panic s' := by
  refine ⟨wavering, ⟨nofun, nofun, nofun, nofun, nofun, nofun, nofun, nofun, nofun, nofun, ?_, ?_⟩, _, 1, rfl, nofun⟩
  · intro d w f h; cases h
  · intro d w f h; cases h

/-! ## The other models are instances -/

theorem same_eq {A : Type} {s : St σ α} {x : Act (St σ α) (Err P CE) A} {y : Act (St (σ × α) Unit) (Err P CE) A}
    (h : SameAs True s Eq x y) : y s.joined = ((x s).1, (x s).2.joined) := by
  unfold SameAs at h
  rcases hx : x s with ⟨a | e | _ | _, t⟩ <;> rcases hy : y s.joined with ⟨b | e' | _ | _, u⟩ <;> rw [hx, hy] at h <;>
    first | exact h.elim | skip
  · obtain ⟨h1, h2⟩ := h; rw [h1, h2]
  · obtain ⟨h1, h2⟩ := h; rw [h1, h2]
  · rw [h trivial]
  · have h : u = t.joined := h
    rw [h]

/-- **C81** (the model of panics). The calls of `Model/Panics.lean`, where any function of the user's may panic, are those
with its user code as any user code. -/
theorem C81_panics_model (U : PEnv σ P τ ε α CE) (s : St σ α) (o : Outcome (Err P CE) (Option (Datum τ ε)))
    (t : St (σ × α) Unit) : U.asAny.Call s.joined o t ↔ ∃ s', U.Call s o s' ∧ t = s'.joined := by
  have e := fun n => same_eq ((U.same_parse n).1 .base s)
  constructor
  · rintro ⟨n, h, hf⟩
    rw [e n] at h
    cases h
    exact ⟨_, ⟨n, rfl, hf⟩, rfl⟩
  · rintro ⟨s', ⟨n, h, hf⟩, rfl⟩
    exact ⟨n, by rw [e n, h], hf⟩

theorem same_weak {A : Type} {s : St σ α} {x : Act (St σ α) (Err P CE) A} {y : Act (St (σ × α) Unit) (Err P CE) A}
    (h : SameAs False s Eq x y) : (y s.joined).1 = (x s).1 ∧ ((x s).1 ≠ .panic → (y s.joined).2 = (x s).2.joined) := by
  unfold SameAs at h
  rcases hx : x s with ⟨a | e | _ | _, t⟩ <;> rcases hy : y s.joined with ⟨b | e' | _ | _, u⟩ <;> rw [hx, hy] at h <;>
    first | exact h.elim | skip
  · obtain ⟨h1, h2⟩ := h; exact ⟨by rw [h1], fun _ => h2⟩
  · obtain ⟨h1, h2⟩ := h; exact ⟨by rw [h1], fun _ => h2⟩
  · exact ⟨rfl, fun h => absurd rfl h⟩
  · exact ⟨rfl, fun _ => h⟩

/-- **C81** (the model of delimiters that change). The calls of `Model/Delims.lean`, where combiners may change the classifier and
the bindings, are those with its user code as any user code. -/
theorem C81_delims_model (U : ClsEnv σ P τ ε α CE) (s : St σ α) :
    (∀ o t, o ≠ .panic → (U.asAny.Call s.joined o t ↔ ∃ s', U.Call s o s' ∧ t = s'.joined)) ∧
    ((∃ t, U.asAny.Call s.joined .panic t) ↔ ∃ s', U.Call s .panic s') := by
  have e := fun n => same_weak ((U.same_parse n).1 .base s)
  refine ⟨fun o t ho => ⟨?_, ?_⟩, ?_, ?_⟩
  · rintro ⟨n, h, hf⟩
    have := e n
    rw [h] at this
    exact ⟨(U.parseNext n .base s).2, ⟨n, Prod.ext this.1.symm rfl, hf⟩, this.2 (this.1 ▸ ho)⟩
  · rintro ⟨s', ⟨n, h, hf⟩, rfl⟩
    have := e n
    rw [h] at this
    exact ⟨n, Prod.ext this.1 (this.2 ho), hf⟩
  · rintro ⟨t, n, h, hf⟩
    have := e n
    rw [h] at this
    exact ⟨_, n, Prod.ext this.1.symm rfl, hf⟩
  · rintro ⟨t, n, h, hf⟩
    have := e n
    rw [h] at this
    exact ⟨_, n, Prod.ext this.1 rfl, hf⟩

/-! ## An example -/

/-- What is still to be read, what was accumulated, how often the classifier was asked, and what starts nests. -/
structure Odd where
  rest : List Char
  acc : List Char
  asked : Nat
  brace : Char
deriving DecidableEq

def oddView (w : Odd) : Option (Item Nat) := w.rest.head?.map fun c => ⟨c, w.rest.length⟩

def oddClass (w : Odd) : Classifier where
  isNestStart ch := ch == w.brace
  isNestEnd ch := ch == '}'
  isNestEscape ch := ch == '\\'
  isWhitespace ch := ch == ' '

/-- A classifier that counts the questions; an allocator that gives an empty nest for every text `b`; and a combiner `x` that
takes a character from the source and changes what starts nests. -/
def odd : AnyUser Odd Nat (List Char) Unit Unit where
  peek w := (.ok (oddView w), w)
  next w := (.ok (oddView w), { w with rest := w.rest.tail, acc := [] })
  nextAccum w := (.ok (oddView w), { w with rest := w.rest.tail, acc := w.acc ++ w.rest.take 1 })
  accumDone w := (.ok w.acc, { w with acc := [] })
  emptyText w := (.ok [], w)
  concat t u w := (.ok (t ++ u), w)
  ask q ch w := (.ok (q.of (oddClass w) ch), { w with asked := w.asked + 1 })
  newDatum d w := match d with
    | .text ['b'] => (.ok .emptyNest, w)
    | _ => (.ok d, w)
  getMut _ w := (.ok true, w)
  lookup d w := match d with
    | .text ['x'] => (.ok (some (.operative fun _ t w => (.ok (some (.text t)), { w with rest := w.rest.tail, brace := '<' }))), w)
    | _ => (.ok none, w)

def oddStart : St Odd Unit := St.init ⟨"{x a}zq<p b}>".toList, [], 0, '{'⟩ ()

/-- A history of uses: `z` is never read, the second nest starts with `<`, the datum `b` is another, and the classifier was
asked often. -/
example : odd.Uses oddStart [.ok (some (.text ['a'])), .ok (some (.text ['q'])),
    .ok (some (.combination (.text ['p']) (.list .emptyNest .emptyList))), .ok (some (.text ['>'])), .ok none]
    ⟨⟨[], [], 60, '<'⟩, (), 0⟩ :=
  .call (s' := ⟨⟨"q<p b}>".toList, [], 19, '<'⟩, (), 0⟩) ⟨20, by decide +kernel, nofun⟩
    (.call (s' := ⟨⟨"<p b}>".toList, [], 26, '<'⟩, (), 0⟩) ⟨20, by decide +kernel, nofun⟩
    (.call (s' := ⟨⟨">".toList, [], 54, '<'⟩, (), 0⟩) ⟨20, by decide +kernel, nofun⟩
    (.call (s' := ⟨⟨[], [], 60, '<'⟩, (), 0⟩) ⟨20, by decide +kernel, nofun⟩
    (.call (s' := ⟨⟨[], [], 60, '<'⟩, (), 0⟩) ⟨20, by decide +kernel, nofun⟩ .nil))))

/-- An allocator that gives an empty nest for every empty list: what it gave stands at the end of the list. -/
def oddEnds : AnyUser Odd Nat (List Char) Unit Unit :=
  { odd with newDatum := fun d w => match d with
      | .emptyList => (.ok .emptyNest, w)
      | _ => (.ok d, w) }

example : oddEnds.Uses (St.init ⟨"{p b}".toList, [], 0, '{'⟩ ())
    [.ok (some (.combination (.text ['p']) (.list (.text ['b']) .emptyNest)))] ⟨⟨[], [], 28, '{'⟩, (), 0⟩ :=
  .call (s' := ⟨⟨[], [], 28, '{'⟩, (), 0⟩) ⟨20, by decide +kernel, nofun⟩ .nil

/-- The source is finite, though a combiner takes from it. -/
theorem odd_finite : odd.Finite fun w => w.rest.length where
  peek w := ⟨nofun, Nat.le_refl _⟩
  shown w it w' h := by
    cases w with
    | mk r a n b =>
      cases r with
      | nil => cases h
      | cons c r => cases h; exact Nat.succ_pos _
  next w := ⟨nofun, by simp [odd], fun h => by simp only [odd, List.length_tail]; omega⟩
  nextAccum w := ⟨nofun, by simp [odd], fun h => by simp only [odd, List.length_tail]; omega⟩
  accumDone w := ⟨nofun, Nat.le_refl _⟩
  emptyText w := ⟨nofun, Nat.le_refl _⟩
  concat t u w := ⟨nofun, Nat.le_refl _⟩
  ask q ch w := ⟨nofun, Nat.le_refl _⟩
  newDatum d w := by
    simp only [odd]
    split <;> exact ⟨nofun, Nat.le_refl _⟩
  getMut d w := ⟨nofun, Nat.le_refl _⟩
  lookup d w := by
    simp only [odd]
    split <;> exact ⟨nofun, Nat.le_refl _⟩
  operative d w f h := by
    simp only [odd] at h
    split at h
    · cases h; exact fun t w' => ⟨nofun, by simp⟩
    · cases h
  applicative d w f h := by
    simp only [odd] at h
    split at h <;> cases h

/-- It is orderly, though the classifier counts and changes. -/
theorem odd_orderly : odd.Orderly oddView oddClass where
  peek w o w' h := by cases h; exact ⟨rfl, rfl, rfl⟩
  ask q ch w b w' h := by cases h; exact ⟨rfl, rfl, rfl⟩
  emptyText w t w' h := by cases h; exact ⟨rfl, rfl⟩
  next w o w' h := by cases h; exact ⟨rfl, rfl⟩
  accumDone w t w' h := by cases h; exact ⟨rfl, rfl⟩
  concat t u w v w' h := by cases h; exact ⟨rfl, rfl⟩
  disjoint w ch h := by
    simp only [oddClass, beq_iff_eq] at h
    subst h
    rfl

theorem odd_calm : odd.Calm where
  peek := nofun
  next := nofun
  nextAccum := nofun
  accumDone := nofun
  emptyText := nofun
  concat := nofun
  ask := nofun
  newDatum d w := by
    simp only [odd]
    split <;> exact nofun
  getMut := nofun
  lookup d w := by
    simp only [odd]
    split <;> exact nofun
  operative d w f h := by
    simp only [odd] at h
    split at h
    · cases h; exact nofun
    · cases h
  applicative d w f h := by
    simp only [odd] at h
    split at h <;> cases h

/-- So every call ends, without a panic. -/
example (s : St Odd Unit) : ∃ o s', odd.Call s o s' ∧ o ≠ .panic := by
  obtain ⟨o, s', h⟩ := C81_ends odd odd_finite odd_orderly.toSteady s
  exact ⟨o, s', h, C81_no_panic odd odd_orderly odd_calm h⟩

/-- An error, with its cause. -/
example : odd.Uses (St.init ⟨"{q".toList, [], 0, '{'⟩ ()) [.err .missingEndChar] ⟨⟨[], [], 11, '{'⟩, (), 0⟩ ∧
    odd.Cause ⟨"{q".toList, [], 0, '{'⟩ (.missingEndChar : Err Nat Unit) :=
  ⟨.call ⟨20, by decide +kernel, nofun⟩ .nil, .missingEndChar (Reach.start.next.next) (.inl rfl)⟩

end AnyUser

end Kul
