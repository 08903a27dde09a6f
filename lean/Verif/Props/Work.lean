import Verif.Proof.Work
import Verif.Proof.Track
import Verif.Props.Provided
import Verif.Props.Live

/-!
# The work of a parse

C57: how many calls the parser makes on its source. `E.counted` is the parser `E` on its stream
with a counter of the calls of the stream's methods `peek`, `next`, `next_accum` and `accum_done`
(`Spec/Work.lean`); the counter is the second component of its stream's state.
-/

namespace Kul

variable {σ P τ ε α CE : Type} {E : Env σ P τ ε α CE} {RS : σ → Seq P → Prop} {X : TextSem P τ α}

theorem counted_tracks (S : StreamOps σ P τ α) : Tracks (fun s t => s = t.1) (fun _ => True) S S.counted where
  peek := ⟨fun _ _ => trivial, by rintro s t rfl _ _; exact ⟨rfl, rfl⟩⟩
  next := ⟨fun _ _ => trivial, by rintro s t rfl _ _; exact ⟨rfl, rfl⟩⟩
  nextAccum := ⟨fun _ _ _ => trivial, by rintro s t a rfl _ _; exact ⟨rfl, rfl, rfl⟩⟩
  accumDone := ⟨fun _ _ _ => trivial, by rintro s t a rfl _ _; exact ⟨rfl, rfl, rfl⟩⟩

theorem tracks_counted (S : StreamOps σ P τ α) : Tracks (fun (t : σ × Nat) s => t.1 = s) (fun _ => True) S.counted S where
  peek := ⟨fun _ _ => trivial, by rintro s t rfl _ _; exact ⟨rfl, rfl⟩⟩
  next := ⟨fun _ _ => trivial, by rintro s t rfl _ _; exact ⟨rfl, rfl⟩⟩
  nextAccum := ⟨fun _ _ _ => trivial, by rintro s t a rfl _ _; exact ⟨rfl, rfl, rfl⟩⟩
  accumDone := ⟨fun _ _ _ => trivial, by rintro s t a rfl _ _; exact ⟨rfl, rfl, rfl⟩⟩

/-- C57. Counting changes nothing: the histories of calls of the counted parser are those of the
parser itself, whatever the count at the beginning. Of every parser, in every state. -/
theorem C57_counting_changes_nothing (t : St σ α) (c : Nat) (os) (t' : St σ α) :
    (∃ c', E.counted.Calls ⟨(t.strm, c), t.alloc, t.ndepth⟩ os ⟨(t'.strm, c'), t'.alloc, t'.ndepth⟩) ↔
      E.Calls t os t' := by
  constructor
  · rintro ⟨c', h⟩
    obtain ⟨s', h1, h2, h3, h4⟩ := (counted_tracks E.strm).calls (E := E) h trivial (s := t) ⟨rfl, rfl, rfl⟩
    cases s'; cases t'
    cases h2; cases h3; cases h4
    exact h1
  · intro h
    obtain ⟨s', h1, h2, h3, h4⟩ := (tracks_counted E.strm).calls (E := E) (os := os) (t := t) (t' := t') h trivial
      (s := ⟨(t.strm, c), t.alloc, t.ndepth⟩) ⟨rfl, rfl, rfl⟩
    obtain ⟨⟨s', c'⟩, a', d'⟩ := s'
    cases h2; cases h3; cases h4
    exact ⟨c', h1⟩

/-- C57. After any history of calls, the next call of the parser, whatever its result, makes at
most five calls on the stream for each character it consumes, and four more. -/
theorem C57_linear_work (C : Conf E RS X) {s : σ} {r : List (Item P)} (hs : RS s ⟨[], r⟩) {a : α} {os t}
    (h : E.counted.Calls (St.init (s, 0) a) os t) {o t'} (hc : E.counted.Call t o t') :
    ∃ u v, ToCome E.strm t.strm.1 (u ++ v) ∧ ToCome E.strm t'.strm.1 v ∧
      t'.strm.2 ≤ t.strm.2 + 5 * u.length + 4 := by
  obtain ⟨r₁, h1, _⟩ := C.work_calls h (r := r) ⟨[], hs⟩
  obtain ⟨v, h2, h3, u, rfl⟩ := C.work_call h1 hc
  obtain ⟨_, h1⟩ := h1
  obtain ⟨_, h2⟩ := h2
  refine ⟨u, v, C.toCome h1, C.toCome h2, ?_⟩
  simp only [List.length_append] at h3
  omega

/-- C57. All the calls of a history together, whatever their results: at most five calls on the
stream for each character of the source, and four more for each call of the parser. -/
theorem C57_linear_total (C : Conf E RS X) {s : σ} {r : List (Item P)} (hs : RS s ⟨[], r⟩) {a : α} {os t}
    (h : E.counted.Calls (St.init (s, 0) a) os t) : t.strm.2 ≤ 5 * r.length + 4 * os.length := by
  obtain ⟨_, _, h2, _⟩ := C.work_calls h (r := r) ⟨[], hs⟩
  simp only [St.init] at h2
  omega

/-- C57, for the library's streams and text types. -/
theorem C57_linear_work_provided {s : σ} {r : List (Item P)} (pr : Provided E s r X) {a : α} {os t}
    (h : E.counted.Calls (St.init (s, 0) a) os t) {o t'} (hc : E.counted.Call t o t') :
    ∃ u v, ToCome E.strm t.strm.1 (u ++ v) ∧ ToCome E.strm t'.strm.1 v ∧
      t'.strm.2 ≤ t.strm.2 + 5 * u.length + 4 :=
  have ⟨_, C, hs⟩ := pr.conf
  C57_linear_work C hs h hc

/-- C57, for the library's streams and text types. -/
theorem C57_linear_total_provided {s : σ} {r : List (Item P)} (pr : Provided E s r X) {a : α} {os t}
    (h : E.counted.Calls (St.init (s, 0) a) os t) : t.strm.2 ≤ 5 * r.length + 4 * os.length :=
  have ⟨_, C, hs⟩ := pr.conf
  C57_linear_total C hs h

/-! ## Non-vacuity -/

/-- `{a}\}{b`: a nest, a text, an unbalanced nest and the end, in 30 calls of the stream; at most
`5 * 7 + 4 * 4` are allowed. -/
example : ∃ os t, (inmemEnv (noBindings _ Unit Unit StrPos Unit)).counted.Calls
    (St.init (inmemSource "{a}\\}{b".toList, 0) ()) os t ∧ os.map shapeOf = [2, 1, 3, 0] ∧ t.strm.2 = 30 :=
  Env.callsOf_shape (E := (inmemEnv (noBindings _ Unit Unit StrPos Unit)).counted) 30 4 (fun t => t.strm.2)
    (by decide +kernel) (by decide)

/-- The bound of such a history. -/
example (os t) (h : (inmemEnv (noBindings _ Unit Unit StrPos Unit)).counted.Calls
    (St.init (inmemSource "{a}\\}{b".toList, 0) ()) os t) : t.strm.2 ≤ 35 + 4 * os.length := by
  have key : ∀ {σ} (E : Env σ StrPos (TextVec PosStr) Unit Unit Unit) (s : σ) (r : List (Item StrPos)),
      Provided E s r (vecSem Unit) → r.length = 7 → ∀ os t, E.counted.Calls (St.init (s, 0) ()) os t →
      t.strm.2 ≤ 35 + 4 * os.length := fun E s r pr hr os t h => by
    have := C57_linear_total_provided pr h
    omega
  exact key _ _ _ (inmem_provided (noBindings _ Unit Unit StrPos Unit) "{a}\\}{b".toList) (by decide +kernel) os t h

/-- Four and a half calls for each character are needed: `{a{\` takes 21. -/
example : ∃ os t, (inmemEnv (noBindings _ Unit Unit StrPos Unit)).counted.Calls
    (St.init (inmemSource "{a{\\".toList, 0) ()) os t ∧ os.map shapeOf = [3] ∧ t.strm.2 = 21 :=
  Env.callsOf_shape (E := (inmemEnv (noBindings _ Unit Unit StrPos Unit)).counted) 30 1 (fun t => t.strm.2)
    (by decide +kernel) (by decide)

/-- C19: of the nests of `{o a}{p {q }` two end, and two combiners are called; then `p` would be called, but its nest does
not end. -/
example : ∃ os t, logEnv.Calls (St.init ⟨[], charsOf "{o a}{p {q }"⟩ []) os t ∧ os.map shapeOf = [1, 3] ∧
    t.alloc = [['a'], []] ∧ ∃ u v, charsOf "{o a}{p {q }" = u ++ v ∧ AtItems SeqAt t.strm v ∧
      t.alloc.length ≤ 0 + u.countP fun it => defaultClassifier.isNestEnd it.ch := by
  obtain ⟨os, t, h1, h2, h3⟩ := Env.callsOf_shape (E := logEnv) 60 2
    (s := St.init ⟨[], charsOf "{o a}{p {q }"⟩ []) (v := [1, 3]) (fun t => t.alloc) (w := [['a'], []])
    (by decide +kernel) (by decide)
  exact ⟨os, t, h1, h2, h3, C19_no_call_before_end (E := logEnv) (seqConf _ _ _) logEnv_counts rfl h1⟩

end Kul
