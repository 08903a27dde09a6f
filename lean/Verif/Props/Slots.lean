import Verif.Proof.FitsText
import Verif.Props.Concrete

/-!
# C53: how large a slice suffices

The number of slots that suffices for every source of a given length, whatever its characters
are, and a family of sources that shows that it cannot be lowered.
-/

namespace Kul

variable {C CS P ε CE : Type}

/-- C53. If `3 n ≤ 2 k + 5` then a slice with `k` unused slots is enough for a source of `n` characters:
no call of `next` runs out of memory, however often it is called, whatever the characters and the
errors in the source are, and however the source is divided into chunks. -/
theorem C53_enough {O : ChunkOps C CS P} {RC : C → List (Item P) → Prop} {RCS : CS → Seq P → Prop}
    (H : ChunkConf O RC RCS) (cc : Classifier) {cs : List C} {ls : List (List (Item P))}
    (hc : List.Forall₂ RC cs ls) (b : SliceAlloc (Datum (TextDatumList C ε) ε))
    (hb : 3 * ls.flatten.length ≤ 2 * (b.unused.getD []).length + 5) {os t}
    (h : (sliceEnv ε CE O cc).Calls (St.init (.ofChunks O cs) b) os t) (e : AllocErr) :
    .err (.failedAlloc e) ∉ os := by
  have hacc : (TextIter.ofChunks O cs : TextIter C CS P (TextDatumList C ε)).accum = none := by
    cases cs <;> rfl
  have K : Conf (sliceEnv ε CE O cc) _ _ :=
    textEnv_conf H (textDatumList_conf H (sliceAlloc (TextDatumList C ε) ε))
  have hp := (C15_no_panic K (TextIter.ofChunks_means H hc) h).1
  refine ((sliceEnv_fits (ε := ε) (CE := CE) H cc).calls h ?_ hp).1 e
  exact ⟨[], _, ⟨TextIter.ofChunks_means H hc, by simp [St.init, hacc]⟩, .inl rfl, hb⟩

theorem numbered_length (s : Str) : ∀ n, (numbered n s).length = s.length := by
  induction s with
  | nil => intro n; rfl
  | cons c s ih => intro n; simp [numbered, ih]

theorem strItems_length (s : Str) : (strItems s).length = s.length := by
  have := congrArg List.length (itemsFrom_ch StrPos.adv ⟨s, 0, 0⟩ s)
  simpa [strItems] using this

/-- C53. `kul_core`'s parser on a string of `n` characters and a slice of `k` datums with
`3 n ≤ 2 k + 5`: it always yields, and what it yields is what is specified for the string, errors
included. -/
theorem C53_core (s : Str) (mem : List (Datum (CoreText ε) ε)) (hm : 3 * s.length ≤ 2 * mem.length + 5)
    {l' : List (Except (Err Nat CE) (Datum (List (Item Nat)) ε))} (h : StrResults s l') :
    (∃ l t, (coreEnv (noBindings _ ε _ StrPos CE)).Yields (St.init (coreSource s) (SliceAlloc.new mem)) l t) ∧
    ∀ l t, (coreEnv (noBindings _ ε _ StrPos CE)).Yields (St.init (coreSource s) (SliceAlloc.new mem)) l t →
      List.Forall₂ ((textDatumList posStrOps (sliceAlloc _ ε)).AsSpecified posStrOps (StrPos.IsAt s)) l l' := by
  obtain ⟨h1, h2⟩ := C52_core s (SliceAlloc.new mem) h
  refine ⟨h1, fun l t hy => (h2 l t hy).resolve_right ?_⟩
  rintro ⟨before, e, after, _, _, rfl, _⟩
  have F := sliceEnv_fits (ε := ε) (CE := CE) posStr_conf defaultClassifier
  refine (F.yields hy ⟨[], _, ⟨strSource_means _ s, fun _ h => by cases h⟩, .inl rfl, ?_⟩).1 e (by simp)
  rw [strItems_length]
  simpa [St.init, SliceAlloc.new_unused] using hm

/-! ## No smaller slice suffices -/

/-- `{a}`, `{a{a}x}`, `{a{a{a}x}x}` and so on. -/
def costly : Nat → Str
  | 0 => "{a}".toList
  | k + 1 => '{' :: 'a' :: (costly k ++ ['x', '}'])

theorem costly_length (k : Nat) : (costly k).length = 4 * k + 3 := by
  induction k with
  | zero => rfl
  | succ k ih => simp [costly, ih]; omega

theorem numbered_append (s u : Str) : ∀ n, numbered n (s ++ u) = numbered n s ++ numbered (n + s.length) u := by
  induction s with
  | nil => intro n; rfl
  | cons c s ih => intro n; simp [numbered, ih, show n + 1 + s.length = n + (s.length + 1) by omega]

theorem costly_start (k n : Nat) : ∃ it r, numbered n (costly k) = it :: r ∧ it.ch = '{' := by
  cases k <;> exact ⟨_, _, rfl, rfl⟩

theorem costly_gram (ε : Type) (k : Nat) : ∀ n, ∃ d : Datum (List (Item Nat)) ε,
    Gram defaultClassifier .nest (numbered n (costly k)) [d] ∧ d.refs (fun _ => 0) = 6 * k + 2 := by
  induction k with
  | zero =>
    intro n
    refine ⟨.combination (.text [⟨'a', n + 1⟩]) .emptyList, ?_, rfl⟩
    exact .combination (b := ⟨'{', n⟩) (e := ⟨'}', n + 2⟩) (h := [⟨'a', n + 1⟩]) (sep := []) (r := []) (ds := [])
      (by simp; decide) (by simp; decide)
      (.textHead (ws := []) (fun _ h => by cases h) (by simp) (.plain (by simp; decide) (by simp; decide) .nil)) .empty .nil
  | succ k ih =>
    intro n
    obtain ⟨d, h1, h2⟩ := ih (n + 2)
    obtain ⟨it, r, h3, h4⟩ := costly_start k (n + 2)
    refine ⟨.combination (.text [⟨'a', n + 1⟩]) (listOf [d, .text [⟨'x', n + 2 + (costly k).length⟩]]), ?_, ?_⟩
    · have := Gram.combination (cc := defaultClassifier) (ε := ε) (b := ⟨'{', n⟩) (e := ⟨'}', n + 2 + (costly k).length + 1⟩)
        (h := [⟨'a', n + 1⟩]) (k := true) (d := .text [⟨'a', n + 1⟩]) (sep := [])
        (r := numbered (n + 2) (costly k) ++ [⟨'x', n + 2 + (costly k).length⟩])
        (ds := [d, .text [⟨'x', n + 2 + (costly k).length⟩]])
        (by simp; decide) (by simp; decide)
        (.textHead (ws := []) (fun _ h => by cases h) (by simp) (.plain (by simp; decide) (by simp; decide) .nil))
        (by
          rw [h3]
          exact .none (by rw [h4]; decide) (fun _ => by rw [h4]; decide))
        (.form h1 (.text (s := [⟨'x', n + 2 + (costly k).length⟩]) (r := []) (by simp)
          (.plain (by simp; decide) (by simp; decide) .nil) .nil))
      simpa [costly, numbered, numbered_append] using this
    · simp only [Datum.refs, listOf, h2]
      omega

theorem refs_rel {τ₁ τ₂ ε₁ ε₂ : Type} {RT : τ₁ → τ₂ → Prop} {RX : ε₁ → ε₂ → Prop} {f : τ₁ → Nat} {d d'}
    (h : DatumRel RT RX d d') : d'.refs (fun _ => 0) ≤ d.refs f := by
  induction h with
  | text _ => simp [Datum.refs]
  | combination _ _ h1 h2 => simp only [Datum.refs]; omega
  | emptyNest => exact Nat.le_refl _
  | list _ _ h1 h2 => simp only [Datum.refs]; omega
  | emptyList => exact Nat.le_refl _
  | extra _ => exact Nat.le_refl _

/-- C53. The bound cannot be lowered: there are arbitrarily long well-formed strings for which every
slice smaller than it says is used up. (`costly k` has `n = 4 k + 3` characters and needs
`6 k + 2 = (3 n - 5) / 2` slots.) -/
theorem C53_optimal (k : Nat) (mem : List (Datum (CoreText ε) ε)) (hm : 2 * mem.length + 5 < 3 * (costly k).length)
    {l t} (hy : (coreEnv (noBindings _ ε _ StrPos CE)).Yields (St.init (coreSource (costly k)) (SliceAlloc.new mem)) l t) :
    ∃ e, .error (.failedAlloc e) ∈ l := by
  obtain ⟨d, h1, h2⟩ := costly_gram ε k 0
  have hr : StrResults (CE := CE) (costly k) [.ok d] := by
    have : Written defaultClassifier (numbered 0 (costly k)) [d] := by
      have := Gram.form (top := true) (b := false) h1 (.nil (b := false))
      rwa [List.append_nil] at this
    exact .all this
  rcases (C52_core (costly k) (SliceAlloc.new mem) hr).2 l t hy with h3 | ⟨before, e, after, _, _, rfl, _⟩
  · exfalso
    cases h3 with
    | @cons x _ l _ h3 h4 =>
      cases h4
      cases h3 with
      | datum h3 =>
        have h5 := slots_le hy (fun x hx => ⟨_, List.mem_singleton.1 hx⟩)
        have h6 := refs_rel (f := TextDatumList.refs) h3
        rw [SliceAlloc.new_unused] at h5
        simp only [totalRefs] at h5
        rw [costly_length] at hm
        omega
  · exact ⟨e, by simp⟩

/-! ## Examples -/

/-- C53: ten characters with two errors among them, and a slice of thirteen datums. -/
example : ∃ l t, (coreEnv (noBindings _ Empty _ StrPos Empty)).Yields
      (St.init (coreSource "a{bé}c}d{e".toList) (SliceAlloc.new (List.replicate 13 .emptyNest))) l t ∧
    List.Forall₂ ((textDatumList posStrOps (sliceAlloc _ Empty)).AsSpecified posStrOps
        (StrPos.IsAt "a{bé}c}d{e".toList)) l
      [.ok (.text [⟨'a', 0⟩]), .ok (.combination (.text [⟨'b', 2⟩, ⟨'é', 3⟩]) .emptyList),
        .error (.unbalancedEndChar 6), .ok (.text [⟨'d', 7⟩]), .error .missingEndChar] := by
  obtain ⟨⟨l, t, h1⟩, h2⟩ := C53_core "a{bé}c}d{e".toList (List.replicate 13 .emptyNest) (by decide +kernel)
    strResults_example
  exact ⟨l, t, h1, h2 l t h1⟩

/-- C53: `{a{a}x}` with one datum less than it needs, and with as many as it needs. -/
example : costly 1 = "{a{a}x}".toList ∧
    (∃ l t, (coreEnv (noBindings _ Empty _ StrPos Empty)).Yields
      (St.init (coreSource (costly 1)) (SliceAlloc.new (List.replicate 7 .emptyNest))) l t ∧
      ∃ e, .error (.failedAlloc e) ∈ l) ∧
    ∃ d t, (coreEnv (noBindings _ Empty _ StrPos Empty)).Yields
      (St.init (coreSource (costly 1)) (SliceAlloc.new (List.replicate 8 .emptyNest))) [.ok d] t := by
  refine ⟨by decide, ?_, ?_⟩
  · obtain ⟨l', h, _⟩ := C52_str_results (ε := Empty) (CE := Empty) (costly 1)
    obtain ⟨⟨l, t, hy⟩, _⟩ := C52_core (costly 1) (SliceAlloc.new (List.replicate 7 .emptyNest)) h
    exact ⟨l, t, hy, C53_optimal 1 _ (by decide) hy⟩
  · obtain ⟨d, h1, _⟩ := costly_gram Empty 1 0
    have hr : StrResults (CE := Empty) (costly 1) [.ok d] := by
      have := Gram.form (top := true) (b := false) h1 (.nil (b := false))
      rw [List.append_nil] at this
      exact .all this
    obtain ⟨⟨l, t, hy⟩, h2⟩ := C53_core (costly 1) (List.replicate 8 .emptyNest) (by decide) hr
    have h3 := h2 l t hy
    cases h3 with
    | cons h3 h4 =>
      cases h4
      cases h3
      exact ⟨_, t, hy⟩

/-- C53: a source of two chunks, four characters in all, with four slots; three calls are made. -/
example : ∃ os t, (sliceEnv Empty Empty posStrOps defaultClassifier).Calls
      (St.init (.ofChunks posStrOps [.ofStr "{a".toList, .ofStr "b}".toList])
        (SliceAlloc.new (List.replicate 4 .emptyNest))) os t ∧ os.length = 3 ∧
    ∀ e, .err (.failedAlloc e) ∉ os := by
  obtain ⟨os, t, h, hv⟩ := Env.calls_of_view (E := sliceEnv Empty Empty posStrOps defaultClassifier) (n := 60) (k := 3)
    (s := St.init (.ofChunks posStrOps [.ofStr "{a".toList, .ofStr "b}".toList])
        (SliceAlloc.new (List.replicate 4 .emptyNest))) (v := [some true, some false, some false])
    (fun o => match o with
      | .ok d => some d.isSome
      | _ => none) (by decide +kernel) (by decide)
  refine ⟨os, t, h, by simpa using congrArg List.length hv, C53_enough posStr_conf defaultClassifier
    (.cons (PosStr.ofStr_means _) (.cons (PosStr.ofStr_means _) .nil)) _ ?_ h⟩
  decide +kernel

end Kul
