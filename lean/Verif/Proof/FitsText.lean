import Verif.Proof.Fits
import Verif.Proof.CostText
import Verif.Props.Streams

/-!
# A parser of chunked texts on a slice of datums fulfils `Fits`
-/

namespace Kul

open TextDatumList

variable {C CS P ε CE : Type} {O : ChunkOps C CS P} {RC : C → List (Item P) → Prop} {RCS : CS → Seq P → Prop}

/-- As many datums as are counted are taken from the slice. -/
theorem countSlice_cost (C ε : Type) (N : Nat) : CostAlloc (countAlloc (TextDatumList C ε) ε) (sliceAlloc (TextDatumList C ε) ε)
    N id (fun _ => True) (fun n b' => (b'.unused.getD []).length + n = N) := by
  refine ⟨?_, fun _ _ _ => rfl⟩
  intro d n n' _ h
  cases h
  refine ⟨trivial, rfl, fun hle b' hb => ?_⟩
  simp only [id_eq] at hle
  simp only [SliceAlloc.unused] at hb ⊢
  rcases hf : b'.free with _ | i <;> rw [hf] at hb <;> simp at hb
  · omega
  · have hi : i < b'.mem.length := by omega
    refine ⟨⟨b'.mem.set i d, some (i + 1)⟩, ?_, ?_⟩
    · simp [sliceAlloc, SliceAlloc.newDatum, hf, hi]
    · simp; omega

theorem countAlloc_cannot_fail (τ ε : Type) : ¬ (countAlloc τ ε).CanFail := by
  rintro ⟨d, a, e, a', h⟩
  cases h

/-- A text has fewer references than characters. -/
theorem tight_bound (H : ChunkConf O RC RCS) {al : AllocOps (TextDatumList C ε) ε α} {t : TextDatumList C ε}
    {c : List (Item P)} (ht : t.Tight O) (h : (textDatumList O al).Means RC t c) : t.refs ≤ c.length - 1 := by
  rcases ht with ht | ⟨cs, h1, h2⟩
  · omega
  · obtain ⟨cs', ls, h3, h4, rfl⟩ := h
    have h5 : cs = cs' := by
      have : t.chunks = .ok cs' := h3
      rw [h1] at this
      cases this
      rfl
    subst h5
    have h6 := refs_chunks t cs h1
    have h7 : cs.length ≤ ls.flatten.length := by
      clear h1 h3 h6
      induction h4 with
      | nil => simp
      | @cons c l cs ls hc _ ih =>
        have := H.isEmpty c l hc
        rw [h2 c List.mem_cons_self] at this
        have hl : 1 ≤ l.length := by
          cases l with
          | nil => cases this
          | cons _ _ => simp
        have := ih fun c hc => h2 c (List.mem_cons_of_mem _ hc)
        simp only [List.length_cons, List.flatten_cons, List.length_append]
        omega
    omega

theorem accRefs_bound (H : ChunkConf O RC RCS) {al : AllocOps (TextDatumList C ε) ε α}
    {s : TextIter C CS P (TextDatumList C ε)} {q : Seq P} (hs : ∀ t ∈ s.accum, t.Tight O)
    (h : TextIter.Means (textDatumList O al) RC RCS s q) : accRefs s.accum ≤ q.pending.length - 1 := by
  obtain ⟨p1, p2, h1, _, h3, _⟩ := h
  rw [h3, List.length_append]
  cases hacc : s.accum with
  | none => simp [accRefs]
  | some t =>
    rw [hacc] at h1
    have := tight_bound H (hs t hacc) h1
    simp only [accRefs, Option.map_some, Option.getD_some]
    omega

theorem sliceEnv_fits (H : ChunkConf O RC RCS) (cc : Classifier) :
    Fits (sliceEnv ε CE O cc)
      (fun s q => TextIter.Means (textDatumList O (countAlloc _ ε)) RC RCS s q ∧ ∀ t ∈ s.accum, t.Tight O)
      (fun t c => (textDatumList O (countAlloc _ ε)).Means RC t c ∧ t.Tight O)
      (fun s => accRefs s.accum) refs (fun b => (b.unused.getD []).length) := by
  have Q : Conf (unlimitedEnv ε CE O cc) _ _ := textEnv_conf H (textDatumList_conf H (countAlloc (TextDatumList C ε) ε))
  have K : ∀ N, Cost (unlimitedEnv ε CE O cc) (sliceEnv ε CE O cc) N _ _ _ _ _ _ _ :=
    fun N => textEnv_cost (countSlice_cost C ε N) cc
  have nf : ¬ ((textDatumList O (countAlloc (TextDatumList C ε) ε)).sem RC (countAlloc (TextDatumList C ε) ε).Steps
      (countAlloc (TextDatumList C ε) ε).CanFail).F := countAlloc_cannot_fail _ _
  refine { unbound := fun _ => rfl, empty := ⟨Q.empty, ((K 0).empty).1⟩, heldBound := fun s q h => accRefs_bound H h.2 h.1,
           refsBound := fun t c h => tight_bound H h.2 h.1, peek := ?_, next := ?_, nextAccum := ?_, accumDone := ?_,
           concat := ?_, newDatum := ?_ }
  · rintro s q ⟨h1, h2⟩
    obtain ⟨s', g1, g2⟩ := Q.peek s q h1
    obtain ⟨g3, g4⟩ := (K 0).peek _ _ _ h2 g1
    exact ⟨s', g1, ⟨g2, g3⟩, g4⟩
  · rintro s q ⟨h1, h2⟩
    obtain ⟨s', g1, g2⟩ := Q.next s q h1
    obtain ⟨g3, g4⟩ := (K 0).next _ _ _ h2 g1
    exact ⟨s', g1, ⟨g2, g3⟩⟩
  · rintro s q b ⟨h1, h2⟩ hb
    obtain ⟨o, s', a', g1, _, ⟨rfl, g2⟩ | ⟨hf, _⟩⟩ := Q.nextAccum s q 0 h1
    · obtain ⟨g3, _, k, g4, g5, g6⟩ := (K (b.unused.getD []).length).nextAccum _ _ _ _ _ h2 trivial g1
      have g7 := accRefs_bound H g3 g2
      simp only [List.length_append] at g7
      have : q.rest.head?.toList.length ≤ 1 := by cases q.rest <;> simp
      simp only [id_eq, Nat.zero_add] at g4
      obtain ⟨b', g8, g9⟩ := g6 (by simp only [id_eq]; omega) b (by simp)
      exact ⟨s', b', g8, ⟨g2, g3⟩, by omega⟩
    · exact absurd hf nf
  · rintro s q b ⟨h1, h2⟩ hb
    obtain ⟨o, s', a', g1, _, g2, ⟨t, rfl, g10⟩ | ⟨hf, _⟩⟩ := Q.accumDone s q 0 h1
    · obtain ⟨g3, _, g11, g12, k, g4, g5, g6⟩ := (K (b.unused.getD []).length).accumDone _ _ _ _ _ h2 trivial g1
      have g7 := tight_bound H g11 g10
      simp only [id_eq, Nat.zero_add] at g4
      obtain ⟨b', g8, g9⟩ := g6 (by simp only [id_eq]; omega) b (by simp)
      exact ⟨t, s', b', g8, ⟨g2, g3⟩, ⟨g10, g11⟩, by omega⟩
    · exact absurd hf nf
  · rintro t u c e b ⟨h1, h2⟩ ⟨h3, h4⟩ hb
    obtain ⟨o, a', g1, _, ⟨v, rfl, g2⟩ | ⟨hf, _⟩⟩ := Q.concat t u c e 0 h1 h3
    · obtain ⟨_, g3, k, g4, g5, g6⟩ := (K (b.unused.getD []).length).concat _ _ _ _ _ h2 h4 trivial g1
      have g7 := tight_bound H g3 g2
      simp only [id_eq, Nat.zero_add] at g4
      obtain ⟨b', g8, g9⟩ := g6 (by simp only [id_eq]; omega) b (by simp)
      exact ⟨v, b', g8, ⟨g2, g3⟩, by omega⟩
    · exact absurd hf nf
  · intro d b hb
    obtain ⟨_, g1, g2⟩ := (K (b.unused.getD []).length).newDatum d 0 1 trivial rfl
    obtain ⟨b', g3, g4⟩ := g2 (by simp only [id_eq]; omega) b (by simp)
    exact ⟨b', g3, g4, rfl⟩

end Kul
