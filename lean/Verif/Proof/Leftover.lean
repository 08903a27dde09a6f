import Verif.Proof.Panics
import Verif.Props.Results

/-! # Calls on a stream that has something accumulated -/

namespace Kul

variable {σ P τ ε α CE : Type} {E : Env σ P τ ε α CE} {RS : σ → Seq P → Prop} {X : TextSem P τ α}

/-! ## What a run yields -/

section
variable {cc : Classifier} {al : AllocOps τ ε α} {lookup : Datum τ ε → Option (Combiner τ ε α P CE)}

theorem Run.first_error (D : cc.Disjoint) {Mem : α → α → Prop} (M : MemOk X al Mem) {e after a'} :
    ∀ (ds : List (Datum τ ε)) {r a}, Run cc X al lookup r a (ds.map .ok ++ .error e :: after) [] a' →
      ∃ r₁ rest a₁, r = r₁ ++ rest ∧ (∀ b, (b = true → AtNext cc true r) →
        FailsAt cc X al lookup Mem (.forms true b) r₁ rest a ds e a₁) ∧ Run cc X al lookup rest a₁ after [] a' := by
  intro ds
  induction ds with
  | nil =>
    intro r a h
    cases h with
    | error h1 h2 =>
      obtain ⟨p, rfl, h4⟩ := (h1.fail_sound D M).1 _ rfl
      exact ⟨p, _, _, rfl, h4, h2⟩
  | cons d ds ih =>
    intro r a h
    cases h with
    | datum h1 h2 =>
      obtain ⟨p₂, rest, a₁, rfl, h5, h6⟩ := ih h2
      rcases (h1.fail_sound D M).2 _ rfl with ⟨p, k, rfl, h8, h9, _⟩ | ⟨h8, _⟩
      · exact ⟨p ++ p₂, rest, a₁, by simp, fun b hb => h9 b hb _ _ _ _ _ _ (M.refl _) (h5 k h8), h6⟩
      · exfalso
        have hz : p₂ = [] ∧ rest = [] := by simpa using h8
        obtain ⟨rfl, rfl⟩ := hz
        have := h2.length
        simp at this

theorem Run.results (D : cc.Disjoint) {Mem : α → α → Prop} (M : MemOk X al Mem) {r a l a'}
    (h : Run cc X al lookup r a l [] a') : Results cc X.RT Mem (MemoryError X.F al) lookup r a l a' := by
  have key : ∀ (n : Nat) {l r a}, l.length = n → Run cc X al lookup r a l [] a' →
      Results cc X.RT Mem (MemoryError X.F al) lookup r a l a' := by
    intro n
    induction n using Nat.strongRecOn with
    | ind n ih =>
    intro l r a hn h
    rcases results_cases l with ⟨ds, rfl⟩ | ⟨ds, e, l', rfl⟩
    · exact .all ((h.top ds rfl).sound D M false (fun h => by cases h))
    · obtain ⟨r₁, rest, a₁, rfl, h2, h3⟩ := Run.first_error D M ds h
      refine .fails (h2 false fun h => by cases h) (ih l'.length ?_ rfl h3)
      rw [← hn]
      simp only [List.length_append, List.length_cons]
      omega
  exact key _ rfl h

end

/-! ## One call -/

theorem startsText_cons {cc : Classifier} {it : Item P} {r : List (Item P)} :
    StartsText cc (it :: r) ↔ cc.isNestStart it.ch = false ∧ cc.isNestEnd it.ch = false := by
  constructor
  · rintro ⟨_, _, h, h'⟩
    cases h
    exact delim_false h'
  · rintro ⟨h1, h2⟩
    exact ⟨it, r, rfl, by simp [Classifier.delim, h1, h2]⟩

/-- A call whatever is accumulated. -/
theorem Conf.left_run (C : Conf E RS X) {s : σ} {p r : List (Item P)} (hs : RS s ⟨p, r⟩) (a : α) (d : Nat) :
    ∃ o s' r' a' p', E.parseNext (3 * r.length + 2) .base ⟨s, a, d⟩ = (optOut o, ⟨s', a', d⟩) ∧
      RS s' ⟨p', r'⟩ ∧ (d = 0 → Clean p' r') ∧
      (((p = [] ∨ ¬ StartsText E.cc r) ∧ Eval E.cc X E.alloc E.lookup (.next .base d) r a o r' a') ∨
        (StartsText E.cc r ∧ ∃ x, LoopEv E.cc X .base (d == 0) 0 [] p r a x p' r' a' ∧
          o = x.map fun t => [.text t])) := by
  have clean : Clean p r → ∃ o s' r' a' p', E.parseNext (3 * r.length + 2) .base ⟨s, a, d⟩ = (optOut o, ⟨s', a', d⟩) ∧
      RS s' ⟨p', r'⟩ ∧ Clean p' r' ∧ Eval E.cc X E.alloc E.lookup (.next .base d) r a o r' a' := by
    intro hc
    obtain ⟨o, s', r', a', h1, ⟨p', h2, h3, _⟩, h4⟩ :=
      (C.toJ.run (3 * r.length + 2)).1 .base p r s a d (by simp) hs hc (Nat.le_refl _)
    exact ⟨o, s', r', a', p', h1, h2, h3, h4⟩
  match r, hs, clean with
  | [], hs, clean =>
    obtain ⟨o, s', r', a', p', h1, h2, h3, h4⟩ := clean (Or.inr rfl)
    exact ⟨o, s', r', a', p', h1, h2, fun _ => h3, Or.inl ⟨Or.inr (by rintro ⟨_, _, h, _⟩; cases h), h4⟩⟩
  | it :: r1, hs, clean =>
    obtain ⟨s2, hpk, hs2⟩ := C.c_peek hs a d
    have hn : 3 * (it :: r1).length + 2 = (3 * r1.length + 4) + 1 := by simp; omega
    have hl : lead E.cc .base (it :: r1) = it :: r1 := lead_base E.cc _
    rw [hn]
    unfold Env.parseNext
    have hsk : E.skipLeading (3 * r1.length + 4) .base ⟨s, a, d⟩ = (.ok (), ⟨s, a, d⟩) := rfl
    rw [Act.bind_ok hsk, Act.bind_ok hpk]
    simp only [List.head?_cons]
    by_cases hst : E.cc.isNestStart it.ch = true
    · rw [if_pos hst]
      have hnt : ¬ StartsText E.cc (it :: r1) := fun h => by rw [(startsText_cons.1 h).1] at hst; cases hst
      obtain ⟨o, s', r', a', h2, ⟨p', hs', hc', hp'⟩, he⟩ :=
        (C.toJ.run (3 * r1.length + 4)).2.1 p it r1 s2 a (d + 1) (by omega) hs2 hst (by simp; omega)
      have hlen2 : r'.length < (it :: r1).length := he.length
      have hnd : Env.nestedInDepth (E.parseNested (3 * r1.length + 4)) ⟨s2, a, d⟩ = (optOut o, ⟨s', a', d⟩) := by
        rw [Env.nestedInDepth_eq (E.keeps_parse _).2.1]
        show (((E.parseNested _) ⟨s2, a, d + 1⟩).1, _) = _
        rw [h2]
      rcases o with e | l
      · refine ⟨.error e, s', r', a', p', ?_, hs', fun _ => hc', Or.inl ⟨Or.inr hnt,
          Eval.next_nest hl hst he (by simp)⟩⟩
        rw [Act.bind_err hnd]; rfl
      · rw [Act.bind_ok hnd]
        rcases l with _ | ⟨x, l⟩
        · cases hp' rfl _ rfl
          simp only [List.length_cons] at hlen2
          obtain ⟨o, s3, r2, a2, h3, ⟨p3, hs3, hc3, _⟩, he3⟩ :=
            (C.toJ.run (3 * r1.length + 4)).1 .base [] r' s' a' d (by simp) hs' hc' (by omega)
          exact ⟨o, s3, r2, a2, p3, h3, hs3, fun _ => hc3, Or.inl ⟨Or.inr hnt, Eval.next_removed hl hst he he3⟩⟩
        · exact ⟨.ok (x :: l), s', r', a', p', rfl, hs', fun _ => hc', Or.inl ⟨Or.inr hnt,
            Eval.next_nest hl hst he (by simp)⟩⟩
    · rw [if_neg hst]
      have hst' : E.cc.isNestStart it.ch = false := by simpa using hst
      by_cases hen : E.cc.isNestEnd it.ch = true
      · rw [if_pos hen]
        have hnt : ¬ StartsText E.cc (it :: r1) := fun h => by rw [(startsText_cons.1 h).2] at hen; cases hen
        have hce := C.toJ.c_checkEndChar it hs2 a d hen
        by_cases hd : d = 0
        · obtain ⟨s3, h3, hs3⟩ := hce.2 hd
          refine ⟨.error (.unbalancedEndChar it.pos), s3, r1, a, [], ?_, hs3, fun _ => Or.inl rfl,
            Or.inl ⟨Or.inr hnt, Eval.next_end hl hst' hen (by simp [endForm, hd])⟩⟩
          rw [Act.bind_err h3]; rfl
        · obtain ⟨s3, h3, hs3⟩ := hce.1 (by omega)
          refine ⟨.ok [], s3, it :: r1, a, p, ?_, hs3, fun h => absurd h hd,
            Or.inl ⟨Or.inr hnt, Eval.next_end hl hst' hen (by simp [endForm, hd])⟩⟩
          rw [Act.bind_ok h3]; rfl
      · rw [if_neg hen]
        have hen' : E.cc.isNestEnd it.ch = false := by simpa using hen
        obtain ⟨x, s3, a3, r3, p3, h3, hs3, hev⟩ :=
          C.toJ.c_parseTextLoop .base d (it :: r1) (3 * r1.length + 4) 0 E.text.empty [] p s2 a hs2 C.empty
            ⟨fun _ _ => trivial, Or.inl rfl⟩ (by simp; omega)
        refine ⟨x.map fun t => [.text t], s3, r3, a3, p3, ?_, hs3, fun _ => hev.clean,
          Or.inr ⟨startsText_cons.2 ⟨hst', hen'⟩, x, hev, rfl⟩⟩
        have h3' : E.parseText (3 * r1.length + 4) .base ⟨s2, a, d⟩ = _ := h3
        rcases x with e | t
        · rw [Act.bind_err h3']; rfl
        · rw [Act.bind_ok h3']; rfl

end Kul
