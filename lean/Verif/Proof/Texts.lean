import Verif.Spec.Text

/-!
# The text types fulfil their contract
-/

namespace Kul

variable {C CS P τ ε α : Type} {O : ChunkOps C CS P} {RC : C → List (Item P) → Prop}
  {RCS : CS → Seq P → Prop}

theorem allChunks_isEmpty (H : ChunkConf O RC RCS) {cs : List C} {ls : List (List (Item P))}
    (h : List.Forall₂ RC cs ls) : allChunks O.isEmpty cs = .ok ls.flatten.isEmpty := by
  induction h with
  | nil => rfl
  | @cons c l cs ls h _ ih =>
    simp only [allChunks, H.isEmpty c l h]
    cases l with
    | nil => simpa using ih
    | cons x l => rfl

/-! ## `TextVec` -/

theorem TextVec.link_chunks (t u : TextVec C) : (link t u).chunks = t.chunks ++ u.chunks := by
  cases t <;> cases u <;> rfl

theorem textVec_conf (H : ChunkConf O RC RCS) : TextConf (textVec α O) RC Eq False where
  refl _ := rfl
  trans _ _ _ := Eq.trans
  ofChunk c l h := ⟨[c], [l], rfl, .cons h .nil, by simp⟩
  empty := ⟨[], [], rfl, .nil, rfl⟩
  concat := by
    rintro t u c e a ⟨cs, ls, h1, h2, rfl⟩ ⟨cs', ls', h3, h4, rfl⟩
    have h1' : t.chunks = cs := by simpa [textVec] using h1
    have h3' : u.chunks = cs' := by simpa [textVec] using h3
    simp only [textVec, TextVec.concat, TextVec.isEmpty, h1', h3', allChunks_isEmpty H h2,
      allChunks_isEmpty H h4]
    rcases hc : ls.flatten with _ | ⟨x, l⟩
    · exact ⟨_, _, rfl, rfl, Or.inl ⟨u, rfl, cs', ls', h3, h4, rfl⟩⟩
    · rcases he : ls'.flatten with _ | ⟨y, l'⟩
      · exact ⟨_, _, rfl, rfl, Or.inl ⟨t, rfl, cs, ls, h1, h2, by simp [hc]⟩⟩
      · refine ⟨_, _, rfl, rfl, Or.inl ⟨_, rfl, cs ++ cs', ls ++ ls', ?_, List.rel_append h2 h4, ?_⟩⟩
        · simp [TextVec.link_chunks, h1', h3']
        · simp [hc, he]

/-! ## `TextDatumList` -/

theorem TextDatumList.link_spec (al : AllocOps (TextDatumList C ε) ε α) :
    ∀ (t u : TextDatumList C ε) (cs cs' : List C) (a : α), t.chunks = .ok cs → u.chunks = .ok cs' →
    ∃ o a', link al t u a = (o, a') ∧ al.Steps a a' ∧
      ((∃ v, o = .ok v ∧ v.chunks = .ok (cs ++ cs')) ∨ (al.CanFail ∧ ∃ e, o = .err e))
  | .mk c none, u, cs, cs', a, h, h' => by
    simp only [chunks] at h
    cases h
    simp only [link]
    rcases hn : al.newDatum (.text u) a with ⟨_ | _, a'⟩
    · refine ⟨_, _, rfl, .step (d := .text u) (a' := a') ?_, Or.inr ⟨⟨_, _, _, _, hn⟩, _, rfl⟩⟩
      rw [hn]; exact .refl
    · refine ⟨_, _, rfl, .step (d := .text u) (a' := a') ?_, Or.inl ⟨_, rfl, ?_⟩⟩
      · rw [hn]; exact .refl
      · simp [chunks, h']
  | .mk c (some (.text t)), u, cs, cs', a, h, h' => by
    simp only [chunks] at h
    rcases ht : t.chunks with l | _ | _ | _ <;> rw [ht] at h <;> simp at h
    subst h
    obtain ⟨o, a', h1, h2, h3⟩ := link_spec al t u l cs' a ht h'
    simp only [link, h1]
    rcases h3 with ⟨v, rfl, hv⟩ | ⟨hf, e, rfl⟩
    · exact ⟨_, _, rfl, h2, Or.inl ⟨_, rfl, by simp [chunks, hv]⟩⟩
    · exact ⟨_, _, rfl, h2, Or.inr ⟨hf, _, rfl⟩⟩
  | .mk c (some (.combination _ _)), u, cs, cs', a, h, h' => by simp [chunks] at h
  | .mk c (some .emptyNest), u, cs, cs', a, h, h' => by simp [chunks] at h
  | .mk c (some (.list _ _)), u, cs, cs', a, h, h' => by simp [chunks] at h
  | .mk c (some .emptyList), u, cs, cs', a, h, h' => by simp [chunks] at h
  | .mk c (some (.extra _)), u, cs, cs', a, h, h' => by simp [chunks] at h

theorem textDatumList_conf (H : ChunkConf O RC RCS) (al : AllocOps (TextDatumList C ε) ε α) :
    TextConf (textDatumList O al) RC al.Steps al.CanFail where
  refl _ := .refl
  trans _ _ _ h h' := h.trans h'
  ofChunk c l h := ⟨[c], [l], rfl, .cons h .nil, by simp⟩
  empty := ⟨[O.empty], [[]], rfl, .cons H.empty .nil, rfl⟩
  concat := by
    rintro t u c e a ⟨cs, ls, h1, h2, rfl⟩ ⟨cs', ls', h3, h4, rfl⟩
    simp only [textDatumList] at h1 h3
    simp only [textDatumList, TextDatumList.concat, TextDatumList.isEmpty, h1, h3,
      allChunks_isEmpty H h2, allChunks_isEmpty H h4]
    rcases hc : ls.flatten with _ | ⟨x, l⟩
    · exact ⟨_, _, rfl, .refl, Or.inl ⟨u, rfl, cs', ls', h3, h4, rfl⟩⟩
    · rcases he : ls'.flatten with _ | ⟨y, l'⟩
      · exact ⟨_, _, rfl, .refl, Or.inl ⟨t, rfl, cs, ls, h1, h2, by simp [hc]⟩⟩
      · obtain ⟨o, a', g1, g2, g3⟩ := TextDatumList.link_spec al t u cs cs' a h1 h3
        refine ⟨o, a', by simpa using g1, g2, ?_⟩
        rcases g3 with ⟨v, rfl, hv⟩ | ⟨hf, e, rfl⟩
        · exact Or.inl ⟨v, rfl, cs ++ cs', ls ++ ls', hv, List.rel_append h2 h4, by simp [hc, he]⟩
        · exact Or.inr ⟨hf, by simp, by simp, e, rfl⟩

end Kul
