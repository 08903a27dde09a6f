import Verif.Spec.Provided
import Verif.Props.Streams
import Verif.Proof.Shared
import Verif.Proof.ChunkIter

/-!
# The library's parsers fulfil the contract
-/

namespace Kul

variable {σ P τ ε α CE C CS : Type}

theorem LibText.conf {O : ChunkOps C CS P} {RC : C → List (Item P) → Prop} {RCS : CS → Seq P → Prop}
    (H : ChunkConf O RC RCS) {T : TextType C τ α} {X : TextSem P τ α} (h : LibText O RC T X) :
    X.RT = T.Means RC ∧ TextConf T RC X.RA X.F := by
  cases h with
  | vec => exact ⟨rfl, textVec_conf H⟩
  | datumList al => exact ⟨rfl, textDatumList_conf H al⟩

theorem LibText.sem {O : ChunkOps C CS P} {RC : C → List (Item P) → Prop} {T : TextType C τ α} {X : TextSem P τ α}
    (h : LibText O RC T X) : X = T.sem RC X.RA X.F := by
  cases h <;> rfl

theorem LibChunk.conf {O : ChunkOps C CS P} {RC : C → List (Item P) → Prop} (h : LibChunk O RC) :
    ∃ RCS, ChunkConf O RC RCS := by
  cases h with
  | posStr => exact ⟨_, posStr_conf⟩
  | posStrish => exact ⟨_, posStrish_conf⟩
  | shared hA O => exact ⟨_, sharedChunk_conf hA⟩

theorem Provided.conf {E : Env σ P τ ε α CE} {s : σ} {r : List (Item P)} {X : TextSem P τ α} (p : Provided E s r X) :
    ∃ RS, Conf E RS X ∧ RS s ⟨[], r⟩ := by
  cases p with
  | str hT cc al lookup s =>
    have := textEnv_conf (cc := cc) (al := al) (lookup := lookup) posStr_conf (hT.conf posStr_conf).2
    rw [← hT.sem] at this
    exact ⟨_, this, strSource_means _ s⟩
  | text hT cc al lookup h =>
    have := textEnv_conf (cc := cc) (al := al) (lookup := lookup) posStr_conf (hT.conf posStr_conf).2
    rw [← hT.sem] at this
    exact ⟨_, this, TextIter.ofChunks_means posStr_conf h⟩
  | textish hT cc al lookup h =>
    have := textEnv_conf (cc := cc) (al := al) (lookup := lookup) posStrish_conf (hT.conf posStrish_conf).2
    rw [← hT.sem] at this
    exact ⟨_, this, TextIter.ofChunks_means posStrish_conf h⟩
  | strs hT cc al lookup ss =>
    have := strishEnv_conf (cc := cc) (al := al) (lookup := lookup) (hT.conf posStrish_conf).2
    rw [← hT.sem] at this
    exact ⟨_, this, StrishIter.new_means _ ss⟩
  | chars hT cc al lookup s =>
    have := charEnv_conf (cc := cc) (al := al) (lookup := lookup) (hT.conf posStrish_conf).2
    rw [← hT.sem] at this
    exact ⟨_, this, CharIter.new_means s⟩
  | sharedText hA O hT cc al lookup h =>
    have H := sharedChunk_conf (O := O) hA
    have := textEnv_conf (cc := cc) (al := al) (lookup := lookup) H (hT.conf H).2
    rw [← hT.sem] at this
    exact ⟨_, this, TextIter.ofChunks_means H h⟩
  | @shared _ _ _ _ _ A hA T _ rs hT cc al lookup =>
    have H := sharedChunk_conf (O := wholes A 0 rs) hA
    have := sharedStream_conf (E := sharedEnv A T cc al lookup) hA rs (hT.conf H).2 rfl rfl
    rw [← hT.sem] at this
    exact ⟨_, this, SharedStream.new_means _ _ rs⟩
  | @byStates _ _ _ _ _ _ _ _ O RC hC T _ hT state N hN cc al lookup t _ h fuel hf it hi =>
    obtain ⟨RCS, H⟩ := hC.conf
    have := textEnv_conf (cc := cc) (al := al) (lookup := lookup) H (hT.conf H).2
    rw [← hT.sem] at this
    obtain ⟨cs, ls, h1, h2, rfl⟩ := h
    have hl := hf cs h1
    obtain ⟨fuel, rfl⟩ : ∃ f, fuel = f + 1 := ⟨fuel - 1, by omega⟩
    obtain ⟨it', g1, g2⟩ := StateIter.new_sim (O := O) (hN.gives h1) (fuel := fuel) (by omega)
    cases g1.symm.trans hi
    exact ⟨_, this.byStates (N := N) (fuel + 1), _, g2, TextIter.ofChunks_means H h2⟩

theorem Conf.toCome {E : Env σ P τ ε α CE} {RS : σ → Seq P → Prop} {X : TextSem P τ α} (C : Conf E RS X) {p r} :
    ∀ {s}, RS s ⟨p, r⟩ → ToCome E.strm s r := by
  induction r generalizing p with
  | nil =>
    intro s h
    obtain ⟨s', h1, _⟩ := C.next s _ h
    exact .nil h1
  | cons x r ih =>
    intro s h
    obtain ⟨s', h1, h2⟩ := C.next s _ h
    exact .cons h1 (ih h2)

theorem AtItems.toCome {E : Env σ P τ ε α CE} {RS : σ → Seq P → Prop} {X : TextSem P τ α} (C : Conf E RS X) {s r}
    (h : AtItems RS s r) : ToCome E.strm s r :=
  have ⟨_, h1, _⟩ := h
  C.toCome h1

theorem ToCome.unique {S : StreamOps σ P τ α} {s r r'} (h : ToCome S s r) (h' : ToCome S s r') : r = r' := by
  induction h generalizing r' with
  | nil h1 =>
    cases h' with
    | nil => rfl
    | cons h2 _ => rw [h1] at h2; cases h2
  | cons h1 _ ih =>
    cases h' with
    | nil h2 => rw [h1] at h2; cases h2
    | cons h2 h3 =>
      rw [h1] at h2; cases h2
      rw [ih h3]

/-- What two relations show to be a conforming stream, they show together. -/
theorem Conf.union {E : Env σ P τ ε α CE} {RS RS' : σ → Seq P → Prop} {X : TextSem P τ α} (C : Conf E RS X)
    (C' : Conf E RS' X) : Conf E (fun s q => RS s q ∨ RS' s q) X where
  refl := C.refl
  trans := C.trans
  peek := by
    rintro s q (h | h)
    · obtain ⟨s', h1, h2⟩ := C.peek s q h; exact ⟨s', h1, Or.inl h2⟩
    · obtain ⟨s', h1, h2⟩ := C'.peek s q h; exact ⟨s', h1, Or.inr h2⟩
  next := by
    rintro s q (h | h)
    · obtain ⟨s', h1, h2⟩ := C.next s q h; exact ⟨s', h1, Or.inl h2⟩
    · obtain ⟨s', h1, h2⟩ := C'.next s q h; exact ⟨s', h1, Or.inr h2⟩
  nextAccum := by
    rintro s q a (h | h)
    · obtain ⟨o, s', a', h1, h2, h3⟩ := C.nextAccum s q a h
      exact ⟨o, s', a', h1, h2, h3.imp (fun h => ⟨h.1, Or.inl h.2⟩) fun h => ⟨h.1, h.2.1, h.2.2.1, Or.inl h.2.2.2⟩⟩
    · obtain ⟨o, s', a', h1, h2, h3⟩ := C'.nextAccum s q a h
      exact ⟨o, s', a', h1, h2, h3.imp (fun h => ⟨h.1, Or.inr h.2⟩) fun h => ⟨h.1, h.2.1, h.2.2.1, Or.inr h.2.2.2⟩⟩
  accumDone := by
    rintro s q a (h | h)
    · obtain ⟨o, s', a', h1, h2, h3, h4⟩ := C.accumDone s q a h
      exact ⟨o, s', a', h1, h2, Or.inl h3, h4⟩
    · obtain ⟨o, s', a', h1, h2, h3, h4⟩ := C'.accumDone s q a h
      exact ⟨o, s', a', h1, h2, Or.inr h3, h4⟩
  empty := C.empty
  concat := C.concat

theorem Provided.conf₂ {E : Env σ P τ ε α CE} {s₁ s₂ : σ} {r₁ r₂ : List (Item P)} {X : TextSem P τ α}
    (p₁ : Provided E s₁ r₁ X) (p₂ : Provided E s₂ r₂ X) :
    ∃ RS, Conf E RS X ∧ RS s₁ ⟨[], r₁⟩ ∧ RS s₂ ⟨[], r₂⟩ :=
  have ⟨_, C₁, h₁⟩ := p₁.conf
  have ⟨_, C₂, h₂⟩ := p₂.conf
  ⟨_, C₁.union C₂, Or.inl h₁, Or.inr h₂⟩

end Kul
