import Verif.Spec.Counters
import Verif.Proof.CountersShared
import Verif.Proof.CountersStates
import Verif.Proof.Provided

/-! # What `WithinLimit` gives -/

namespace Kul

variable {σ C CS P τ ε α CE : Type}

theorem LimitChunk.lib {M : Nat} {O O' : ChunkOps C CS P} {RC : C → List (Item P) → Prop} {ok : C → Prop}
    (h : LimitChunk M O O' RC ok) : LibChunk O RC := by
  cases h with
  | posStr => exact .posStr
  | posStrish => exact .posStrish
  | shared hA O => exact .shared hA O

theorem WithinLimit.provided {M : Nat} {E : Env σ P τ ε α CE} {s : σ} {r : List (Item P)} {X : TextSem P τ α}
    {R : StreamOps σ P τ α} (w : WithinLimit M E s r X R) : Provided E s r X := by
  cases w with
  | str hT cc al lookup h => exact .str hT cc al lookup _
  | text hT cc al lookup h hM => exact .text hT cc al lookup h
  | textish hT cc al lookup h hM => exact .textish hT cc al lookup h
  | strs hT cc al lookup h hM => exact .strs hT cc al lookup _
  | chars hT cc al lookup h => exact .chars hT cc al lookup _
  | sharedText hA O hT cc al lookup h hM => exact .sharedText hA O hT cc al lookup h
  | shared hA hT cc al lookup h hM => exact .shared hA _ hT cc al lookup
  | byStates hC hT hN cc al lookup ht h hM hf hi =>
    refine .byStates hC.lib hT hN cc al lookup ⟨_, _, ht, h, rfl⟩ ?_ hi
    intro cs e
    cases ht.symm.trans e
    exact hf

theorem Str.length_le_len : ∀ s : Str, s.length ≤ Str.len s
  | [] => Nat.zero_le _
  | c :: s => by
    have h := length_le_len s
    have e : Str.len (c :: s) = Str.lenUtf8 c + Str.len s := by simp [Str.len]
    have : 1 ≤ Str.lenUtf8 c := by unfold Str.lenUtf8; split <;> [skip; split <;> [skip; split]] <;> omega
    rw [e, List.length_cons]
    omega

theorem charItems_fit {M : Nat} : ∀ (v : Str) (k : Nat), k + v.length ≤ M →
    ∀ x ∈ itemsFrom CharPos.adv ⟨k⟩ v, CharPos.Fit M x
  | [], _, _, x, hx => by cases hx
  | c :: v, k, h, x, hx => by
    simp only [itemsFrom, List.mem_cons, List.length_cons] at hx h
    rcases hx with rfl | hx
    · show k + 1 ≤ M; omega
    · exact charItems_fit v (k + 1) (by omega) x hx

theorem strItems_fit {M : Nat} (src : Str) : ∀ (v : Str) (b k : Nat), b + Str.len v ≤ M → k + v.length ≤ M →
    ∀ x ∈ itemsFrom StrPos.adv ⟨src, b, k⟩ v, StrPos.Fit M x
  | [], _, _, _, _, x, hx => by cases hx
  | c :: v, b, k, h, h', x, hx => by
    simp only [itemsFrom, List.mem_cons, List.length_cons] at hx h'
    have e : Str.len (c :: v) = Str.lenUtf8 c + Str.len v := by simp [Str.len]
    rcases hx with rfl | hx
    · exact ⟨by show b + Str.lenUtf8 c ≤ M; omega, by show k + 1 ≤ M; omega⟩
    · exact strItems_fit src v (b + Str.lenUtf8 c) (k + 1) (by omega) (by omega) x hx

/-- A text type of the library for chunks of which more is known. -/
theorem LibText.confM {O : ChunkOps C CS P} {RC RC' : C → List (Item P) → Prop} {T : TextType C τ α} {X : TextSem P τ α}
    (h : LibText O RC T X) : ∃ X', LibText O RC' T X' := by
  cases h with
  | vec => exact ⟨_, .vec⟩
  | datumList al => exact ⟨_, .datumList al⟩

/-- The chunk types with limits do the same on chunks that are within them. -/
theorem LimitChunk.conf {M : Nat} {O O' : ChunkOps C CS P} {RC : C → List (Item P) → Prop} {ok : C → Prop}
    (h : LimitChunk M O O' RC ok) : ∃ (RC' : C → List (Item P) → Prop) (RCS : CS → Seq P → Prop) (Fit : Item P → Prop),
      ChunkConf O RC' RCS ∧ ChunkSame O O' RCS Fit ∧ ∀ {cs ls}, List.Forall₂ RC cs ls → (∀ c ∈ cs, ok c) →
        List.Forall₂ RC' cs ls ∧ ∀ x ∈ ls.flatten, Fit x := by
  have all : ∀ {RC' : C → List (Item P) → Prop} {Fit : Item P → Prop},
      (∀ c l, RC c l → ok c → RC' c l ∧ ∀ x ∈ l, Fit x) → ∀ {cs ls}, List.Forall₂ RC cs ls → (∀ c ∈ cs, ok c) →
        List.Forall₂ RC' cs ls ∧ ∀ x ∈ ls.flatten, Fit x := by
    intro RC' Fit key cs ls hl
    induction hl with
    | nil => exact fun _ => ⟨.nil, fun x hx => by cases hx⟩
    | @cons c l cs ls hc _ ih =>
      intro hM
      obtain ⟨k1, k2⟩ := key c l hc (hM c List.mem_cons_self)
      obtain ⟨k3, k4⟩ := ih fun c hc => hM c (List.mem_cons_of_mem _ hc)
      refine ⟨.cons k1 k3, fun x hx => ?_⟩
      rw [List.flatten_cons, List.mem_append] at hx
      exact hx.elim (k2 x) (k4 x)
  cases h with
  | posStr =>
    refine ⟨_, _, _, posStr_conf, posStr_same M, all ?_⟩
    rintro c l hc hM
    refine ⟨hc, ?_⟩
    obtain ⟨rfl, pre, post, e1, e2⟩ := hc
    rw [e1] at hM
    simp only [Str.len_append] at hM
    exact strItems_fit _ _ _ _ (by rw [e2]; omega) hM.2
  | posStrish =>
    refine ⟨_, _, _, posStrish_confM M, posStrish_same M, all ?_⟩
    rintro c l hc hM
    refine ⟨⟨hc, hM.1⟩, ?_⟩
    obtain ⟨pre, v, post, e1, e2, e3, rfl⟩ := hc
    refine charItems_fit v _ (hM.2 v ?_)
    unfold RefCntSlice.asStr
    rw [e1]
    exact Str.slice_mid pre v post e2 e3
  | shared hA O =>
    refine ⟨_, _, _, sharedChunk_confM (O := O) M hA, sharedChunk_same M, all ?_⟩
    rintro c l hc hM
    refine ⟨⟨hc, hM.1⟩, ?_⟩
    obtain ⟨pre, v, post, ⟨e1, e2, e3⟩, rfl, _⟩ := hc
    refine charItems_fit v _ (hM.2 v ?_)
    unfold SharedSlice.asStr
    rw [e1]
    exact Str.slice_mid pre v post e2 e3

/-- The parser, with the stream without limits and with the one with limits. -/
theorem WithinLimit.conf {M : Nat} {E : Env σ P τ ε α CE} {s : σ} {r : List (Item P)} {X : TextSem P τ α}
    {R : StreamOps σ P τ α} (w : WithinLimit M E s r X R) : ∃ (X' : TextSem P τ α) (RS : σ → Seq P → Prop) (I : σ → Prop),
      E.strm.SameOn R I ∧ I s ∧ Conf (E.withStream R) RS X' ∧ RS s ⟨[], r⟩ := by
  have key : ∀ {X'} {RS : σ → Seq P → Prop} {Fit}, Conf E RS X' → RS s ⟨[], r⟩ → Seq.Fits Fit ⟨[], r⟩ →
      (∀ s q, RS s q → q.Fits Fit → R.peek s = E.strm.peek s) →
      (∀ s q, RS s q → q.Fits Fit → R.next s = E.strm.next s) →
      (∀ s q a, RS s q → q.Fits Fit → R.nextAccum s a = E.strm.nextAccum s a) →
      (∀ s q a, RS s q → q.Fits Fit → R.accumDone s a = E.strm.accumDone s a) →
      ∃ (X' : TextSem P τ α) (RS : σ → Seq P → Prop) (I : σ → Prop),
      E.strm.SameOn R I ∧ I s ∧ Conf (E.withStream R) RS X' ∧ RS s ⟨[], r⟩ :=
    fun C hs hf hp hn ha hd => ⟨_, _, _, C.sameOn hp hn ha hd, ⟨_, hs, hf⟩, C.withStream hp hn ha hd, hs, hf⟩
  cases w with
  | str hT cc al lookup h =>
    have C := textEnv_conf (cc := cc) (al := al) (lookup := lookup) posStr_conf (hT.conf posStr_conf).2
    refine key C (strSource_means _ _) (strItems_fit _ _ 0 0 (by omega) ?_) (textIter_samePeek posStr_conf (posStr_same M))
      (textIter_sameNext posStr_conf (posStr_same M)) (textIter_sameNextAccum posStr_conf (posStr_same M))
      (textIter_sameAccumDone (posStr_same M))
    have := Str.length_le_len ‹Str›
    omega
  | text hT cc al lookup h hM =>
    obtain ⟨RC', RCS, Fit, H, Q, k⟩ := (LimitChunk.posStr (M := M)).conf
    obtain ⟨k1, k2⟩ := k h hM
    obtain ⟨X', hT'⟩ := hT.confM (RC' := RC')
    have C := textEnv_conf (cc := cc) (al := al) (lookup := lookup) H (hT'.conf H).2
    exact key C (TextIter.ofChunks_means H k1) k2 (textIter_samePeek H Q) (textIter_sameNext H Q)
      (textIter_sameNextAccum H Q) (textIter_sameAccumDone Q)
  | textish hT cc al lookup h hM =>
    obtain ⟨RC', RCS, Fit, H, Q, k⟩ := (LimitChunk.posStrish (M := M)).conf
    obtain ⟨k1, k2⟩ := k h hM
    obtain ⟨X', hT'⟩ := hT.confM (RC' := RC')
    have C := textEnv_conf (cc := cc) (al := al) (lookup := lookup) H (hT'.conf H).2
    exact key C (TextIter.ofChunks_means H k1) k2 (textIter_samePeek H Q) (textIter_sameNext H Q)
      (textIter_sameNextAccum H Q) (textIter_sameAccumDone Q)
  | strs hT cc al lookup h hM =>
    have C := strishIter_confM M (hT.conf posStrish_conf).2 (E := strishEnv _ cc al lookup) rfl rfl
    exact key C ⟨StrishIter.new_means _ _, StrishIter.new_short h⟩ (charItems_fit _ 0 (by omega)) StrishIter.samePeek
      StrishIter.sameNext StrishIter.sameNextAccum StrishIter.sameAccumDone
  | chars hT cc al lookup h =>
    have C := charEnv_conf (cc := cc) (al := al) (lookup := lookup) (hT.conf posStrish_conf).2
    exact key C (CharIter.new_means _) (charItems_fit _ 0 (by omega)) (charIter_samePeek M) (charIter_sameNext M)
      (charIter_sameNextAccum M) (fun _ _ _ _ _ => rfl)
  | sharedText hA O hT cc al lookup h hM =>
    obtain ⟨RC', RCS, Fit, H, Q, k⟩ := (LimitChunk.shared (M := M) hA O).conf
    obtain ⟨k1, k2⟩ := k h hM
    obtain ⟨X', hT'⟩ := hT.confM (RC' := RC')
    have C := textEnv_conf (cc := cc) (al := al) (lookup := lookup) H (hT'.conf H).2
    exact key C (TextIter.ofChunks_means H k1) k2 (textIter_samePeek H Q) (textIter_sameNext H Q)
      (textIter_sameNextAccum H Q) (textIter_sameAccumDone Q)
  | @shared _ _ _ _ _ _ hA _ _ rs hT cc al lookup h hM =>
    have C := sharedStream_conf hA rs (hT.conf (sharedChunk_conf hA)).2 (E := sharedEnv _ _ cc al lookup) rfl rfl
    exact key C (SharedStream.new_means _ _ rs) (charItems_fit _ 0 (by omega)) (SharedStream.samePeek hA h)
      (SharedStream.sameNext hA h) (SharedStream.sameNextAccum hA h) (SharedStream.sameAccumDone h)
  | @byStates _ _ _ _ _ _ _ _ O O' RC ok hC T _ hT state N hN cc al lookup t cs ls ht h hM fuel hf _ hi =>
    obtain ⟨RC', RCS, Fit, H, Q, k⟩ := hC.conf
    obtain ⟨k1, k2⟩ := k h hM
    obtain ⟨X', hT'⟩ := hT.confM (RC' := RC')
    have C := textEnv_conf (cc := cc) (al := al) (lookup := lookup) H (hT'.conf H).2
    obtain ⟨fuel, rfl⟩ : ∃ f, fuel = f + 1 := ⟨fuel - 1, by omega⟩
    obtain ⟨it', g1, g2⟩ := StateIter.new_sim (O := O) (hN.gives ht) (fuel := fuel) (by omega)
    cases g1.symm.trans hi
    exact key (C.byStates (N := N) (fuel + 1)) ⟨_, g2, TextIter.ofChunks_means H k1⟩ k2 (stateIter_samePeek H Q)
      (stateIter_sameNext H Q) (stateIter_sameNextAccum H Q) (stateIter_sameAccumDone Q)

end Kul
