import Verif.Spec.Positions
import Verif.Props.Iteration
import Verif.Proof.Streams
import Verif.Proof.Texts
import Verif.Model.Premade
import Verif.Spec.History
import Verif.Spec.Provided

/-!
# C12, C13, C25, C37, C47, and C15 for the provided streams

The provided source streams are sequences of items; hence the result of a parse does not
depend on which of them it reads from, nor on how the source is split.
-/

namespace Kul

variable {C CS P τ ε α CE : Type}

/-! ## Every parser of the repository fulfils the contract -/

section
variable {O : ChunkOps C CS P} {RC : C → List (Item P) → Prop} {RCS : CS → Seq P → Prop}
  {T : TextType C τ α} {RA : α → α → Prop} {F : Prop} {cc : Classifier} {al : AllocOps τ ε α}
  {lookup : Datum τ ε → Option (Combiner τ ε α P CE)}

theorem textEnv_conf (H : ChunkConf O RC RCS) (K : TextConf T RC RA F) :
    Conf (textEnv O T cc al lookup) (TextIter.Means T RC RCS) (T.sem RC RA F) :=
  textIter_conf H K rfl rfl

end

section
variable {T : TextType PosStrish τ α} {RA : α → α → Prop} {F : Prop} {cc : Classifier}
  {al : AllocOps τ ε α} {lookup : Datum τ ε → Option (Combiner τ ε α CharPos CE)}

theorem strishEnv_conf (K : TextConf T PosStrish.Means RA F) :
    Conf (strishEnv T cc al lookup) (StrishIter.Means T) (T.sem PosStrish.Means RA F) :=
  strishIter_conf K rfl rfl

theorem charEnv_conf (K : TextConf T PosStrish.Means RA F) :
    Conf (charEnv T cc al lookup) CharIter.Means (T.sem PosStrish.Means RA F) :=
  charIter_conf K rfl rfl

end

theorem inmem_conf
    (lookup : Datum (TextVec PosStr) ε → Option (Combiner (TextVec PosStr) ε α StrPos CE)) :
    Conf (inmemEnv lookup) (TextIter.Means (textVec α posStrOps) PosStr.Means PosStrIter.Means)
      (vecSem α) := textEnv_conf posStr_conf (textVec_conf posStr_conf)

theorem stream_conf
    (lookup : Datum (TextVec PosStrish) ε → Option (Combiner (TextVec PosStrish) ε α CharPos CE)) :
    Conf (streamEnv lookup) (StrishIter.Means (textVec α posStrishOps)) (vecishSem α) :=
  strishEnv_conf (textVec_conf posStrish_conf)

theorem core_conf
    (lookup : Datum (CoreText ε) ε → Option (Combiner (CoreText ε) ε (CoreMem ε) StrPos CE)) :
    Conf (coreEnv lookup) (TextIter.Means (textDatumList posStrOps (sliceAlloc _ _)) PosStr.Means
      PosStrIter.Means) (coreSem ε) := textEnv_conf posStr_conf (textDatumList_conf posStr_conf _)

theorem PosStr.ofStr_means (s : Str) : PosStr.Means (.ofStr s) (strItems s) :=
  ⟨rfl, [], [], by simp [PosStr.ofStr], rfl⟩

theorem PosStrish.ofStr_means (s : Str) : PosStrish.Means (.ofStr s) (charItems s) :=
  PosStrish.new_means s ⟨0⟩

/-- The stream of a text made of one string stands for the string. -/
theorem strSource_means (T : TextType PosStr τ α) (s : Str) :
    TextIter.Means T PosStr.Means PosStrIter.Means (.ofChunks posStrOps [.ofStr s])
      ⟨[], strItems s⟩ := by
  have := TextIter.ofChunks_means (T := T) posStr_conf (.cons (PosStr.ofStr_means s) .nil)
  simpa using this

/-! ## C37 -/

/-- Whatever fulfils the contract behaves as one sequence. -/
theorem Conf.history {σ : Type} {E : Env σ P τ ε α CE} {RS : σ → Seq P → Prop} {X : TextSem P τ α}
    (K : Conf E RS X) {s : σ} {es} (h : E.strm.History s es) :
    ∀ {p r}, RS s ⟨p, r⟩ → SeqHistory X.RT X.F p r es := by
  induction h with
  | nil => intro p r _; exact .nil
  | peek h _ ih =>
    intro p r hs
    obtain ⟨s', h1, h2⟩ := K.peek _ _ hs
    rw [h1] at h; cases h
    exact .peek (ih h2)
  | next h _ ih =>
    intro p r hs
    obtain ⟨s', h1, h2⟩ := K.next _ _ hs
    rw [h1] at h; cases h
    cases r with
    | nil => exact .nextEnd (ih h2)
    | cons x r => exact .next (ih h2)
  | nextAccum h _ ih =>
    intro p r hs
    obtain ⟨o, s', a', h1, _, h2⟩ := K.nextAccum _ _ _ hs
    rw [h1] at h; cases h
    rcases h2 with ⟨h2, h3⟩ | ⟨_, _, ⟨e, h2⟩, _⟩ <;> cases h2
    cases r with
    | nil => exact .nextAccumEnd (ih (by simpa using h3))
    | cons x r => exact .nextAccum (ih h3)
  | nextAccumFailed h _ ih =>
    intro p r hs
    obtain ⟨o, s', a', h1, _, h2⟩ := K.nextAccum _ _ _ hs
    rw [h1] at h; cases h
    rcases h2 with ⟨h2, _⟩ | ⟨hF, hp, _, h3⟩
    · cases h2
    · exact .nextAccumFailed hF hp (ih h3)
  | accumDone h _ ih =>
    intro p r hs
    obtain ⟨o, s', a', h1, _, h2, h3⟩ := K.accumDone _ _ _ hs
    rw [h1] at h; cases h
    rcases h3 with ⟨t, h3, h4⟩ | ⟨_, _, e, h3⟩ <;> cases h3
    exact .accumDone h4 (ih h2)
  | accumDoneFailed h _ ih =>
    intro p r hs
    obtain ⟨o, s', a', h1, _, h2, h3⟩ := K.accumDone _ _ _ hs
    rw [h1] at h; cases h
    rcases h3 with ⟨t, h3, h4⟩ | ⟨hF, hp, _⟩
    · cases h3
    · exact .accumDoneFailed hF hp (ih h2)
  | peekPanics h hn =>
    intro p r hs
    obtain ⟨s', h1, h2⟩ := K.peek _ _ hs
    rw [h1] at h; cases h; exact absurd rfl (hn _)
  | nextPanics h hn =>
    intro p r hs
    obtain ⟨s', h1, h2⟩ := K.next _ _ hs
    rw [h1] at h; cases h; exact absurd rfl (hn _)
  | nextAccumPanics h hn he =>
    intro p r hs
    obtain ⟨o, s', a', h1, _, h2⟩ := K.nextAccum _ _ _ hs
    rw [h1] at h; cases h
    rcases h2 with ⟨h2, _⟩ | ⟨_, _, ⟨e, h2⟩, _⟩
    · exact absurd h2 (hn _)
    · exact absurd h2 (he _)
  | accumDonePanics h hn he =>
    intro p r hs
    obtain ⟨o, s', a', h1, _, _, h2⟩ := K.accumDone _ _ _ hs
    rw [h1] at h; cases h
    rcases h2 with ⟨t, h2, _⟩ | ⟨_, _, e, h2⟩
    · exact absurd h2 (hn _)
    · exact absurd h2 (he _)

/-- C37, `text::Iter`, for any chunk and text types that fulfil their contracts (all provided
ones do: `posStr_conf`, `posStrish_conf`, `textVec_conf`, `textDatumList_conf`): every history of
operations is that of the one sequence of the items of the chunks. -/
theorem C37_text_iter {O : ChunkOps C CS P} {RC : C → List (Item P) → Prop} {RCS : CS → Seq P → Prop}
    {T : TextType C τ α} {RA : α → α → Prop} {F : Prop} (H : ChunkConf O RC RCS)
    (K : TextConf T RC RA F) {cs : List C} {ls : List (List (Item P))} (hc : List.Forall₂ RC cs ls) {es}
    (h : (textIterOps O T).History (.ofChunks O cs) es) :
    SeqHistory (T.Means RC) F [] ls.flatten es :=
  (textEnv_conf (cc := defaultClassifier) (al := freeAlloc τ Empty α)
    (lookup := noBindings τ Empty α P Empty) H K).history h (TextIter.ofChunks_means H hc)

/-- C37, a string in memory read through `text::Iter` of a `TextVec`. -/
theorem C37_str {s : Str} {es} (h : (textIterOps posStrOps (textVec α posStrOps)).History
    (inmemSource s) es) : SeqHistory (vecSem α).RT False [] (strItems s) es := by
  have := C37_text_iter posStr_conf (textVec_conf posStr_conf) (.cons (PosStr.ofStr_means s) .nil) h
  simp only [List.flatten_cons, List.flatten_nil, List.append_nil] at this
  exact this

/-- C37, `StrishIterSourceStream` over the pieces `ss`, with `TextVec` texts. -/
theorem C37_strish_iter {ss : List Str} {es}
    (h : (strishIterOps (textVec α posStrishOps)).History (.new ss) es) :
    SeqHistory (vecishSem α).RT False [] (charItems ss.flatten) es :=
  (stream_conf (noBindings _ Empty α CharPos Empty)).history h (StrishIter.new_means _ ss)

/-- C37, `StrishIterSourceStream` with `TextDatumList` texts and any allocator. -/
theorem C37_strish_iter_datum_list (al : AllocOps (TextDatumList PosStrish ε) ε α) {ss : List Str} {es}
    (h : (strishIterOps (textDatumList posStrishOps al)).History (.new ss) es) :
    SeqHistory ((textDatumList posStrishOps al).Means PosStrish.Means) al.CanFail []
      (charItems ss.flatten) es :=
  (strishEnv_conf (cc := defaultClassifier) (al := al) (lookup := noBindings _ ε α CharPos Empty)
    (textDatumList_conf posStrish_conf al)).history h (StrishIter.new_means _ ss)

/-- C37, `CharIterSourceStream`, with any text type of `PosStrish` chunks that fulfils its
contract. -/
theorem C37_char_iter {T : TextType PosStrish τ α} {RA : α → α → Prop} {F : Prop}
    (K : TextConf T PosStrish.Means RA F) {s : Str} {es} (h : (charIterOps T).History (.new s) es) :
    SeqHistory (T.Means PosStrish.Means) F [] (charItems s) es :=
  (charEnv_conf (cc := defaultClassifier) (al := freeAlloc τ Empty α)
    (lookup := noBindings τ Empty α CharPos Empty) K).history h (CharIter.new_means s)

/-! ## C12, C13: the source may be split in any way, and held in any way -/

theorem charItems_strItems (s : Str) : List.Forall₂ (ItemRel Eq SamePlace) (charItems s) (strItems s) := by
  have : ∀ (s : Str) (k : CharPos) (p : StrPos), SamePlace k p → List.Forall₂ (ItemRel Eq SamePlace)
      (itemsFrom CharPos.adv k s) (itemsFrom StrPos.adv p s) := by
    intro s
    induction s with
    | nil => intro k p _; exact .nil
    | cons c s ih => exact fun k p h => .cons ⟨rfl, h⟩ (ih _ _ (congrArg (· + 1) h))
  exact this s _ _ rfl

section
variable {τ₁ τ₂ ε₁ α₁ α₂ CE₁ CE₂ : Type}

/-- C12. Parsing a stream of string pieces `ss` gives the same items as parsing the
concatenated string held in memory: the same datums, texts with the same characters at the same
character positions, and the same errors; for every way of splitting, any classifier, any two
text types and allocators, and any bindings that do not look at how texts are represented
(`Agree`). -/
theorem C12_splitting_does_not_matter {T₁ : TextType PosStrish τ₁ α₁} {T₂ : TextType PosStr τ₂ α₂}
    {RA₁ F₁ RA₂ F₂} (K₁ : TextConf T₁ PosStrish.Means RA₁ F₁) (K₂ : TextConf T₂ PosStr.Means RA₂ F₂)
    {cc al₁ al₂ lookup₁ lookup₂} {RX : ε₁ → ε₁ → Prop} {RA : α₁ → α₂ → Prop} {RE : CE₁ → CE₂ → Prop}
    (G : Agree Eq SamePlace RX RA RE False
      (strishEnv T₁ cc al₁ lookup₁) (T₁.sem PosStrish.Means RA₁ F₁)
      (textEnv posStrOps T₂ cc al₂ lookup₂) (T₂.sem PosStr.Means RA₂ F₂))
    (ss : List Str) {a₁ a₂} (ha : RA a₁ a₂) {l₁ t₁}
    (hy : (strishEnv T₁ cc al₁ lookup₁).Yields (St.init (.new ss) a₁) l₁ t₁) :
    ∃ l₂ t₂, (textEnv posStrOps T₂ cc al₂ lookup₂).Yields
        (St.init (.ofChunks posStrOps [.ofStr ss.flatten]) a₂) l₂ t₂ ∧ RA t₁.alloc t₂.alloc ∧
      List.Forall₂ (ResultRel SamePlace RE (DatumRel (SameText (T₁.sem PosStrish.Means RA₁ F₁)
        (T₂.sem PosStr.Means RA₂ F₂) (ItemRel Eq SamePlace)) RX)) l₁ l₂ :=
  (strishEnv_conf K₁).related (textEnv_conf posStr_conf K₂) G (StrishIter.new_means _ ss)
    (strSource_means T₂ _) (charItems_strItems _) ha hy

/-- C12, two ways of splitting the same characters, both read as streams. -/
theorem C12_two_splittings {T : TextType PosStrish τ α} {RA' F} (K : TextConf T PosStrish.Means RA' F)
    {cc al lookup} {RX : ε → ε → Prop} {RA : α → α → Prop} {RE : CE → CE → Prop}
    (G : Agree Eq Eq RX RA RE False
      (strishEnv T cc al lookup) (T.sem PosStrish.Means RA' F)
      (strishEnv T cc al lookup) (T.sem PosStrish.Means RA' F))
    {ss ss' : List Str} (he : ss.flatten = ss'.flatten) {a₁ a₂} (ha : RA a₁ a₂) {l₁ t₁}
    (hy : (strishEnv T cc al lookup).Yields (St.init (.new ss) a₁) l₁ t₁) :
    ∃ l₂ t₂, (strishEnv T cc al lookup).Yields (St.init (.new ss') a₂) l₂ t₂ ∧
      RA t₁.alloc t₂.alloc ∧
      List.Forall₂ (ResultRel Eq RE (DatumRel (SameText (T.sem PosStrish.Means RA' F)
        (T.sem PosStrish.Means RA' F) (ItemRel Eq Eq)) RX)) l₁ l₂ :=
  (strishEnv_conf K).related (strishEnv_conf K) G (StrishIter.new_means _ ss)
    (StrishIter.new_means _ ss') (forall₂_itemRel_eq.mpr (by rw [he])) ha hy

theorem boxAlloc_reliable (τ ε α : Type) : (boxAlloc τ ε α).Reliable := ⟨fun _ a => ⟨a, rfl, rfl⟩⟩

/-- C12 for the two convenience parsers of the library without bindings. -/
theorem C12_stream_as_inmem (ss : List Str) {l₁ t₁}
    (hy : (streamEnv (noBindings _ ε Unit CharPos CE)).Yields (St.init (.new ss) ()) l₁ t₁) :
    ∃ l₂ t₂, (inmemEnv (noBindings _ ε Unit StrPos CE)).Yields
        (St.init (inmemSource ss.flatten) ()) l₂ t₂ ∧
      List.Forall₂ (ResultRel SamePlace (fun _ _ => False) (DatumRel (SameText (vecishSem Unit)
        (vecSem Unit) (ItemRel Eq SamePlace)) Eq)) l₁ l₂ :=
  (stream_conf _).related_plain (inmem_conf _) (ClassifierSim.eq _) (fun _ => rfl) (fun _ => rfl)
    (boxAlloc_reliable _ _ _) (boxAlloc_reliable _ _ _) (fun h => h) (fun h => h)
    (StrishIter.new_means _ ss) (strSource_means _ _) (charItems_strItems _) () hy

/-- C13. Parsing from an iterator of characters gives the same items as parsing the string
of those characters held in memory. -/
theorem C13_char_iter_as_str {T₁ : TextType PosStrish τ₁ α₁} {T₂ : TextType PosStr τ₂ α₂}
    {RA₁ F₁ RA₂ F₂} (K₁ : TextConf T₁ PosStrish.Means RA₁ F₁) (K₂ : TextConf T₂ PosStr.Means RA₂ F₂)
    {cc al₁ al₂ lookup₁ lookup₂} {RX : ε₁ → ε₁ → Prop} {RA : α₁ → α₂ → Prop} {RE : CE₁ → CE₂ → Prop}
    (G : Agree Eq SamePlace RX RA RE False
      (charEnv T₁ cc al₁ lookup₁) (T₁.sem PosStrish.Means RA₁ F₁)
      (textEnv posStrOps T₂ cc al₂ lookup₂) (T₂.sem PosStr.Means RA₂ F₂))
    (s : Str) {a₁ a₂} (ha : RA a₁ a₂) {l₁ t₁}
    (hy : (charEnv T₁ cc al₁ lookup₁).Yields (St.init (.new s) a₁) l₁ t₁) :
    ∃ l₂ t₂, (textEnv posStrOps T₂ cc al₂ lookup₂).Yields
        (St.init (.ofChunks posStrOps [.ofStr s]) a₂) l₂ t₂ ∧ RA t₁.alloc t₂.alloc ∧
      List.Forall₂ (ResultRel SamePlace RE (DatumRel (SameText (T₁.sem PosStrish.Means RA₁ F₁)
        (T₂.sem PosStr.Means RA₂ F₂) (ItemRel Eq SamePlace)) RX)) l₁ l₂ :=
  (charEnv_conf K₁).related (textEnv_conf posStr_conf K₂) G (CharIter.new_means s)
    (strSource_means T₂ _) (charItems_strItems _) ha hy

end

/-! ## C25: texts can be parsed again -/

/-- C25. Parsing a text `t` (of any number of chunks) through its iterator gives the same
items as parsing any other source that has the items of the text: same datums, texts with the
same characters and positions, and same errors. -/
theorem C25_texts_can_be_parsed {σ₂ τ₂ α₂ CE₂ : Type}
    {O : ChunkOps C CS P} {RC : C → List (Item P) → Prop} {RCS : CS → Seq P → Prop}
    {T : TextType C τ α} {RA₁ : α → α → Prop} {F₁ : Prop} (H : ChunkConf O RC RCS)
    (K : TextConf T RC RA₁ F₁) {cc al lookup} {E₂ : Env σ₂ P τ₂ ε α₂ CE₂} {RS₂ : σ₂ → Seq P → Prop}
    {X₂ : TextSem P τ₂ α₂} (C₂ : Conf E₂ RS₂ X₂) {RX : ε → ε → Prop} {RA : α → α₂ → Prop}
    {RE : CE → CE₂ → Prop}
    (G : Agree Eq Eq RX RA RE False (textEnv O T cc al lookup) (T.sem RC RA₁ F₁) E₂ X₂)
    {t : τ} {cs : List C} (hcs : T.chunks t = .ok cs) {r : List (Item P)} (ht : T.Means RC t r)
    {s₂ : σ₂} (hs₂ : RS₂ s₂ ⟨[], r⟩) {a₁ a₂} (ha : RA a₁ a₂) {l₁ t₁}
    (hy : (textEnv O T cc al lookup).Yields (St.init (.ofChunks O cs) a₁) l₁ t₁) :
    ∃ l₂ t₂, E₂.Yields (St.init s₂ a₂) l₂ t₂ ∧ RA t₁.alloc t₂.alloc ∧
      List.Forall₂ (ResultRel Eq RE (DatumRel (SameText (T.sem RC RA₁ F₁) X₂ (ItemRel Eq Eq)) RX))
        l₁ l₂ := by
  obtain ⟨cs', ls, h1, h2, rfl⟩ := ht
  rw [hcs] at h1; cases h1
  exact (textEnv_conf H K).related C₂ G (TextIter.ofChunks_means H h2) hs₂
    (forall₂_itemRel_eq.mpr rfl) ha hy

/-! ## C47: the choice of delimiters does not matter -/

/-- C47. If the classes of two classifiers correspond under a relation of characters `RC`
(for a renaming `f`, `RC c d` is `f c = d`), then parsing corresponding sources gives
corresponding results; whatever the bindings, if they treat corresponding texts alike. -/
theorem C47_delimiters_do_not_matter {σ₁ P₁ τ₁ α₁ CE₁ σ₂ P₂ τ₂ α₂ CE₂ : Type}
    {E₁ : Env σ₁ P₁ τ₁ ε α₁ CE₁} {E₂ : Env σ₂ P₂ τ₂ ε α₂ CE₂} {RS₁ X₁ RS₂ X₂}
    (C₁ : Conf E₁ RS₁ X₁) (C₂ : Conf E₂ RS₂ X₂) {RC : Char → Char → Prop} {RP : P₁ → P₂ → Prop}
    {RX : ε → ε → Prop} {RA : α₁ → α₂ → Prop} {RE : CE₁ → CE₂ → Prop}
    (G : Agree RC RP RX RA RE False E₁ X₁ E₂ X₂) {s₁ r₁ s₂ r₂} (hs₁ : RS₁ s₁ ⟨[], r₁⟩)
    (hs₂ : RS₂ s₂ ⟨[], r₂⟩) (hr : List.Forall₂ (ItemRel RC RP) r₁ r₂) {a₁ a₂} (ha : RA a₁ a₂) {l₁ t₁}
    (hy : E₁.Yields (St.init s₁ a₁) l₁ t₁) :
    ∃ l₂ t₂, E₂.Yields (St.init s₂ a₂) l₂ t₂ ∧ RA t₁.alloc t₂.alloc ∧
      List.Forall₂ (ResultRel RP RE (DatumRel (SameText X₁ X₂ (ItemRel RC RP)) RX)) l₁ l₂ :=
  C₁.related C₂ G hs₁ hs₂ hr ha hy

/-- C47, strings in memory, no bindings: renaming the characters of the source by `f` renames
those of the result, if `f` carries the classes of `cc₁` to those of `cc₂`. Character positions
stay the same (byte positions need not). -/
theorem C47_renaming (f : Char → Char) {cc₁ cc₂ : Classifier}
    (hs : ∀ c, cc₂.isNestStart (f c) = cc₁.isNestStart c) (he : ∀ c, cc₂.isNestEnd (f c) = cc₁.isNestEnd c)
    (hx : ∀ c, cc₂.isNestEscape (f c) = cc₁.isNestEscape c)
    (hw : ∀ c, cc₂.isWhitespace (f c) = cc₁.isWhitespace c) (s : Str) {l₁ t₁}
    (hy : (textEnv posStrOps (textVec Unit posStrOps) cc₁ (boxAlloc _ ε _) (noBindings _ _ _ _ CE)).Yields
      (St.init (inmemSource s) ()) l₁ t₁) :
    ∃ l₂ t₂, (textEnv posStrOps (textVec Unit posStrOps) cc₂ (boxAlloc _ ε _)
        (noBindings _ _ _ _ CE)).Yields (St.init (inmemSource (s.map f)) ()) l₂ t₂ ∧
      List.Forall₂ (ResultRel (fun p q => p.charPos = q.charPos) (fun _ _ => False)
        (DatumRel (SameText (vecSem Unit) (vecSem Unit)
          (ItemRel (fun c d => f c = d) (fun p q => p.charPos = q.charPos))) Eq)) l₁ l₂ := by
  refine (textEnv_conf posStr_conf (textVec_conf posStr_conf)).related_plain
    (textEnv_conf posStr_conf (textVec_conf posStr_conf))
    ⟨?_, ?_, ?_, ?_⟩ (fun _ => rfl) (fun _ => rfl) (boxAlloc_reliable _ _ _) (boxAlloc_reliable _ _ _)
    (fun h => h) (fun h => h) (strSource_means _ s) (strSource_means _ (s.map f)) ?_ () hy
  · rintro c _ rfl; exact (hs c).symm
  · rintro c _ rfl; exact (he c).symm
  · rintro c _ rfl; exact (hx c).symm
  · rintro c _ rfl; exact (hw c).symm
  · have : ∀ (s : Str) (p q : StrPos), p.charPos = q.charPos →
        List.Forall₂ (ItemRel (fun c d => f c = d) (fun p q => p.charPos = q.charPos))
          (itemsFrom StrPos.adv p s) (itemsFrom StrPos.adv q (s.map f)) := by
      intro s
      induction s with
      | nil => intro p q _; exact .nil
      | cons c s ih => exact fun p q h => .cons ⟨rfl, h⟩ (ih _ _ (congrArg (· + 1) h))
    exact this s _ _ rfl

/-! ## C15 for the provided streams -/

/-- C15, `parse_str` and friends: any history of calls on any string, with any bindings. -/
theorem C15_inmem (lookup : Datum (TextVec PosStr) ε → Option (Combiner (TextVec PosStr) ε α StrPos CE))
    (s : Str) (a : α) {os t} (h : (inmemEnv lookup).Calls (St.init (inmemSource s) a) os t) :
    .panic ∉ os ∧ ∃ o t', (inmemEnv lookup).Call t o t' ∧ o ≠ .panic :=
  C15_no_panic (inmem_conf lookup) (strSource_means _ s) h

/-- C15, `parse_stream` and friends: any history of calls on any pieces. -/
theorem C15_stream
    (lookup : Datum (TextVec PosStrish) ε → Option (Combiner (TextVec PosStrish) ε α CharPos CE))
    (ss : List Str) (a : α) {os t} (h : (streamEnv lookup).Calls (St.init (.new ss) a) os t) :
    .panic ∉ os ∧ ∃ o t', (streamEnv lookup).Call t o t' ∧ o ≠ .panic :=
  C15_no_panic (stream_conf lookup) (StrishIter.new_means _ ss) h

/-- C15, core's in-memory parser: any history of calls on any string with any slice. -/
theorem C15_core
    (lookup : Datum (CoreText ε) ε → Option (Combiner (CoreText ε) ε (CoreMem ε) StrPos CE))
    (s : Str) (a : CoreMem ε) {os t} (h : (coreEnv lookup).Calls (St.init (coreSource s) a) os t) :
    .panic ∉ os ∧ ∃ o t', (coreEnv lookup).Call t o t' ∧ o ≠ .panic :=
  C15_no_panic (core_conf lookup) (strSource_means _ s) h

/-- C15, the character iterator stream with either text type. -/
theorem C15_char_iter {T : TextType PosStrish τ α} {RA F} (K : TextConf T PosStrish.Means RA F)
    {cc al} {lookup : Datum τ ε → Option (Combiner τ ε α CharPos CE)} (s : Str) (a : α) {os t}
    (h : (charEnv T cc al lookup).Calls (St.init (.new s) a) os t) :
    .panic ∉ os ∧ ∃ o t', (charEnv T cc al lookup).Call t o t' ∧ o ≠ .panic :=
  C15_no_panic (charEnv_conf K) (CharIter.new_means s) h

/-! ## Non-vacuity -/

/-- C12: `x{a\\}b c}}`, split inside the escape pair, with an empty piece; the parse has texts
of several chunks and an error. -/
example : ∃ t, (streamEnv (noBindings _ Empty Unit CharPos Empty)).Yields
    (St.init (.new ["x{a\\".toList, [], "}".toList, "b c}}".toList]) ())
    [.ok (.text (.single ⟨⟨"x{a\\".toList, 0, 1⟩, ⟨0⟩⟩)),
     .ok (.combination (.text (.multi [⟨⟨"x{a\\".toList, 2, 3⟩, ⟨2⟩⟩, ⟨⟨"}".toList, 0, 1⟩, ⟨4⟩⟩,
        ⟨⟨"b c}}".toList, 0, 1⟩, ⟨5⟩⟩]))
       (.list (.text (.single ⟨⟨"b c}}".toList, 2, 3⟩, ⟨7⟩⟩)) .emptyList)),
     .error (.unbalancedEndChar ⟨9⟩)] t :=
  Env.yields_of' 80 9 (by decide +kernel)

/-- C12, C13, C25, C47: bindings and allocators that agree exist also in non-trivial cases.
Here an applicative that removes its nest and counts its calls. -/
def countingLookup (τ P : Type) : Datum τ Unit → Option (Combiner τ Unit Nat P Unit) := fun d =>
  match d with
  | .emptyNest => some (.applicative fun _ _ n => (.ok none, n + 1))
  | _ => none

theorem countingLookup_agree {σ₁ σ₂ P₁ P₂ τ₁ τ₂ : Type} {E₁ : Env σ₁ P₁ τ₁ Unit Nat Unit}
    {E₂ : Env σ₂ P₂ τ₂ Unit Nat Unit} {X₁ : TextSem P₁ τ₁ Nat} {X₂ : TextSem P₂ τ₂ Nat}
    {RC : Char → Char → Prop} {RP : P₁ → P₂ → Prop} (hcc : ClassifierSim RC E₁.cc E₂.cc)
    (hb₁ : E₁.lookup = countingLookup τ₁ P₁) (hb₂ : E₂.lookup = countingLookup τ₂ P₂)
    (ha₁ : E₁.alloc = boxAlloc _ _ _) (ha₂ : E₂.alloc = boxAlloc _ _ _)
    (hm₁ : X₁.RA = Eq) (hm₂ : X₂.RA = Eq) (hF₁ : ¬ X₁.F) (hF₂ : ¬ X₂.F) :
    Agree RC RP Eq Eq Eq False E₁ X₁ E₂ X₂ where
  cc := hcc
  fail₁ := hF₁
  fail₂ := hF₂
  mem a a' b b' h h' := by rw [hm₁] at h; rw [hm₂] at h'; subst h h'; exact id
  alloc := by
    rw [ha₁, ha₂]
    exact ⟨fun _ _ a b _ h => Or.inl ⟨a, b, rfl, rfl, h, rfl⟩⟩
  lookup d₁ d₂ h := by
    rw [hb₁, hb₂]
    cases h with
    | emptyNest =>
      refine .applicative ?_
      rintro d₁ d₂ t₁ t₂ a _ _ _ rfl
      exact Or.inl ⟨none, none, rfl, rfl, trivial, rfl⟩
    | _ => trivial

example : Agree Eq SamePlace Eq Eq Eq False (streamEnv (countingLookup _ _)) (vecishSem Nat)
    (inmemEnv (countingLookup _ _)) (vecSem Nat) :=
  countingLookup_agree (ClassifierSim.eq _) rfl rfl rfl rfl rfl rfl (fun h => h) (fun h => h)

example : ∃ l₁ t₁ l₂ t₂, (streamEnv (countingLookup _ _)).Yields
      (St.init (.new ["{{} x}".toList, "{{}".toList, " y}z".toList]) 0) l₁ t₁ ∧
    (inmemEnv (countingLookup _ _)).Yields (St.init (inmemSource "{{} x}{{} y}z".toList) 0) l₂ t₂ ∧
    t₁.alloc = 2 ∧ t₂.alloc = 2 ∧ l₁.length = 1 ∧ l₂.length = 1 := by
  obtain ⟨l₁, t₁, h₁, e₁⟩ := Env.yields_of_view (fun p => (p.2.alloc, p.1.length)) (n := 80) (k := 9)
    (E := streamEnv (countingLookup _ _)) (v := (2, 1))
    (s := St.init (.new ["{{} x}".toList, "{{}".toList, " y}z".toList]) 0) (by decide +kernel)
  obtain ⟨l₂, t₂, h₂, e₂⟩ := Env.yields_of_view (fun p => (p.2.alloc, p.1.length)) (n := 80) (k := 9)
    (E := inmemEnv (countingLookup _ _)) (v := (2, 1))
    (s := St.init (inmemSource "{{} x}{{} y}z".toList) 0) (by decide +kernel)
  simp only [Prod.mk.injEq] at e₁ e₂
  exact ⟨_, _, _, _, h₁, h₂, e₁.1, e₂.1, e₁.2, e₂.2⟩

/-- C47: a renaming from the default delimiters to parentheses and `|`. -/
def parens (c : Char) : Char :=
  if c = '{' then '(' else if c = '}' then ')' else if c = '\\' then '|'
  else if c = '(' then '{' else if c = ')' then '}' else if c = '|' then '\\' else c

def parenClassifier : Classifier where
  isNestStart c := c == '('
  isNestEnd c := c == ')'
  isNestEscape c := c == '|'
  isWhitespace c := charIsWhitespace c

example : (∀ c, parenClassifier.isNestStart (parens c) = defaultClassifier.isNestStart c) ∧
    (∀ c, parenClassifier.isNestEnd (parens c) = defaultClassifier.isNestEnd c) ∧
    (∀ c, parenClassifier.isNestEscape (parens c) = defaultClassifier.isNestEscape c) ∧
    (∀ c, parenClassifier.isWhitespace (parens c) = defaultClassifier.isWhitespace c) := by
  refine ⟨?_, ?_, ?_, ?_⟩ <;> intro c <;> unfold parens <;>
    (repeat' (first | (split; · (rename_i h; subst h; decide)))) <;>
    simp_all [parenClassifier, defaultClassifier]

/-- C37: a history of a stream in three pieces with an accumulation across them. -/
example : (strishIterOps (textVec Unit posStrishOps)).History (.new ["ab".toList, [], "c".toList])
    [.peek (some ⟨'a', ⟨0⟩⟩), .next (some ⟨'a', ⟨0⟩⟩), .nextAccum (some ⟨'b', ⟨1⟩⟩), .peek (some ⟨'c', ⟨2⟩⟩),
     .nextAccum (some ⟨'c', ⟨2⟩⟩),
     .accumDone (.multi [⟨⟨"ab".toList, 1, 2⟩, ⟨1⟩⟩, ⟨⟨"c".toList, 0, 1⟩, ⟨2⟩⟩]), .next none] :=
  .peek rfl (.next rfl (.nextAccum (a := ()) rfl (.peek rfl (.nextAccum (a := ()) rfl
    (.accumDone (a := ()) rfl (.next rfl .nil))))))

end Kul
