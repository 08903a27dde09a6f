import Verif.Proof.TextFns
import Verif.Model.Premade

/-!
# Properties of texts: comparing, hashing, encoding, concatenating

C31 to C36 of `/verif/properties.jsonl`. "Text `t` has the characters `cs`" is
`TextType.Chars` of `Spec/TextFns.lean`: iterating its chunks one after the other gives
them. The two texts compared may be of different types, with different chunk types.
-/

namespace Kul

variable {C CS P τ α C' CS' P' τ' α' C'' CS'' P'' τ'' α'' ε : Type}
variable {O : ChunkOps C CS P} {T : TextType C τ α} {O' : ChunkOps C' CS' P'} {T' : TextType C' τ' α'}
variable {O'' : ChunkOps C'' CS'' P''} {T'' : TextType C'' τ'' α''}

/-! ## Which texts have characters -/

/-- Texts made from chunks that fulfil the contract (in particular all that a parse
returns) have characters. -/
theorem TextType.Means.chars {RC : C → List (Item P) → Prop} {RCS : CS → Seq P → Prop}
    (K : ChunkConf O RC RCS) {t : τ} {l : List (Item P)} (h : T.Means RC t l) :
    T.Chars O t (l.map Item.ch) := ⟨l, h.reads K, rfl⟩

/-- Any `PosStr` whatever, even one put together by hand, can be read. -/
theorem posStr_reads (c : PosStr) : posStrOps.Reads c (itemsFrom StrPos.adv c.pos c.val) := by
  have : ∀ (l : List (Item StrPos)) acc, IterNext.Gives posStrOps.next ⟨l, acc⟩ l := by
    intro l
    induction l with
    | nil => exact fun acc => .done rfl
    | cons x l ih => exact fun acc => .item rfl (ih _)
  rw [← PosStrIter.new_pei]
  exact this _ _

theorem TextVec.chars_posStr (t : TextVec PosStr) :
    (textVec α posStrOps).Chars posStrOps t t.charsOf := by
  refine ⟨_, ⟨t.chunks, t.chunks.map fun c => itemsFrom StrPos.adv c.pos c.val, rfl, ?_, rfl⟩, ?_⟩
  · induction t.chunks with
    | nil => exact .nil
    | cons c cs ih => exact .cons (posStr_reads c) ih
  · rw [TextVec.charsOf]
    induction t.chunks with
    | nil => rfl
    | cons c cs ih => simp [itemsFrom_ch, ih]

/-! ## C31: equality -/

/-- **C31.** Two texts compare equal exactly when their characters are the same, whatever
their types, chunks and positions. -/
theorem C31_text_eq {t : τ} {u : τ'} {cs ds : List Char} (ht : T.Chars O t cs) (hu : T'.Chars O' u ds)
    {n : Nat} (hn : cs.length < n) : TextType.eq O T O' T' n t u = .ok (decide (cs = ds)) := by
  obtain ⟨s, h1, h2⟩ := ht.iter
  obtain ⟨s', h3, h4⟩ := hu.iter
  simp only [TextType.eq, h1, h3]
  exact iterEq_spec h2 h4 n hn

/-- **C31.** For `TextVec`s of `PosStr` this holds of all values. -/
theorem C31_text_vec_eq (t u : TextVec PosStr) {n : Nat} (hn : t.charsOf.length < n) :
    TextType.eq posStrOps (textVec α posStrOps) posStrOps (textVec α' posStrOps) n t u
      = .ok (decide (t.charsOf = u.charsOf)) :=
  C31_text_eq t.chars_posStr u.chars_posStr hn

theorem iterEq_mono {S₁ S₂ A : Type} [DecidableEq A] {next₁ : IterNext S₁ A} {next₂ : IterNext S₂ A}
    {n m : Nat} {s₁ : S₁} {s₂ : S₂} {b : Bool} (h : iterEq next₁ next₂ n s₁ s₂ = .ok b) (hm : n ≤ m) :
    iterEq next₁ next₂ m s₁ s₂ = .ok b := by
  induction n generalizing m s₁ s₂ with
  | zero => simp [iterEq] at h
  | succ n ih =>
    obtain ⟨m, rfl⟩ : ∃ k, m = k + 1 := ⟨m - 1, by omega⟩
    simp only [iterEq] at h ⊢
    rcases h1 : next₁ s₁ with ⟨(_ | x) | e | _ | _, s₁'⟩ <;>
      rcases h2 : next₂ s₂ with ⟨(_ | y) | e' | _ | _, s₂'⟩ <;>
      simp only [h1, h2] at h ⊢ <;> try exact h
    split
    · rename_i hxy
      rw [if_pos hxy] at h
      exact ih h (by omega)
    · rename_i hxy
      rw [if_neg hxy] at h
      exact h

/-- **C31.** Comparison always gives a result, and only that one. -/
theorem C31_text_eq_iff {t : τ} {u : τ'} {cs ds : List Char} (ht : T.Chars O t cs)
    (hu : T'.Chars O' u ds) (b : Bool) : TextEq O T O' T' t u b ↔ (b = true ↔ cs = ds) := by
  constructor
  · rintro ⟨n, h⟩
    have : TextType.eq O T O' T' (max n (cs.length + 1)) t u = .ok b := by
      unfold TextType.eq at h ⊢
      split at h
      · exact iterEq_mono h (Nat.le_max_left _ _)
      · cases h
    rw [C31_text_eq ht hu (by omega)] at this
    cases this
    simp
  · intro h
    refine ⟨cs.length + 1, ?_⟩
    rw [C31_text_eq ht hu (by omega)]
    congr 1
    rw [Bool.eq_iff_iff, h]; simp

/-- **C31.** Equality of texts is reflexive, symmetric and transitive, also between texts
of different types. -/
theorem C31_equivalence {t : τ} {u : τ'} {v : τ''} {cs ds es : List Char} (ht : T.Chars O t cs)
    (hu : T'.Chars O' u ds) (hv : T''.Chars O'' v es) :
    TextEq O T O T t t true ∧
    (TextEq O T O' T' t u true → TextEq O' T' O T u t true) ∧
    (TextEq O T O' T' t u true → TextEq O' T' O'' T'' u v true → TextEq O T O'' T'' t v true) := by
  simp only [C31_text_eq_iff ht ht, C31_text_eq_iff ht hu, C31_text_eq_iff hu ht, C31_text_eq_iff hu hv,
    C31_text_eq_iff ht hv, true_iff]
  exact ⟨trivial, Eq.symm, Eq.trans⟩

/-! ## C32: order -/

/-- **C32.** Comparing two texts gives their place in the lexicographic order of their
characters by code point, whatever their types, chunks and positions. -/
theorem C32_text_cmp {t : τ} {u : τ'} {cs ds : List Char} (ht : T.Chars O t cs) (hu : T'.Chars O' u ds)
    {n : Nat} (hn : cs.length < n) : ∃ r, TextType.cmp O T O' T' n t u = .ok r ∧
      (r = .lt ↔ LexLt cs ds) ∧ (r = .eq ↔ cs = ds) ∧ (r = .gt ↔ LexLt ds cs) := by
  obtain ⟨s, h1, h2⟩ := ht.iter
  obtain ⟨s', h3, h4⟩ := hu.iter
  obtain ⟨r, hr, hr'⟩ := iterCmp_spec h2 h4 n hn
  refine ⟨r, by simp only [TextType.cmp, h1, h3, hr], ?_⟩
  rcases hr' with ⟨rfl, h⟩ | ⟨rfl, rfl⟩ | ⟨rfl, h⟩
  · exact ⟨⟨fun _ => h, fun _ => rfl⟩,
      ⟨fun h => (nomatch h), fun e => absurd (e ▸ h) (LexLt.irrefl _)⟩,
      ⟨fun h => (nomatch h), fun h' => absurd (h.trans h') (LexLt.irrefl _)⟩⟩
  · exact ⟨⟨fun h => (by cases h), fun h => absurd h (LexLt.irrefl _)⟩, ⟨fun _ => rfl, fun _ => rfl⟩,
      ⟨fun h => (by cases h), fun h => absurd h (LexLt.irrefl _)⟩⟩
  · exact ⟨⟨fun h => (nomatch h), fun h' => absurd (h.trans h') (LexLt.irrefl _)⟩,
      ⟨fun h => (nomatch h), fun e => absurd (e ▸ h) (LexLt.irrefl _)⟩, ⟨fun _ => h, fun _ => rfl⟩⟩

/-- **C32.** That order is a strict total order. -/
theorem C32_total_order :
    (∀ cs, ¬ LexLt cs cs) ∧ (∀ cs ds es, LexLt cs ds → LexLt ds es → LexLt cs es) ∧
    (∀ cs ds, LexLt cs ds ∨ cs = ds ∨ LexLt ds cs) :=
  ⟨LexLt.irrefl, fun _ _ _ => .trans, LexLt.total⟩

/-- **C32.** Swapping the two texts swaps the result, and the result agrees with equality. -/
theorem C32_antisymmetric {t : τ} {u : τ'} {cs ds : List Char} (ht : T.Chars O t cs)
    (hu : T'.Chars O' u ds) {n : Nat} (hn : cs.length < n) (hn' : ds.length < n) :
    ∃ r, TextType.cmp O T O' T' n t u = .ok r ∧ TextType.cmp O' T' O T n u t = .ok r.swap ∧
      TextType.eq O T O' T' n t u = .ok (decide (r = .eq)) := by
  obtain ⟨r, h, h1, h2, h3⟩ := C32_text_cmp ht hu hn
  obtain ⟨r', h', h1', h2', h3'⟩ := C32_text_cmp hu ht hn'
  refine ⟨r, h, ?_, ?_⟩
  · rw [h']
    cases r
    · rw [h3'.mpr (h1.mp rfl)]; rfl
    · rw [h2'.mpr (h2.mp rfl).symm]; rfl
    · rw [h1'.mpr (h3.mp rfl)]; rfl
  · rw [C31_text_eq ht hu hn]
    congr 1
    exact (decide_eq_decide.mpr h2.symm)

/-! ## C33: hashing texts -/

/-- **C33.** Hashing a text feeds its characters, in order, to the hasher, and nothing
else; so the chunks, positions and text type do not matter. -/
theorem C33_text_hash {H : Type} (W : HasherOps H) {t : τ} {cs : List Char} (ht : T.Chars O t cs)
    {n : Nat} (hn : cs.length < n) (h : H) :
    T.hash O W n t h = .ok (cs.foldl (fun h c => W.writeU32 h c.val.toNat) h) := by
  obtain ⟨s, h1, h2⟩ := ht.iter
  simp only [TextType.hash, h1]
  exact hashLoop_spec W h2 n h hn

/-- **C33.** Texts that compare equal hash equally, with every hasher. -/
theorem C33_equal_texts_hash_equally {H : Type} (W : HasherOps H) {t : τ} {u : τ'} {cs ds : List Char}
    (ht : T.Chars O t cs) (hu : T'.Chars O' u ds) (heq : TextEq O T O' T' t u true) (h : H) :
    ∃ k h', (∀ n, k < n → T.hash O W n t h = .ok h') ∧ (∀ n, k < n → T'.hash O' W n u h = .ok h') := by
  obtain rfl := (by simpa [C31_text_eq_iff ht hu] using heq : cs = ds)
  exact ⟨cs.length, _, fun n hn => C33_text_hash W ht hn h, fun n hn => C33_text_hash W hu hn h⟩

/-! ## C34: encoding -/

/-- **C34.** Encoding into a buffer gives the longest prefix of whole characters that
fits: as `Ok` if that is all of the text, otherwise as `Err`. Its UTF-8 bytes are at the
start of the buffer, and the rest of the buffer is as it was. There is no panic. -/
theorem C34_encode_utf8 {t : τ} {cs : List Char} (ht : T.Chars O t cs) {n : Nat} (hn : cs.length < n)
    (buf : List UInt8) : ∃ r q buf', T.encodeUtf8 O n t buf = .ok (r, buf') ∧
      buf'.length = buf.length ∧ LongestFit buf.length cs q ∧
      buf' = utf8 q ++ buf.drop (utf8 q).length ∧
      ((r = .ok q ∧ q = cs) ∨ (r = .error q ∧ q ≠ cs)) := by
  obtain ⟨s, h1, h2⟩ := ht.iter
  obtain ⟨r, q, buf', g1, g2, g3, g4, g5⟩ := encodeLoop_spec h2 n [] buf hn
  simp only [utf8, List.flatMap_nil, List.nil_append, List.length_nil] at g1 g2 g3 g4 g5
  refine ⟨r, q, buf', ?_, g2.symm, ?_, g4, g5⟩
  · simp only [TextType.encodeUtf8, h1]; exact g1
  · rw [g2]; exact g3

/-- **C34.** The result is `Ok` of the text exactly when its encoding fits. -/
theorem C34_ok_iff_fits {t : τ} {cs : List Char} (ht : T.Chars O t cs) {n : Nat} (hn : cs.length < n)
    (buf : List UInt8) : (∃ buf', T.encodeUtf8 O n t buf = .ok (.ok cs, buf')) ↔
      (utf8 cs).length ≤ buf.length := by
  obtain ⟨r, q, buf', h1, h2, ⟨h3, h4, h5⟩, h6, h7⟩ := C34_encode_utf8 ht hn buf
  rw [h1]
  constructor
  · rintro ⟨b, h⟩
    rcases h7 with ⟨rfl, rfl⟩ | ⟨rfl, h7⟩
    · exact h4
    · cases h
  · intro h
    rcases h7 with ⟨rfl, rfl⟩ | ⟨rfl, h7⟩
    · exact ⟨_, rfl⟩
    · exact absurd (h3.eq_of_length_le (h5 cs (List.prefix_refl _) h).length_le) h7

/-! ## C35, C36: concatenation -/

theorem posStr_emptyOk : posStrOps.EmptyOk := by
  intro c l h
  obtain rfl := h.det (posStr_reads c)
  simp only [posStrOps, itemsFrom_isEmpty]
  congr 1
  have := Str.len_eq_zero c.val
  rw [Bool.eq_iff_iff, beq_iff_eq, List.isEmpty_iff, this]

theorem posStrish_emptyOk : posStrishOps.EmptyOk := by
  intro c l h
  have key : ∀ (o : Option Str), c.val.asStr = o →
      (PosStrishIter.next (.new c)).1 = (match o with
        | none => .panic
        | some [] => .ok none
        | some (x :: _) => .ok (some ⟨x, c.pos⟩)) := by
    rintro o rfl
    simp only [PosStrishIter.next, PosStrishIter.new, PosStrishIter.doNext, PosStrishIter.doNextNoPeeked]
    rcases c.val.asStr with _ | (_ | ⟨x, s⟩)
    · rfl
    · rfl
    · simp [Str.sliceFrom, Str.splitAt]
  rcases ho : c.val.asStr with _ | (_ | ⟨x, s⟩)
  · have := key _ ho
    cases h with
    | done h => simp only [posStrishOps] at h; rw [h] at this; simp at this
    | item h _ => simp only [posStrishOps] at h; rw [h] at this; simp at this
  · have := key _ ho
    cases h with
    | done h => simp [posStrishOps, ho, Str.len]
    | item h _ => simp only [posStrishOps] at h; rw [h] at this; simp at this
  · have := key _ ho
    cases h with
    | done h => simp only [posStrishOps] at h; rw [h] at this; simp at this
    | item h _ =>
      have := Str.lenUtf8_pos x
      simp only [posStrishOps, ho, Str.len, List.isEmpty_cons, Outcome.ok.injEq, beq_eq_false_iff_ne]
      omega

theorem allChunks_reads (hE : O.EmptyOk) {cs : List C} {ls : List (List (Item P))}
    (h : List.Forall₂ O.Reads cs ls) : allChunks O.isEmpty cs = .ok ls.flatten.isEmpty := by
  induction h with
  | nil => rfl
  | @cons c l cs ls h _ ih =>
    simp only [allChunks, hE c l h]
    cases l with
    | nil => simpa using ih
    | cons x l => rfl

/-- **C35.** `is_empty` of a vector text tells whether it has no characters. -/
theorem C35_is_empty (hE : O.EmptyOk) {t : TextVec C} {cs : List Char}
    (ht : (textVec α O).Chars O t cs) : t.isEmpty O = .ok cs.isEmpty := by
  obtain ⟨l, ⟨cs', ls, h1, h2, rfl⟩, rfl⟩ := ht
  simp only [textVec, Outcome.ok.injEq] at h1
  subst h1
  rw [TextVec.isEmpty, allChunks_reads hE h2, List.isEmpty_map]

/-- **C35.** Concatenating vector texts never fails and touches nothing else; the items
(characters with positions) of the result are those of the left text, then those of the
right. -/
theorem C35_concat (hE : O.EmptyOk) {t u : TextVec C} {l m : List (Item P)}
    (ht : (textVec α O).Means O.Reads t l) (hu : (textVec α O).Means O.Reads u m) (a : α) :
    ∃ v, TextVec.concat O t u a = (.ok v, a) ∧ (textVec α O).Means O.Reads v (l ++ m) ∧
      (l = [] → v = u) ∧ (m = [] → l ≠ [] → v = t) := by
  obtain ⟨cs, ls, h1, h2, rfl⟩ := ht
  obtain ⟨ds, ms, h3, h4, rfl⟩ := hu
  have h1' := h1
  have h3' := h3
  simp only [textVec, Outcome.ok.injEq] at h1' h3'
  subst h1' h3'
  simp only [TextVec.concat, TextVec.isEmpty, allChunks_reads hE h2, allChunks_reads hE h4]
  rcases hl : ls.flatten with _ | ⟨x, l⟩
  · exact ⟨u, rfl, ⟨_, ms, h3, h4, by simp⟩, fun _ => rfl, fun _ h => absurd rfl h⟩
  · rcases hm : ms.flatten with _ | ⟨y, m⟩
    · exact ⟨t, rfl, ⟨_, ls, h1, h2, by simp [hl]⟩, fun h => (by cases h), fun _ _ => rfl⟩
    · refine ⟨_, rfl, ⟨t.chunks ++ u.chunks, ls ++ ms, ?_, List.rel_append h2 h4, by simp [hl, hm]⟩,
        fun h => (by cases h), fun h => (by cases h)⟩
      simp [textVec, TextVec.link_chunks]

/-- **C35.** The empty text has no characters. -/
theorem C35_empty : (textVec α O).Chars O (.multi []) [] := ⟨[], ⟨[], [], rfl, .nil, rfl⟩, rfl⟩

theorem TextDatumList.link_exact (al : AllocOps (TextDatumList C ε) ε α) :
    ∀ (t u : TextDatumList C ε) (cs ds : List C) (a : α), t.chunks = .ok cs → u.chunks = .ok ds →
    match al.newDatum (.text u) a with
    | (.ok _, a') => ∃ v, link al t u a = (.ok v, a') ∧ v.chunks = .ok (cs ++ ds)
    | (.error e, a') => link al t u a = (.err e, a')
  | .mk c none, u, cs, ds, a, h, h' => by
    simp only [chunks] at h
    cases h
    simp only [link]
    rcases hn : al.newDatum (.text u) a with ⟨_ | _, a'⟩
    · rfl
    · exact ⟨_, rfl, by simp [chunks, h']⟩
  | .mk c (some (.text t)), u, cs, ds, a, h, h' => by
    simp only [chunks] at h
    rcases ht : t.chunks with l | _ | _ | _ <;> rw [ht] at h <;> simp at h
    subst h
    have := link_exact al t u l ds a ht h'
    rcases hn : al.newDatum (.text u) a with ⟨_ | _, a'⟩ <;> rw [hn] at this
    · simp only at this ⊢
      simp only [link, this]
    · simp only at this ⊢
      obtain ⟨v, h1, h2⟩ := this
      simp only [link, h1]
      exact ⟨_, rfl, by simp [chunks, h2]⟩
  | .mk c (some (.combination _ _)), u, cs, cs', a, h, h' => by simp [chunks] at h
  | .mk c (some .emptyNest), u, cs, cs', a, h, h' => by simp [chunks] at h
  | .mk c (some (.list _ _)), u, cs, cs', a, h, h' => by simp [chunks] at h
  | .mk c (some .emptyList), u, cs, cs', a, h, h' => by simp [chunks] at h
  | .mk c (some (.extra _)), u, cs, cs', a, h, h' => by simp [chunks] at h

/-- **C36.** Concatenating datum-list texts: if either is empty, the other is returned
and nothing is allocated. Otherwise exactly one datum is requested; if that fails, its
error is the result, and if it succeeds, the items of the result are those of the left
text, then those of the right. -/
theorem C36_concat (hE : O.EmptyOk) (al : AllocOps (TextDatumList C ε) ε α)
    {t u : TextDatumList C ε} {l m : List (Item P)}
    (ht : (textDatumList O al).Means O.Reads t l) (hu : (textDatumList O al).Means O.Reads u m) (a : α) :
    (l = [] → TextDatumList.concat O al t u a = (.ok u, a)) ∧
    (l ≠ [] → m = [] → TextDatumList.concat O al t u a = (.ok t, a)) ∧
    (l ≠ [] → m ≠ [] → ∀ r a', al.newDatum (.text u) a = (r, a') →
      match r with
      | .ok _ => ∃ v, TextDatumList.concat O al t u a = (.ok v, a') ∧
          (textDatumList O al).Means O.Reads v (l ++ m)
      | .error e => TextDatumList.concat O al t u a = (.err e, a')) := by
  obtain ⟨cs, ls, h1, h2, rfl⟩ := ht
  obtain ⟨ds, ms, h3, h4, rfl⟩ := hu
  simp only [textDatumList] at h1 h3
  simp only [TextDatumList.concat, TextDatumList.isEmpty, h1, h3, allChunks_reads hE h2,
    allChunks_reads hE h4]
  refine ⟨fun h => by rw [h]; rfl, fun h h' => ?_, fun h h' r a' hr => ?_⟩
  · rw [List.isEmpty_eq_false_iff.mpr h, h']; rfl
  · rw [List.isEmpty_eq_false_iff.mpr h, List.isEmpty_eq_false_iff.mpr h']
    have := TextDatumList.link_exact al t u cs ds a h1 h3
    rw [hr] at this
    cases r with
    | error e => exact this
    | ok x =>
      obtain ⟨v, g1, g2⟩ := this
      exact ⟨v, g1, cs ++ ds, ls ++ ms, g2, List.rel_append h2 h4, by simp⟩

/-- **C36.** `is_empty` of a datum-list text tells whether it has no characters, and the
empty text has none. -/
theorem C36_is_empty (hE : O.EmptyOk) (al : AllocOps (TextDatumList C ε) ε α)
    {t : TextDatumList C ε} {cs : List Char} (ht : (textDatumList O al).Chars O t cs) :
    t.isEmpty O = .ok cs.isEmpty := by
  obtain ⟨l, ⟨cs', ls, h1, h2, rfl⟩, rfl⟩ := ht
  simp only [textDatumList] at h1
  simp only [TextDatumList.isEmpty, h1, allChunks_reads hE h2, List.isEmpty_map]

/-! ## Non-vacuity -/

/-- `"aλ"` in two chunks at odd positions, one of them empty. -/
def sampleText : TextVec PosStr := .multi [⟨['a'], ⟨['z', 'a'], 1, 1⟩⟩, .empty, ⟨['λ'], .empty⟩]

/-- `"aλ"` as a datum list. -/
def sampleList : TextDatumList PosStrish Unit :=
  .mk (.new ['a'] ⟨5⟩) (some (.text (.mk (.ofStr ['λ']) none)))

theorem sampleList_chars : (textDatumList posStrishOps (boxAlloc _ _ Unit)).Chars posStrishOps sampleList
    ['a', 'λ'] :=
  ⟨_, ⟨[.new ['a'] ⟨5⟩, .ofStr ['λ']], [[⟨'a', ⟨5⟩⟩], [⟨'λ', ⟨0⟩⟩]], rfl,
    .cons (.item rfl (.done rfl)) (.cons (.item rfl (.done rfl)) .nil), rfl⟩, rfl⟩

example : TextEq posStrOps (textVec Unit posStrOps) posStrishOps (textDatumList posStrishOps (boxAlloc _ _ Unit))
    sampleText sampleList true :=
  (C31_text_eq_iff sampleText.chars_posStr sampleList_chars true).mpr (by decide)

example : ¬ TextEq posStrOps (textVec Unit posStrOps) posStrishOps (textDatumList posStrishOps (boxAlloc _ _ Unit))
    (.single (.ofStr ['a'])) sampleList true :=
  fun h => absurd ((C31_text_eq_iff (TextVec.chars_posStr _) sampleList_chars true).mp h) (by decide)

example : TextType.cmp posStrOps (textVec Unit posStrOps) posStrishOps
    (textDatumList posStrishOps (boxAlloc _ _ Unit)) 9 (.single (.ofStr ['a'])) sampleList = .ok .lt := by
  decide +kernel

example : (textVec Unit posStrOps).encodeUtf8 posStrOps 9 sampleText [7, 7, 7, 7]
    = .ok (.ok ['a', 'λ'], [0x61, 0xCE, 0xBB, 7]) := by decide +kernel

example : (textVec Unit posStrOps).encodeUtf8 posStrOps 9 sampleText [7, 7]
    = .ok (.error ['a'], [0x61, 7]) := by decide +kernel

/-- Two datum-list texts for which memory has run out. -/
example : (textDatumList posStrishOps (sliceAlloc _ _)).concat sampleList sampleList (.new [])
    = (.err .allocExhausted, .new []) := rfl

end Kul
