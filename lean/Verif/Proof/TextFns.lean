import Verif.Spec.TextFns
import Verif.Proof.Chunks
import Verif.Proof.Texts

/-! # Iterating texts -/

namespace Kul

variable {C CS P τ α S S₁ S₂ A B H : Type}

theorem IterNext.Gives.map {next : IterNext S A} {s : S} {l : List A} (h : next.Gives s l) (f : A → B) :
    (next.map f).Gives s (l.map f) := by
  induction h with
  | done h => exact .done (by simp only [IterNext.map, h]; rfl)
  | item h _ ih => exact .item (by simp only [IterNext.map, h]; rfl) ih

theorem IterNext.Gives.det {next : IterNext S A} {s : S} {l l' : List A} (h : next.Gives s l)
    (h' : next.Gives s l') : l = l' := by
  induction h generalizing l' with
  | done h => cases h' with
    | done _ => rfl
    | item h' _ => rw [h] at h'; simp at h'
  | item h _ ih => cases h' with
    | done h' => rw [h] at h'; simp at h'
    | item h' g =>
      rw [h] at h'; simp only [Prod.mk.injEq, Outcome.ok.injEq, Option.some.injEq] at h'
      obtain ⟨rfl, rfl⟩ := h'
      rw [ih g]

/-- Chunks that fulfil the contract can be read. -/
theorem ChunkConf.reads {O : ChunkOps C CS P} {RC : C → List (Item P) → Prop} {RCS : CS → Seq P → Prop}
    (K : ChunkConf O RC RCS) {c : C} {l : List (Item P)} (h : RC c l) : O.Reads c l := by
  have : ∀ (l p : List (Item P)) (s : CS), RCS s ⟨p, l⟩ → IterNext.Gives O.next s l := by
    intro l
    induction l with
    | nil =>
      intro p s hs
      obtain ⟨s', g, _⟩ := K.next s _ hs
      exact .done g
    | cons x l ih =>
      intro p s hs
      obtain ⟨s', g, g'⟩ := K.next s _ hs
      exact .item g (ih _ _ g')
  exact this l [] _ (K.srcStrm c l h)

theorem TextType.Means.reads {O : ChunkOps C CS P} {RC : C → List (Item P) → Prop}
    {RCS : CS → Seq P → Prop} (K : ChunkConf O RC RCS) {T : TextType C τ α} {t : τ} {l : List (Item P)}
    (h : T.Means RC t l) : T.Means O.Reads t l := by
  obtain ⟨cs, ls, h1, h2, h3⟩ := h
  exact ⟨cs, ls, h1, h2.imp fun _ _ => K.reads, h3⟩

theorem TextIter.next_gives {O : ChunkOps C CS P} : ∀ (cs : List C) (ls : List (List (Item P))) (s : CS)
    (l : List (Item P)) (acc : Option τ) (pk : Option (Item P)), IterNext.Gives O.next s l →
    List.Forall₂ O.Reads cs ls →
    IterNext.Gives (TextIter.next (τ := τ) O) ⟨some s, cs, acc, pk⟩ (l ++ ls.flatten) := by
  intro cs
  induction cs with
  | nil =>
    intro ls s l acc pk h h'
    cases h'
    simp only [List.flatten_nil, List.append_nil]
    induction h generalizing acc pk with
    | done h => exact .done (s' := ⟨none, [], none, none⟩) (by simp only [TextIter.next, nextLoop, h])
    | @item s a s' l h _ ih =>
      exact .item (s' := ⟨some s', [], none, none⟩) (by simp only [TextIter.next, nextLoop, h]) (ih _ _)
  | cons c cs ih =>
    intro ls s l acc pk h h'
    cases h' with
    | @cons _ l' _ ls hc hcs =>
      induction h generalizing acc pk with
      | done h =>
        have := ih ls _ l' none none hc hcs
        rw [List.flatten_cons, List.nil_append]
        cases hm : l' ++ ls.flatten with
        | nil =>
          rw [hm] at this
          cases this with
          | @done _ s'' g =>
            refine .done (s' := s'') ?_
            rw [← g]
            simp only [TextIter.next, nextLoop, h]
        | cons x m =>
          rw [hm] at this
          cases this with
          | @item _ _ s'' _ g g' =>
            refine .item (s' := s'') ?_ g'
            rw [← g]
            simp only [TextIter.next, nextLoop, h]
      | @item s a s' l h _ ih' =>
        exact .item (s' := ⟨some s', c :: cs, none, none⟩)
          (by simp only [TextIter.next, nextLoop, h]) (ih' _ _)

theorem TextType.Means.iter {O : ChunkOps C CS P} {T : TextType C τ α} {t : τ} {l : List (Item P)}
    (h : T.Means O.Reads t l) : ∃ s, T.iter O t = .ok s ∧
      IterNext.Gives (TextIter.next (τ := τ) O) s l := by
  obtain ⟨cs, ls, h1, h2, rfl⟩ := h
  refine ⟨.ofChunks O cs, by simp only [TextType.iter, h1], ?_⟩
  cases h2 with
  | nil => exact .done rfl
  | cons hc hcs => exact TextIter.next_gives _ _ _ _ _ _ hc hcs

theorem TextType.Chars.iter {O : ChunkOps C CS P} {T : TextType C τ α} {t : τ} {cs : List Char}
    (h : T.Chars O t cs) : ∃ s, T.iter O t = .ok s ∧
      IterNext.Gives (TextType.charsNext (τ := τ) O) s cs := by
  obtain ⟨l, h, rfl⟩ := h
  obtain ⟨s, h1, h2⟩ := h.iter
  exact ⟨s, h1, h2.map _⟩

theorem TextType.Chars.det {O : ChunkOps C CS P} {T : TextType C τ α} {t : τ} {cs cs' : List Char}
    (h : T.Chars O t cs) (h' : T.Chars O t cs') : cs = cs' := by
  obtain ⟨s, h1, h2⟩ := h.iter
  obtain ⟨s', h3, h4⟩ := h'.iter
  rw [h1] at h3; cases h3
  exact h2.det h4

/-! ## Loops over iterators -/

theorem iterEq_spec [DecidableEq A] {next₁ : IterNext S₁ A} {next₂ : IterNext S₂ A} {s₁ : S₁} {s₂ : S₂}
    {l m : List A} (h : next₁.Gives s₁ l) (h' : next₂.Gives s₂ m) :
    ∀ n, l.length < n → iterEq next₁ next₂ n s₁ s₂ = .ok (decide (l = m)) := by
  induction h generalizing s₂ m with
  | done h =>
    rintro (_ | n) hn
    · simp at hn
    · cases h' with
      | done h' => simp [iterEq, h, h']
      | item h' _ => simp [iterEq, h, h']
  | item h _ ih =>
    rintro (_ | n) hn
    · simp at hn
    · cases h' with
      | done h' => simp [iterEq, h, h']
      | @item _ b _ _ h' g =>
        simp only [iterEq, h, h', ih g n (by simpa using hn)]
        split
        · simp [*]
        · simp [*]

theorem charCmp_spec (c d : Char) : (charCmp c d = .lt ↔ c.val.toNat < d.val.toNat) ∧
    (charCmp c d = .gt ↔ d.val.toNat < c.val.toNat) ∧ (charCmp c d = .eq ↔ c = d) := by
  have : c = d ↔ c.val.toNat = d.val.toNat :=
    ⟨fun h => by rw [h], fun h => Char.ext (UInt32.toNat_inj.mp h)⟩
  rw [this]; unfold charCmp
  split
  · simp only [reduceCtorEq, false_iff, true_iff]; omega
  · split
    · simp only [reduceCtorEq, false_iff, true_iff]; omega
    · simp only [reduceCtorEq, false_iff, true_iff]; omega

theorem LexLt.irrefl (cs : List Char) : ¬ LexLt cs cs := by
  induction cs with
  | nil => rintro ⟨⟩
  | cons c cs ih =>
    intro h
    cases h with
    | head h => omega
    | tail h => exact ih h

theorem LexLt.trans {a b c : List Char} (h : LexLt a b) (h' : LexLt b c) : LexLt a c := by
  induction h generalizing c with
  | nil => cases h' <;> exact .nil
  | head h => cases h' with
    | head h' => exact .head (by omega)
    | tail _ => exact .head h
  | tail _ ih => cases h' with
    | head h' => exact .head h'
    | tail h' => exact .tail (ih h')

theorem LexLt.total (a b : List Char) : LexLt a b ∨ a = b ∨ LexLt b a := by
  induction a generalizing b with
  | nil => cases b with
    | nil => exact Or.inr (Or.inl rfl)
    | cons => exact Or.inl .nil
  | cons c a ih => cases b with
    | nil => exact Or.inr (Or.inr .nil)
    | cons d b =>
      rcases Nat.lt_trichotomy c.val.toNat d.val.toNat with h | h | h
      · exact Or.inl (.head h)
      · obtain rfl : c = d := Char.ext (UInt32.toNat_inj.mp h)
        rcases ih b with h | rfl | h
        · exact Or.inl (.tail h)
        · exact Or.inr (Or.inl rfl)
        · exact Or.inr (Or.inr (.tail h))
      · exact Or.inr (Or.inr (.head h))

theorem iterCmp_spec {next₁ : IterNext S₁ Char} {next₂ : IterNext S₂ Char} {s₁ : S₁} {s₂ : S₂}
    {l m : List Char} (h : next₁.Gives s₁ l) (h' : next₂.Gives s₂ m) :
    ∀ n, l.length < n → ∃ r, iterCmp next₁ next₂ n s₁ s₂ = .ok r ∧
      ((r = .lt ∧ LexLt l m) ∨ (r = .eq ∧ l = m) ∨ (r = .gt ∧ LexLt m l)) := by
  induction h generalizing s₂ m with
  | done h =>
    rintro (_ | n) hn
    · simp at hn
    · cases h' with
      | done h' => simp [iterCmp, h, h']
      | item h' _ => simp [iterCmp, h, h', LexLt.nil]
  | @item s₁ c _ l h _ ih =>
    rintro (_ | n) hn
    · simp at hn
    · cases h' with
      | done h' => simp [iterCmp, h, h', LexLt.nil]
      | @item _ d _ m h' g =>
        obtain ⟨r, hr, hr'⟩ := ih g n (by simpa using hn)
        obtain ⟨hc, hc', hc''⟩ := charCmp_spec c d
        rcases hx : charCmp c d with _ | _ | _
        · simp only [iterCmp, h, h', hx]
          exact ⟨_, rfl, Or.inl ⟨rfl, .head (hc.mp hx)⟩⟩
        · simp only [iterCmp, h, h', hx, hr]
          obtain rfl := hc''.mp hx
          refine ⟨_, rfl, ?_⟩
          rcases hr' with ⟨rfl, h⟩ | ⟨rfl, rfl⟩ | ⟨rfl, h⟩
          · exact Or.inl ⟨rfl, .tail h⟩
          · exact Or.inr (Or.inl ⟨rfl, rfl⟩)
          · exact Or.inr (Or.inr ⟨rfl, .tail h⟩)
        · simp only [iterCmp, h, h', hx]
          exact ⟨_, rfl, Or.inr (Or.inr ⟨rfl, .head (hc'.mp hx)⟩)⟩

theorem hashLoop_spec (W : HasherOps H) {next : IterNext S Char} {s : S} {l : List Char}
    (h : next.Gives s l) : ∀ n (x : H), l.length < n →
    hashLoop W next n s x = .ok (l.foldl (fun x c => hashChar W c x) x) := by
  induction h with
  | done h =>
    rintro (_ | n) x hn
    · simp at hn
    · simp [hashLoop, h]
  | item h _ ih =>
    rintro (_ | n) x hn
    · simp at hn
    · simp only [hashLoop, h, List.foldl_cons]
      exact ih n _ (by simpa using hn)

/-! ## Encoding -/

theorem lenUtf8_eq (c : Char) : (String.utf8EncodeChar c).length = Str.lenUtf8 c := by
  rw [String.length_utf8EncodeChar]
  unfold Char.utf8Size Str.lenUtf8
  simp only [UInt32.le_iff_toNat_le]
  have e1 : (UInt32.ofNatLT 0x7F (of_decide_eq_true rfl)).toNat = 0x7f := rfl
  have e2 : (UInt32.ofNatLT 0x7FF (of_decide_eq_true rfl)).toNat = 0x7ff := rfl
  have e3 : (UInt32.ofNatLT 0xFFFF (of_decide_eq_true rfl)).toNat = 0xffff := rfl
  rw [e1, e2, e3]
  repeat' split
  all_goals omega

theorem utf8_append (a b : Str) : utf8 (a ++ b) = utf8 a ++ utf8 b := by simp [utf8]

theorem utf8_length (s : Str) : (utf8 s).length = Str.len s := by
  induction s with
  | nil => rfl
  | cons c s ih =>
    have : utf8 (c :: s) = String.utf8EncodeChar c ++ utf8 s := rfl
    rw [this, List.length_append, lenUtf8_eq, ih, Str.len]

theorem strFromUtf8_utf8 (s : Str) : strFromUtf8 (utf8 s) = some s := by
  have : (utf8 s).toByteArray = s.utf8Encode := rfl
  rw [strFromUtf8, this, List.utf8Decode?_utf8Encode]; rfl

theorem asStr_spec {buf : List UInt8} {s : Str} {rest : List UInt8} (h : buf = utf8 s ++ rest) :
    asStr buf (utf8 s).length = some s := by
  subst h
  rw [asStr, if_pos (by simp), List.take_left', strFromUtf8_utf8]
  rfl

theorem LongestFit.whole {n : Nat} {s : Str} (h : (utf8 s).length ≤ n) : LongestFit n s s :=
  ⟨List.prefix_refl _, h, fun _ hq _ => hq⟩

theorem LongestFit.cut {n : Nat} {p q : Str} {c : Char} (h : (utf8 p).length ≤ n)
    (h' : ¬ (utf8 p).length + Str.lenUtf8 c ≤ n) : LongestFit n (p ++ c :: q) p := by
  refine ⟨List.prefix_append _ _, h, fun r hr hn => ?_⟩
  rcases List.prefix_or_prefix_of_prefix hr (List.prefix_append p (c :: q)) with g | g
  · exact g
  · obtain ⟨u, rfl⟩ := g
    cases u with
    | nil => simp
    | cons d u =>
      have := (List.prefix_append_right_inj p).mp hr
      obtain ⟨rfl, _⟩ := List.cons_prefix_cons.mp this
      exfalso; apply h'
      rw [utf8_length] at hn ⊢
      rw [Str.len_append] at hn
      simp only [Str.len] at hn
      omega

theorem encodeLoop_spec {next : IterNext S Char} {s : S} {l : List Char} (h : next.Gives s l) :
    ∀ n (p : Str) (old : List UInt8), l.length < n →
    ∃ r q buf, encodeLoop next n s (utf8 p ++ old) (utf8 p).length = .ok (r, buf) ∧
      (utf8 p ++ old).length = buf.length ∧
      LongestFit buf.length (p ++ l) q ∧ buf = utf8 q ++ (utf8 p ++ old).drop (utf8 q).length ∧
      ((r = .ok q ∧ q = p ++ l) ∨ (r = .error q ∧ q ≠ p ++ l)) := by
  induction h with
  | done h =>
    rintro (_ | n) p old hn
    · simp at hn
    · simp only [encodeLoop, h, asStr_spec (buf := utf8 p ++ old) rfl, List.append_nil]
      exact ⟨_, p, _, rfl, rfl, .whole (by simp), by simp, Or.inl ⟨rfl, rfl⟩⟩
  | @item s c s' l h _ ih =>
    rintro (_ | n) p old hn
    · simp at hn
    · by_cases hf : (utf8 p).length + Str.lenUtf8 c ≤ (utf8 p ++ old).length
      · have hw : writeChar c (utf8 p ++ old) (utf8 p).length
            = some (utf8 (p ++ [c]) ++ old.drop (Str.lenUtf8 c)) := by
          simp only [writeChar, lenUtf8_eq]
          rw [if_pos ⟨by simp, by omega⟩]
          simp [utf8, List.drop_append]
        have hl : (utf8 p).length + (String.utf8EncodeChar c).length = (utf8 (p ++ [c])).length := by
          simp [utf8]
        simp only [encodeLoop, h, if_pos hf, hw, hl]
        obtain ⟨r, q, buf, g1, g2, g3, g4, g5⟩ := ih n (p ++ [c]) (old.drop (Str.lenUtf8 c))
          (by simpa using hn)
        have hlen : (utf8 p ++ old).length
            = (utf8 (p ++ [c]) ++ old.drop (Str.lenUtf8 c)).length := by
          simp only [List.length_append, List.length_drop, ← hl, lenUtf8_eq] at hf ⊢
          omega
        rw [List.append_assoc] at g3 g5
        refine ⟨r, q, buf, g1, by rw [hlen, g2], g3, ?_, g5⟩
        have hq : (utf8 (p ++ [c])).length ≤ (utf8 q).length := by
          obtain ⟨_, _, hmax⟩ := g3
          obtain ⟨u, rfl⟩ := hmax (p ++ [c]) ⟨l, by simp⟩ (by
            rw [← g2, List.length_append]; omega)
          rw [utf8_append (p ++ [c]), List.length_append]; omega
        have h1 : (utf8 p ++ old).drop (utf8 q).length
            = (utf8 (p ++ [c]) ++ old.drop (Str.lenUtf8 c)).drop (utf8 q).length := by
          rw [List.drop_append, List.drop_append, List.drop_eq_nil_of_le (by omega),
            List.drop_eq_nil_of_le hq, List.drop_drop, ← hl, lenUtf8_eq]
          simp only [List.nil_append]
          congr 1
          rw [← hl, lenUtf8_eq] at hq
          omega
        rw [h1]; exact g4
      · simp only [encodeLoop, h, if_neg hf, asStr_spec (buf := utf8 p ++ old) rfl]
        refine ⟨_, p, _, rfl, rfl, .cut (by simp) hf, by simp, Or.inr ⟨rfl, ?_⟩⟩
        simp

end Kul
