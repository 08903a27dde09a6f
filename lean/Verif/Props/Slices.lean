import Verif.Proof.Slices
import Verif.Props.Invariant

/-!
# C65: texts are made of as few slices of the source as possible

The source comes in pieces: a string is one, the chunks of a text and the strings of an iterator are several, an
iterator of characters is one. The chunks of a text that the parser makes are slices of pieces, and it begins a
new chunk only where it must: where it leaves out an escape character, and where a piece ends. So, in a source
whose items are all different (of one string, of an iterator), no text with the same items can have fewer chunks.
The texts that combiners are given are so too, and whatever combiners return that keeps this.
-/

namespace Kul

variable {σ C P τ ε α CE : Type} {E : Env σ P τ ε α CE} {T : TextType C τ α} {RC : C → List (Item P) → Prop}
  {X : TextSem P τ α} {pieces : List (List (Item P))}

/-- C65. Any history of calls. -/
theorem C65_history {QX : ε → Prop} {QE : Err P CE → Prop} {I : α → Prop} {s : σ} (pr : InPieces E s pieces T RC X)
    (K : Keeps X E.alloc E.lookup (T.InSlices E.cc RC pieces) QX QE I) {a : α} (ha : I a) {os t}
    (h : E.Calls (St.init s a) os t) : I t.alloc ∧ ∀ d, .ok (some d) ∈ os → d.All (T.InSlices E.cc RC pieces) QX := by
  obtain ⟨RS, C, hs⟩ := pr.conf
  have K' : Keeps ⟨T.SlicesOf E.cc RC pieces, X.RA, X.F⟩ E.alloc E.lookup (T.InSlices E.cc RC pieces) QX QE I :=
    ⟨K.operative, K.applicative, K.text, K.alloc⟩
  obtain ⟨h1, h2, _⟩ := C.history K' hs (QT := T.InSlices E.cc RC pieces)
    (by rintro t c ⟨cs, ls, h1, h2, rfl, h3⟩ _; exact ⟨cs, ls, h1, h2, h3⟩) ha h
  exact ⟨h1, h2⟩

/-- C65. A whole parse. -/
theorem C65_parse {QX : ε → Prop} {QE : Err P CE → Prop} {I : α → Prop} {s : σ} (pr : InPieces E s pieces T RC X)
    (K : Keeps X E.alloc E.lookup (T.InSlices E.cc RC pieces) QX QE I) {a : α} (ha : I a) {l t}
    (h : E.Yields (St.init s a) l t) : I t.alloc ∧ ∀ d, .ok d ∈ l → d.All (T.InSlices E.cc RC pieces) QX := by
  obtain ⟨os, h1, h2, _⟩ := h.calls
  obtain ⟨h3, h4⟩ := C65_history pr K ha h1
  exact ⟨h3, fun d hd => h4 d (h2 d hd)⟩

theorem TextType.InSlices.fewest {cc : Classifier} (hn : pieces.flatten.Nodup) {t : τ} (h : T.InSlices cc RC pieces t) :
    T.Fewest RC pieces t := by
  obtain ⟨cs, ls, h1, h2, h3⟩ := h
  refine ⟨cs, ls, h1, h2, h3.imp And.right fun h3 ls' he hs => ?_⟩
  rw [h2.length_eq]
  exact h3.fewest hn he hs

theorem TextType.InSlices.spelt {cc : Classifier} {r : List (Item P)} (hn : r.Nodup) {t : τ} (h : T.InSlices cc RC [r] t) :
    T.SpeltIn cc RC r t := by
  obtain ⟨cs, ls, h1, h2, h3⟩ := h
  refine ⟨cs, ls, h1, h2, ?_⟩
  rcases h3 with h3 | h3
  · exact .inl h3
  · by_cases hne : ls = []
    · subst hne
      cases h2
      exact .inl ⟨rfl, by simp⟩
    · exact .inr (h3.spelt hn hne)

/-- C65. In a parse of a source whose items are all different, each text has as few chunks as can be. -/
theorem C65_fewest {QX : ε → Prop} {QE : Err P CE → Prop} {I : α → Prop} {s : σ} (pr : InPieces E s pieces T RC X)
    (hn : pieces.flatten.Nodup) (K : Keeps X E.alloc E.lookup (T.InSlices E.cc RC pieces) QX QE I) {a : α} (ha : I a) {l t}
    (h : E.Yields (St.init s a) l t) : ∀ d, .ok d ∈ l → d.All (T.Fewest RC pieces) QX :=
  fun d hd => ((C65_parse pr K ha h).2 d hd).imp (fun _ h => h.fewest hn) fun _ h => h

/-- C65. In a parse of a string, the chunks of each text, with one escape character between each two, are a slice of the
string: its chunks are separated by nothing but the escape characters that it does not have. And it has as few chunks
as can be. -/
theorem C65_string {T : TextType PosStr τ α} {X} (hT : LibText posStrOps PosStr.Means T X)
    {cc : Classifier} {al : AllocOps τ ε α} {lookup : Datum τ ε → Option (Combiner τ ε α StrPos CE)} (s : Str)
    {QX : ε → Prop} {QE : Err StrPos CE → Prop} {I : α → Prop}
    (K : Keeps X al lookup (T.InSlices cc PosStr.Means [strItems s]) QX QE I) {a : α} (ha : I a) {l t}
    (hy : (textEnv posStrOps T cc al lookup).Yields (St.init (.ofChunks posStrOps [.ofStr s]) a) l t) :
    ∀ d, .ok d ∈ l → d.All (fun u => T.SpeltIn cc PosStr.Means (strItems s) u ∧ T.Fewest PosStr.Means [strItems s] u) QX := by
  have pr : InPieces (textEnv posStrOps T cc al lookup) (.ofChunks posStrOps [.ofStr s]) [strItems s] T PosStr.Means X :=
    .text .posStr hT cc al lookup (.cons (PosStr.ofStr_means s) .nil)
  have hn : (strItems s).Nodup := itemsFrom_str_nodup s _
  exact fun d hd => ((C65_parse pr K ha hy).2 d hd).imp (fun _ h => ⟨h.spelt hn, h.fewest (by simpa using hn)⟩) fun _ h => h

/-- C65. The same of a parse of an iterator of characters. -/
theorem C65_chars {T : TextType PosStrish τ α} {X} (hT : LibText posStrishOps PosStrish.Means T X)
    {cc : Classifier} {al : AllocOps τ ε α} {lookup : Datum τ ε → Option (Combiner τ ε α CharPos CE)} (s : Str)
    {QX : ε → Prop} {QE : Err CharPos CE → Prop} {I : α → Prop}
    (K : Keeps X al lookup (T.InSlices cc PosStrish.Means [charItems s]) QX QE I) {a : α} (ha : I a) {l t}
    (hy : (charEnv T cc al lookup).Yields (St.init (.new s) a) l t) :
    ∀ d, .ok d ∈ l → d.All (fun u => T.SpeltIn cc PosStrish.Means (charItems s) u ∧ T.Fewest PosStrish.Means [charItems s] u) QX := by
  have pr : InPieces (charEnv T cc al lookup) (.new s) [charItems s] T PosStrish.Means X := .chars hT cc al lookup s
  have hn : (charItems s).Nodup := itemsFrom_char_nodup s _
  exact fun d hd => ((C65_parse pr K ha hy).2 d hd).imp (fun _ h => ⟨h.spelt hn, h.fewest (by simpa using hn)⟩) fun _ h => h

/-- C65. In a parse of an iterator of strings, each text has as few chunks as can be, and is cut only at left-out
escape characters and between strings. -/
theorem C65_strings {T : TextType PosStrish τ α} {X} (hT : LibText posStrishOps PosStrish.Means T X)
    {cc : Classifier} {al : AllocOps τ ε α} {lookup : Datum τ ε → Option (Combiner τ ε α CharPos CE)} (ss : List Str)
    {QX : ε → Prop} {QE : Err CharPos CE → Prop} {I : α → Prop}
    (K : Keeps X al lookup (T.InSlices cc PosStrish.Means (charPieces 0 ss)) QX QE I) {a : α} (ha : I a) {l t}
    (hy : (strishEnv T cc al lookup).Yields (St.init (.new ss) a) l t) :
    ∀ d, .ok d ∈ l → d.All (fun u => T.InSlices cc PosStrish.Means (charPieces 0 ss) u ∧
      T.Fewest PosStrish.Means (charPieces 0 ss) u) QX := by
  have pr : InPieces (strishEnv T cc al lookup) (.new ss) (charPieces 0 ss) T PosStrish.Means X := .strs hT cc al lookup ss
  have hn : (charPieces 0 ss).flatten.Nodup := by rw [charPieces_flatten]; exact itemsFrom_char_nodup _ _
  exact fun d hd => ((C65_parse pr K ha hy).2 d hd).imp (fun _ h => ⟨h, h.fewest hn⟩) fun _ h => h

theorem Spelt.length {cc : Classifier} {ls : List (List (Item P))} {w : List (Item P)} (h : Spelt cc ls w) :
    w.length + 1 = ls.flatten.length + ls.length := by
  induction h with
  | one => simp
  | cons _ _ _ ih => simp at ih ⊢; omega

theorem Spelt.sublist {cc : Classifier} {ls : List (List (Item P))} {w : List (Item P)} (h : Spelt cc ls w) :
    ls.flatten.Sublist w := by
  induction h with
  | one => simp
  | @cons l it ls w _ _ _ ih =>
    rw [List.flatten_cons]
    exact (List.Sublist.refl l).append (ih.cons it)

/-- C65. So the number of chunks of a text parsed out of a string is one more than the number of characters between its
first and its last in the string that it does not have, all of which are escape characters; in particular, a text
that is written without escapes is one slice. -/
theorem C65_chunks_count {cc : Classifier} {r : List (Item P)} {t : τ} (h : T.SpeltIn cc RC r t) :
    ∃ cs ls, T.chunks t = .ok cs ∧ List.Forall₂ RC cs ls ∧ (ls.flatten = [] ∧ cs.length ≤ 1 ∨ ∃ w, w <:+: r ∧
      w.length + 1 = ls.flatten.length + cs.length ∧ ls.flatten.Sublist w ∧
      ((∀ it ∈ w, cc.isNestEscape it.ch = false) → ls = [w])) := by
  obtain ⟨cs, ls, h1, h2, h3⟩ := h
  refine ⟨cs, ls, h1, h2, h3.imp_right ?_⟩
  rintro ⟨w, h4, h5⟩
  refine ⟨w, h5, by rw [h2.length_eq]; exact h4.length, h4.sublist, ?_⟩
  · intro h
    cases h4 with
    | one => rfl
    | @cons l it ls w _ hi _ =>
      have := h it (by simp)
      rw [hi] at this
      cases this

/-! ## Concrete cases -/

/-- Without bindings, everything is kept. -/
theorem keeps_none {QT : τ → Prop} {QX : ε → Prop} (al : AllocOps τ ε α) :
    Keeps (P := P) (CE := CE) X al (fun _ => none) QT QX (fun _ => False) (fun _ => True) where
  operative := by rintro d f t a ⟨⟩
  applicative := by rintro d f t a ⟨⟩
  text := fun _ _ _ _ => trivial
  alloc := fun _ _ _ _ => trivial

/-- Combiners that return the texts that they are given: here one of two chunks, as the escape character between them is
left out. One chunk would not do. -/
example : ∃ t, (inmemEnv (echoLookup _ Empty Unit StrPos Empty)).Yields (St.init (inmemSource "λ{{} {e é\\}}}".toList) ())
    [.ok (.text (.single ⟨['λ'], ⟨"λ{{} {e é\\}}}".toList, 0, 0⟩⟩)),
     .ok (.combination .emptyNest (.list (.text (.multi [⟨['é'], ⟨"λ{{} {e é\\}}}".toList, 9, 8⟩⟩,
       ⟨['}'], ⟨"λ{{} {e é\\}}}".toList, 12, 10⟩⟩])) .emptyList))] t ∧
    (textVec Unit posStrOps).SpeltIn defaultClassifier PosStr.Means (strItems "λ{{} {e é\\}}}".toList)
      (.multi [⟨['é'], ⟨"λ{{} {e é\\}}}".toList, 9, 8⟩⟩, ⟨['}'], ⟨"λ{{} {e é\\}}}".toList, 12, 10⟩⟩]) ∧
    (textVec Unit posStrOps).Fewest PosStr.Means [strItems "λ{{} {e é\\}}}".toList]
      (.multi [⟨['é'], ⟨"λ{{} {e é\\}}}".toList, 9, 8⟩⟩, ⟨['}'], ⟨"λ{{} {e é\\}}}".toList, 12, 10⟩⟩]) := by
  obtain ⟨t, h⟩ := Env.yields_of' (E := inmemEnv (echoLookup _ Empty Unit StrPos Empty))
    (s := St.init (inmemSource "λ{{} {e é\\}}}".toList) ())
    (l := [.ok (.text (.single ⟨['λ'], ⟨"λ{{} {e é\\}}}".toList, 0, 0⟩⟩)),
     .ok (.combination .emptyNest (.list (.text (.multi [⟨['é'], ⟨"λ{{} {e é\\}}}".toList, 9, 8⟩⟩,
       ⟨['}'], ⟨"λ{{} {e é\\}}}".toList, 12, 10⟩⟩])) .emptyList))]) 200 9 (by decide +kernel)
  have := C65_string .vec "λ{{} {e é\\}}}".toList (echo_keeps (QX := fun _ => True) _) trivial h
    _ (.tail _ (.head _))
  refine ⟨t, h, ?_⟩
  cases this with
  | combination _ h => cases h with
    | list h _ => cases h with
      | text h => exact h

/-- The strings of an iterator: the text is cut between them and at the escape character, and between an escape
character and a string once only. -/
example : ∃ t, (strishEnv (ε := Empty) (CE := Empty) (textVec Unit posStrishOps) defaultClassifier (freeAlloc _ Empty _) (fun _ => none)).Yields
      (St.init (.new ["ab\\".toList, "{".toList, [], "c\\\\d".toList]) ())
      [.ok (.text (.multi [⟨⟨"ab\\".toList, 0, 2⟩, ⟨0⟩⟩, ⟨⟨['{'], 0, 1⟩, ⟨3⟩⟩, ⟨⟨"c\\\\d".toList, 0, 1⟩, ⟨4⟩⟩,
        ⟨⟨"c\\\\d".toList, 2, 4⟩, ⟨6⟩⟩]))] t ∧
    (textVec Unit posStrishOps).Fewest PosStrish.Means (charPieces 0 ["ab\\".toList, "{".toList, [], "c\\\\d".toList])
      (.multi [⟨⟨"ab\\".toList, 0, 2⟩, ⟨0⟩⟩, ⟨⟨['{'], 0, 1⟩, ⟨3⟩⟩, ⟨⟨"c\\\\d".toList, 0, 1⟩, ⟨4⟩⟩,
        ⟨⟨"c\\\\d".toList, 2, 4⟩, ⟨6⟩⟩]) := by
  obtain ⟨t, h⟩ := Env.yields_of' (E := strishEnv (ε := Empty) (CE := Empty) (textVec Unit posStrishOps) defaultClassifier (freeAlloc _ Empty _) (fun _ => none))
    (s := St.init (.new ["ab\\".toList, "{".toList, [], "c\\\\d".toList]) ())
    (l := [.ok (.text (.multi [⟨⟨"ab\\".toList, 0, 2⟩, ⟨0⟩⟩, ⟨⟨['{'], 0, 1⟩, ⟨3⟩⟩, ⟨⟨"c\\\\d".toList, 0, 1⟩, ⟨4⟩⟩,
        ⟨⟨"c\\\\d".toList, 2, 4⟩, ⟨6⟩⟩]))]) 200 9 (by decide +kernel)
  have := C65_strings .vec ["ab\\".toList, "{".toList, [], "c\\\\d".toList]
    (keeps_none (QX := fun _ => True) _) trivial h _ (.head _)
  refine ⟨t, h, ?_⟩
  cases this with
  | text h => exact h.2

end Kul
