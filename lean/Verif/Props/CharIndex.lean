import Verif.Props.Provided

/-!
# Positions in sources that number characters

C24 for the sources whose positions are numbers of characters: iterators of strings and of characters, and texts that
are made from a string (`From<&str>`) with reference-counted strings.
-/

namespace Kul

variable {σ P τ ε α CE : Type}

theorem mem_charItems {it : Item CharPos} {s : Str} (h : it ∈ charItems s) : s[it.pos.n]? = some it.ch := by
  obtain ⟨pre, post, h1, h2⟩ := mem_itemsFrom h
  rw [h2, advs_charPos, h1]
  simp

/-- C24. In the results of parsing, without bindings, a source of the library whose items are the characters of `str`,
numbered: every character of every text stands in `str` at the index that is its position, in order; and
`UnbalancedEndChar` carries the index of an end delimiter. -/
theorem C24_char_index {E : Env σ CharPos τ ε α CE} {X : TextSem CharPos τ α} {s : σ} {str : Str}
    (pr : Provided E s (charItems str) X) (hb : ∀ d, E.lookup d = none) {a : α} {l t}
    (hy : E.Yields (St.init s a) l t) :
    (∀ d, .ok d ∈ l → ∀ u, d.Occurs u → ∃ c, X.RT u c ∧ c.Sublist (charItems str) ∧
      ∀ it ∈ c, str[it.pos.n]? = some it.ch) ∧
    (∀ p : CharPos, .error (.unbalancedEndChar p) ∈ l → ∃ ch, E.cc.isNestEnd ch = true ∧ str[p.n]? = some ch) := by
  obtain ⟨_, C, hs⟩ := pr.conf
  constructor
  · intro d hd u hu
    obtain ⟨c, h1, h2⟩ := C.text_items hb hs hy hd hu
    exact ⟨c, h1, h2, fun it hi => mem_charItems (h2.subset hi)⟩
  · intro p hp
    rcases (C.plain hb hs hy).2 _ hp with h | ⟨it, hi, h7, h⟩ | ⟨⟨_, h⟩, _⟩ | ⟨h, _⟩
    · cases h
    · cases h
      exact ⟨it.ch, h7, mem_charItems hi⟩
    · cases h
    · cases h

/-- C24. A text made from a string, of reference-counted strings, is a source whose items are the characters of the
string, numbered from zero. -/
theorem C24_from_str {T : TextType PosStrish τ α} {X} (hT : LibText posStrishOps PosStrish.Means T X) (cc : Classifier)
    (al : AllocOps τ ε α) (lookup : Datum τ ε → Option (Combiner τ ε α CharPos CE)) (str : Str) :
    Provided (textEnv posStrishOps T cc al lookup) (.ofChunks posStrishOps [.ofStr str]) (charItems str) X := by
  have := Provided.textish hT cc al lookup (.cons (PosStrish.new_means str ⟨0⟩) .nil)
  rwa [List.flatten_cons, List.flatten_nil, List.append_nil] at this

/-- C24, the same with strings that are told apart even if they have the same contents. -/
theorem C24_from_str_shared {R : Type} {A : StrishOps R} (hA : A.Lawful) {T : TextType (SharedChunk R) τ α} {X} (str : Str)
    (hT : LibText (sharedChunkOps A) (SharedChunk.Means A [.ofStr A str]) T X) (cc : Classifier) (al : AllocOps τ ε α)
    (lookup : Datum τ ε → Option (Combiner τ ε α CharPos CE)) :
    Provided (textEnv (sharedChunkOps A) T cc al lookup) (.ofChunks (sharedChunkOps A) [.ofStr A str]) (charItems str) X := by
  have := Provided.sharedText hA [.ofStr A str] hT cc al lookup
    (.cons (SharedChunk.whole_means (r := A.fromStr str) (k := ⟨0⟩) rfl (List.mem_singleton.mpr rfl)) .nil)
  rwa [List.flatten_cons, List.flatten_nil, List.append_nil, hA] at this

/-! ## Non-vacuity -/

/-- `a}{é}`: the unmatched end is the character at index 1. -/
example : ∃ t, (textEnv posStrishOps (textVec Unit posStrishOps) defaultClassifier (boxAlloc _ Empty Unit)
      (noBindings _ Empty Unit CharPos Empty)).Yields (St.init (.ofChunks posStrishOps [.ofStr "a}{é}".toList]) ())
      [.error (.unbalancedEndChar ⟨1⟩),
        .ok (.combination (.text (.single ⟨⟨"a}{é}".toList, 3, 5⟩, ⟨3⟩⟩)) .emptyList)] t :=
  Env.yields_of' 30 5 (by decide +kernel)

end Kul
