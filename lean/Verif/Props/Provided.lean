import Verif.Proof.Provided
import Verif.Props.Grammar
import Verif.Props.Forms
import Verif.Props.Balance
import Verif.Props.Iteration
import Verif.Props.Bound
import Verif.Props.Spacing
import Verif.Props.Memory
import Verif.Props.Common
import Verif.Props.Results
import Verif.Props.Texts
import Verif.Props.Positions
import Verif.Props.Slots

/-!
# The properties of the parsers that the library provides

The theorems of the other files about any stream and text type that fulfil the contract
(`Spec/Contract.lean`), stated of the streams and text types of the library themselves
(`Spec/Provided.lean`): a string or a text in memory, an iterator of strings, an iterator of
characters; vectors and datum lists of both types of chunks; any classifier, datum allocator and
bindings. No contract occurs in these statements: whether the library's streams and texts fulfil it
is part of what is proved.
-/

namespace Kul

variable {σ P τ ε α CE : Type} {E : Env σ P τ ε α CE} {X : TextSem P τ α}

/-- C01. A source without delimiters and escapes yields one text, which has exactly
the items of the source; whatever the bindings and the datum allocator. An empty source
yields nothing. (Of the library's parsers.) -/
theorem C01_plain_text_preserved_provided (hF : ¬ X.F) {s : σ} {r : List (Item P)} (pr : Provided E s r X)
    (a : α)
    (h : ∀ it ∈ r, E.cc.isNestStart it.ch = false ∧ E.cc.isNestEnd it.ch = false ∧ E.cc.isNestEscape it.ch = false) :
    (r = [] → ∃ s', E.Yields (St.init s a) [] s') ∧
    (r ≠ [] → ∃ txt s', X.RT txt r ∧ E.Yields (St.init s a) [.ok (.text txt)] s') :=
  have ⟨_, C, hs⟩ := pr.conf
  C01_plain_text_preserved C hF hs a h

/-- C02 (soundness). If a parse without bindings yields only datums, the source is
written in the grammar, and the datums are the grammatical meaning of the source. Holds
for every allocator, also one that can fail. (Of the library's parsers.) -/
theorem C02_accepted_is_written_provided (D : E.cc.Disjoint) (hb : ∀ d, E.lookup d = none) {s : σ}
    {r : List (Item P)} (pr : Provided E s r X) {a : α} {ds : List (Datum τ ε)} {t}
    (hy : E.Yields (St.init s a) (ds.map .ok) t) :
    ∃ ds', Written E.cc r ds' ∧ List.Forall₂ (DatumRel X.RT Eq) ds ds' :=
  have ⟨_, C, hs⟩ := pr.conf
  C02_accepted_is_written C D hb hs hy

/-- C02 and C03 together: without bindings and with memory that does not run out,
the sources parsed without error are exactly those written in the grammar. (Of the library's parsers.) -/
theorem C02_C03_accepts_exactly_the_grammar_provided (D : E.cc.Disjoint) (hb : ∀ d, E.lookup d = none)
    (A : E.alloc.Reliable) (hF : ¬ X.F) {s : σ} {r : List (Item P)} (pr : Provided E s r X) (a : α) :
    (∃ (ds : List (Datum τ ε)) (t : _), E.Yields (St.init s a) (ds.map .ok) t) ↔
      ∃ ds : List (Datum (List (Item P)) ε), Written E.cc r ds :=
  have ⟨_, C, hs⟩ := pr.conf
  C02_C03_accepts_exactly_the_grammar C D hb A hF hs a

/-- C03 (completeness). If the source is written in the grammar, a parse without
bindings, with memory that does not run out, yields exactly the meanings, in order, and no
error. (Of the library's parsers.) -/
theorem C03_written_is_accepted_provided (D : E.cc.Disjoint) (hb : ∀ d, E.lookup d = none)
    (A : E.alloc.Reliable) (hF : ¬ X.F) {s : σ} {r : List (Item P)} (pr : Provided E s r X) (a : α)
    {ds : List (Datum (List (Item P)) ε)} (hw : Written E.cc r ds) :
    ∃ ds' t, E.Yields (St.init s a) (ds'.map .ok) t ∧ List.Forall₂ (DatumRel X.RT Eq) ds' ds :=
  have ⟨_, C, hs⟩ := pr.conf
  C03_written_is_accepted C D hb A hF hs a hw

/-- C04. Forms of the shape the parser produces, written out and parsed, come back character
for character, without error. (Of the library's parsers.) -/
theorem C04_write_then_parse_provided (D : E.cc.Disjoint) (hb : ∀ d, E.lookup d = none) (A : E.alloc.Reliable)
    (hF : ¬ X.F) (w : Pens E.cc) {ds : List (Datum (List Char) ε)} (hd : TopShaped ds) {s : σ}
    {r : List (Item P)} (pr : Provided E s r X) (a : α) (hr : r.map Item.ch = writeSource w ds) :
    ∃ ds' t, E.Yields (St.init s a) (ds'.map .ok) t ∧
      List.Forall₂ (DatumRel X.HasChars Eq) ds' ds :=
  have ⟨_, C, hs⟩ := pr.conf
  C04_write_then_parse C D hb A hF w hd hs a hr

/-- C04, second part: what a parse yields can be written out; so (with the first part)
writing and parsing again gives the same characters. (Of the library's parsers.) -/
theorem C04_parsed_can_be_written_provided (D : E.cc.Disjoint) (hb : ∀ d, E.lookup d = none) {s : σ}
    {r : List (Item P)} (pr : Provided E s r X) {a : α} {ds : List (Datum τ ε)} {t}
    (hy : E.Yields (St.init s a) (ds.map .ok) t) :
    ∃ ds' : List (Datum (List Char) ε), List.Forall₂ (DatumRel X.HasChars Eq) ds ds' ∧
      TopShaped ds' :=
  have ⟨_, C, hs⟩ := pr.conf
  C04_parsed_can_be_written C D hb hs hy

/-- C05. When neither memory nor combiners fail, a parse yields no error if and only if
the unescaped delimiters of the source balance. The bindings are arbitrary and do not occur
on the right-hand side. (Of the library's parsers.) -/
theorem C05_no_error_iff_balanced_provided (D : E.cc.Disjoint) (A : E.alloc.Reliable) (hF : ¬ X.F)
    (hc : ∀ e, ¬ CombinerError E.lookup e) {s : σ} {r : List (Item P)} (pr : Provided E s r X) {a : α} {l t}
    (hy : E.Yields (St.init s a) l t) :
    (∀ x ∈ l, ∃ d, x = .ok d) ↔ Balanced E.cc r :=
  have ⟨_, C, hs⟩ := pr.conf
  C05_no_error_iff_balanced C D A hF hc hs hy

/-- C06, first part. If the first error is `UnbalancedEndChar(p)`, and no combiner
returns that error, then `p` is the position of the first unmatched end delimiter. (Of the library's parsers.) -/
theorem C06_reported_is_unmatched_provided (D : E.cc.Disjoint) {s : σ} {r : List (Item P)}
    (pr : Provided E s r X) {a : α} {ds : List (Datum τ ε)} {p : P} {l t}
    (hc : ¬ CombinerError E.lookup (.unbalancedEndChar p))
    (hy : E.Yields (St.init s a) (ds.map .ok ++ .error (.unbalancedEndChar p) :: l) t) :
    ∃ it rest, balance E.cc 0 r = .unmatched it rest ∧ it.pos = p :=
  have ⟨_, C, hs⟩ := pr.conf
  C06_reported_is_unmatched C D hs hc hy

/-- C06, second part. If the source has an unmatched end delimiter and nothing else
fails, the first error is `UnbalancedEndChar` with its position. (Of the library's parsers.) -/
theorem C06_unmatched_is_reported_provided (D : E.cc.Disjoint) (A : E.alloc.Reliable) (hF : ¬ X.F)
    (hc : ∀ e, ¬ CombinerError E.lookup e) {s : σ} {r : List (Item P)} (pr : Provided E s r X) {a : α} {l t}
    (hy : E.Yields (St.init s a) l t) {it rest} (hb : balance E.cc 0 r = .unmatched it rest) :
    ∃ (ds : List (Datum τ ε)) (l' : _), l = ds.map .ok ++ .error (.unbalancedEndChar it.pos) :: l' :=
  have ⟨_, C, hs⟩ := pr.conf
  C06_unmatched_is_reported C D A hF hc hs hy hb

/-- C07, first part. If the first error is `MissingEndChar`, and no combiner returns that
error, then all end delimiters are matched and at least one start delimiter is not. The
error is then the last item of the parse. (Of the library's parsers.) -/
theorem C07_reported_is_open_provided (D : E.cc.Disjoint) {s : σ} {r : List (Item P)} (pr : Provided E s r X)
    {a : α} {ds : List (Datum τ ε)} {l t} (hc : ¬ CombinerError E.lookup .missingEndChar)
    (hy : E.Yields (St.init s a) (ds.map .ok ++ .error .missingEndChar :: l) t) :
    (∃ k, 0 < k ∧ balance E.cc 0 r = .opened k) ∧ l = [] :=
  have ⟨_, C, hs⟩ := pr.conf
  C07_reported_is_open C D hs hc hy

/-- C07, second part. If the source ends inside a nest and nothing else fails, then
the parse yields datums followed by `MissingEndChar` and nothing more. (Of the library's parsers.) -/
theorem C07_open_is_reported_provided (D : E.cc.Disjoint) (A : E.alloc.Reliable) (hF : ¬ X.F)
    (hc : ∀ e, ¬ CombinerError E.lookup e) {s : σ} {r : List (Item P)} (pr : Provided E s r X) {a : α} {l t}
    (hy : E.Yields (St.init s a) l t) {k : Nat} (hk : 0 < k) (hb : balance E.cc 0 r = .opened k) :
    ∃ ds : List (Datum τ ε), l = ds.map .ok ++ [.error .missingEndChar] :=
  have ⟨_, C, hs⟩ := pr.conf
  C07_open_is_reported C D A hF hc hs hy hk hb

/-- C08. The texts of the result, put together, are the source without escape characters,
unescaped delimiters, and some unescaped whitespace; in particular a subsequence of the source,
with positions. (Of the library's parsers.) -/
theorem C08_no_character_lost_provided (D : E.cc.Disjoint) (hb : ∀ d, E.lookup d = none) {s : σ}
    {r : List (Item P)} (pr : Provided E s r X) {a : α} {ds : List (Datum τ ε)} {t}
    (hy : E.Yields (St.init s a) (ds.map .ok) t) :
    ∃ ds', List.Forall₂ (DatumRel X.RT Eq) ds ds' ∧
      Kept E.cc r (ds'.flatMap Datum.texts) ∧ (ds'.flatMap Datum.texts).Sublist r :=
  have ⟨_, C, hs⟩ := pr.conf
  C08_no_character_lost C D hb hs hy

/-- C09, whole parses: a source of `n` characters gives at most `n` items, then `None`. (Of the library's parsers.) -/
theorem C09_parse_ends_provided {s : σ} {r : List (Item P)} (pr : Provided E s r X) (a : α) :
    ∃ l t, E.Yields (St.init s a) l t ∧ l.length ≤ r.length :=
  have ⟨_, C, hs⟩ := pr.conf
  C09_parse_ends C hs a

/-- C10. After `None`, every later call returns `None` too, and the allocator (with
everything that combiners can reach) stays as it is. (Of the library's parsers.) -/
theorem C10_end_is_stable_provided {s : σ} {r : List (Item P)} (pr : Provided E s r X) {a : α}
    {os t t' os' t''} (h : E.Calls (St.init s a) os t) (hn : E.Call t (.ok none) t') (h' : E.Calls t' os' t'') : (∀ o ∈ os', o = .ok none) ∧ t''.alloc = t'.alloc :=
  have ⟨_, C, hs⟩ := pr.conf
  C10_end_is_stable C hs h hn h'

/-- C15. No history of calls panics, whatever the source, classifier, bindings and
allocator, and every call returns. (Of the library's parsers.) -/
theorem C15_no_panic_provided {s : σ} {r : List (Item P)} (pr : Provided E s r X) {a : α} {os t}
    (h : E.Calls (St.init s a) os t) :
    .panic ∉ os ∧ ∃ o t', E.Call t o t' ∧ o ≠ .panic :=
  have ⟨_, C, hs⟩ := pr.conf
  C15_no_panic C hs h

/-- C16, C17, C18. What an error-free parse yields, and the state it leaves, is a meaning of the
source. (Of the library's parsers.) -/
theorem C16_C17_C18_meaning_provided (D : E.cc.Disjoint) {Mem : α → α → Prop} (M : MemOk X E.alloc Mem)
    {s : σ} {r : List (Item P)} (pr : Provided E s r X) {a : α} {ds : List (Datum τ ε)} {t}
    (hy : E.Yields (St.init s a) (ds.map .ok) t) :
    Means E.cc X.RT Mem E.lookup r a ds t.alloc :=
  have ⟨_, C, hs⟩ := pr.conf
  C16_C17_C18_meaning C D M hs hy

/-- C16, C17, C18. Every balanced source is parsed without error to a meaning of it, if memory
does not run out and combiners do not fail. (Of the library's parsers.) -/
theorem C16_C17_C18_total_provided (D : E.cc.Disjoint) {Mem : α → α → Prop} (M : MemOk X E.alloc Mem)
    (A : E.alloc.Reliable) (hF : ¬ X.F) (hc : ∀ e, ¬ CombinerError E.lookup e) {s : σ} {r : List (Item P)}
    (pr : Provided E s r X) (hb : Balanced E.cc r) (a : α) :
    ∃ ds t, E.Yields (St.init s a) (ds.map .ok) t ∧ Means E.cc X.RT Mem E.lookup r a ds t.alloc :=
  have ⟨_, C, hs⟩ := pr.conf
  C16_C17_C18_total C D M A hF hc hs hb a

/-- C19. Every nest calls its combiner at most once: whatever counts the calls of combiners in the
state grows by no more than the number of start delimiters in the source. (Of the library's parsers.) -/
theorem C19_at_most_one_call_per_nest_provided {n : α → Nat} (N : CountsCalls X E.alloc E.lookup n) {s : σ}
    {r : List (Item P)} (pr : Provided E s r X) {a : α} {l t} (hy : E.Yields (St.init s a) l t) :
    n t.alloc ≤ n a + r.countP fun it => E.cc.isNestStart it.ch :=
  have ⟨_, C, hs⟩ := pr.conf
  C19_at_most_one_call_per_nest C N hs hy

/-- C19. No combiner is called before a nest has ended: after any history of calls of the parser, whatever their results,
whatever counts the calls of combiners in the state has grown by no more than the number of end delimiters in the part `u`
of the source that has been read. (Of the library's parsers.) -/
theorem C19_no_call_before_end_provided {n : α → Nat} (N : CountsCalls X E.alloc E.lookup n) {s : σ}
    {r : List (Item P)} (pr : Provided E s r X) {a : α} {os t} (h : E.Calls (St.init s a) os t) :
    ∃ u v, r = u ++ v ∧ ToCome E.strm t.strm v ∧ n t.alloc ≤ n a + u.countP fun it => E.cc.isNestEnd it.ch :=
  have ⟨_, C, hs⟩ := pr.conf
  have ⟨u, v, h1, ⟨_, h2, _⟩, h3⟩ := C19_no_call_before_end C N hs h
  ⟨u, v, h1, C.toCome h2, h3⟩

/-- C20. Without bindings, whatever the source, the classifier and the memory: no `Extra` in any result, no
`FailedCombiner`, and no `FailedDerefTryMut` when references just made can be written through. With
memory that does not run out, the only errors are those of delimiters. (Of the library's parsers.) -/
theorem C20_nothing_interpreted_provided (hb : ∀ d, E.lookup d = none) {s : σ}
    {r : List (Item P)} (pr : Provided E s r X) {a : α} {l t} (hy : E.Yields (St.init s a) l t) :
    (∀ d, .ok d ∈ l → d.NoExtra) ∧
    (∀ e, .error e ∈ l → (∀ x, e ≠ .failedCombiner x) ∧
      ((∀ d a a', E.alloc.newDatum d a = (.ok (), a') → E.alloc.getMutFresh a' = true) → e ≠ .failedDerefTryMut) ∧
      (E.alloc.Reliable → ¬ X.F → e = .missingEndChar ∨ ∃ it ∈ r, e = .unbalancedEndChar it.pos)) :=
  have ⟨_, C, hs⟩ := pr.conf
  C20_nothing_interpreted C hb hs hy

/-- C21. An error-free parse yields forms of the shape `TopShaped`. (Of the library's parsers.) -/
theorem C21_shape_provided (D : E.cc.Disjoint) (hb : ∀ d, E.lookup d = none) {s : σ} {r : List (Item P)}
    (pr : Provided E s r X) {a : α} {ds : List (Datum τ ε)} {t} (hy : E.Yields (St.init s a) (ds.map .ok) t) :
    ∃ ds', List.Forall₂ (DatumRel X.RT Eq) ds ds' ∧ TopShaped ds' :=
  have ⟨_, C, hs⟩ := pr.conf
  C21_shape C D hb hs hy

/-- C21, for parses with errors too: every datum is a form of the shape `Shaped`, or an
empty text. (Of the library's parsers.) -/
theorem C21_shape_of_each_provided (D : E.cc.Disjoint) (hb : ∀ d, E.lookup d = none) {s : σ}
    {r : List (Item P)} (pr : Provided E s r X) {a : α} {l t} (hy : E.Yields (St.init s a) l t)
    {d : Datum τ ε} (hd : .ok d ∈ l) :
    ∃ d', DatumRel X.RT Eq d d' ∧ (Shaped d' ∨ d' = .text []) :=
  have ⟨_, C, hs⟩ := pr.conf
  C21_shape_of_each C D hb hs hy hd

/-- C22, after the head. After a head exactly one whitespace character is dropped: if
`rest` is written as operands that mean `ds`, then the nest with any whitespace, head
text, one whitespace character and `rest` is the combination of the head with `ds`. (Of the library's parsers.) -/
theorem C22_one_whitespace_after_head_provided (D : E.cc.Disjoint) (hb : ∀ d, E.lookup d = none)
    (A : E.alloc.Reliable) (hF : ¬ X.F) {b w e : Item P} {ws h c rest : List (Item P)}
    {ds : List (Datum (List (Item P)) ε)} (hstart : E.cc.isNestStart b.ch = true)
    (hend : E.cc.isNestEnd e.ch = true) (hws : AllWs E.cc ws) (hh : h ≠ [])
    (hc : TextOf E.cc E.cc.headDelim h c) (hw : E.cc.isWhitespace w.ch = true)
    (hds : Gram E.cc (.forms false false) rest ds) {s : σ}
    (pr : Provided E s (b :: (ws ++ h ++ w :: rest ++ [e])) X) (a : α) :
    ∃ d t, E.Yields (St.init s a) [.ok d] t ∧
      DatumRel X.RT Eq d (.combination (.text c) (listOf ds)) :=
  have ⟨_, C, hs⟩ := pr.conf
  C22_one_whitespace_after_head C D hb A hF hstart hend hws hh hc hw hds hs a

/-- C22, after the head, for a text: all whitespace but the first character is part of
the operands text. (Of the library's parsers.) -/
theorem C22_further_whitespace_kept_provided (D : E.cc.Disjoint) (hb : ∀ d, E.lookup d = none)
    (A : E.alloc.Reliable) (hF : ¬ X.F) {b w e : Item P} {h ws : List (Item P)}
    (hstart : E.cc.isNestStart b.ch = true) (hend : E.cc.isNestEnd e.ch = true) (hh : h ≠ [])
    (hc : ∀ it ∈ h, E.cc.headDelim it.ch = false ∧ E.cc.isNestEscape it.ch = false)
    (hw : E.cc.isWhitespace w.ch = true) (hne : ws ≠ []) (hws : AllWs E.cc ws) {s : σ}
    (pr : Provided E s (b :: (h ++ w :: ws ++ [e])) X) (a : α) :
    ∃ d t, E.Yields (St.init s a) [.ok d] t ∧
      DatumRel X.RT Eq d (.combination (.text h) (listOf [.text ws])) :=
  have ⟨_, C, hs⟩ := pr.conf
  C22_further_whitespace_kept C D hb A hF hstart hend hh hc hw hne hws hs a

/-- C23, text outside head position: whatever is written with escapes is read back, items
and all; whatever the bindings and the datum allocator. `TextOf` lets any character be escaped,
and requires it only for delimiters and escape characters. (Of the library's parsers.) -/
theorem C23_escaped_text_provided (D : E.cc.Disjoint) (hF : ¬ X.F) {r c : List (Item P)} (hne : r ≠ []) (hr : TextOf E.cc E.cc.delim r c) {s : σ}
    (pr : Provided E s r X) (a : α) :
    ∃ txt t, E.Yields (St.init s a) [.ok (.text txt)] t ∧ X.RT txt c :=
  have ⟨_, C, hs⟩ := pr.conf
  C23_escaped_text C D hF hne hr hs a

/-- C23, text in head position, where whitespace must be escaped too. (Of the library's parsers.) -/
theorem C23_escaped_head_provided (D : E.cc.Disjoint) (hb : ∀ d, E.lookup d = none) (A : E.alloc.Reliable)
    (hF : ¬ X.F) {b e : Item P} {r c : List (Item P)} (hstart : E.cc.isNestStart b.ch = true)
    (hend : E.cc.isNestEnd e.ch = true) (hne : r ≠ []) (hr : TextOf E.cc E.cc.headDelim r c) {s : σ}
    (pr : Provided E s (b :: (r ++ [e])) X) (a : α) :
    ∃ txt t, E.Yields (St.init s a) [.ok (.combination (.text txt) .emptyList)] t ∧ X.RT txt c :=
  have ⟨_, C, hs⟩ := pr.conf
  C23_escaped_head C D hb A hF hstart hend hne hr hs a

/-- C23 in terms of characters: any characters at all, escaped by `writeText`, come back. (Of the library's parsers.) -/
theorem C23_any_text_provided (D : E.cc.Disjoint) (hF : ¬ X.F) (w : Pens E.cc) {cs : List Char} (hne : cs ≠ []) {r : List (Item P)}
    (hr : r.map Item.ch = writeText w E.cc.delim cs) {s : σ} (pr : Provided E s r X) (a : α) :
    ∃ txt t, E.Yields (St.init s a) [.ok (.text txt)] t ∧ X.HasChars txt cs :=
  have ⟨_, C, hs⟩ := pr.conf
  C23_any_text C D hF w hne hr hs a

/-- C23, last part: an escape character at the very end of the source is dropped. The text
before it is yielded as without it; if there is none, an empty text is yielded. (Of the library's parsers.) -/
theorem C23_dangling_escape_provided (D : E.cc.Disjoint) (hF : ¬ X.F) {e : Item P} {r c : List (Item P)} (he : E.cc.isNestEscape e.ch = true)
    (hr : TextOf E.cc E.cc.delim r c) {s : σ} (pr : Provided E s (r ++ [e]) X) (a : α) :
    ∃ txt t, E.Yields (St.init s a) [.ok (.text txt)] t ∧ X.RT txt c :=
  have ⟨_, C, hs⟩ := pr.conf
  C23_dangling_escape C D hF he hr hs a

/-- C30. In no history of calls is `FailedDerefTryMut` returned if references just made can be
written through, unless a combiner returns it. (Of the library's parsers.) -/
theorem C30_writable_provided (hw : E.alloc.Writable) {s r} (pr : Provided E s r X) {a os t}
    (h : E.Calls (St.init s a) os t) (hd : .err .failedDerefTryMut ∈ os) :
    CombinerError E.lookup .failedDerefTryMut :=
  have ⟨_, C, hs⟩ := pr.conf
  C30_writable C hw hs h hd

/-- C30, `Box`es: any conforming source and text type. (Of the library's parsers.) -/
theorem C30_box_provided {E : Env σ P τ ε α CE} (he : E.alloc = boxAlloc τ ε α) {s r} (pr : Provided E s r X)
    {a os t} (h : E.Calls (St.init s a) os t) (hd : .err .failedDerefTryMut ∈ os) : CombinerError E.lookup .failedDerefTryMut :=
  have ⟨_, C, hs⟩ := pr.conf
  C30_box C he hs h hd

/-- C30, `Rc`s and `Arc`s, whatever the combiners do with the references they hold. (Of the library's parsers.) -/
theorem C30_rc_provided {X : TextSem P τ (List Counts × α)} {E : Env σ P τ ε (List Counts × α) CE}
    (he : E.alloc = rcAlloc τ ε α) {s r} (pr : Provided E s r X) {a os t} (h : E.Calls (St.init s a) os t)
    (hd : .err .failedDerefTryMut ∈ os) : CombinerError E.lookup .failedDerefTryMut :=
  have ⟨_, C, hs⟩ := pr.conf
  C30_rc C he hs h hd

/-- C30, slices. (Of the library's parsers.) -/
theorem C30_slice_provided {X : TextSem P τ (SliceAlloc (Datum τ ε))}
    {E : Env σ P τ ε (SliceAlloc (Datum τ ε)) CE} (he : E.alloc = sliceAlloc τ ε) {s r}
    (pr : Provided E s r X) {a os t} (h : E.Calls (St.init s a) os t) (hd : .err .failedDerefTryMut ∈ os) :
    CombinerError E.lookup .failedDerefTryMut :=
  have ⟨_, C, hs⟩ := pr.conf
  C30_slice C he hs h hd

/-- **C46.** The vector collected is the sequence of the results of the parse up to and
including the first error; it is always returned, without a panic. (Of the library's parsers.) -/
theorem C46_collects_provided {s : σ} {r : List (Item P)} (pr : Provided E s r X) (a : α) {l t}
    (hy : E.Yields (St.init s a) l t) :
    (∃ v t', E.Collects (St.init s a) v t') ∧
    ∀ v t', E.Collects (St.init s a) v t' → UpToFirstError l v :=
  have ⟨_, C, hs⟩ := pr.conf
  C46_collects C hs a hy

/-- C46, "immediately": what is true of it. When the vector ends with an error, exactly
one more call of the parser was made after the one that gave the error. Its result is thrown
away, but its effects are not: see `C46_not_immediately`. (Of the library's parsers.) -/
theorem C46_one_more_call_partial_provided {s : σ} {r : List (Item P)} (pr : Provided E s r X) (a : α) {v e t}
    (h : E.Collects (St.init s a) (v ++ [.error e]) t) :
    ∃ os t₁ o, E.Calls (St.init s a) os t₁ ∧ os.length = v.length + 1 ∧ E.Call t₁ o t :=
  have ⟨_, C, hs⟩ := pr.conf
  C46_one_more_call_partial C hs a h

/-- C52. Whatever a parser yields, datums and errors to the end of the source, is what the
specification says of the source: with any bindings, any memory, any text type. (Of the library's parsers.) -/
theorem C52_results_provided (D : E.cc.Disjoint) {Mem : α → α → Prop} (M : MemOk X E.alloc Mem) {s : σ}
    {r : List (Item P)} (pr : Provided E s r X) {a : α} {l t} (hy : E.Yields (St.init s a) l t) :
    Results E.cc X.RT Mem (MemoryError X.F E.alloc) E.lookup r a l t.alloc :=
  have ⟨_, C, hs⟩ := pr.conf
  C52_results C D M hs hy

/-- C52. A parser without bindings and with enough memory yields, for every source, exactly the
results that the specification gives it, with the texts of its own type. (Of the library's parsers.) -/
theorem C52_plain_provided (D : E.cc.Disjoint) (hb : ∀ d, E.lookup d = none) (A : E.alloc.Reliable)
    (hF : ¬ X.F) {s : σ} {r : List (Item P)} (pr : Provided E s r X) {a : α} {l t}
    (hy : E.Yields (St.init s a) l t) (l' : List (Except (Err P CE) (Datum (List (Item P)) ε)))
    (h : PlainResults E.cc r l') : List.Forall₂ (ResultRel Eq Eq (DatumRel X.RT Eq)) l l' :=
  have ⟨_, C, hs⟩ := pr.conf
  C52_plain C D hb A hF hs hy l' h

/-! ## Statements about places in the source

`ToCome E.strm s r`: calling `next` of the stream `s` again and again gives the items `r`. -/

/-- C09. After any history of calls, with `n` characters still to come, a call of `next`
returns within a recursion and loop budget of `3n+2`. If it returns an item (`Ok` or `Err` of
any kind), it has consumed at least one character. If it returns `None`, nothing is left.
(Of the library's parsers.) -/
theorem C09_call_returns_and_progresses_provided {s : σ} {r : List (Item P)} (pr : Provided E s r X) {a : α}
    {os t} (h : E.Calls (St.init s a) os t) :
    ∃ r', r' <:+ r ∧ ToCome E.strm t.strm r' ∧
      ∃ o t' r'', E.doNext (3 * r'.length + 2) t = (o, t') ∧ o ≠ .fuel ∧ o ≠ .panic ∧
        ToCome E.strm t'.strm r'' ∧ r'' <:+ r' ∧ (o ≠ .ok none → r''.length < r'.length) ∧
        (o = .ok none → r'' = []) := by
  obtain ⟨RS, C, hs⟩ := pr.conf
  obtain ⟨s₁, a₁, r₁, rfl, h1, h2, _⟩ := C.calls h rfl (AtItems.fresh hs)
  obtain ⟨o, s', a', r', h3, h4, h5, h6, h7, h8⟩ := C09_call_returns_and_progresses C h1 a₁
  refine ⟨r₁, h2, h1.toCome C, o, _, r', h3, h4, ?_, h5.toCome C, h6, h7, h8⟩
  obtain ⟨o', t', h9, h10⟩ := (C15_no_panic C hs h).2
  obtain ⟨rfl, _⟩ := h9.unique ⟨_, h3, h4⟩
  exact h10

/-- C09. Any history of calls gives at most as many items as the source has characters, and then
only `None`. (Of the library's parsers.) -/
theorem C09_history_provided {s : σ} {r : List (Item P)} (pr : Provided E s r X) {a : α} {os t}
    (h : E.Calls (St.init s a) os t) :
    ∃ l k, os = l ++ List.replicate k (.ok none) ∧ (∀ o ∈ l, o ≠ .ok none) ∧ l.length ≤ r.length := by
  obtain ⟨RS, C, hs⟩ := pr.conf
  exact C09_history C h rfl (AtItems.fresh hs)

/-- C11. After any history of calls, errors included, the parser is exactly a fresh parser on its
stream, and that stream has a rest of the source still to come. (Of the library's parsers.) -/
theorem C11_resumes_at_top_level_provided {s : σ} {r : List (Item P)} (pr : Provided E s r X) {a : α}
    {os t} (h : E.Calls (St.init s a) os t) :
    t = St.init t.strm t.alloc ∧ ∃ r', r' <:+ r ∧ ToCome E.strm t.strm r' := by
  obtain ⟨RS, C, hs⟩ := pr.conf
  obtain ⟨h1, r', h2, h3⟩ := C11_resumes_at_top_level C hs h
  exact ⟨h1, r', h2, h3.toCome C⟩

/-- C11. What the parser yields after any history is the same as what a fresh parse of the
remaining characters yields, on any stream `s₂` made of those characters. `Agree .. E X E X`
says that the combiners do not look at how texts are represented. (Of the library's parsers.) -/
theorem C11_same_as_fresh_provided {RX : ε → ε → Prop} {RA : α → α → Prop} {RE : CE → CE → Prop}
    (G : Agree Eq Eq RX RA RE False E X E X) {s : σ} {r : List (Item P)} (pr : Provided E s r X) {a : α} {os t}
    (h : E.Calls (St.init s a) os t) :
    ∃ r', r' <:+ r ∧ ToCome E.strm t.strm r' ∧
      ∀ s₂ a₂ l t', Provided E s₂ r' X → RA t.alloc a₂ → E.Yields t l t' →
        ∃ l₂ t₂, E.Yields (St.init s₂ a₂) l₂ t₂ ∧
          List.Forall₂ (ResultRel Eq RE (DatumRel (SameText X X (ItemRel Eq Eq)) RX)) l l₂ := by
  obtain ⟨RS, C, hs⟩ := pr.conf
  obtain ⟨r', h1, h2, _⟩ := C11_same_as_fresh C G hs h
  have hr := h2.toCome C
  refine ⟨r', h1, hr, ?_⟩
  intro s₂ a₂ l t' pr₂ ha hy
  obtain ⟨RS, C, hs, hs₂⟩ := pr.conf₂ pr₂
  obtain ⟨r₁, _, h4, h5⟩ := C11_same_as_fresh C G hs h
  obtain rfl := (h4.toCome C).unique hr
  exact h5 s₂ a₂ l t' hs₂ ha hy

/-- C11. After `UnbalancedEndChar`, exactly what follows that end delimiter is still to come. (Of the
library's parsers.) -/
theorem C11_after_unbalanced_provided (D : E.cc.Disjoint) {s : σ} {r : List (Item P)} (pr : Provided E s r X)
    {a : α} {os t p t'} (h : E.Calls (St.init s a) os t) (he : E.Call t (.err (.unbalancedEndChar p)) t')
    (hc : ¬ CombinerError E.lookup (.unbalancedEndChar p)) :
    ∃ u it r', r = u ++ it :: r' ∧ E.cc.isNestEnd it.ch = true ∧ it.pos = p ∧ ToCome E.strm t'.strm r' := by
  obtain ⟨RS, C, hs⟩ := pr.conf
  obtain ⟨u, it, r', h1, h2, h3, h4⟩ := C11_after_unbalanced C D hs h he hc
  exact ⟨u, it, r', h1, h2, h3, h4.toCome C⟩

/-- C14. The result of a call depends only on the characters it consumed and the one after them:
with any other source that starts with these, the call gives the same and leaves the rest of that
source. (Of the library's parsers.) -/
theorem C14_only_consumed_and_next_matter_provided {ε₂ α₂ CE₂ : Type}
    {al₂ : AllocOps (List (Item P)) ε₂ α₂}
    {lookup₂ : Datum (List (Item P)) ε₂ → Option (Combiner (List (Item P)) ε₂ α₂ P CE₂)}
    {RX : ε → ε₂ → Prop} {RA : α → α₂ → Prop} {RE : CE → CE₂ → Prop}
    (G : Agree Eq Eq RX RA RE False E X (seqEnv E.cc al₂ lookup₂) (seqSem P α₂))
    {s₁ s₂ : σ} {u t₁ t₂ : List (Item P)} {x : Item P} (pr₁ : Provided E s₁ (u ++ x :: t₁) X)
    (pr₂ : Provided E s₂ (u ++ x :: t₂) X) {a₁ a₂ : α} {b : α₂} (ha₁ : RA a₁ b) (ha₂ : RA a₂ b) {o₁ t₁'}
    (hc : E.Call (St.init s₁ a₁) o₁ t₁') :
    ∃ r', ToCome E.strm t₁'.strm r' ∧ ∀ w, r' = w ++ x :: t₁ →
      ∃ o₂ t₂', E.Call (St.init s₂ a₂) o₂ t₂' ∧ ToCome E.strm t₂'.strm (w ++ x :: t₂) ∧
        ∃ o, CallRel Eq RE (DatumRel (SameText X (seqSem P α₂) (ItemRel Eq Eq)) RX) o₁ o ∧
          CallRel Eq RE (DatumRel (SameText X (seqSem P α₂) (ItemRel Eq Eq)) RX) o₂ o := by
  obtain ⟨RS, C, hs₁, hs₂⟩ := pr₁.conf₂ pr₂
  obtain ⟨r', h1, h2⟩ := C14_only_consumed_and_next_matter C G hs₁ hs₂ ha₁ ha₂ hc
  refine ⟨r', h1.toCome C, fun w hw => ?_⟩
  obtain ⟨o₂, t₂', h3, h4, h5⟩ := h2 w hw
  exact ⟨o₂, t₂', h3, h4.toCome C, h5⟩

/-- C16. A nest with a text as head that is bound to an operative, wherever in the source: the
operative is called with the head and the text between the separating whitespace and the end
delimiter, as it is written but without escape characters. (Of the library's parsers.) -/
theorem C16_operative_call_provided (D : E.cc.Disjoint) (hF : ¬ X.F)
    {b e : Item P} {ws h c sep r cr rest : List (Item P)} {f}
    (hb : E.cc.isNestStart b.ch = true) (hws : AllWs E.cc ws) (hne : h ≠ []) (hh : TextOf E.cc E.cc.headDelim h c)
    (hsep : Sep E.cc true sep r) (hr : RawOf E.cc r cr) (he : E.cc.isNestEnd e.ch = true)
    (hf : ∀ th, X.RT th c → E.lookup (.text th) = some (.operative f))
    {s : σ} {src : List (Item P)} (pr : Provided E s src X) {a : α} {os t} (hcs : E.Calls (St.init s a) os t)
    (ht : ToCome E.strm t.strm (b :: (ws ++ h ++ sep ++ r ++ e :: rest))) :
    ∃ th tx a₁, X.RT th c ∧ X.RT tx cr ∧ X.RA t.alloc a₁ ∧
      CallLeads E t (f (.text th) tx a₁).1 (f (.text th) tx a₁).2 rest := by
  obtain ⟨RS, C, hs⟩ := pr.conf
  obtain ⟨s₁, a₁, r₁, rfl, h1, _⟩ := C.calls hcs rfl (AtItems.fresh hs)
  obtain rfl := (h1.toCome C).unique ht
  obtain ⟨th, tx, a₂, h3, h4, h5, s', h6, h7⟩ := C16_operative_call C D hF hb hws hne hh hsep hr he hf h1 a₁
  exact ⟨th, tx, a₂, h3, h4, h5, s', h6.toCome C, h7⟩

/-- C19. The first error of a parse is a failure of reading the source as `Fails` describes it, and
the parse goes on where that failure left off. (Of the library's parsers.) -/
theorem C19_first_error_provided (D : E.cc.Disjoint) {Mem : α → α → Prop} (M : MemOk X E.alloc Mem) {s : σ}
    {r : List (Item P)} (pr : Provided E s r X) {a : α} {ds : List (Datum τ ε)} {e after t}
    (hy : E.Yields (St.init s a) (ds.map .ok ++ .error e :: after) t) :
    ∃ r₁ rest s₁ a₁, r = r₁ ++ rest ∧
      Fails E.cc X.RT Mem (MemoryError X.F E.alloc) E.lookup (.forms true false) r₁ rest a ds e a₁ ∧
      ToCome E.strm s₁ rest ∧ E.Yields (St.init s₁ a₁) after t := by
  obtain ⟨RS, C, hs⟩ := pr.conf
  obtain ⟨r₁, rest, s₁, a₁, h1, h2, h3, h4⟩ := C19_first_error C D M hs hy
  exact ⟨r₁, rest, s₁, a₁, h1, h2, h3.toCome C, h4⟩

/-- C22. Whitespace before the head of a nest does not matter. (Of the library's parsers.) -/
theorem C22_whitespace_before_head_provided (D : E.cc.Disjoint) (hb : ∀ d, E.lookup d = none)
    (A : E.alloc.Reliable) (hF : ¬ X.F) {s₁ s₂ : σ} {r₁ r₂ : List (Item P)} (pr₁ : Provided E s₁ r₁ X)
    (pr₂ : Provided E s₂ r₂ X) (h : HeadSpaced E.cc (unitItems (r₁.map Item.ch)) (unitItems (r₂.map Item.ch)))
    {a₁ : α} {l₁ t₁} (hy : E.Yields (St.init s₁ a₁) l₁ t₁) (a₂ : α) :
    ∃ l₂ t₂, E.Yields (St.init s₂ a₂) l₂ t₂ ∧
      List.Forall₂ (ResultRel (fun _ _ => True) Eq (DatumRel X.SameChars Eq)) l₁ l₂ :=
  have ⟨_, C, hs₁, hs₂⟩ := pr₁.conf₂ pr₂
  C22_whitespace_before_head C D hb A hF hs₁ hs₂ h hy a₂

/-- C26. The characters of a datum's texts are characters that the call that gave it consumed.
(Of the library's parsers.) -/
theorem C26_nothing_leaks_provided (D : E.cc.Disjoint) (hb : ∀ d, E.lookup d = none) {s : σ}
    {r : List (Item P)} (pr : Provided E s r X) {a : α} {os t d t'} (h : E.Calls (St.init s a) os t)
    (hd : E.Call t (.ok (some d)) t') :
    ∃ before used rest d', r = before ++ used ++ rest ∧ ToCome E.strm t.strm (used ++ rest) ∧
      ToCome E.strm t'.strm rest ∧ DatumRel X.RT Eq d d' ∧ d'.texts.Sublist used := by
  obtain ⟨RS, C, hs⟩ := pr.conf
  obtain ⟨before, used, rest, d', h1, h2, h3, h4⟩ := C26_nothing_leaks C D hb hs h hd
  exact ⟨before, used, rest, d', h1, h2.toCome C, h3.toCome C, h4⟩

/-! ## Statements about two parsers -/

section Two

variable {σ₁ P₁ τ₁ α₁ CE₁ σ₂ P₂ τ₂ α₂ CE₂ : Type}

/-- C28. `E₁` may run out of memory, `E₂` does not, and otherwise they agree (bindings included).
The results are the same up to the first `FailedAlloc`. (Of the library's parsers.) -/
theorem C28_prefix_provided {E₁ : Env σ₁ P₁ τ₁ ε α₁ CE₁} {E₂ : Env σ₂ P₂ τ₂ ε α₂ CE₂} {X₁ X₂}
    {RC : Char → Char → Prop} {RP : P₁ → P₂ → Prop} {RX : ε → ε → Prop} {RA : α₁ → α₂ → Prop}
    {RE : CE₁ → CE₂ → Prop} (G : Agree RC RP RX RA RE True E₁ X₁ E₂ X₂) {s₁ r₁ s₂ r₂}
    (pr₁ : Provided E₁ s₁ r₁ X₁) (pr₂ : Provided E₂ s₂ r₂ X₂) (hr : List.Forall₂ (ItemRel RC RP) r₁ r₂)
    {a₁ a₂} (ha : RA a₁ a₂) {l₁ t₁ l₂ t₂} (hy₁ : E₁.Yields (St.init s₁ a₁) l₁ t₁)
    (hy₂ : E₂.Yields (St.init s₂ a₂) l₂ t₂) :
    List.Forall₂ (ResultRel RP RE (DatumRel (SameText X₁ X₂ (ItemRel RC RP)) RX)) l₁ l₂ ∨
    ∃ before e after before' after', l₁ = before ++ .error (.failedAlloc e) :: after ∧
      l₂ = before' ++ after' ∧
      List.Forall₂ (ResultRel RP RE (DatumRel (SameText X₁ X₂ (ItemRel RC RP)) RX)) before before' :=
  have ⟨_, C₁, hs₁⟩ := pr₁.conf
  have ⟨_, C₂, hs₂⟩ := pr₂.conf
  C28_prefix C₁ C₂ G hs₁ hs₂ hr ha hy₁ hy₂

/-- C12, C13, C25, C47. Two parsers whose sources have corresponding characters at corresponding
positions, and whose classifiers and combiners do not tell these apart, give corresponding results;
whichever streams and texts of the library each uses, and however the source is split. (Of the
library's parsers.) -/
theorem C12_C13_C25_C47_provided {E₁ : Env σ₁ P₁ τ₁ ε α₁ CE₁} {E₂ : Env σ₂ P₂ τ₂ ε α₂ CE₂} {X₁ X₂}
    {RC : Char → Char → Prop} {RP : P₁ → P₂ → Prop} {RX : ε → ε → Prop} {RA : α₁ → α₂ → Prop}
    {RE : CE₁ → CE₂ → Prop} (G : Agree RC RP RX RA RE False E₁ X₁ E₂ X₂) {s₁ r₁ s₂ r₂}
    (pr₁ : Provided E₁ s₁ r₁ X₁) (pr₂ : Provided E₂ s₂ r₂ X₂) (hr : List.Forall₂ (ItemRel RC RP) r₁ r₂)
    {a₁ a₂} (ha : RA a₁ a₂) {l₁ t₁} (hy : E₁.Yields (St.init s₁ a₁) l₁ t₁) :
    ∃ l₂ t₂, E₂.Yields (St.init s₂ a₂) l₂ t₂ ∧ RA t₁.alloc t₂.alloc ∧
      List.Forall₂ (ResultRel RP RE (DatumRel (SameText X₁ X₂ (ItemRel RC RP)) RX)) l₁ l₂ :=
  have ⟨_, C₁, hs₁⟩ := pr₁.conf
  have ⟨_, C₂, hs₂⟩ := pr₂.conf
  C47_delimiters_do_not_matter C₁ C₂ G hs₁ hs₂ hr ha hy

/-- C12, C13, C25. Two parsers without bindings whose sources have the same characters, at
positions that `RP` relates, give the same results up to `RP`; whichever streams and texts of the
library each uses, and however the source is split. (Of the library's parsers.) -/
theorem C12_C13_C25_plain_provided {E₁ : Env σ₁ P₁ τ₁ ε α₁ CE₁} {E₂ : Env σ₂ P₂ τ₂ ε α₂ CE₂} {X₁ X₂}
    (hcc : E₁.cc = E₂.cc) (hb₁ : ∀ d, E₁.lookup d = none) (hb₂ : ∀ d, E₂.lookup d = none)
    (A₁ : E₁.alloc.Reliable) (A₂ : E₂.alloc.Reliable) (hF₁ : ¬ X₁.F) (hF₂ : ¬ X₂.F)
    {RP : P₁ → P₂ → Prop} {s₁ r₁ s₂ r₂} (pr₁ : Provided E₁ s₁ r₁ X₁) (pr₂ : Provided E₂ s₂ r₂ X₂)
    (hr : List.Forall₂ (ItemRel Eq RP) r₁ r₂) {a₁} (a₂) {l₁ t₁} (hy : E₁.Yields (St.init s₁ a₁) l₁ t₁) :
    ∃ l₂ t₂, E₂.Yields (St.init s₂ a₂) l₂ t₂ ∧
      List.Forall₂ (ResultRel RP (fun _ _ => False) (DatumRel (SameText X₁ X₂ (ItemRel Eq RP)) Eq)) l₁ l₂ :=
  have ⟨_, C₁, hs₁⟩ := pr₁.conf
  have ⟨_, C₂, hs₂⟩ := pr₂.conf
  C₁.related_plain C₂ (hcc ▸ ClassifierSim.eq _) hb₁ hb₂ A₁ A₂ hF₁ hF₂ hs₁ hs₂ hr a₂ hy

end Two

/-! ## C24, C25: the texts of the results -/

section Positions

/-- C24. In the results of parsing the string `s` held in memory (any text type of the library over
`PosStr`, any allocator, any classifier, no bindings): every character of
every text carries the character index and byte offset at which it stands in `s`; every non-empty
chunk is exactly the sub-slice of `s` at its position; and `UnbalancedEndChar` carries the exact
position of an end delimiter. -/
theorem C24_positions_exact_provided {T : TextType PosStr τ α} {X} (hT : LibText posStrOps PosStr.Means T X)
    {cc al lookup} (hb : ∀ d, lookup d = none) (s : Str) {a : α} {l t}
    (hy : (textEnv (ε := ε) (CE := CE) posStrOps T cc al lookup).Yields
      (St.init (.ofChunks posStrOps [.ofStr s]) a) l t) :
    (∀ d, .ok d ∈ l → ∀ u, d.Occurs u → ∃ cs ls, T.chunks u = .ok cs ∧
      List.Forall₂ PosStr.Means cs ls ∧ (∀ it ∈ ls.flatten, StandsIn it s) ∧
      ∀ c ∈ cs, c.val ≠ [] → IsSliceOf c s) ∧
    (∀ p, .error (.unbalancedEndChar p) ∈ l → ∃ ch, cc.isNestEnd ch = true ∧ StandsIn ⟨ch, p⟩ s) :=
  C24_positions_exact (hT.conf posStr_conf).2 hb s hy

variable {C CS : Type}

/-- C25. Every text in the result of a parse without bindings can be iterated; it consists of items
of the source, in order; and a parser of the library can take it as its source, made of just these
items. -/
theorem C25_parsed_texts_provided {O : ChunkOps C CS P} {RC : C → List (Item P) → Prop} (hO : LibChunk O RC)
    {T : TextType C τ α} {X} (hT : LibText O RC T X) {cc al lookup}
    (hb : ∀ d, lookup d = none) {cs : List C} {ls : List (List (Item P))} (hc : List.Forall₂ RC cs ls)
    {a : α} {l t}
    (hy : (textEnv (ε := ε) (CE := CE) O T cc al lookup).Yields (St.init (.ofChunks O cs) a) l t)
    {d : Datum τ ε} (hd : .ok d ∈ l) {u : τ} (hu : d.Occurs u) :
    ∃ c cs', T.chunks u = .ok cs' ∧ X.RT u c ∧ c.Sublist ls.flatten ∧
      Provided (textEnv (ε := ε) (CE := CE) O T cc al lookup) (.ofChunks O cs') c X := by
  cases hO with
  | posStr =>
    obtain ⟨c, cs', h1, h2, h3, _⟩ := C25_parsed_texts posStr_conf (hT.conf posStr_conf).2 hb hc hy hd hu
    obtain ⟨_, ls', h4, h5, rfl⟩ := id h2
    rw [h1] at h4; cases h4
    exact ⟨_, cs', h1, (hT.conf posStr_conf).1 ▸ h2, h3, .text hT cc al lookup h5⟩
  | posStrish =>
    obtain ⟨c, cs', h1, h2, h3, _⟩ := C25_parsed_texts posStrish_conf (hT.conf posStrish_conf).2 hb hc hy hd hu
    obtain ⟨_, ls', h4, h5, rfl⟩ := id h2
    rw [h1] at h4; cases h4
    exact ⟨_, cs', h1, (hT.conf posStrish_conf).1 ▸ h2, h3, .textish hT cc al lookup h5⟩
  | shared hA O =>
    have H := sharedChunk_conf (O := O) hA
    obtain ⟨c, cs', h1, h2, h3, _⟩ := C25_parsed_texts H (hT.conf H).2 hb hc hy hd hu
    obtain ⟨_, ls', h4, h5, rfl⟩ := id h2
    rw [h1] at h4; cases h4
    exact ⟨_, cs', h1, (hT.conf H).1 ▸ h2, h3, .sharedText hA O hT cc al lookup h5⟩

end Positions

/-! ## C31-C36: the library's texts -/

section Texts

variable {C CS C' CS' P' τ' α' C'' CS'' P'' τ'' α'' : Type}
variable {O : ChunkOps C CS P} {T : TextType C τ α} {RC : C → List (Item P) → Prop}
variable {O' : ChunkOps C' CS' P'} {T' : TextType C' τ' α'} {RC' : C' → List (Item P') → Prop}

theorem LibChunk.chars (hO : LibChunk O RC) {t : τ} {l : List (Item P)} (h : T.Means RC t l) :
    T.Chars O t (charsAt l) :=
  have ⟨_, K⟩ := hO.conf
  h.chars K

theorem LibChunk.emptyOk (hO : LibChunk O RC) : O.EmptyOk := by
  cases hO with
  | posStr => exact posStr_emptyOk
  | posStrish => exact posStrish_emptyOk
  | @shared R A hA O =>
    intro c l h
    have key : ∀ (o : Option Str), c.val.asStr A = o →
        (SharedChunkIter.next A (.new c)).1 = (match o with
          | none => .panic
          | some [] => .ok none
          | some (x :: _) => .ok (some ⟨x, c.pos⟩)) := by
      rintro o rfl
      simp only [SharedChunkIter.next, SharedChunkIter.new, SharedChunkIter.doNext, SharedChunkIter.doNextNoPeeked]
      rcases c.val.asStr A with _ | (_ | ⟨x, s⟩)
      · rfl
      · rfl
      · simp [Str.sliceFrom, Str.splitAt]
    rcases ho : c.val.asStr A with _ | (_ | ⟨x, s⟩)
    · have := key _ ho
      cases h with
      | done h => simp only [sharedChunkOps] at h; rw [h] at this; simp at this
      | item h _ => simp only [sharedChunkOps] at h; rw [h] at this; simp at this
    · have := key _ ho
      cases h with
      | done h => simp [sharedChunkOps, ho, Str.len]
      | item h _ => simp only [sharedChunkOps] at h; rw [h] at this; simp at this
    · have := key _ ho
      cases h with
      | done h => simp only [sharedChunkOps] at h; rw [h] at this; simp at this
      | item h _ =>
        have := Str.lenUtf8_pos x
        simp only [sharedChunkOps, ho, Str.len, List.isEmpty_cons, Outcome.ok.injEq, beq_eq_false_iff_ne]
        omega

/-- C31. Two texts of the library's chunks compare equal exactly when their characters are the
same, whatever their types, chunks and positions. -/
theorem C31_text_eq_provided (hO : LibChunk O RC) (hO' : LibChunk O' RC') {t : τ} {u : τ'}
    {l : List (Item P)} {m : List (Item P')} (ht : T.Means RC t l) (hu : T'.Means RC' u m) (b : Bool) :
    TextEq O T O' T' t u b ↔ (b = true ↔ charsAt l = charsAt m) :=
  C31_text_eq_iff (hO.chars ht) (hO'.chars hu) b

/-- C32. Comparing two texts of the library's chunks gives their place in the lexicographic order
of their characters by code point. -/
theorem C32_text_cmp_provided (hO : LibChunk O RC) (hO' : LibChunk O' RC') {t : τ} {u : τ'}
    {l : List (Item P)} {m : List (Item P')} (ht : T.Means RC t l) (hu : T'.Means RC' u m) {n : Nat}
    (hn : l.length < n) : ∃ r, TextType.cmp O T O' T' n t u = .ok r ∧
      (r = .lt ↔ LexLt (charsAt l) (charsAt m)) ∧ (r = .eq ↔ charsAt l = charsAt m) ∧
      (r = .gt ↔ LexLt (charsAt m) (charsAt l)) :=
  C32_text_cmp (hO.chars ht) (hO'.chars hu) (by simpa [charsAt] using hn)

/-- C33. Texts of the library's chunks with the same characters hash equally: as the sequence of
their code points. -/
theorem C33_text_hash_provided (hO : LibChunk O RC) {H : Type} (W : HasherOps H) {t : τ}
    {l : List (Item P)} (ht : T.Means RC t l) {n : Nat} (hn : l.length < n) (h : H) :
    T.hash O W n t h = .ok ((charsAt l).foldl (fun h c => W.writeU32 h c.val.toNat) h) :=
  C33_text_hash W (hO.chars ht) (by simpa [charsAt] using hn) h

/-- C34. Encoding a text of the library's chunks into a buffer gives the longest prefix of whole
characters that fits: as `Ok` if that is all of the text, otherwise as `Err`. Its UTF-8 bytes are at
the start of the buffer, and the rest of the buffer is as it was. There is no panic. -/
theorem C34_encode_utf8_provided (hO : LibChunk O RC) {t : τ} {l : List (Item P)} (ht : T.Means RC t l)
    {n : Nat} (hn : l.length < n) (buf : List UInt8) : ∃ r q buf', T.encodeUtf8 O n t buf = .ok (r, buf') ∧
      buf'.length = buf.length ∧ LongestFit buf.length (charsAt l) q ∧
      buf' = utf8 q ++ buf.drop (utf8 q).length ∧
      ((r = .ok q ∧ q = charsAt l) ∨ (r = .error q ∧ q ≠ charsAt l)) :=
  C34_encode_utf8 (hO.chars ht) (by simpa [charsAt] using hn) buf

/-- C35. A vector text of the library's chunks is empty exactly if it has no characters; and
concatenating two of them never fails, touches nothing else, and gives the items (characters with
positions) of the left text, then those of the right. -/
theorem C35_text_vec_provided (hO : LibChunk O RC) {t u : TextVec C} {l m : List (Item P)}
    (ht : (textVec α O).Means RC t l) (hu : (textVec α O).Means RC u m) (a : α) :
    t.isEmpty O = .ok l.isEmpty ∧
    ∃ v, TextVec.concat O t u a = (.ok v, a) ∧ (textVec α O).Means RC v (l ++ m) := by
  obtain ⟨RCS, H⟩ := hO.conf
  have h := C35_is_empty hO.emptyOk (hO.chars ht)
  rw [charsAt, List.isEmpty_map] at h
  refine ⟨h, ?_⟩
  obtain ⟨v, h1, _⟩ := C35_concat hO.emptyOk (ht.reads H) (hu.reads H) a
  obtain ⟨o, a', h2, _, h3⟩ := (textVec_conf (α := α) H).concat t u l m a ht hu
  have h2' : TextVec.concat O t u a = (o, a') := h2
  rw [h1] at h2'
  cases h2'
  rcases h3 with ⟨v', h, h3⟩ | ⟨h, _⟩
  · cases h
    exact ⟨v, h1, h3⟩
  · exact h.elim

/-- C36. Concatenating two datum-list texts of the library's chunks: if one is empty the other is
the result; otherwise one datum is allocated, and the result has the items of the left text, then
those of the right, or is the error of the allocator. -/
theorem C36_concat_provided (hO : LibChunk O RC) (al : AllocOps (TextDatumList C ε) ε α)
    {t u : TextDatumList C ε} {l m : List (Item P)}
    (ht : (textDatumList O al).Means RC t l) (hu : (textDatumList O al).Means RC u m) (a : α) :
    t.isEmpty O = .ok l.isEmpty ∧
    (l = [] → TextDatumList.concat O al t u a = (.ok u, a)) ∧
    (l ≠ [] → m = [] → TextDatumList.concat O al t u a = (.ok t, a)) ∧
    (l ≠ [] → m ≠ [] → ∀ r a', al.newDatum (.text u) a = (r, a') →
      match r with
      | .ok _ => ∃ v, TextDatumList.concat O al t u a = (.ok v, a') ∧ (textDatumList O al).Means RC v (l ++ m)
      | .error e => TextDatumList.concat O al t u a = (.err e, a')) := by
  obtain ⟨RCS, H⟩ := hO.conf
  have h := C36_is_empty hO.emptyOk al (hO.chars ht)
  rw [charsAt, List.isEmpty_map] at h
  obtain ⟨h1, h2, h3⟩ := C36_concat hO.emptyOk al (ht.reads H) (hu.reads H) a
  refine ⟨h, h1, h2, fun hl hm r a' hr => ?_⟩
  have h4 := h3 hl hm r a' hr
  rcases r with e | x
  · exact h4
  · obtain ⟨v, h5, _⟩ := h4
    obtain ⟨o, a'', h6, _, h7⟩ := (textDatumList_conf H al).concat t u l m a ht hu
    have h6' : TextDatumList.concat O al t u a = (o, a'') := h6
    rw [h5] at h6'
    cases h6'
    rcases h7 with ⟨v', h, h7⟩ | ⟨_, _, _, _, h⟩
    · cases h
      exact ⟨v, h5, h7⟩
    · cases h

end Texts

/-! ## C37, C53 -/

/-- C37. Every history of calls of the stream's operations is one of the sequence of items of the
source. (Of the library's streams.) -/
theorem C37_provided {s : σ} {r : List (Item P)} (pr : Provided E s r X) {es} (h : E.strm.History s es) :
    SeqHistory X.RT X.F [] r es :=
  have ⟨_, C, hs⟩ := pr.conf
  C.history h hs

/-- C53. A slice of half as many datums again as the source has characters is enough. (Of the
library's chunks.) -/
theorem C53_enough_provided {C CS : Type} {O : ChunkOps C CS P} {RC : C → List (Item P) → Prop} (hO : LibChunk O RC)
    (cc : Classifier) {cs : List C} {ls : List (List (Item P))} (hc : List.Forall₂ RC cs ls)
    (b : SliceAlloc (Datum (TextDatumList C ε) ε))
    (hb : 3 * ls.flatten.length ≤ 2 * (b.unused.getD []).length + 5) {os t}
    (h : (sliceEnv ε CE O cc).Calls (St.init (.ofChunks O cs) b) os t) (e : AllocErr) :
    .err (.failedAlloc e) ∉ os :=
  have ⟨_, H⟩ := hO.conf
  C53_enough H cc hc b hb h e

/-! ## Non-vacuity -/

/-- `Parser` of `kul::parser` and `parse_str`: a string in memory, texts in vectors. -/
theorem inmem_provided (lookup : Datum (TextVec PosStr) ε → Option (Combiner (TextVec PosStr) ε α StrPos CE))
    (s : Str) : Provided (inmemEnv lookup) (inmemSource s) (strItems s) (vecSem α) :=
  .str .vec _ _ _ s

/-- `parse_stream`: an iterator of strings, texts in vectors. -/
theorem stream_provided
    (lookup : Datum (TextVec PosStrish) ε → Option (Combiner (TextVec PosStrish) ε α CharPos CE))
    (ss : List Str) : Provided (streamEnv lookup) (.new ss) (charItems ss.flatten) (vecishSem α) :=
  .strs .vec _ _ _ ss

/-- The parser of `kul_core` on a slice: a string in memory, texts in datum lists. -/
theorem core_provided (lookup : Datum (CoreText ε) ε → Option (Combiner (CoreText ε) ε (CoreMem ε) StrPos CE))
    (s : Str) : Provided (coreEnv lookup) (coreSource s) (strItems s) (coreSem ε) :=
  .str (.datumList _) _ _ _ s

/-- Every source of the library gives its items. -/
theorem Provided.toCome {s : σ} {r : List (Item P)} (pr : Provided E s r X) : ToCome E.strm s r :=
  have ⟨_, C, hs⟩ := pr.conf
  C.toCome hs

/-- C06, C09: the two strings `a}` and `b` from an iterator. -/
example : ∃ (ds : List (Datum (TextVec PosStrish) Unit)) (l : List _) (t : _),
    (streamEnv (noBindings _ Unit Unit CharPos Unit)).Yields (St.init (.new ["a}".toList, "b".toList]) ())
      (ds.map .ok ++ .error (.unbalancedEndChar ⟨1⟩) :: l) t := by
  have pr := stream_provided (noBindings _ Unit Unit CharPos Unit) ["a}".toList, "b".toList]
  obtain ⟨l, t, hy, _⟩ := C09_parse_ends_provided pr ()
  obtain ⟨ds, l', rfl⟩ := C06_unmatched_is_reported_provided defaultClassifier_disjoint (boxAlloc_reliable _ _ _)
    (fun h => h) (fun e h => by cases h <;> simp_all [streamEnv, strishEnv, noBindings]) pr hy
    (it := ⟨'}', ⟨1⟩⟩) (rest := [⟨'b', ⟨2⟩⟩]) (by decide +kernel)
  exact ⟨ds, l', t, hy⟩

/-- Everything is bound to an operative that gives the text of its operands. -/
def quoting : Datum (TextVec PosStr) Unit → Option (Combiner (TextVec PosStr) Unit Unit StrPos Unit) :=
  fun _ => some (.operative fun _ t a => (.ok (some (.text t)), a))

/-- C16: the string `{c {d}}e`. -/
example : ∃ tx t', (vecSem Unit).RT tx ((strItems "{c {d}}e".toList).drop 3 |>.take 3) ∧
    (inmemEnv quoting).Call (St.init (inmemSource "{c {d}}e".toList) ()) (.ok (some (.text tx))) t' ∧
    ToCome (inmemEnv quoting).strm t'.strm ((strItems "{c {d}}e".toList).drop 7) := by
  have pr := inmem_provided quoting "{c {d}}e".toList
  have hr : RawOf defaultClassifier ((strItems "{c {d}}e".toList).drop 3 |>.take 3)
      ((strItems "{c {d}}e".toList).drop 3 |>.take 3) :=
    RawOf.nest (b := (⟨'{', ⟨"{c {d}}e".toList, 3, 3⟩⟩ : Item StrPos)) (e := ⟨'}', ⟨"{c {d}}e".toList, 5, 5⟩⟩)
      (s := [⟨'d', ⟨"{c {d}}e".toList, 4, 4⟩⟩]) (c := [⟨'d', ⟨"{c {d}}e".toList, 4, 4⟩⟩]) (s' := []) (c' := [])
      (by decide) (by decide) (.plain (by decide) (by decide) .nil) .nil
  obtain ⟨th, tx, a₁, _, h2, _, s', h4, h5⟩ := C16_operative_call_provided (E := inmemEnv quoting)
    defaultClassifier_disjoint (fun h => h)
    (b := ⟨'{', ⟨"{c {d}}e".toList, 0, 0⟩⟩) (ws := []) (h := [⟨'c', ⟨"{c {d}}e".toList, 1, 1⟩⟩])
    (sep := [⟨' ', ⟨"{c {d}}e".toList, 2, 2⟩⟩]) (r := (strItems "{c {d}}e".toList).drop 3 |>.take 3)
    (cr := (strItems "{c {d}}e".toList).drop 3 |>.take 3) (e := ⟨'}', ⟨"{c {d}}e".toList, 6, 6⟩⟩)
    (rest := (strItems "{c {d}}e".toList).drop 7) (f := fun _ t a => (.ok (some (.text t)), a))
    (by decide) (fun _ h => by cases h) (by decide) (.plain (by decide) (by decide) .nil) (.one (by decide))
    hr (by decide) (fun _ _ => rfl) pr .nil
    (by have := pr.toCome; exact this)
  exact ⟨tx, _, h2, h5, h4⟩

end Kul
