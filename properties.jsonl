{"id": "C01", "title": "Plain text is preserved exactly", "statement": "If the source has at least one character and no character that the classifier calls nest-start, nest-end or escape, then the parse yields exactly one item, Ok(Text), whose characters and positions are exactly those of the source, whitespace included; an empty source yields no items.", "quantifier": "every source (any length, any Unicode scalars, any positions), every classifier, every bindings", "why_tests_cant": "the set of sources is infinite; a test picks a few strings", "anchors": ["core/src/lib.rs: ParseIter::parse_next, ParseIter::parse_text", "core/src/parser/premade/default_classifier.rs"]}
{"id": "C02", "title": "Accepted sources are exactly described by the grammar (soundness)", "statement": "If parsing a whole source with no bindings yields only Ok items, then the source is the written-out rendering of a sequence of well-formed forms (texts made of plain or escaped characters; nests with optional head and operands) and the items are exactly the meanings of those forms, in order.", "quantifier": "every source, every classifier whose four predicates are disjoint, no bindings", "why_tests_cant": "needs a statement about every accepted string, not about chosen strings", "anchors": ["core/src/lib.rs: ParseIter::parse_next, parse_nested, parse_all, parse_text"]}
{"id": "C03", "title": "Every well-formed source is accepted with its grammatical meaning (completeness)", "statement": "For every sequence of well-formed forms, parsing its rendering yields exactly the meanings of the forms, in order, with no error; hence the grammar is unambiguous: two form sequences with the same rendering have the same meaning.", "quantifier": "every well-formed form sequence of any size and nesting depth, every disjoint classifier", "why_tests_cant": "unbounded trees", "anchors": ["core/src/lib.rs: ParseIter"]}
{"id": "C04", "title": "Write/parse round trip", "statement": "Every datum of the shape the parser can produce can be written out (escaping delimiters in texts, and whitespace in head texts) so that parsing the result yields that same datum back, character for character.", "quantifier": "every such datum of any size, every disjoint classifier that has at least one start, end, escape and whitespace character", "why_tests_cant": "round trips over unbounded trees", "anchors": ["core/src/lib.rs: ParseIter", "core/src/datum.rs: Datum"]}
{"id": "C05", "title": "A source parses without error exactly when its unescaped nest delimiters balance", "statement": "With combiners that do not fail and an allocator that does not fail, parsing a whole source yields no Err item if and only if a left-to-right scan that skips each escape character and the character after it never meets an end delimiter at depth 0 and finishes at depth 0. Bindings do not influence this.", "quantifier": "every source, every disjoint classifier, every bindings with non-failing combiners", "why_tests_cant": "an 'iff' over all strings and all macro tables", "anchors": ["core/src/lib.rs: ParseIter::parse_next, parse_text, check_end_char", "core/src/error.rs: Error"]}
{"id": "C06", "title": "UnbalancedEndChar reports the first unmatched end delimiter", "statement": "If the first error of a parse is UnbalancedEndChar(p), p is the position of the first nest-end character that has no matching start in the source (escapes honoured); and if such a character exists and nothing else fails, that error is what the parse reports.", "quantifier": "every source, every disjoint classifier, every bindings whose combiners do not fail", "why_tests_cant": "the existing suite ignores positions in errors; all strings", "anchors": ["core/src/lib.rs: ParseIter::check_end_char", "core/src/error.rs"]}
{"id": "C07", "title": "MissingEndChar exactly when the source ends inside a nest", "statement": "If the first error of a parse is MissingEndChar then every end delimiter in the source is matched and at least one start delimiter is not; and conversely, when nothing else fails.", "quantifier": "every source, every disjoint classifier, every bindings whose combiners do not fail", "why_tests_cant": "an 'iff' over all strings", "anchors": ["core/src/lib.rs: ParseIter::parse_next, parse_text, parse_nested"]}
{"id": "C08", "title": "No character is lost, duplicated, reordered or invented", "statement": "For an error-free parse without bindings, the concatenation in order of all texts in the result is a subsequence of the source items (characters with their positions) and differs from the source with its unescaped nest delimiters and active escape characters removed only by missing whitespace characters.", "quantifier": "every source, every disjoint classifier", "why_tests_cant": "conservation law over all strings", "anchors": ["core/src/lib.rs: ParseIter::parse_text, parse_nested, skip_whitespace"]}
{"id": "C09", "title": "Parsing terminates and always makes progress", "statement": "Each call of the iterator's next returns after finitely many steps; whenever it returns an item (Ok or Err) other than an allocation/combiner failure it has consumed at least one source character (or has hit the end of the source), and a source of n characters gives at most n items plus one.", "quantifier": "every finite source, every classifier (even overlapping), every bindings of terminating combiners, every mixture of errors", "why_tests_cant": "termination cannot be tested", "anchors": ["core/src/lib.rs: ParseIter::next, parse_next"]}
{"id": "C10", "title": "End of iteration is stable", "statement": "Once the parse iterator has returned None, every later call returns None as well and nothing further is allocated and no combiner is called.", "quantifier": "every source, classifier, bindings, and number of later calls", "why_tests_cant": "all histories", "anchors": ["core/src/lib.rs: Iterator for ParseIter"]}
{"id": "C11", "title": "Iteration can be resumed after an error", "statement": "After any error, the iterator treats what remains of the source as top level: a later result is the same as that of a fresh parse of the remaining characters. After UnbalancedEndChar the remaining characters start right after the offending character.", "quantifier": "every history of successes and errors, every source, bindings and allocator; classifiers of disjoint classes for the sentence about UnbalancedEndChar", "why_tests_cant": "all histories of errors", "anchors": ["core/src/lib.rs: ParseIter::parse_next (depth counting), check_end_char"]}
{"id": "C12", "title": "Result does not depend on how the source is split into pieces", "statement": "Parsing a stream of string pieces gives the same items, with the same texts, the same character positions and the same errors, as parsing the concatenated string held in memory, for every way of splitting, including empty pieces and pieces that split a form, an escape pair or a whitespace run.", "quantifier": "every source string and every partition of it, every classifier, every related pair of bindings", "why_tests_cant": "exponentially many partitions of infinitely many strings", "anchors": ["src/common/stream.rs: parse_stream", "src/common/inmem.rs: parse_str", "src/source_stream/strish_iter_src_strm.rs", "core/src/text/iter.rs", "src/text/chunk/pos_strish.rs"]}
{"id": "C13", "title": "Parsing from a character iterator agrees with parsing a string", "statement": "Parsing from an iterator of characters (accumulated into strings) gives the same datums and errors with the same character positions as parsing the string of those characters.", "quantifier": "every character sequence, every classifier, related bindings", "why_tests_cant": "all strings", "anchors": ["src/source_stream/char_iter_src_strm.rs", "src/common/inmem.rs"]}
{"id": "C14", "title": "Streaming: a form is determined by the characters consumed for it and one more", "statement": "If the iterator returns a result with at least one source character left unread, then it returns the same result for every other continuation of the source that starts with that same next character; what it leaves unread changes accordingly.", "quantifier": "every source and every alternative continuation, every bindings", "why_tests_cant": "quantifies over all continuations", "anchors": ["core/src/lib.rs: ParseIter::parse_next"]}
{"id": "C15", "title": "No panic", "statement": "No unwrap, unreachable, slice index or debug assertion in the parser, the text iterators and the source streams can fail.", "quantifier": "every source, every way of splitting it, every classifier (even overlapping), every bindings, every allocator outcome", "why_tests_cant": "absence of panics on all inputs", "anchors": ["core/src/lib.rs: ParseIter::parse_nested (debug_assert), check_end_char (unwrap), parse_all (unreachable)", "core/src/text/chunk/premade/pos_str.rs: PosStrIter::next_accum", "src/text/chunk/pos_strish.rs: RefCntSlice::slice", "src/source_stream/strish_iter_src_strm.rs: next_posstrish"]}
{"id": "C16", "title": "Operatives receive the raw operand text", "statement": "For a nest whose head is bound to an operative, the operative is called once, after the nest's end was seen, with the head datum and a text made of exactly the characters between the one separating whitespace (if any) and the matching end delimiter: nested delimiters kept, escape characters removed, escaped characters kept; nothing in it is parsed or looked up. The result replaces the nest.", "quantifier": "every operand text with balanced unescaped delimiters, every head, every operative, every continuation, every classifier of disjoint classes (which the trait documents as required)", "why_tests_cant": "all operand texts", "anchors": ["core/src/lib.rs: ParseIter::parse_nested, parse_text", "core/src/combiner.rs"]}
{"id": "C17", "title": "Applicatives receive the same list an unbound combination would contain", "statement": "For a nest whose head is bound to an applicative, the applicative is called once, after the operands were parsed, with the head datum and the very list that would be the operands of the combination were the head unbound. The result replaces the nest.", "quantifier": "every source, head, applicative and set of other bindings, every classifier of disjoint classes (which the trait documents as required)", "why_tests_cant": "all sources and macro tables", "anchors": ["core/src/lib.rs: ParseIter::parse_nested, parse_all"]}
{"id": "C18", "title": "A removed form leaves no trace", "statement": "When a combiner returns Ok(None), the surrounding list, head position or top level is exactly as if the nest had not yielded anything: the following form takes its place.", "quantifier": "every context (top level, operands, head position), every continuation, every classifier of disjoint classes (which the trait documents as required)", "why_tests_cant": "all contexts", "anchors": ["core/src/lib.rs: ParseIter::parse_next"]}
{"id": "C19", "title": "Failures propagate unchanged and stop the enclosing forms", "statement": "If parsing the head or operands of a nest fails, the error of the whole nest is that same error and the nest's own combiner is not called; if a combiner fails, its error is the parse's error. Combiners run innermost-first and left to right, each nest's at most once. No combiner is called before a nest has ended: at any time there were at most as many calls as end delimiters have been read.", "quantifier": "every source, bindings, allocator state; classifiers of disjoint classes for which error comes first", "why_tests_cant": "all failure points", "anchors": ["core/src/lib.rs: ParseIter::parse_nested, parse_all"]}
{"id": "C20", "title": "Without bindings nothing is interpreted", "statement": "With empty bindings the result holds no Extra datum and no FailedCombiner or FailedDerefTryMut error occurs; every nest with a head becomes a Combination and every nest without becomes EmptyNest.", "quantifier": "every source, every classifier, every provided allocator", "why_tests_cant": "all sources", "anchors": ["core/src/parser/premade/empty_bindings.rs", "core/src/lib.rs: ParseIter::parse_nested"]}
{"id": "C21", "title": "Shape of parsed datums", "statement": "In every datum parsed without bindings the operands of a Combination are a proper list (List cells ending in EmptyList), the head is a Text, Combination or EmptyNest, every Text inside a nest is non-empty, and no two Text datums are adjacent in an operand list.", "quantifier": "every source, every classifier of disjoint classes (which the trait documents as required)", "why_tests_cant": "all outputs", "anchors": ["core/src/lib.rs: ParseIter::parse_all, parse_nested", "core/src/datum.rs: Datum"]}
{"id": "C22", "title": "Whitespace around the head", "statement": "Any amount of whitespace between a start delimiter and the head does not change the result (apart from positions), and after the head exactly one whitespace character is dropped; all further whitespace is part of the operands text.", "quantifier": "every amount and kind of whitespace, every nest, every continuation, no bindings (the whitespace dropped after a bound head is part of C16 and C17), every classifier of disjoint classes (which the trait documents as required)", "why_tests_cant": "unbounded whitespace", "anchors": ["core/src/lib.rs: ParseIter::skip_whitespace, parse_nested"]}
{"id": "C23", "title": "Escaping makes any character literal", "statement": "Writing the escape character before every character of a text that is a delimiter, escape (or, in head position, whitespace) character gives back exactly that text; an escape character at the very end of the source is dropped silently.", "quantifier": "every text of any characters, every disjoint classifier", "why_tests_cant": "all strings", "anchors": ["core/src/lib.rs: ParseIter::parse_text"]}
{"id": "C24", "title": "Positions and zero-copy slices are exact", "statement": "Every character of every text in the result carries the character index and UTF-8 byte offset at which it stands in the source string, and every chunk is precisely the sub-slice of the source string starting at the chunk's byte position. With sources whose positions number characters (iterators of strings or characters, texts made from a string with reference-counted strings) the position of every character, and of UnbalancedEndChar, is its index in the whole source.", "quantifier": "every source string (all code-point widths), every result text", "why_tests_cant": "the test-suites ignore positions; all strings", "anchors": ["core/src/text/chunk/premade/pos_str.rs: PosStrIter, StrPos", "core/src/text/iter.rs", "src/text/chunk/pos_strish.rs: PosStrish, From<&str>"]}
{"id": "C25", "title": "Texts can be parsed again", "statement": "Parsing a text that was itself produced by a parse (several chunks, escapes removed) behaves exactly as parsing a source with the same characters and positions.", "quantifier": "every text reachable from a parse, every parser", "why_tests_cant": "all texts and chunkings", "anchors": ["core/src/text.rs: Text::iter", "core/src/text/iter.rs: SourceStream for Iter"]}
{"id": "C26", "title": "No characters leak across an error", "statement": "Characters accumulated for a text that failed never show up in a text returned later: every text consists only of characters consumed after the previous result was returned.", "quantifier": "every history, every allocator outcome, every source stream provided, every classifier (of disjoint classes for that the texts of a datum are in source order among each other)", "why_tests_cant": "failure at every possible point", "anchors": ["core/src/lib.rs: ParseIter::parse_text", "core/src/text/iter.rs: next_accum, accum_done"]}
{"id": "C27", "title": "Fixed memory: exact number of datums used", "statement": "Parsing without bindings from a pre-allocated slice uses exactly one slot for each reference in the datums returned (list cells, operators, operands, text continuation chunks); so the parse succeeds with the same result as with unlimited memory if and only if the slice has at least that many slots.", "quantifier": "every source, every slice length", "why_tests_cant": "all capacities and sources", "anchors": ["core/src/parser/premade/slice_alloc.rs", "core/src/text/premade/datum_list.rs", "core/src/lib.rs: ParseIter"]}
{"id": "C28", "title": "Running out of memory is reported, never silently wrong", "statement": "With an allocator that can fail, each result of the parse is either the same as with unlimited memory or Err(FailedAlloc); results before the first FailedAlloc are those of unlimited memory.", "quantifier": "every allocator failure pattern, every source, related bindings", "why_tests_cant": "failure at every allocation point", "anchors": ["core/src/parser.rs: AllocError, DatumAllocator", "core/src/text/premade/datum_list.rs", "core/src/lib.rs: ParseIter"]}
{"id": "C29", "title": "Slice allocator never reuses or overruns its slots", "statement": "Over any history of requests, a slice allocator of n slots hands out the slots 0,1,2,... each at most once, exactly min(n, number of requests) times; request n+1 and all later ones fail; unused() is the not-yet-used remainder and the datum written in a slot is never overwritten by later requests.", "quantifier": "every slice length and every request history", "why_tests_cant": "all histories", "anchors": ["core/src/parser/premade/slice_alloc.rs: SliceDatumAllocator"]}
{"id": "C30", "title": "FailedDerefTryMut cannot happen with the provided allocators", "statement": "With the Box, Rc, Arc and slice allocators, no parse ever returns FailedDerefTryMut unless a combiner returns it itself.", "quantifier": "every source, classifier, bindings", "why_tests_cant": "all executions", "anchors": ["src/parser/box_alloc.rs", "src/parser/rc_alloc.rs", "src/parser/arc_alloc.rs", "core/src/datum/mutref.rs", "src/datum.rs"]}
{"id": "C31", "title": "Text equality is equality of characters", "statement": "Two texts, of whatever text types, compare equal exactly when their character sequences are equal, however they are chunked and whatever their positions; so equality is reflexive, symmetric and transitive.", "quantifier": "all pairs and triples of texts", "why_tests_cant": "all chunkings", "anchors": ["core/src/text.rs: Text::partial_eq"]}
{"id": "C32", "title": "Text ordering is the lexicographic total order on characters", "statement": "Comparison of texts is a total order, independent of chunking, that agrees with equality and equals the lexicographic order of code points.", "quantifier": "all pairs and triples of texts", "why_tests_cant": "order laws over all texts", "anchors": ["core/src/text.rs: Text::cmp, partial_cmp"]}
{"id": "C33", "title": "Equal texts and equal datums hash equally", "statement": "If two texts (or two datums) compare equal, they feed identical data to any hasher, however differently they are chunked.", "quantifier": "all pairs of texts and datums, all hashers", "why_tests_cant": "all pairs", "anchors": ["core/src/text.rs: Text::hash", "core/src/datum.rs: derive(Hash)"]}
{"id": "C34", "title": "encode_utf8 writes the longest prefix that fits", "statement": "Encoding a text into a buffer returns Ok with the UTF-8 of the whole text exactly when it fits, and otherwise Err with the UTF-8 of the longest prefix of whole characters that fits; it never panics, never writes out of bounds, and leaves the bytes after the result untouched.", "quantifier": "all texts, all buffers of any length and content", "why_tests_cant": "all texts × buffer sizes", "anchors": ["core/src/text.rs: Text::encode_utf8"]}
{"id": "C35", "title": "Concatenating heap texts", "statement": "Concatenation of vector texts never fails, its items are those of the left followed by those of the right, the empty text is neutral, and is_empty tells whether there are no characters.", "quantifier": "all texts", "why_tests_cant": "all chunkings", "anchors": ["src/text/vec.rs: TextVec"]}
{"id": "C36", "title": "Concatenating datum-list texts", "statement": "Concatenation of datum-list texts yields the items of the left followed by those of the right; it allocates exactly one datum when both sides are non-empty and none otherwise, and its only failure is the allocator's.", "quantifier": "all texts, all allocator states", "why_tests_cant": "all chunkings and allocator outcomes", "anchors": ["core/src/text/premade/datum_list.rs: TextDatumList"]}
{"id": "C37", "title": "Text iterators and source streams behave as one sequence", "statement": "For each provided source stream, peeking any number of times changes nothing; the sequence of items from next or next_accum is the underlying sequence; accum_done returns exactly the items taken by next_accum since the last next/accum_done, across chunk boundaries; next discards what was pending.", "quantifier": "all interleavings of peek, next, next_accum, accum_done; all chunkings with empty chunks", "why_tests_cant": "all interleavings", "anchors": ["core/src/lib.rs: SourceStream", "core/src/text/iter.rs", "core/src/text/chunk/premade/pos_str.rs", "src/text/chunk/pos_strish.rs", "src/source_stream/strish_iter_src_strm.rs", "src/source_stream/char_iter_src_strm.rs"]}
{"id": "C38", "title": "Datum equality is structural equality", "statement": "Two datums compare equal exactly when they have the same tree of variants, with texts having equal characters and extras being equal; so it is an equivalence, and positions, chunking and the kind of reference used do not matter.", "quantifier": "all pairs of datums, of the same or different types", "why_tests_cant": "all trees", "anchors": ["core/src/datum.rs: PartialEq for Datum"]}
{"id": "C39", "title": "Comparing long lists and deep heads does not recurse", "statement": "The recursion depth of datum comparison is at most one more than the largest number of element/operands links on any path of either datum; it does not depend on the length of lists nor on the depth of nesting in head position.", "quantifier": "all pairs of datums", "why_tests_cant": "stack usage for unbounded sizes", "anchors": ["core/src/datum.rs: PartialEq for Datum"]}
{"id": "C40", "title": "Binding lookup", "statement": "Lookup in a slice of pairs returns the combiner of the first pair whose operator equals the datum; lookup in a hash map returns the combiner stored under an equal key, for every hash function, however the head's text is chunked; with pairwise different keys both agree, and both find nothing when no key is equal.", "quantifier": "all tables, all datums, all hash functions", "why_tests_cant": "all tables and hashers", "anchors": ["core/src/parser/premade/pair_bindings.rs", "src/parser/hashmap_bindings.rs"]}
{"id": "C41", "title": "Dropping terminates under every unwrap schedule", "statement": "The iterative drop of a datum tree finishes after a number of steps bounded by a function of the tree's size, whatever the pattern of successes and failures of taking datums out of shared references, even if it changes while running.", "quantifier": "all trees, all (adaptive) success/failure schedules", "why_tests_cant": "all schedules", "anchors": ["src/drop.rs: algo1"]}
{"id": "C42", "title": "Dropping disposes of every node exactly once", "statement": "Dropping a datum tree disposes of each uniquely reachable node and leaf exactly once (no leak, no double drop), gives up each shared reference exactly once, and does not reach inside shared nodes.", "quantifier": "all trees and all sharing patterns", "why_tests_cant": "all trees", "anchors": ["src/drop.rs: algo1, Drop for DatumBox/DatumRc/DatumArc"]}
{"id": "C43", "title": "Dropping uniquely owned trees uses constant stack", "statement": "When no datum is shared, dropping a tree of any shape and size makes nested drop calls only on leaves: the call depth is bounded by a constant.", "quantifier": "all trees of any depth and shape", "why_tests_cant": "stack usage for unbounded depth; tests use a few shapes", "anchors": ["src/drop.rs: algo1"]}
{"id": "C44", "title": "Dropping lists of shared elements does not recurse deeply", "statement": "When some datums are shared, drop recursion down the unshared ones is still avoided (as the documentation argues: 'drop-recursion down into its branches won't happen anyway').", "quantifier": "all trees and sharing patterns", "why_tests_cant": "needs a family of sizes: existing tests cover only shared tails", "anchors": ["src/drop.rs: algo1 (doc comment lines 62-73)"]}
{"id": "C45", "title": "Taking a datum out of a counted reference", "statement": "try_replace on a counted reference succeeds exactly when it is the only strong reference; on success the old datum is returned, weak references to it no longer upgrade, and a following set cannot fail; on failure the reference, the datum and the passed-in value are unchanged. A mutable reference (DerefTryMut::get_mut) is given exactly if there is no other reference, strong or weak.", "quantifier": "all reference-count states and operation histories", "why_tests_cant": "all count states", "anchors": ["src/drop.rs: RcLike::try_replace, RcLikeAtomicCounts::try_replace_optim, RcLike::set", "src/datum.rs: DerefTryMut for DatumRc, DatumArc"]}
{"id": "C46", "title": "The convenience parse functions stop at the first error", "statement": "The vector returned by parse_str/parse_stream (and the items yielded by the core parse_text_with) is the sequence of results up to and including the first error: all Ok except possibly the last. The documentation adds that parsing is aborted immediately at the error.", "quantifier": "every source, parser state and bindings", "why_tests_cant": "all sources", "anchors": ["src/common/helper.rs: collect_up_to_first_err", "core/src/premade/inmem.rs: parse_text_with", "src/common/inmem.rs", "src/common/stream.rs"]}
{"id": "C47", "title": "The choice of delimiters does not matter", "statement": "If a renaming of characters carries one classifier's classes to another's, parsing a renamed source with the other classifier gives the renamed result.", "quantifier": "every pair of classifiers related by a character renaming, every source", "why_tests_cant": "all delimiters and all sources", "anchors": ["core/src/parser.rs: CharClassifier", "core/src/lib.rs: ParseIter"]}
{"id": "C48", "title": "Default delimiters are disjoint", "statement": "No character is in more than one of the default classifier's four classes, so the documented requirement on classifiers holds for it.", "quantifier": "all Unicode scalar values", "why_tests_cant": "over a million code points × pairs", "anchors": ["core/src/parser/premade/default_classifier.rs"]}
{"id": "C49", "title": "Error equality", "statement": "Errors compare equal exactly when they are of the same kind with equal payloads, so error equality is an equivalence when payload equality is.", "quantifier": "all errors", "why_tests_cant": "all payloads", "anchors": ["core/src/error.rs: PartialEq for Error"]}
{"id": "C50", "title": "Parsed datums read back unchanged through their references", "statement": "With datums in memory (boxes, counted references, or slots of a caller-supplied slice), after any sequence of calls of next and of dropping and cloning datums got from it, every datum or clone still held, when its references are followed in memory as it is then, is exactly the tree that the same call of a parser working on plain values returns, and all results that are not datums (None, errors) are the same too. Building lists in place, later calls, failed calls, memory exhaustion and dropping of other datums never change a datum already returned, and the next call always returns.", "quantifier": "every source, every history of calls, drops and clones, every size of the slice, every classifier, and all combiners that respect ownership", "why_tests_cant": "A datum is a graph of memory cells built by writing through pointers; that no later call, error cleanup or drop can ever change or free a cell of a held datum is a statement about all histories and all shapes of sharing.", "anchors": ["core/src/lib.rs: ParseIter::parse_next, parse_nested, parse_all", "core/src/datum.rs: Datum, DerefTryMut", "core/src/parser/premade/slice_alloc.rs: SliceDatumAllocator", "core/src/datum/premade/mutref.rs: DatumMutRef", "src/datum.rs: DatumBox, DatumRc, DatumArc", "src/parser/box_alloc.rs, rc_alloc.rs, arc_alloc.rs"]}
{"id": "C51", "title": "No memory leaks: what is live is what the user holds", "statement": "With datums in boxes or counted references, after any sequence of calls of next and of dropping and cloning datums got from it, the live allocations are exactly those that can be reached from the datums and clones still held, and every reference count equals the number of references that exist; so failed calls, removed forms and dropped datums leave nothing behind. Without bindings every live datum has exactly one reference to it, if it is in a box or nothing was cloned. Dropping by the non-recursive algorithm leaves the same memory as plain reference counting.", "quantifier": "every source, every history of calls, drops and clones, every classifier, and all combiners that respect ownership", "why_tests_cant": "Leak freedom must hold at every early return of every nested call for every source and history, with any sharing that combiners introduce.", "anchors": ["core/src/lib.rs: ParseIter::parse_nested, parse_all (early returns with ?)", "src/datum.rs: DatumBox, DatumRc, DatumArc", "src/drop.rs: algo1, impl Drop"]}
{"id": "C52", "title": "Everything a source yields is determined by its grammar, errors included", "statement": "For every source, well-formed or not, the whole sequence of results of calling next until it returns None is determined by rules about the source alone: the datums of the well-formed forms before the first problem; then an error (an end delimiter without a start, whose position is reported and which takes a text directly before it with it; a start delimiter that is never matched; an error returned by a combiner; or an error of memory); then, independently, the results of what was not read yet. Without bindings and with enough memory the rules give every source exactly one sequence of results and every parser yields that one. With bindings they also determine which combiners are called, in which order and with what.", "quantifier": "every source of characters, every classifier with disjoint classes, every set of bindings, every text type, every allocator, every state", "why_tests_cant": "A test shows the recovery after one error in one source; here every combination of stray delimiters, open nests, escapes, failing combiners and memory errors must recover at the specified place with nothing lost or repeated.", "anchors": ["core/src/lib.rs: ParseIter::next, parse_next, parse_text, parse_nested, parse_all", "core/src/error.rs: Error"]}
{"id": "C53", "title": "How large a slice of datums suffices for a source", "statement": "Parsing a source of n characters with a slice of k datums and without bindings never runs out of memory if 3n <= 2k + 5, whatever the characters are, whatever errors the source has, however it is divided into chunks and however often next is called; on a string, the results are then exactly those specified for it. The bound cannot be lowered: there are arbitrarily long strings for which every smaller slice is used up.", "quantifier": "every source, every length, every slice, every history of calls", "why_tests_cant": "The worst case over all sources of a length has to be known; texts, escapes, nests, operands, and parses abandoned by an error all use slots.", "anchors": ["core/src/lib.rs: ParseIter::parse_nested, parse_all", "core/src/parser/premade/slice_alloc.rs: SliceDatumAllocator", "core/src/text/premade/datum_list.rs: concat"]}
{"id": "C54", "title": "Characters are taken from an iterator on demand", "statement": "A parser over an iterator of characters (CharIterSourceStream) takes a character out of the iterator only when it needs it, and never more than one beyond those consumed. If the iterator ends, the histories of calls are those of its list of characters. What it does after the characters taken so far plays no role for the results so far: it may go on, wait, or never end. After a datum other than a text nothing taken is unread, so nests that come one after the other are each returned once their last character has come, without asking for the next. Once next has returned None, it returns None for ever and does not ask the iterator again, even if the iterator would give more. Characters are numbered 0, 1, 2 and so on in the order they are consumed, however often the next one is looked at before, and whatever the iterator gives in between.", "quantifier": "every iterator (any state machine giving Some or None, ending, never ending, or resuming after None), every parser over it, every history of calls; classifiers of disjoint classes for how far nests are read", "why_tests_cant": "Interactive sources block and endless ones cannot be run to the end; that no more is ever taken has to hold for every source and every place in it.", "anchors": ["src/source_stream/char_iter_src_strm.rs: CharIterSourceStream::new, next, peek, next_accum, accum_done", "core/src/lib.rs: ParseIter::parse_next, parse_nested, parse_text"]}
{"id": "C55", "title": "Strings are taken from an iterator on demand", "statement": "A parser over an iterator of strings (StrishIterSourceStream) asks the iterator for the next non-empty string only when all the characters of the strings before have been consumed. If the iterator ends, the histories of calls are those of its list of strings. What it would give after the strings asked for so far plays no role for the results so far. After a datum other than a text some character of the last string asked for has been consumed, so nests that come in pieces are each returned once their last piece has come, without asking for the next. If the iterator is fused, next returns None for ever once it has; if it is not, next can return None and then datums again.", "quantifier": "every iterator of strings (any state machine giving Some or None, ending, never ending, or resuming after None), every way of cutting the source into strings, empty ones included, every parser over it, every history of calls; classifiers of disjoint classes for how far nests are read", "why_tests_cant": "Interactive sources block and endless ones cannot be run to the end; that nothing is asked for too early has to hold for every source and every way of cutting it.", "anchors": ["src/source_stream/strish_iter_src_strm.rs: StrishIterSourceStream::new, next_posstrish_of, next_posstrish, next, peek, next_accum, accum_done", "core/src/lib.rs: ParseIter::parse_next, parse_nested, parse_text"]}
{"id": "C56", "title": "The call stack and the counters are bounded by the nesting depth, and by nothing less", "statement": "One call of the parser iterator's next needs at most 3 n + 2 frames of its recursive functions, where n is the largest number of nests open at once in the characters still to come, however many characters, texts, operands and removed nests there are; and its nesting counters do not exceed n, so they do not overflow. With fewer frames or smaller counters a call either does the same or aborts; it never does something else. The bound is exact, and there is no limit on the depth in the parser: a source that begins with L start delimiters aborts the program if only 2 L frames fit on the stack, whatever follows.", "quantifier": "every source, every stream and text type of the library, every classifier with disjoint classes, every allocator and bindings, every history of calls, every size of the stack and of the counters", "why_tests_cant": "A test runs with one stack size and a few depths; that depth of calls does not grow with the length of the source, with the number of operands or with the number of nests removed by combiners has to hold for all of them.", "anchors": ["core/src/lib.rs: ParseIter::do_next, parse_next (ndepth), parse_text (nest_level), parse_nested, parse_all"]}
{"id": "C57", "title": "Parsing takes time linear in the source: no rescanning and no backtracking", "statement": "Each call of the parser iterator's next, whatever its result, makes at most five calls of its source stream's methods (peek, next, next_accum, accum_done) for each character it consumes, and at most four more. So a whole parse of n characters with k results makes at most 5 n + 4 (k + 1) calls on the stream, whatever the nesting, the escapes, the whitespace, the errors and the nests removed by combiners; the parser does not look at a character an unbounded number of times.", "quantifier": "every source, every stream and text type of the library, every classifier, every allocator and bindings, every history of calls and every result including errors", "why_tests_cant": "A timing test samples a few shapes of source; quadratic behaviour can hide in one combination of nesting, escapes, removed nests and errors. The bound has to hold for all of them.", "anchors": ["core/src/lib.rs: ParseIter::do_next, parse_next, parse_text, parse_nested, parse_all, skip_whitespace", "core/src/parser.rs: SourceStream"]}
{"id": "C58", "title": "Dropping a datum takes time linear in its size if nothing of it is shared", "statement": "Dropping a datum of which no reference is shared (every datum made of DatumBoxes, and every datum of DatumRcs or DatumArcs that nobody else holds a part of) takes less than two iterations of the drop algorithm for each Combination or List datum in it, whatever its shape. This does not extend to shared datums: dropping a list of n elements, each a branch datum that is also held elsewhere, takes n (n + 1) / 2 iterations; so time is quadratic (never worse, C41).", "quantifier": "every tree of datums of every shape and size; for the second part every n", "why_tests_cant": "The library's tests drop some shapes of some sizes; a shape for which restructuring is repeated over and over would only be found by chance, and a test cannot show that there is none.", "anchors": ["src/drop.rs: algo1, Drop for DatumBox, DatumRc, DatumArc"]}
{"id": "C59", "title": "Properties of source texts that combiners keep hold of all results", "statement": "Let a property hold of every text made of characters of the source in source order (for instance: being a slice of the source at its position, or containing only characters that the current call consumed), and let the combiners return only datums, errors and state that keep it when given only heads and operands that have it. Then every datum, head and operand that the parser hands to a combiner or returns to the user has the property, the combiners' state keeps its invariant, and every error returned is a combiner's or one of the parser's own: MissingEndChar, UnbalancedEndChar at the position of an end delimiter that the call consumed, or an error of memory.", "quantifier": "every property of texts, extras, errors and state; every source; every history of calls; every classifier; every allocator; every bindings that keep the property", "why_tests_cant": "It ranges over all invariants a user of bindings may want and over all bindings that keep them; a test shows one combiner on one source.", "anchors": ["core/src/lib.rs: ParseIter::parse_nested, ParseIter::parse_all, ParseIter::parse_text, Combiner"]}
{"id": "C60", "title": "Sources can be put one after another", "statement": "If one source parses without error, then that source followed by a second one parses to the items of the first followed by the items of the second, the positions of the latter moved by the length of the first and the second read in the combiner state the first leaves. Without combiners the first source may also yield errors for stray end delimiters, only not for a missing one. The one condition is that no text runs across the joint: the first source is empty or ends with a nest, or the second starts with a nest that the first does not escape.", "quantifier": "all pairs of sources that meet at a nest boundary, all classifiers of disjoint classes (which the trait documents as required), all streams and text types of the library, with any combiners that do not look at positions or chunk boundaries", "why_tests_cant": "It is about every pair of sources and every way they can meet at the joint; a test fixes two strings.", "anchors": ["core/src/lib.rs: ParseIter::next, ParseIter::parse_nested, ParseIter::parse_all, ParseIter::parse_text", "src/common/inmem.rs: parse_str", "src/common/stream.rs: parse_stream"]}
{"id": "C61", "title": "Parsing reference-counted strings shares them, and lets go of what is consumed", "statement": "Parsing a stream of reference-counted strings (Rc or Arc of str, String or Box<str>) never copies them: each chunk of each text handed to a combiner or returned is empty, or refers to one of the very strings that the iterator yielded, not to another with the same contents, delimits a part of it on character boundaries, and has as its position the number of characters before that part in all of the strings together. The same holds for parsing a text of such chunks, whose chunks are cut from the chunks of that text. Between calls, as long as there are characters to come, the stream keeps no accumulated text and refers to at most two of the strings it has asked for: the one last read from, and the next one with characters if it had to look that far. Strings before that are kept only by the texts that use them, and no string is asked for earlier than that. At the end of the source it refers to at most one of the strings, one after which there are no more characters, not counting those of a text whose accumulation the end of the source has cut off.", "quantifier": "every list of reference-counted strings of every type, also several with the same contents and empty ones, every text type of the library, every classifier, every allocator, every combiners that keep such texts, every history of calls", "why_tests_cant": "The tests look at reference counts for a few chunks and at the results for strings all of whose contents differ; that no string is copied, mixed up with another or kept too long must hold for every cutting of a source into strings, wherever forms and escapes fall.", "anchors": ["src/text/chunk/pos_strish.rs: PosStrish, RefCntSlice::slice, PosStrishIter", "src/source_stream/strish_iter_src_strm.rs: StrishIterSourceStream", "src/text/vec.rs: TextVec::concat", "core/src/text/iter.rs: Iter", "core/src/lib.rs: ParseIter"]}
{"id": "C62", "title": "Iterating the chunks of a text", "statement": "Iterating the chunks of a text (Text::iter_chunks) yields each of its chunks exactly once, in order, and after that nothing however often it is asked, without panicking. Iterating its characters (Text::iter, also as a source stream of a parser), which goes from chunk to chunk in that way and looks ahead on a copy of the iterator of chunks, gives the characters of all the chunks as one sequence, in every history of peek, next, next_accum and accum_done.", "quantifier": "every text of each text type and chunk type of the library, any number of chunks, empty ones among them, any number and order of calls", "why_tests_cant": "The library's tests of these iterators are marked TODO; and any number of chunks, empty chunks at any place, and any interleaving of looking ahead and accumulating across chunk boundaries is possible.", "anchors": ["core/src/text/iter/chunks.rs: State, Iter, State for [C]", "core/src/text/iter.rs: Iter", "src/text/vec.rs: iter_chunks_state", "core/src/text/premade/datum_list.rs: State for TextDatumList, iter_chunks_state"]}
{"id": "C63", "title": "Cloning and hashing of datums", "statement": "A clone of a datum in boxes is an equal tree that has nothing in common with any datum that existed before: all of its allocations are new, as many as the tree has references, and everything else in memory stays as it was. A clone of a datum in counted references allocates nothing; only the counts of what it refers to go up. Dropping the clone gives back exactly the memory there was before. Cloning of boxes, and hashing of any datum, nest calls exactly as deep as the tree has levels, also along the rest of a list, so that (unlike comparing and dropping, C39 and C43) they need stack in proportion to the length of a list; and a source that nests only three deep can have a head that is that deep, for which bindings that are a hash map are asked.", "quantifier": "every datum, every state of the memory, every history of calls, drops and clones before, every number of nested calls that the stack has room for", "why_tests_cant": "Independence of a clone is about all memory and all that is later done with it; depth of recursion is about trees of every size.", "anchors": ["core/src/datum.rs: Datum (derived Clone, Hash)", "src/datum.rs: DatumBox, DatumRc, DatumArc (derived Clone, Hash)", "src/parser/hashmap_bindings.rs: lookup"]}
{"id": "C64", "title": "Dropping shared datums from several threads at once", "statement": "Threads that share datums through DatumArc, and drop their references to them at the same time, however their steps are interleaved with each other and with other uses of the references (clone, downgrade, upgrade, try_unwrap, get_mut, sending to other threads): no thread panics or touches what was dropped or freed; dropping ends, after a number of steps in all that is at most quadratic in the number of datums; what can be reached from references still held stays as it is; afterwards exactly what can still be reached is left, plus the empty cells of which a Weak is held, with the right counts, so that nothing leaks; every leaf is disposed of at most once, and exactly once if nothing is held anymore. A thread that drops what is not shared needs a fixed amount of stack for it, whatever the others do at the time; what is shared costs at most a fixed amount for each reference to a shared datum.", "quantifier": "every program, any number of threads, every sharing of datums, every interleaving of steps (sequentially consistent)", "why_tests_cant": "Races depend on the schedule, which tests do not control, and a datum dropped twice or never is not seen in results.", "anchors": ["src/drop.rs: algo1, RcLike::try_replace, RcLike::set, DatumArc Drop", "src/datum.rs: DatumArc"]}
{"id": "C65", "title": "Texts are made of as few slices of the source as possible", "statement": "The chunks of every text that parsing gives (also of those that combiners are given) are slices of the source, none empty, in their order; a new chunk begins only where it must: where an escape character was left out, or where a chunk of the source text, or a string of the iterator, ends. In a parse of one string, the chunks of a text with one escape character between each two are a slice of the string, so that a text written without escapes is one chunk, and otherwise there are as many more as escapes used; no text of the same characters at the same positions could have fewer chunks.", "quantifier": "every source: a string, a text of several chunks, an iterator of strings or of characters; every text type of the library, classifier, allocator, and combiners that keep it; every history of calls", "why_tests_cant": "How texts are cut is not seen by comparing texts, and depends on every placement of escapes and of boundaries between pieces.", "anchors": ["core/src/lib.rs: parse_text, next_char_accum handling", "core/src/text/iter.rs: next_accum, accum_done", "src/source_stream/strish_iter_src_strm.rs", "src/source_stream/char_iter_src_strm.rs", "core/src/text/premade/datum_list.rs: concat", "src/text/vec.rs: concat"]}
{"id": "C66", "title": "Concatenating texts: linear with TextVec, quadratic with TextDatumList", "statement": "In any history of calls the parser concatenates texts at most ten times for each character of the source, eight times for each call, and once for each piece of the source. To know whether the texts are empty, each concatenation looks at no more than two chunks on average, however many chunks the texts have. With TextVec it moves no more than three chunks on average, so the work is linear. With TextDatumList each looks for the end of a linked list that has no more nodes than the source has characters, so the work is at most quadratic; and it is quadratic: the 2k characters \\a\\a...\\a give one text of k chunks and k(k-1)/2 turns of the loop, also with the premade parser of the core crate.", "quantifier": "every source (a text of any chunks, a string, an iterator of strings or of characters), text type, classifier, allocator and bindings; every history of calls; for the slow source, every k", "why_tests_cant": "Tests see results, not how work grows with the size of the source; the bounds hold for all sources and histories.", "anchors": ["core/src/lib.rs: parse_text", "core/src/text/premade/datum_list.rs: concat", "src/text/vec.rs: concat", "core/src/text/iter.rs: next_accum, accum_done", "core/src/premade/inmem.rs"]}
{"id": "C67", "title": "Operatives can parse their operands themselves, if there are no escapes in them", "statement": "If the operands of a nest contain no escape character, then the text an operative gets is the operands as written, and parsing it, in the state in which the operative is called, gives exactly the datums, with the same calls of combiners in the same order, that an applicative in its place would be given. So operatives that parse their operands and pass the list on to an applicative can replace the applicative, in any nesting, and parsing with the bindings they themselves are among, without a change to what sources without escapes are parsed to. With escapes this fails: the escape characters are gone from the text, so escaped delimiters become delimiters ({p \\{b c\\}}).", "quantifier": "every source without escape characters that parses without error, every classifier of disjoint classes (which the trait documents as required), bindings, state, any set of applicatives replaced; all texts and streams of the library", "why_tests_cant": "Ranges over all sources, nestings and combiners, and over operatives that recursively parse with their own bindings.", "anchors": ["core/src/lib.rs: parse_nested, parse_text, parse_all", "core/src/combiner.rs: Combiner", "core/src/text/iter.rs: TextIter"]}
{"id": "C68", "title": "A combiner that panics", "statement": "If a combiner panics, and the panic is caught, the source and the allocator are as if the combiner had returned an error, so a new iterator over the rest of the same source stream gives what it would give after an error; until a panic the results are those of a parser whose combiners return. The iterator that panicked must not be used on: it gives the same items, but at the end of the source it gives Err(MissingEndChar) again and again in place of None, and at an end delimiter without start it gives None again and again without reading on. The nest depth is where it began if and only if no call panicked.", "quantifier": "every source and stream, classifier, allocator, bindings with combiners that may panic at any call; every history of calls, with any number of caught panics; classifiers of disjoint classes for the iterator that stays at an end delimiter", "why_tests_cant": "The suites have no panicking combiner; it ranges over every point at which any combiner may panic, at any nesting, and every continuation after it.", "anchors": ["core/src/lib.rs: parse_next (332-336), parse_nested, ParseIter::next, Parser::parse", "core/src/combiner.rs: Combiner"]}
{"id": "C69", "title": "Dropping what was parsed takes linear time and constant stack", "statement": "Whatever the user did with the datums before, when they drop a datum that the parser gave them, the drop algorithm iterates fewer times than there are datums in it, and nests calls of drop at most two deep, however deep the datum is. So it is for DatumBox with any use, and for DatumRc and DatumArc as long as the user does not clone. What a drop does on memory cells with reference counts is what it does on the tree that can be read from there.", "quantifier": "every source, chunk type and stream, classifier, bindings whose combiners return datums of which nothing is shared; every history of calls, clones and drops; every heap of reference-counted cells in order", "why_tests_cant": "It ranges over every datum that any source can yield, after every history, and it bounds the stack at every depth; a test has a fixed depth and a fixed stack.", "anchors": ["src/drop.rs: algo1, Drop for DatumBox, DatumRc, DatumArc", "src/parser/box_alloc.rs, rc_alloc.rs, arc_alloc.rs", "core/src/lib.rs: parse_next"]}
{"id": "C70", "title": "What is parsed is not larger than its source", "statement": "A datum that a call of the parser returns consists of fewer than one and a half times as many datums as the call consumed characters, and all results together are bounded by the source likewise, provided that combiners do not give more datums than they are given. The factor cannot be lowered: there are arbitrarily long strings that reach it. In memory, whatever the user does with the datums (with Rc and Arc also cloning), at most one and a half times as many allocations are live as the source has characters; so input cannot make the parser use more than linear memory, and dropping takes linear time in the source.", "quantifier": "every source, stream, text type, classifier, allocator, bindings that do not enlarge; every history of calls, drops and clones", "why_tests_cant": "It is a bound for all inputs: inputs that make the result grow faster than the source would have to be found; and it is about every history of use.", "anchors": ["core/src/lib.rs: parse_next, parse_nested, parse_all, ParseIter::next", "src/parser/box_alloc.rs, rc_alloc.rs, arc_alloc.rs", "src/drop.rs: algo1"]}
{"id": "C71", "title": "Parsing while other threads use shared datums", "statement": "With datums in Arcs, other threads (which may be other parsers) can make, clone, take apart, change and drop datums in the same memory, and have Weak references to them and upgrade these, also such that they got from this parser's user or from its combiners, at any moment between two accesses of the parser to memory. Whatever they do: the calls of the parser give what they would give alone and never panic; what the user holds can still be read and is what was given, also if clones of it are in others' hands; the parser and its user only do to memory what any thread may do with the references that it holds, so the others are not disturbed either; and nothing leaks: what is live is what can be reached from what the user or others hold, with exact counts.", "quantifier": "every source, stream, chunk type, classifier, bindings that respect ownership; every history of calls, drops, clones and datums given away; every interleaving with any actions of other threads", "why_tests_cant": "Schedules cannot be enumerated by tests, and a test would see only what some threads happen to do.", "anchors": ["src/parser/arc_alloc.rs: ArcDatumAllocator", "src/datum.rs: DatumArc", "core/src/lib.rs: parse_next, parse_nested, parse_all, ParseIter::next", "core/src/datum.rs: DerefTryMut"]}
{"id": "C72", "title": "Panics of user-supplied code lose no memory and disturb nothing that is held", "statement": "Combiners, lookup of bindings, the classifier, the allocator's new_datum, get_mut of its references, the source stream, and empty and concat of texts may panic at any time, also the parser's debug_assert!s when a source stream does not keep its contract; the user may catch the panic and go on with the same iterator, or with a new one of the same parser, for the same or another source. Provided that this code respects ownership also where it panics, at any time: what is read from a datum or clone that the user holds is what was read when it was returned; what is live is exactly what can be reached from what the user holds, with exact reference counts, so nothing that a call had built when it panicked is left; a datum that a call returns can be read in full; and a call that does not panic does exactly what it would do if nothing could panic.", "quantifier": "every source stream (also wrong ones), texts, classifier, allocator in Box, Rc or Arc, bindings; every point at which any of them panics; every history of calls, caught panics, drops, clones and new parses", "why_tests_cant": "A panic may occur at any of unboundedly many points of a call, in states that tests do not reach.", "anchors": ["core/src/lib.rs: parse_next, parse_nested, parse_all, ParseIter::next", "core/src/parser.rs: DatumAllocator::new_datum, OperatorBindings::lookup", "core/src/combiner.rs: Combiner", "src/drop.rs", "core/src/parser.rs: CharClassifier"]}
{"id": "C73", "title": "A nest can be replaced by another without effect elsewhere", "statement": "Without bindings: if in a source a part that by itself is one nest (parses, by itself, to one datum that is not a text) is replaced by another such part, then the results are the same, except that in one place the datum of the old nest is now that of the new one; positions before it are the same and positions after it are moved by the difference of the lengths. If the source has an unclosed nest around the part, then the part is not in the results at all, and these are the same. The part must not come directly after an unfinished escape. With bindings of applicative combiners: two nests that have the same meaning, for every state of what the combiners use, are interchangeable in every context.", "quantifier": "every source before, in and after the part, every two nests, every provided source stream and text type, every classifier of disjoint characters; for the second part, every bindings of applicatives", "why_tests_cant": "Contexts and nests are unbounded, and tests only try some.", "anchors": ["core/src/lib.rs: parse_next, parse_nested, parse_all, parse_text", "core/src/parser.rs: CharClassifier, OperatorBindings"]}
{"id": "C74", "title": "Bindings affect only combinations whose operator they bind", "statement": "If a parser without bindings returns, in a call, a datum in which no operator of a combination is bound, or None, or the error for an end delimiter without a start, then the same parser with the bindings returns the same and leaves the same state. So a source whose results are all such gives the same results with the bindings, and nothing else. parse_str with bindings that bind no operator of what it returns without them, without error, returns the same.", "quantifier": "every source stream (also wrong ones), text type, allocator, classifier, bindings and source", "why_tests_cant": "It is about every set of bindings and every source.", "anchors": ["core/src/lib.rs: parse_next, parse_nested, parse_all", "core/src/parser.rs: OperatorBindings::lookup"]}
{"id": "C75", "title": "A release build does what a debug build does", "statement": "Builds without debug assertions, where what is called in the assertions' conditions is not called either (two of them peek at the source stream, which changes it) and where subtractions wrap around, give for any history of calls of next exactly the same results, and the same states of stream and allocator, as debug builds: for strings and texts in memory (slices of strings or of reference-counted strings), iterators of strings and iterators of characters, whatever the bindings. For any other source stream, this is so for each call that does not panic in a debug build, provided that peeking a second time shows the same and changes nothing.", "quantifier": "every source, history of calls, bindings, allocator, classifier and text type; every width of usize; for the general part every source stream whose peek is repeatable", "why_tests_cant": "Tests run in one kind of build, on some sources.", "anchors": ["core/src/lib.rs: check_end_char, parse_nested (debug_assert)", "src/source_stream/strish_iter_src_strm.rs: next_posstrish (debug_assert)", "src/text/chunk/pos_strish.rs: RefCntSlice::slice (debug_assert), next_accum"]}
{"id": "C76", "title": "Bindings may change while parsing", "statement": "Bindings whose lookup answers differently over time (because combiners define or remove operators, or because a lookup itself changes something) work: each nest's head is looked up at most once, after everything written before it and the head itself have been evaluated, and before its operands are; what is found then is what is done with the nest, whatever its operands define. What a parse yields, and what has been looked up and called in which order, is the meaning of the source under these rules; a parse whose combiners and memory do not fail yields an error only if the delimiters do not balance; the first error is one the rules describe, and the parse goes on after it; no call panics and every parse ends. If bindings do not change, everything is as with fixed bindings.", "quantifier": "every source, classifier (of disjoint classes, which the trait documents as required), allocator and text type; every lookup that is a function of the state and leaves a state, and combiners that change that state in any way; the library's source streams and any conforming one", "why_tests_cant": "Tests use fixed bindings; which lookups see which definitions depends on the order of evaluation in every source.", "anchors": ["core/src/parser.rs: OperatorBindings::lookup", "core/src/lib.rs: parse_next, parse_nested, parse_all"]}
{"id": "C77", "title": "Delimiters may change while parsing", "statement": "A character classifier whose answers change while parsing, because combiners (or lookups) change what it consults, works: every character is classified in the state that the evaluation of everything written before it has left, so a nest that changes the delimiters changes them from the character after it on, also inside the nests that contain it, whose own end delimiter is then a new one. What a parse yields, datums and errors, and the state it leaves is what the source means under these rules; no call panics, and every parse ends. If the delimiters do not change, everything is as with a fixed classifier.", "quantifier": "every source, allocator and text type; every classifier that is a function of the state, that allocating alone does not change, and whose classes are disjoint in every state (the last only for errors); every lookup and all combiners, which may change the state in any way; the library's source streams and any conforming one", "why_tests_cant": "Tests use fixed classifiers; which state classifies which character depends on the order of evaluation and of reading in every source.", "anchors": ["core/src/parser.rs: CharClassifier", "core/src/lib.rs: skip_whitespace, check_end_char, parse_text, parse_next, parse_nested, parse_all"]}
{"id": "C78", "title": "Panics of user-supplied code anywhere", "statement": "Any function that the user supplies (methods of the source stream, classifier, bindings, allocator and text type, and combiners) may panic at any call. A call of next then ends: with that panic, after which the parser does nothing more, so that stream and allocator are as the panicking function left them; or as if nothing could panic. Whatever holds of stream and allocator and is kept by every such function, returning or panicking, holds after any history of uses. After any such history, with any number of caught panics and any number of iterators over the same stream, the stream is somewhere in its source, having accumulated items that come directly before that point; further calls end; and a new iterator yields what the rest of the source means, except that a text that the rest begins with is given with the accumulated items in front of it.", "quantifier": "every source, every conforming source stream whose methods, if they panic, leave it in order (and the library's), every classifier (of disjoint classes, which the trait documents as required, for what a new iterator gives), allocator, text type, bindings and combiners, every choice of which calls panic in which states, every history of calls, caught panics and new iterators", "why_tests_cant": "A panic can come at any of the calls of user code, at any depth and any number of times; tests inject few, and none of the project's tests inject any.", "anchors": ["core/src/lib.rs: ParseIter, Parser::parse, parse_next, parse_text, parse_nested, parse_all, skip_whitespace, check_end_char, SourceStream", "core/src/parser.rs: CharClassifier, DatumAllocator, OperatorBindings", "core/src/text.rs: TextConcat"]}
{"id": "C79", "title": "Texts linked through the slots of a slice", "statement": "With the allocator of a slice of memory, texts of more than one chunk are linked lists whose nodes are in slots of the slice, and concatenating writes to the last node. Nothing that a user can observe depends on that: whatever the user does (calls, dropping datums in between, keeping others), each call of next gives the same result, and uses up as many slots, as with texts that are plain values; every datum still held reads back, following its references and the links of its texts in memory as it is then, as the datum that was returned; no slot belongs to two held datums, or twice to one, or is handed out again; iterating the chunks of a text neither panics nor goes on forever. The parser never panics or hangs, however small the slice is.", "quantifier": "every source, given as texts of chunks of any type, as strings one after the other, or as characters; every classifier; every slice of memory of any length; all bindings whose combiners use only what they own; every history of calls and drops", "why_tests_cant": "Whether a write to the node of one text changes another datum depends on every earlier allocation and on every history of use; tests look at a few datums once, right after parsing.", "anchors": ["core/src/text/premade/datum_list.rs: TextDatumList, concat, is_empty, iter_chunks_state, State::next", "core/src/parser/premade/slice_alloc.rs: SliceDatumAllocator", "core/src/premade/inmem.rs: parser", "core/src/datum/premade/mutref.rs: DatumMutRef"]}
{"id": "C80", "title": "Counters of the source streams do not overflow", "statement": "The positions, indexes and lengths that the library's source streams compute while parsing stay within the largest value of their integer type, provided that value is at least the length in bytes of each source string and the number that each character's position is followed by. So in a build that checks for overflow no call of next panics because of one, and everything is as with unlimited integers: results, errors, positions, what is left of the source. For the parsers of kul::common that is also so together with the parser's own counters of nests, given stack enough. Such a value exists for every source.", "quantifier": "every largest value, every string, text of chunks (iterated as a list or by the text's own states), iterator of strings (with or without regard to which string it is) or of characters within it, both text types, every classifier, allocator and all bindings, every history of calls; classifiers of disjoint classes for the bound of all counters together", "why_tests_cant": "An overflow shows only with sources as long as the largest integer, which no test can hold; that no sum is ever one more than the source's own length has to be proved for every source.", "anchors": ["core/src/text/chunk/premade/pos_str.rs: PosStrIter, next_accum", "src/text/chunk/pos_strish.rs: RefCntSlice::slice, PosStrishIter::do_next_no_peeked, next_accum", "src/source_stream/strish_iter_src_strm.rs: StrishIterSourceStream", "src/source_stream/char_iter_src_strm.rs: CharIterSourceStream"]}
{"id": "C81", "title": "What holds with any user code", "statement": "Whatever the source stream, the classifier, the bindings, the combiners, the allocator and the text type do (answer differently each time, share state by interior mutability, take characters from the source, give other datums, panic, not return): a call of next has at most one result; a call that returns leaves the nest depth as it was, so the iterator can be used on; the parser does nothing to the user's state but call the user's functions; and every error is one that a combiner gave or has the cause its name says (a character given by the stream that the classifier called an end, a stream that said it is at its end, an AllocError that the stream, a text or the allocator gave, a get_mut that gave None); and every datum is made of nothing but what the user's functions gave (texts, elements and ends of lists that the allocator gave for them, datums that combiners gave). If moreover the source is finite, the user's functions return and looking does not change what is seen, every call ends and every datum takes a character. If moreover what is shown comes next, characters are not reclassified by reading texts and no whitespace ends nests, and no user function panics, no call panics. Without the condition on the classifier both fail: there is a classifier contradicting itself with which the first call on a source of two characters never ends.", "quantifier": "every implementation of every trait, every state it has, every history of calls and new iterators, with panics", "why_tests_cant": "No set of test implementations covers all behaviours of types that users write; the hang needs a proof that no number of steps suffices.", "anchors": ["core/src/lib.rs: Parser, ParseIter::next, parse_next, parse_text, parse_nested, parse_all, skip_whitespace, check_end_char", "core/src/parser.rs: CharClassifier, DatumAllocator, OperatorBindings, Error", "core/src/lib.rs: SourceStream", "core/src/combiner.rs: Combiner"]}
{"id": "C82", "title": "The recursion of a drop is as deep as there are references to shared branch datums", "statement": "When a tree of datums is dropped while others hold on to some of its datums, the drop calls are nested exactly as deep as the number of references from the dropped part of the tree to shared branch datums, up to two more; the shape and depth of the tree do not matter otherwise.", "quantifier": "all trees of datums and all sharing patterns that stay as they are during the drop", "why_tests_cant": "a test measures the depth for one tree; the law is about every shape and sharing pattern, and a lower bound for every tree cannot be sampled", "anchors": ["src/drop.rs: algo1, Drop for DrcDatum types"]}
{"id": "C83", "title": "How long dropping takes with sharing", "statement": "Dropping a tree of datums while others hold on to some of its datums takes at most 2 n (2 m + 1) iterations of the drop algorithm, where n is the number of branch datums reached without passing a shared reference and m is the number of references to shared branch datums; so it is linear if few are shared, and what is inside of shared datums costs nothing.", "quantifier": "all trees of datums of every shape and size and all sharing patterns that stay as they are during the drop", "why_tests_cant": "a test measures single trees; the bound is about every shape together with every sharing pattern, with restructured trees in between", "anchors": ["src/drop.rs: algo1"]}
{"id": "C84", "title": "Depth of a drop when datums are shared inside of what is dropped", "statement": "Dropping a DatumRc nests drop calls at most 2 n + 2 deep, where n is the number of references to branch datums (Combination, List) that are given up during the drop because other references to the same datum are left; and at most two deeper than the number of references there are to shared branch datums that can be reached. This holds also when datums are shared inside of the dropped datum itself, so that what is shared changes during the drop, and however deep and large it is.", "quantifier": "all heaps of reference-counted datums without cycles, with any sharing, and every reference dropped", "why_tests_cant": "the depth depends on the shape, on the sharing and on the order in which counts go down during the drop; a test sees single cases", "anchors": ["src/drop.rs: algo1, DatumRc, try_replace_optim"]}
{"id": "C85", "title": "How long dropping takes when datums are shared inside of what is dropped", "statement": "Dropping a DatumRc takes at most n (n + 1) / 2 iterations of the drop algorithm, where n is the number of branch datums (Combination, List) that are freed by it, that is, which cannot be reached through other references; also when datums are shared inside of the dropped datum, so that there are many more ways to reach them than datums.", "quantifier": "all heaps of reference-counted datums without cycles, with any sharing, and every reference dropped", "why_tests_cant": "with sharing the number of ways to reach datums is exponential in their number, and what is shared changes during the drop; a test measures single cases", "anchors": ["src/drop.rs: algo1, DatumRc, try_replace_optim"]}
{"id": "C86", "title": "Depth and time of dropping a counted datum shared from outside", "statement": "When no shared branch datum is met twice in a dropped DatumRc, the calls of drop are nested as deep as the number of shared branch datums that are met, or up to two deeper, and the drop algorithm iterates at most 2 m (2 s + 1) times, for m branch datums freed and s shared ones met; however these are shared elsewhere, and however leaves are shared. So there are reference-counted datums whose drop is nested arbitrarily deep.", "quantifier": "all heaps of reference-counted datums without cycles, every reference dropped such that no shared branch datum is met twice from it, and all depths", "why_tests_cant": "the reference counts change during the drop; that this makes no difference must hold for every heap, and that there is no bound is about all depths", "anchors": ["src/drop.rs: algo1, DatumRc, try_replace_optim"]}
{"id": "C87", "title": "Panics of user-supplied code while other threads share the datums", "statement": "With datums in Arcs that other threads make, clone, take apart, change and drop in the same memory at any moment between two accesses of the parser, any user-supplied code of this parser (combiners, lookup, classifier, new_datum, get_mut, source stream, texts) may panic at any time, and the user may catch the panic and go on. Provided that combiners respect ownership also where they panic: what the user holds can be read and is what was read when it was returned; what is live is what can be reached from what the user or the others hold, with exact counts, so nothing that a call had built when it panicked is left; the parser, also while it unwinds, only does to memory what any thread may do with the references that it holds, so the others are not disturbed by the panic; and a datum that a later call returns can be read in full.", "quantifier": "every source stream (also wrong ones), texts, classifier and bindings that respect ownership; every point at which any user-supplied code panics; every history of calls, caught panics, drops, clones, new parses and datums given away; every interleaving with any actions of other threads", "why_tests_cant": "Neither the points of panics nor the interleavings are bounded, and both come together in states that tests do not reach.", "anchors": ["core/src/lib.rs: parse_next, parse_nested, parse_all, ParseIter::next", "src/parser/arc_alloc.rs: ArcDatumAllocator", "src/datum.rs: DatumArc"]}
{"id": "C88", "title": "Formatting a source: what was parsed, written out and parsed again", "statement": "Write out what a parse without bindings and without error gave (any of the start, end, escape and whitespace characters may be used, the same ones throughout). The result is one string. Parsed again, by any of the library's parsers with the same classifier, from any stream and cut into any pieces, it gives no error and the same datums, character for character. Writing that out again gives the same string. Two sources that are parsed without error are written out the same if and only if they mean the same datums, so the result is a normal form. It is at most half as long again as the source.", "quantifier": "every source that is parsed without error, all of the library's streams and text types on both sides, every classifier of disjoint classes that has all four kinds of characters, every choice of these, every allocator; for the second parse one that does not fail", "why_tests_cant": "A formatter is run on sources of any length, depth and use of escapes; that it loses nothing, is idempotent and tells all meanings apart is about all of them, and about all pairs.", "anchors": ["core/src/lib.rs: Parser::parse, parse_next, parse_text, parse_nested, parse_all", "core/src/parser.rs: CharClassifier", "src/text.rs: TextVec", "core/src/text.rs: TextDatumList"]}
{"id": "C89", "title": "The source streams themselves work in linear time", "statement": "Calling the source streams costs, all calls together, a number of steps proportional to the calls and to the parts of the source. Iterating a text: the turns of the loops inside its calls are at most one for each call, three for each chunk of the source, and, for each call that looks ahead when nothing is left, one for each of the empty chunks the source ends with and one more. For a whole parse this is at most 9 for each character, 7 for each chunk (empty or not), and 8. An iterator of strings: at most four steps for each call and one for each string, empty ones included. An iterator of characters: every character is copied at most twice. What cannot be had: looking ahead at the end of a text does not remember that it is the end. Over a source of k empty chunks, each of j calls takes k + 1 turns.", "quantifier": "every source and every way of cutting it into chunks or strings, empty ones included, every history of calls of the parser's iterator whatever their results, all the library's chunk and text types, every classifier, allocator and all bindings", "why_tests_cant": "Tests time nothing, and repeated scanning shows only with adversarial cuts (many empty chunks) of unbounded length; the claim is about the sum over every history of calls.", "anchors": ["core/src/text/iter.rs: Iter::next, peek, next_accum, accum_done", "src/source_stream/strish_iter_src_strm.rs: StrishIterSourceStream", "src/source_stream/char_iter_src_strm.rs: CharIterSourceStream"]}
{"id": "C90", "title": "What comparing, ordering, hashing and encoding look at, and how long they take", "statement": "Comparing two datums compares what they consist of part by part, in a fixed order (operands before operators, elements before the rest of a list), and stops at the first difference; the user's comparisons of texts and extras are called in that order and only while everything before was equal, whatever effects they have. It takes one turn for each pair compared: all parts if the datums are equal, else those up to the first difference, and never more than either datum consists of. Comparing or ordering two texts asks each for exactly the characters they have in common at the start and one more; hashing a text asks for each character once and for the end; encoding asks for the characters that fit and one more; passing from chunk to chunk adds one turn for each chunk. Hashing a datum writes once for each part, and its texts. So comparing all that was parsed from a source with anything takes at most 4 steps for each character of the source, and one. What cannot be had: datums may be shared, but sharing is not noticed; for every n there is a datum in n + 1 places of memory whose comparison with itself takes 2^(n+1) - 1 turns, and whose hashing as many writes.", "quantifier": "all pairs of datums of any two types, in any memories with any sharing; comparisons of texts and extras that are any code (any monad); all texts of all the library's text types, however cut into chunks, and all buffers; every source parsed without error, with any of the library's streams", "why_tests_cant": "The number and order of comparisons, and the absence of rescanning, concern all shapes and sizes of datums; the exponential growth with sharing shows only on a family of datums of unbounded size.", "anchors": ["core/src/datum.rs: PartialEq for Datum, Hash", "core/src/text.rs: Text::eq, cmp, hash, encode_utf8", "core/src/text/iter.rs: Iter::next"]}
{"id": "C91", "title": "Release builds with wrapping integers", "statement": "In a release build additions and subtractions of usize wrap around instead of panicking, and no debug assertion is checked. As long as usize can hold the length in bytes of each source string, the number that each character's position is followed by, and the number of start delimiters in the source, every history of calls of next gives there exactly what it gives with unlimited integers: the same results, positions in errors, and states of stream and allocator. For any other source stream that shows the same when peeked again: each call that does not panic in a build with checked integers (and a stack of any size) does the same in a release build, and nothing else is possible. For the parsers of kul::common it is enough that the string, or each of the strings, is no longer in bytes, and the strings together no longer in characters, than the largest usize. Beyond that nothing panics in CharIterSourceStream: positions start again at 0, so that the i-th of n unbalanced delimiters is reported at i modulo the number of values of usize.", "quantifier": "every width of usize; every string, text of chunks (iterated as a list or by the text's own states), iterator of strings or of characters within it, all text types, allocators and bindings, every classifier of disjoint classes, every history of calls; for the general part every source stream whose peek is repeatable; for the last part every number of delimiters and every width", "why_tests_cant": "The integers wrap around only with sources longer than any test can hold, and tests run in debug builds.", "anchors": ["core/src/lib.rs: parse_next (ndepth), parse_text (nest_level)", "core/src/text/chunk/premade/pos_str.rs: PosStrIter, next_accum", "src/text/chunk/pos_strish.rs: RefCntSlice::slice, PosStrishIter", "src/source_stream/strish_iter_src_strm.rs: StrishIterSourceStream", "src/source_stream/char_iter_src_strm.rs: CharIterSourceStream"]}
{"id": "C92", "title": "How long dropping takes exactly, and which shapes are fastest and slowest", "statement": "Dropping a tree of datums of which nothing is shared takes exactly one iteration of the drop algorithm for each branch datum (Combination, List), and one more for each time it restructures: where the right reference of a branch datum is to a leaf, as often as for the left one; else once for each branch datum of the left, and as often as for the right. So it takes at least n iterations for n branch datums, and exactly n if and only if no branch datum refers to two branch datums; lists, nests and zig-zags are such, as the comments say ('optimal shapes', 'fastest'). It takes at most 2 n - 2; with n > 2 exactly as many if and only if the right reference of the top datum is to a branch datum with two leaves; the tests' 'V' is such. The trees that the tests of the drop algorithm make are as described: they have as many datums as asked for, or one fewer; a fan has all leaves equally deep, 2^(d+1) - 1 datums, the most that the size allows, and takes 2^(d+1) - 2 - d iterations.", "quantifier": "all trees of every shape and size of which nothing is shared (DatumBox; DatumRc and DatumArc without clones); all sizes that can be asked for, every width of usize", "why_tests_cant": "The tests drop one tree of each of five shapes, and do not count; that no shape is faster or slower is about all trees.", "anchors": ["src/drop.rs: algo1", "src/drop.rs: tests", "shared_tests/src/utils/tree_shapes.rs: make_list, make_nest, make_zigzag, make_fan, fan_depth, make_vee"]}
{"id": "C93", "title": "Lists with additional strong references: what goes when", "statement": "make_rc_multi_strong_list(len, strong_step) makes a list of len elements and gives one more strong reference to every strong_step-th node counted from the end of the list, except to the head; it panics if strong_step is zero. Dropping the list, while these references are held, disposes of exactly the nodes above the first tail that has another reference, with their elements, in a known order, and lowers the count of that tail; it takes one iteration of the drop algorithm for each of these nodes and never more than two nested drops. With strong_step 1 that is only the top node, as the comment in the test says. Dropping the references then, in order, gives up all but the last, which disposes of everything that remains, with one iteration for each node but one, and never more than two nested drops, although these references are Rc and not DatumRc.", "quantifier": "all lengths, all steps", "why_tests_cant": "The test has one length and step 1, and passes if the stack does not overflow; it does not look at what is freed when.", "anchors": ["src/drop.rs: deep_rc_multi_strong_list", "shared_tests/src/utils/tree_shapes.rs: make_rc_multi_strong_list", "src/drop.rs: algo1"]}
{"id": "C94", "title": "Lists with weak references to their nodes are dropped like others, and leave nothing", "statement": "make_rc_weak_list(len) and make_arc_weak_list(len) make a list each of whose elements has a weak reference to the node that has it. Dropping it does not panic, takes one iteration of the drop algorithm for each node and never more than two nested drops; for each node, one cell is allocated, since a datum to which there are weak references cannot be replaced in place; and in the end no memory remains. If there are any other weak references to nodes, then the same happens, but that for each node that has such references a cell without datum remains, with exactly these references; none can be upgraded any more. A list without weak references is dropped in the same way; DatumArc allocates one cell for each node even then, DatumRc none.", "quantifier": "all lengths, any numbers of weak references to each of the nodes; DatumRc, and DatumArc used by one thread", "why_tests_cant": "The tests drop one such list, and pass if the stack does not overflow; leaked memory or references that can still be upgraded would not be noticed.", "anchors": ["src/drop.rs: algo1, try_replace, try_replace_optim, deep_rc_weak_list, deep_arc_weak_list", "shared_tests/src/utils/tree_shapes.rs: make_rc_weak_list, make_arc_weak_list"]}
{"id": "C95", "title": "Weak references do not change how datums are dropped", "statement": "In any heap of datums with strong and weak references, dropping a strong reference by the drop algorithm gives what it gives in the same heap without the weak references: it panics only if it does there, takes as many loop iterations and as many nested calls, and leaves the same datums with the same strong counts, though a datum may be at another address. So if the strong references are in order (counts are the numbers of references, no cycles), it ends without a panic, and exactly the datums that other strong references reach are left. Excepted are accesses to memory that is not there, which Rust rules out and the model does not.", "quantifier": "all heaps, all references, any weak references; DatumRc, and DatumArc used by one thread", "why_tests_cant": "The tests drop lists of one shape with weak references; here are all shapes, shared or not, and all positions of weak references.", "anchors": ["src/drop.rs: algo1, trytake, try_replace, try_replace_optim, set"]}
