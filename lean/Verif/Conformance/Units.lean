import Verif.Conformance.Run
import Verif.Model.Common
import Verif.Model.Live
import Verif.Model.LiveStrish

/-!
# The model run on the library's unit tests

As in `Verif.Conformance.Run`, these are tests of the model and not proofs about it, and no
claim rests on them. Each check is a unit test of the library for a function that is
modelled, written out for the model: it gives the values the test expects of the library.
Only what a test says about reference counts is left out, and the sizes of the three
largest inputs are smaller here.
-/

namespace Kul.Suite

/-- The characters of a string literal. -/
local instance : Coe String Str := ⟨String.toList⟩

/-! ## Scripts of calls of a source stream -/

/-- A call of a method of a stream with the result that a test expects. A text is given by
the characters and positions of its chunks. -/
inductive Op where
  | peek (r : Option (Item CharPos))
  | next (r : Option (Item CharPos))
  | nextAccum (r : Option (Item CharPos))
  | done (chunks : List (Str × Nat))
  | doneEmpty

/-- What `txt_to_chunks` of the tests gives: `none` stands for a panic. -/
def txtToChunks (t : TextVec PosStrish) : Option (List (Str × Nat)) :=
  t.chunks.mapM fun c => c.val.asStr.map fun s => (s, c.pos.n)

/-- Makes the calls in turn; are all results as expected? -/
def follows {σ : Type} (M : StreamOps σ CharPos (TextVec PosStrish) Unit) : List Op → σ → Bool
  | [], _ => true
  | .peek r :: ops, s =>
    match M.peek s with
    | (.ok x, s) => x = r && follows M ops s
    | _ => false
  | .next r :: ops, s =>
    match M.next s with
    | (.ok x, s) => x = r && follows M ops s
    | _ => false
  | .nextAccum r :: ops, s =>
    match M.nextAccum s () with
    | (.ok x, s, ()) => x = r && follows M ops s
    | _ => false
  | .done cs :: ops, s =>
    match M.accumDone s () with
    | (.ok t, s, ()) => txtToChunks t = some cs && follows M ops s
    | _ => false
  | .doneEmpty :: ops, s =>
    match M.accumDone s () with
    | (.ok t, s, ()) => t.isEmpty posStrishOps = .ok true && follows M ops s
    | _ => false

/-- `collect`: all items, by calls of `next`. -/
def collects {σ : Type} (M : StreamOps σ CharPos (TextVec PosStrish) Unit) : Nat → σ → Option (List (Item CharPos))
  | 0, _ => none
  | n + 1, s =>
    match M.next s with
    | (.ok (some x), s) => (collects M n s).map (x :: ·)
    | (.ok none, _) => some []
    | _ => none

/-- `CharPos` counted from `k`. -/
def items (s : Str) (k : Nat) : List (Item CharPos) := (s.zipIdx k).map fun (c, i) => ⟨c, ⟨i⟩⟩

/-- The text type of the tests. -/
def TV : TextType PosStrish (TextVec PosStrish) Unit := textVec Unit posStrishOps

/-- The iterator of the elements of a list. -/
def listIter {A : Type} : Machine (List A) A
  | [] => (none, [])
  | a :: l => (some a, l)

/-- Both models of `StrishIterSourceStream`: the one with a list, and the one with an
iterator of which nothing is assumed. -/
def strishFollows (ops : List Op) (ss : List Str) : Bool :=
  follows (strishIterOps TV) ops (.new ss) &&
    match LiveStrish.new (LiveStrish.nextPosstrishOf listIter 400) ss with
    | .ok s => follows (liveStrishOps (LiveStrish.nextPosstrishOf listIter 400) TV) ops s
    | _ => false

/-- The same for `CharIterSourceStream`. -/
def charFollows (ops : List Op) (s : Str) : Bool :=
  follows (charIterOps TV) ops (.new s) && follows (liveCharOps listIter TV) ops (LiveChar.new s)

/-! ### `src/source_stream/strish_iter_src_strm.rs` `source_stream` -/

example : strishFollows
  [.peek none,
   .nextAccum none,
   .doneEmpty]
  [] = true := by decide +kernel

example : strishFollows
  [.peek none,
   .nextAccum none,
   .doneEmpty]
  [[]] = true := by decide +kernel

example : strishFollows
  [.peek none,
   .nextAccum none,
   .doneEmpty]
  [[], []] = true := by decide +kernel

example : strishFollows
  [.peek none,
   .nextAccum none,
   .doneEmpty]
  (List.replicate 321 []) = true := by decide +kernel

example : strishFollows
  [.peek (some ⟨'a', ⟨0⟩⟩),
   .nextAccum (some ⟨'a', ⟨0⟩⟩),
   .peek none,
   .nextAccum none,
   .done [("a".toList, 0)],
   .doneEmpty]
  ["a"] = true := by decide +kernel

example : strishFollows
  [.peek (some ⟨'𝝰', ⟨0⟩⟩),
   .nextAccum (some ⟨'𝝰', ⟨0⟩⟩),
   .peek none,
   .nextAccum none,
   .done [("𝝰".toList, 0)],
   .doneEmpty]
  ["", "𝝰", ""] = true := by decide +kernel

example : strishFollows
  [.peek (some ⟨'y', ⟨0⟩⟩),
   .nextAccum (some ⟨'y', ⟨0⟩⟩),
   .peek (some ⟨'\\', ⟨1⟩⟩),
   .done [("y".toList, 0)],
   .next (some ⟨'\\', ⟨1⟩⟩),
   .nextAccum (some ⟨'\\', ⟨2⟩⟩),
   .peek (some ⟨'𝞫', ⟨3⟩⟩),
   .nextAccum (some ⟨'𝞫', ⟨3⟩⟩),
   .peek (some ⟨' ', ⟨4⟩⟩),
   .nextAccum (some ⟨' ', ⟨4⟩⟩),
   .peek (some ⟨'{', ⟨5⟩⟩),
   .done [("\\".toList, 2), ("𝞫 ".toList, 3)],
   .next (some ⟨'{', ⟨5⟩⟩),
   .peek (some ⟨'\\', ⟨6⟩⟩),
   .done [("".toList, 0)],
   .next (some ⟨'\\', ⟨6⟩⟩),
   .nextAccum (some ⟨'}', ⟨7⟩⟩),
   .peek (some ⟨'}', ⟨8⟩⟩),
   .done [("}".toList, 7)],
   .next (some ⟨'}', ⟨8⟩⟩),
   .peek none,
   .done [("".toList, 0)],
   .nextAccum none,
   .done [("".toList, 0)],
   .next none,
   .peek none]
  ["", "", "", "y\\\\", "", "", "", "", "𝞫 {\\}}", "", ""] = true := by decide +kernel

example : strishFollows
  [.nextAccum (some ⟨'w', ⟨0⟩⟩),
   .nextAccum (some ⟨'V', ⟨1⟩⟩),
   .next (some ⟨'u', ⟨2⟩⟩),
   .doneEmpty,
   .peek none,
   .nextAccum none]
  ["w", "V", "u"] = true := by decide +kernel

/-! ### `src/source_stream/char_iter_src_strm.rs` `source_stream` -/

example : charFollows
  [.peek none,
   .nextAccum none,
   .doneEmpty]
  "" = true := by decide +kernel

example : charFollows
  [.peek (some ⟨'Z', ⟨0⟩⟩),
   .nextAccum (some ⟨'Z', ⟨0⟩⟩),
   .peek none,
   .nextAccum none,
   .done [("Z".toList, 0)]]
  "Z" = true := by decide +kernel

example : charFollows
  [.peek (some ⟨'y', ⟨0⟩⟩),
   .nextAccum (some ⟨'y', ⟨0⟩⟩),
   .peek (some ⟨'\\', ⟨1⟩⟩),
   .done [("y".toList, 0)],
   .next (some ⟨'\\', ⟨1⟩⟩),
   .nextAccum (some ⟨'\\', ⟨2⟩⟩),
   .peek (some ⟨'x', ⟨3⟩⟩),
   .nextAccum (some ⟨'x', ⟨3⟩⟩),
   .peek (some ⟨' ', ⟨4⟩⟩),
   .nextAccum (some ⟨' ', ⟨4⟩⟩),
   .peek (some ⟨'{', ⟨5⟩⟩),
   .done [("\\x ".toList, 2)],
   .next (some ⟨'{', ⟨5⟩⟩),
   .peek (some ⟨'\\', ⟨6⟩⟩),
   .done [("".toList, 0)],
   .next (some ⟨'\\', ⟨6⟩⟩),
   .nextAccum (some ⟨'}', ⟨7⟩⟩),
   .peek (some ⟨'}', ⟨8⟩⟩),
   .done [("}".toList, 7)],
   .next (some ⟨'}', ⟨8⟩⟩),
   .peek none,
   .done [("".toList, 0)],
   .nextAccum none,
   .done [("".toList, 0)],
   .next none,
   .peek none]
  "y\\\\x {\\}}" = true := by decide +kernel

example : charFollows
  [.nextAccum (some ⟨'w', ⟨0⟩⟩),
   .nextAccum (some ⟨'V', ⟨1⟩⟩),
   .next (some ⟨'u', ⟨2⟩⟩),
   .done [("".toList, 0)],
   .peek none,
   .nextAccum none]
  "wVu" = true := by decide +kernel

/-! ### `iter` of both -/

/-- `strish_iter_src_strm.rs` `iter`. -/
def strishCollects (n : Nat) (ss : List Str) : Option (List (Item CharPos)) :=
  collects (strishIterOps TV) n (.new ss)

example : strishCollects 1 [] = some [] := by decide +kernel
example : strishCollects 1 [""] = some [] := by decide +kernel
example : strishCollects 1 ["", ""] = some [] := by decide +kernel
example : strishCollects 1 (List.replicate 321 []) = some [] := by decide +kernel
example : strishCollects 5 ["a"] = some [⟨'a', ⟨0⟩⟩] := by decide +kernel
example : strishCollects 5 ["", "𝝰", ""] = some [⟨'𝝰', ⟨0⟩⟩] := by decide +kernel
example : strishCollects 5 ["𝞫b"] = some [⟨'𝞫', ⟨0⟩⟩, ⟨'b', ⟨1⟩⟩] := by decide +kernel
example : strishCollects 5 ["𝞫", "", "b"] = some [⟨'𝞫', ⟨0⟩⟩, ⟨'b', ⟨1⟩⟩] := by decide +kernel
example : strishCollects 5 ["", "", "", " ", "", "", "", "", " ", "", ""] = some [⟨' ', ⟨0⟩⟩, ⟨' ', ⟨1⟩⟩] := by
  decide +kernel

/-- In the library's test the list is repeated 1234 times. -/
example : strishCollects 100 (List.flatten (List.replicate 6 [" テ", "ス", "トはとても", "", "退屈で", "す!"]))
    = some (items (List.flatten (List.replicate 6 " テストはとても退屈です!".toList)) 0) := by decide +kernel

/-- `char_iter_src_strm.rs` `iter`. -/
def charCollects (n : Nat) (s : Str) : Option (List (Item CharPos)) := collects (charIterOps TV) n (.new s)

example : charCollects 1 "" = some [] := by decide +kernel
example : charCollects 5 "a" = some [⟨'a', ⟨0⟩⟩] := by decide +kernel
example : charCollects 5 "λb" = some [⟨'λ', ⟨0⟩⟩, ⟨'b', ⟨1⟩⟩] := by decide +kernel
example : charCollects 5 "c▷ ▷" = some [⟨'c', ⟨0⟩⟩, ⟨'▷', ⟨1⟩⟩, ⟨' ', ⟨2⟩⟩, ⟨'▷', ⟨3⟩⟩] := by decide +kernel
example : charCollects 6 (" 1 ".toList ++ "23".toList)
    = some [⟨' ', ⟨0⟩⟩, ⟨'1', ⟨1⟩⟩, ⟨' ', ⟨2⟩⟩, ⟨'2', ⟨3⟩⟩, ⟨'3', ⟨4⟩⟩] := by decide +kernel

/-- In the library's test there are 4321 characters. -/
example : charCollects 102 ((List.range 101).map fun n => if n % 2 == 0 then 'λ' else '-')
    = some ((List.range 101).map fun n => ⟨if n % 2 == 0 then 'λ' else '-', ⟨n⟩⟩) := by decide +kernel

/-! ## `src/text/chunk/pos_strish.rs` -/

/-- `refcnt_slice`, without the reference counts. -/
example : (⟨"a", 0, 1⟩ : RefCntSlice).asStr = some "a".toList ∧
    (⟨"a", 0, 1⟩ : RefCntSlice).slice 0 1 = some ⟨"a", 0, 1⟩ ∧
    (⟨"a", 0, 1⟩ : RefCntSlice).slice 1 1 = some ⟨"a", 1, 1⟩ ∧
    (⟨"a", 1, 1⟩ : RefCntSlice).asStr = some [] ∧
    (⟨"aλb▷c", 0, 8⟩ : RefCntSlice).asStr = some "aλb▷c".toList ∧
    (⟨"aλb▷c", 0, 8⟩ : RefCntSlice).slice 1 7 = some ⟨"aλb▷c", 1, 7⟩ ∧
    (⟨"aλb▷c", 1, 7⟩ : RefCntSlice).asStr = some "λb▷".toList ∧
    (⟨"aλb▷c", 1, 7⟩ : RefCntSlice).slice 2 3 = some ⟨"aλb▷c", 3, 4⟩ ∧
    (⟨"aλb▷c", 3, 4⟩ : RefCntSlice).asStr = some "b".toList := by decide +kernel

/-- `refcnt_slice_huge`, for any size in place of `usize::max_value()`. -/
example (MAX : Nat) (h : 0 < MAX) :
    (⟨"dummy", 0, MAX⟩ : RefCntSlice).slice (MAX - 1) MAX = some ⟨"dummy", MAX - 1, MAX⟩ ∧
    (⟨"dummy", MAX - 1, MAX⟩ : RefCntSlice).slice 0 0 = some ⟨"dummy", MAX - 1, MAX - 1⟩ ∧
    (⟨"dummy", MAX - 1, MAX⟩ : RefCntSlice).slice 0 1 = some ⟨"dummy", MAX - 1, MAX⟩ ∧
    (⟨"dummy", MAX - 1, MAX⟩ : RefCntSlice).slice 1 1 = some ⟨"dummy", MAX, MAX⟩ := by
  have e : MAX - 1 + 1 = MAX := by omega
  have e' : MAX - (MAX - 1) = 1 := by omega
  simp [RefCntSlice.slice, e, e']

/-- `refcnt_slice_panic1`. -/
example : (⟨"aλb▷c", 0, 8⟩ : RefCntSlice).slice 3 6 = some ⟨"aλb▷c", 3, 6⟩ ∧
    (⟨"aλb▷c", 3, 6⟩ : RefCntSlice).asStr = none := by decide +kernel

/-- `refcnt_slice_panic2`. -/
example : (⟨"aλb▷c", 0, 8⟩ : RefCntSlice).slice 3 7 = some ⟨"aλb▷c", 3, 7⟩ ∧
    (⟨"aλb▷c", 3, 7⟩ : RefCntSlice).slice 0 6 = none := by decide +kernel

/-- `refcnt_slice_assert_conditions1` to `4`. -/
example : ((⟨"raboof", 0, 6⟩ : RefCntSlice).slice 4 5).bind (·.slice 0 2) = none ∧
    ((⟨"raboof", 0, 6⟩ : RefCntSlice).slice 4 5).isSome ∧
    ((⟨"raboof", 0, 6⟩ : RefCntSlice).slice 2 4).bind (·.slice 3 3) = none ∧
    ((⟨"raboof", 0, 6⟩ : RefCntSlice).slice 2 4).isSome ∧
    ((⟨"raboof", 0, 6⟩ : RefCntSlice).slice 0 0).bind (·.slice 0 1) = none ∧
    ((⟨"raboof", 0, 6⟩ : RefCntSlice).slice 0 0).isSome ∧
    ((⟨"raboof", 0, 6⟩ : RefCntSlice).slice 1 5).bind (·.slice 1 0) = none ∧
    ((⟨"raboof", 0, 6⟩ : RefCntSlice).slice 1 5).isSome := by decide +kernel

/-- `pos_strish_new`. -/
example : PosStrish.new "" ⟨0⟩ = ⟨⟨"", 0, 0⟩, ⟨0⟩⟩ ∧
    PosStrish.new "a" ⟨0⟩ = ⟨⟨"a", 0, 1⟩, ⟨0⟩⟩ ∧ PosStrish.new "raboof" ⟨2⟩ = ⟨⟨"raboof", 0, 6⟩, ⟨2⟩⟩ ∧
    (⟨"raboof", 0, 6⟩ : RefCntSlice).asStr = some "raboof".toList ∧
    posStrishOps.isEmpty PosStrish.empty = .ok true ∧
    posStrishOps.isEmpty (.new "" ⟨0⟩) = .ok true ∧
    posStrishOps.isEmpty (.new "" ⟨3⟩) = .ok true ∧
    posStrishOps.isEmpty (.new "a" ⟨0⟩) = .ok false ∧
    posStrishOps.isEmpty (.new " " ⟨9⟩) = .ok false ∧
    posStrishOps.isEmpty (.new "zzzzzzzzzzzz" ⟨0⟩) = .ok false := by decide +kernel

/-- The stream of one chunk as a stream of texts, to run scripts. -/
def chunkStream : StreamOps PosStrishIter CharPos (TextVec PosStrish) Unit where
  peek := PosStrishIter.peek
  next := PosStrishIter.next
  nextAccum s a :=
    match PosStrishIter.nextAccum s with
    | (.ok r, s) => (.ok r, s, a)
    | (_, s) => (.panic, s, a)
  accumDone s a :=
    match PosStrishIter.accumDone s with
    | (.ok c, s) => (.ok (.single c), s, a)
    | (_, s) => (.panic, s, a)

/-- `pos_strish_iter`. -/
def chunkCollects (s : Str) (k : Nat) : Option (List (Item CharPos)) :=
  collects chunkStream 10 (.new (.new s ⟨k⟩))

example : chunkCollects "" 0 = some [] := by decide +kernel
example : chunkCollects "a" 0 = some [⟨'a', ⟨0⟩⟩] := by decide +kernel
example : chunkCollects " b" 1 = some [⟨' ', ⟨1⟩⟩, ⟨'b', ⟨2⟩⟩] := by decide +kernel
example : chunkCollects "c λ d" 9
    = some [⟨'c', ⟨9⟩⟩, ⟨' ', ⟨10⟩⟩, ⟨'λ', ⟨11⟩⟩, ⟨' ', ⟨12⟩⟩, ⟨'d', ⟨13⟩⟩] := by decide +kernel
example : chunkCollects "▷▷" 321 = some [⟨'▷', ⟨321⟩⟩, ⟨'▷', ⟨322⟩⟩] := by decide +kernel

/-! ### `pos_strish_srcstrm` -/

example : follows chunkStream
  [.peek none,
   .nextAccum none,
   .doneEmpty]
  (.new (.new "" ⟨0⟩)) = true := by decide +kernel

example : follows chunkStream
  [.peek (some ⟨' ', ⟨5⟩⟩),
   .next (some ⟨' ', ⟨5⟩⟩),
   .peek (some ⟨'▷', ⟨6⟩⟩),
   .nextAccum (some ⟨'▷', ⟨6⟩⟩),
   .done [("▷", 6)],
   .peek (some ⟨'\n', ⟨7⟩⟩),
   .next (some ⟨'\n', ⟨7⟩⟩),
   .peek (some ⟨'a', ⟨8⟩⟩),
   .nextAccum (some ⟨'a', ⟨8⟩⟩),
   .peek (some ⟨'λ', ⟨9⟩⟩),
   .peek (some ⟨'λ', ⟨9⟩⟩),
   .peek (some ⟨'λ', ⟨9⟩⟩),
   .nextAccum (some ⟨'λ', ⟨9⟩⟩),
   .peek none,
   .nextAccum none,
   .done [("aλ", 8)],
   .doneEmpty,
   .peek none,
   .nextAccum none]
  (.new (.new " ▷\naλ" ⟨5⟩)) = true := by decide +kernel

example : follows chunkStream
  [.peek (some ⟨'a', ⟨8⟩⟩),
   .nextAccum (some ⟨'a', ⟨8⟩⟩),
   .peek (some ⟨'λ', ⟨9⟩⟩),
   .nextAccum (some ⟨'λ', ⟨9⟩⟩),
   .peek none,
   .nextAccum none,
   .done [("aλ", 8)],
   .doneEmpty,
   .peek none,
   .nextAccum none]
  (.new (⟨⟨" ▷\naλ", 5, 8⟩, ⟨8⟩⟩)) = true := by decide +kernel

example : follows chunkStream
  [.peek (some ⟨'a', ⟨8⟩⟩),
   .peek (some ⟨'a', ⟨8⟩⟩),
   .nextAccum (some ⟨'a', ⟨8⟩⟩),
   .peek (some ⟨'λ', ⟨9⟩⟩),
   .peek (some ⟨'λ', ⟨9⟩⟩),
   .peek (some ⟨'λ', ⟨9⟩⟩),
   .peek (some ⟨'λ', ⟨9⟩⟩),
   .next (some ⟨'λ', ⟨9⟩⟩),
   .doneEmpty,
   .peek none,
   .nextAccum none]
  (.new (⟨⟨" ▷\naλ", 5, 8⟩, ⟨8⟩⟩)) = true := by decide +kernel

example : follows chunkStream
  [.doneEmpty,
   .next (some ⟨'z', ⟨0⟩⟩),
   .peek (some ⟨'y', ⟨1⟩⟩),
   .peek (some ⟨'y', ⟨1⟩⟩),
   .next (some ⟨'y', ⟨1⟩⟩),
   .nextAccum (some ⟨'x', ⟨2⟩⟩),
   .next (some ⟨'x', ⟨3⟩⟩),
   .doneEmpty,
   .peek (some ⟨'y', ⟨4⟩⟩),
   .next (some ⟨'y', ⟨4⟩⟩),
   .peek (some ⟨'z', ⟨5⟩⟩),
   .peek (some ⟨'z', ⟨5⟩⟩),
   .peek (some ⟨'z', ⟨5⟩⟩),
   .next (some ⟨'z', ⟨5⟩⟩),
   .doneEmpty,
   .next none,
   .peek none,
   .nextAccum none,
   .peek none,
   .next none,
   .doneEmpty]
  (.new (.new "zyxxyz" ⟨0⟩)) = true := by decide +kernel

example : follows chunkStream
  [.next (some ⟨'z', ⟨0⟩⟩), .next (some ⟨'y', ⟨1⟩⟩), .nextAccum (some ⟨'x', ⟨2⟩⟩), .nextAccum (some ⟨'x', ⟨3⟩⟩),
   .nextAccum (some ⟨'y', ⟨4⟩⟩), .nextAccum (some ⟨'z', ⟨5⟩⟩), .nextAccum none, .done [("xxyz", 2)]]
  (.new (.new "zyxxyz" ⟨0⟩)) = true := by decide +kernel

/-- The chunks whose ranges the test checks. -/
def accumulated (skip take : Nat) (c : PosStrish) : Option PosStrish :=
  let nexts := fun s => (PosStrishIter.next s).2
  let accums := fun s => (PosStrishIter.nextAccum s).2
  match PosStrishIter.accumDone (Nat.repeat accums take (Nat.repeat nexts skip (.new c))) with
  | (.ok c, _) => some c
  | _ => none

example : accumulated 1 1 (.new " ▷\naλ" ⟨5⟩) = some ⟨⟨" ▷\naλ", 1, 4⟩, ⟨6⟩⟩ ∧
    accumulated 3 3 (.new " ▷\naλ" ⟨5⟩) = some ⟨⟨" ▷\naλ", 5, 8⟩, ⟨8⟩⟩ ∧
    accumulated 0 3 ⟨⟨" ▷\naλ", 5, 8⟩, ⟨8⟩⟩ = some ⟨⟨" ▷\naλ", 5, 8⟩, ⟨8⟩⟩ ∧
    accumulated 2 5 (.new "zyxxyz" ⟨0⟩) = some ⟨⟨"zyxxyz", 2, 6⟩, ⟨2⟩⟩ := by decide +kernel

/-! ## `src/text/vec.rs` `basic` -/

namespace VecBasic

/-- `TV::from_str`. -/
def f (s : String) : TextVec PosStr := .fromStr .ofStr s.toList

/-- `TV::empty`. -/
def e : TextVec PosStr := .multi []

/-- `concat(..).unwrap()`. -/
def c (t u : TextVec PosStr) : TextVec PosStr :=
  match (t.concat posStrOps u ()).1 with
  | .ok v => v
  | _ => .multi [.ofStr "panicked".toList]

/-- `is_empty`. -/
def emp (t : TextVec PosStr) : Bool := t.isEmpty posStrOps = .ok true

/-- `==`. -/
def eq (t u : TextVec PosStr) : Bool :=
  (textVec Unit posStrOps).eq posStrOps posStrOps (textVec Unit posStrOps) 20 t u = .ok true

/-- `!=`. -/
def ne (t u : TextVec PosStr) : Bool :=
  (textVec Unit posStrOps).eq posStrOps posStrOps (textVec Unit posStrOps) 20 t u = .ok false

example : emp e ∧ emp (c e e) ∧ emp (f "") ∧ emp (c (f "") (f "")) ∧ emp (c (f "") e) ∧ emp (c e (f "")) ∧
    emp (c (f "") (c (f "") (f ""))) ∧ eq e e ∧ eq (f "") (f "") ∧ eq e (f "") ∧ eq (f "a") (f "a") ∧
    ne e (f "a") ∧ ne (f "a") (f "b") ∧ ne (f "aa") (f "aaa") ∧ eq (c (f "cc") (f "d")) (f "ccd") ∧
    eq (c (c (f "e") (f "  ")) (f "fff")) (f "e  fff") ∧
    eq (c (f "gg") (c (c e (f "")) (f "hh"))) (f "gghh") ∧ eq (c (c (f "") (f "i")) (f "")) (f "i") ∧
    ne (c (f "j") (f "kk")) (f "lm") ∧ ne (c (f "n") (c (f "o o") (f "p"))) (f "qrs") := by decide +kernel

end VecBasic

/-! ## `core/src/text.rs` `encode_utf8` -/

namespace EncodeUtf8

/-- `TT::from_str(s).encode_utf8(&mut [0; n])`. -/
def enc (s : String) (n : Nat) : Option (Except Str Str) :=
  let T := textDatumList (ε := Unit) posStrOps (sliceAlloc (CoreText Unit) Unit)
  match T.encodeUtf8 posStrOps 20 (T.ofChunk (.ofStr s.toList)) (List.replicate n 0) with
  | .ok (r, _) => some r
  | _ => none

/-- Is it `Ok(s)`? -/
def isOk (r : Option (Except Str Str)) (s : String) : Bool :=
  match r with | some (.ok t) => t = s.toList | _ => false

/-- Is it `Err(s)`? -/
def isErr (r : Option (Except Str Str)) (s : String) : Bool :=
  match r with | some (.error t) => t = s.toList | _ => false

example : isOk (enc "" 0) "" := by decide +kernel
example : isOk (enc "" 1) "" := by decide +kernel
example : isOk (enc "" 123) "" := by decide +kernel
example : isOk (enc "a" 1) "a" := by decide +kernel
example : isOk (enc "a" 2) "a" := by decide +kernel
example : isOk (enc "a" 3) "a" := by decide +kernel
example : isErr (enc "a" 0) "" := by decide +kernel
example : isOk (enc "raboof" 6) "raboof" := by decide +kernel
example : isOk (enc "raboof" 512) "raboof" := by decide +kernel
example : isErr (enc "raboof" 5) "raboo" := by decide +kernel
example : isErr (enc "raboof" 2) "ra" := by decide +kernel
example : isOk (enc "▷ λ" 6) "▷ λ" := by decide +kernel
example : isOk (enc "▷ λ" 8) "▷ λ" := by decide +kernel
example : isOk (enc "▷ λ" 99) "▷ λ" := by decide +kernel
example : isErr (enc "▷ λ" 5) "▷ " := by decide +kernel
example : isErr (enc "▷ λ" 4) "▷ " := by decide +kernel
example : isErr (enc "▷ λ" 3) "▷" := by decide +kernel
example : isErr (enc "▷ λ" 2) "" := by decide +kernel
example : isErr (enc "▷ λ" 1) "" := by decide +kernel
example : isErr (enc "▷ λ" 0) "" := by decide +kernel

end EncodeUtf8

/-! ## `PairOperatorBindings` and `HashMapOperatorBindings` -/

namespace Bindings

/-- The datums of these tests. -/
abbrev D := Datum (TextVec PosStr) Unit

/-- `TT::from_str`, as a datum. -/
def txt (s : String) : D := .text (VecBasic.f s)

/-- `==` of datums. -/
def eq : D → D → Bool := Datum.eqv VecBasic.eq fun _ _ => true

/-- The compound key. -/
def compound : D := .combination (.extra ()) .emptyList

/-- Which sort of combiner is bound; all that the tests look at. -/
inductive Kind where
  | operative
  | applicative
deriving DecidableEq

open Kind

/-- `pair_bindings.rs` `empty_slice` and `empty_array`. -/
example : pairLookup (V := Kind) eq [] .emptyNest = none := by decide +kernel

/-- `pair_bindings.rs` `full_slice_mut`. -/
example :
    let pairs := [(txt "foo", operative), (compound, applicative)]
    pairLookup eq pairs .emptyNest = none ∧ pairLookup eq pairs (txt "foo") = some operative ∧
    pairLookup eq pairs compound = some applicative ∧
    pairLookup eq (pairs.drop 1) (txt "foo") = none ∧
    pairLookup eq [(txt "bar", applicative)] (txt "bar") = some applicative ∧
    pairLookup eq [(txt "bar", applicative)] compound = none := by decide +kernel

/-- `pair_bindings.rs` `full_array`. -/
example : pairLookup eq [(txt "zab", applicative)] .emptyNest = none ∧
    pairLookup eq [(txt "zab", applicative)] (txt "zab") = some applicative := by decide +kernel

/-- `core/src/premade/inmem.rs` `operator_bindings`. -/
example : pairLookup eq [(.emptyNest, operative)] .emptyNest = some operative ∧
    pairLookup eq [(.emptyNest, operative)] .emptyList = none := by decide +kernel

/-- `hashmap_bindings.rs` `basic`, for any hash function that is the same for the same
datum. -/
example (hash : D → Nat) :
    let m0 : List (Entry D Kind) := []
    let m1 := hashInsert eq hash m0 (txt "rator") operative
    let m2 := hashRemove eq hash m1 (txt "rator")
    let m3 := hashInsert eq hash m2 compound applicative
    hashLookup eq hash m0 (txt "rator") = none ∧ hashLookup eq hash m1 (txt "rator") = some operative ∧
    hashLookup eq hash m1 .emptyNest = none ∧ hashLookup eq hash m2 (txt "rator") = none ∧
    hashLookup eq hash m2 compound = none ∧ hashLookup eq hash m3 compound = some applicative := by
  have e1 : eq (txt "rator") (txt "rator") = true := by decide +kernel
  have e2 : eq .emptyNest (txt "rator") = false := by decide +kernel
  have e3 : eq compound compound = true := by decide +kernel
  simp [hashInsert, hashRemove, hashLookup, hashGet, Entry.isFor, e1, e2, e3]

/-- `core/src/datum.rs` `equality_same` and `equality_diff_ref`; the text type of the test
has one value. -/
example : let eq : Datum Unit Unit → Datum Unit Unit → Bool := Datum.eqv (fun _ _ => true) (fun _ _ => true)
    eq (.text ()) (.text ()) ∧ eq (.combination .emptyNest .emptyList) (.combination .emptyNest .emptyList) ∧
    eq .emptyNest .emptyNest ∧ eq (.list .emptyNest .emptyList) (.list .emptyNest .emptyList) ∧
    eq .emptyList .emptyList ∧ eq (.extra ()) (.extra ()) := by decide +kernel

/-- `core/src/error.rs` `equality`. -/
example : let eq : Err Unit Nat → Err Unit Nat → Bool := Err.eqv (fun _ _ => true) (· == ·)
    eq (.unbalancedEndChar ()) (.unbalancedEndChar ()) ∧ eq .missingEndChar .missingEndChar ∧
    eq (.failedAlloc .allocExhausted) (.failedAlloc .allocExhausted) ∧
    eq .failedDerefTryMut .failedDerefTryMut ∧ eq (.failedCombiner 1) (.failedCombiner 1) := by decide +kernel

end Bindings

/-! ## The functions that parse all of a source -/

namespace Parse

/-- A datum with the characters of its texts. -/
def content {C CS P τ α ε : Type} (O : ChunkOps C CS P) (T : TextType C τ α) : Datum τ ε → Option (Datum Str ε)
  | .text t => (chars O T t).map .text
  | .combination a b => do return .combination (← content O T a) (← content O T b)
  | .emptyNest => some .emptyNest
  | .list a b => do return .list (← content O T a) (← content O T b)
  | .emptyList => some .emptyList
  | .extra e => some (.extra e)

/-- The bindings of the tests: `op` is an operative that gives the extra `x`, `e` an
applicative that fails with `ce`. -/
def bindings {C CS P τ α ε CE : Type} (O : ChunkOps C CS P) (T : TextType C τ α) (ofStr : Str → C) (x : ε) (ce : CE) :
    Datum τ ε → Option (Combiner τ ε α P CE) :=
  let teq t u := match T.eq O O T 200 t u with | .ok b => b | _ => false
  pairLookup (Datum.eqv teq fun _ _ => true)
    [(.text (T.ofChunk (ofStr "op")), .operative fun _ _ a => (.ok (some (.extra x)), a)),
     (.text (T.ofChunk (ofStr "e")), .applicative fun _ _ a => (.error (.failedCombiner ce), a))]

/-- Results with the characters of the texts; an error comes last. -/
abbrev Rs (P ε CE : Type) := List (Datum Str ε) × Option (Err P CE)

/-- Sorts results like that; `none` if an error does not come last. -/
def sorted {C CS P τ α ε CE : Type} (O : ChunkOps C CS P) (T : TextType C τ α) :
    List (Except (Err P CE) (Datum τ ε)) → Option (Rs P ε CE)
  | [] => some ([], none)
  | [.error e] => some ([], some e)
  | .error _ :: _ => none
  | .ok d :: rs => do
    let d ← content O T d
    let (ds, e) ← sorted O T rs
    return (d :: ds, e)

/-- `src/common/inmem.rs` `parse_str`. -/
def str (s : String) : Option (Rs StrPos Unit Unit) :=
  match (parseStrWith (α := Unit) 100 20 (fun _ => none) s ()).1 with
  | .ok rs => sorted posStrOps (textVec Unit posStrOps) rs
  | _ => none

/-- A text. -/
def t {ε : Type} (s : String) : Datum Str ε := .text s.toList

example : str "" = some ([], none) := by decide +kernel
example : str "a" = some ([t "a"], none) := by decide +kernel
example : str "{}" = some ([.emptyNest], none) := by decide +kernel
example : str "{b}" = some ([.combination (t "b") .emptyList], none) := by decide +kernel
example : str "c{} d" = some ([t "c", .emptyNest, t " d"], none) := by decide +kernel
example : str "e {f {}" = some ([t "e "], some .missingEndChar) := by decide +kernel
example : str "λ} h" = some ([], some (.unbalancedEndChar ⟨"λ} h", 2, 1⟩)) := by decide +kernel

/-- `src/common/inmem.rs` `parse_str_with`. -/
def strWith (s : String) : Option (Rs StrPos Nat Bool) :=
  match (parseStrWith (α := Unit) 100 20 (bindings posStrOps (textVec Unit posStrOps) .ofStr 1 true) s ()).1 with
  | .ok rs => sorted posStrOps (textVec Unit posStrOps) rs
  | _ => none

example : strWith "" = some ([], none) := by decide +kernel
example : strWith "a" = some ([t "a"], none) := by decide +kernel
example : strWith "{}" = some ([.emptyNest], none) := by decide +kernel
example : strWith "{op ignored}" = some ([.extra 1], none) := by decide +kernel
example : strWith "{zz }" = some ([.combination (t "zz") .emptyList], none) := by decide +kernel
example : strWith "{e}aborted" = some ([], some (.failedCombiner true)) := by decide +kernel

/-- `src/common/stream.rs` `parse_stream`. -/
def stream (ss : List Str) : Option (Rs CharPos Unit Unit) :=
  match (parseStreamWith (α := Unit) 100 20 (fun _ => none) ss ()).1 with
  | .ok rs => sorted posStrishOps TV rs
  | _ => none

example : stream [] = some ([], none) := by decide +kernel
example : stream [""] = some ([], none) := by decide +kernel
example : stream ["a"] = some ([t "a"], none) := by decide +kernel
example : stream ["{", "}"] = some ([.emptyNest], none) := by decide +kernel
example : stream ["{b", "", "oo}"] = some ([.combination (t "boo") .emptyList], none) := by decide +kernel
example : stream ["c{} d", ""] = some ([t "c", .emptyNest, t " d"], none) := by decide +kernel
example : stream ["e ", "{", "f {", "}"] = some ([t "e "], some .missingEndChar) := by decide +kernel
example : stream ["", "λ} h"] = some ([], some (.unbalancedEndChar ⟨1⟩)) := by decide +kernel

/-- `src/common/stream.rs` `parse_stream_with`. -/
def streamWith (ss : List Str) : Option (Rs CharPos Char Nat) :=
  match (parseStreamWith (α := Unit) 100 20 (bindings posStrishOps TV .ofStr 'λ' 15) ss ()).1 with
  | .ok rs => sorted posStrishOps TV rs
  | _ => none

example : streamWith [""] = some ([], none) := by decide +kernel
example : streamWith ["a"] = some ([t "a"], none) := by decide +kernel
example : streamWith ["{}"] = some ([.emptyNest], none) := by decide +kernel
example : streamWith ["{o", "p ignored}"] = some ([.extra 'λ'], none) := by decide +kernel
example : streamWith ["{z", "z ", "", "}"] = some ([.combination (t "zz") .emptyList], none) := by decide +kernel
example : streamWith ["", "{", "e}aborted"] = some ([], some (.failedCombiner 15)) := by decide +kernel

/-- `core/src/premade/inmem.rs` `ptw` of the tests: the only result of `parse_text_with`, and
the memory afterwards. -/
def ptw {ε CE : Type} (lookup : Datum (CoreText ε) ε → Option (Combiner (CoreText ε) ε (CoreMem ε) StrPos CE))
    (a : CoreMem ε) (s : String) : Option (Except (Err StrPos CE) (Datum Str ε)) × CoreMem ε :=
  match (coreEnv lookup).takeNext 100 (parseTextWith s.toList a) with
  | (.ok (some r), it) =>
    match (coreEnv lookup).takeNext 100 it with
    | (.ok none, it) =>
      match r with
      | .ok d => ((content posStrOps (textDatumList posStrOps (sliceAlloc _ _)) d).map .ok, it.iter.alloc)
      | .error e => (some (.error e), it.iter.alloc)
    | (_, it) => (none, it.iter.alloc)
  | (_, it) => (none, it.iter.alloc)

/-- Does the first call give `None`? -/
def ptwNone {ε CE : Type} (lookup : Datum (CoreText ε) ε → Option (Combiner (CoreText ε) ε (CoreMem ε) StrPos CE))
    (a : CoreMem ε) (s : String) : Bool :=
  match (coreEnv lookup).takeNext 100 (parseTextWith s.toList a) with
  | (.ok none, _) => true
  | _ => false

/-- All inputs in turn, with one memory; are the results as expected? -/
def ptwAll {ε CE : Type} [DecidableEq ε] [DecidableEq CE]
    (lookup : Datum (CoreText ε) ε → Option (Combiner (CoreText ε) ε (CoreMem ε) StrPos CE)) :
    CoreMem ε → List (String × (Datum Str ε ⊕ Err StrPos CE)) → Bool
  | _, [] => true
  | a, (s, r) :: l =>
    match ptw lookup a s, r with
    | (some (.ok d), a), .inl d' => d = d' && ptwAll lookup a l
    | (some (.error e), a), .inr e' => e = e' && ptwAll lookup a l
    | _, _ => false

/-- `core/src/premade/inmem.rs` `datum_allocator`. -/
example : (((SliceAlloc.new [(.extra () : Datum (CoreText Unit) Unit)]).newDatum .emptyNest).2.mem).all
    (fun d => match d with | .emptyNest => true | _ => false) = true := by decide +kernel

/-- `core/src/premade/inmem.rs` `parser_no_bind`, in a slice of six datums. -/
example : ptwNone (CE := Unit) (fun _ => none) (.new (List.replicate 6 (.extra ()))) "" = true ∧
    ptwAll (CE := Unit) (fun _ => none) (.new (List.replicate 6 (.extra ())))
      [("a", .inl (t "a")), ("{}", .inl .emptyNest),
       ("{b {c}}", .inl (.combination (t "b") (.list (.combination (t "c") .emptyList) .emptyList))),
       ("λ} h", .inr (.unbalancedEndChar ⟨"λ} h", 2, 1⟩))] = true := by decide +kernel

/-- The bindings of `core/src/premade/inmem.rs` `parse_text_with`. -/
def coreBindings : Datum (CoreText Int) Int → Option (Combiner (CoreText Int) Int (CoreMem Int) StrPos Bool) :=
  bindings posStrOps (textDatumList posStrOps (sliceAlloc _ _)) .ofStr 1 true

/-- `core/src/premade/inmem.rs` `parse_text_with`, in a slice of two datums. -/
example : ptwNone coreBindings (.new [.extra 0, .extra 0]) "" = true ∧
    ptwAll coreBindings (.new [.extra 0, .extra 0])
      [("a", .inl (t "a")), ("{}", .inl .emptyNest), ("{op ignored}", .inl (.extra 1)),
       ("{zz }", .inl (.combination (t "zz") .emptyList)),
       ("{e}aborted", .inr (.failedCombiner true))] = true := by decide +kernel

end Parse

end Kul.Suite
