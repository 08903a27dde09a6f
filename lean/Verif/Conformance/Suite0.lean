import Verif.Model.Base
import Verif.Model.Str

/-!
# The cases of the library's own test suite

The inputs and expected results of `test_suite0_with` (`shared_tests/src/suites.rs`),
transcribed by a script from its `test!` lines. As there, positions are ignored.
-/

namespace Kul.Suite

/-- An input, and the results of all calls on it. -/
abbrev Case := Str × List (Outcome (Err Unit Unit) (Datum Str Unit))

/-- `suites.rs`: the basics (default classifier, no bindings). -/
def basics : List Case := [
  ([],
    []),
  ([' '],
    [.ok ((.text [' ']))]),
  ([' ', ' '],
    [.ok ((.text [' ', ' ']))]),
  (['a'],
    [.ok ((.text ['a']))]),
  (['a', ' '],
    [.ok ((.text ['a', ' ']))]),
  ([' ', 'a'],
    [.ok ((.text [' ', 'a']))]),
  ([' ', 'a', ' '],
    [.ok ((.text [' ', 'a', ' ']))]),
  (['x', 'y', 'z'],
    [.ok ((.text ['x', 'y', 'z']))]),
  (['a', ' ', 'b'],
    [.ok ((.text ['a', ' ', 'b']))]),
  (['a', ' ', ' ', 'b'],
    [.ok ((.text ['a', ' ', ' ', 'b']))]),
  (['a', ' ', 'b', ' ', 'c'],
    [.ok ((.text ['a', ' ', 'b', ' ', 'c']))]),
  ([' ', ' ', ' ', 'a', ' ', ' ', 'b', ' ', 'c', ' ', ' ', ' ', ' '],
    [.ok ((.text [' ', ' ', ' ', 'a', ' ', ' ', 'b', ' ', 'c', ' ', ' ', ' ', ' ']))]),
  (['{', 'b', '}'],
    [.ok ((.combination (.text ['b']) .emptyList))]),
  (['{', 'b', ' ', '}'],
    [.ok ((.combination (.text ['b']) .emptyList))]),
  (['{', 'b', 'o', 'b', '}'],
    [.ok ((.combination (.text ['b', 'o', 'b']) .emptyList))]),
  (['{', 'b', ' ', 'o', ' ', 'b', '}'],
    [.ok ((.combination (.text ['b']) (.list (.text ['o', ' ', 'b']) .emptyList)))]),
  (['{', ' ', 'b', 'o', ' ', 'b', ' ', '}'],
    [.ok ((.combination (.text ['b', 'o']) (.list (.text ['b', ' ']) .emptyList)))]),
  ([' ', 'c', ' ', ' ', 'd', ' ', ' ', ' ', '{', ' ', 'e', ' ', ' ', 'f', ' ', ' ', ' ', 'g', ' ', ' ', ' ', ' ', '}', ' ', ' ', ' ', ' ', ' ', 'h', 'i', ' ', ' ', 'j', ' '],
    [.ok ((.text [' ', 'c', ' ', ' ', 'd', ' ', ' ', ' '])), .ok ((.combination (.text ['e']) (.list (.text [' ', 'f', ' ', ' ', ' ', 'g', ' ', ' ', ' ', ' ']) .emptyList))), .ok ((.text [' ', ' ', ' ', ' ', ' ', 'h', 'i', ' ', ' ', 'j', ' ']))]),
  (['{', '}'],
    [.ok .emptyNest]),
  (['{', '}', '{', '}'],
    [.ok .emptyNest, .ok .emptyNest]),
  (['{', '{', '}', '}'],
    [.ok ((.combination .emptyNest .emptyList))]),
  (['{', '{', '}', '{', '}', '}'],
    [.ok ((.combination .emptyNest (.list .emptyNest .emptyList)))]),
  (['{', '{', '{', '}', '}', '}'],
    [.ok ((.combination (.combination .emptyNest .emptyList) .emptyList))]),
  ([' ', '{', ' ', '}', ' '],
    [.ok ((.text [' '])), .ok .emptyNest, .ok ((.text [' ']))]),
  ([' ', ' ', '{', ' ', '{', ' ', ' ', '}', ' ', ' ', ' ', '}', ' '],
    [.ok ((.text [' ', ' '])), .ok ((.combination .emptyNest (.list (.text [' ', ' ']) .emptyList))), .ok ((.text [' ']))]),
  ([' ', ' ', ' ', '{', ' ', ' ', ' ', ' ', '{', ' ', ' ', ' ', '{', ' ', ' ', '}', ' ', '}', ' ', ' ', '}', ' ', ' '],
    [.ok ((.text [' ', ' ', ' '])), .ok ((.combination (.combination .emptyNest .emptyList) (.list (.text [' ']) .emptyList))), .ok ((.text [' ', ' ']))]),
  (['\\', '\\'],
    [.ok ((.text ['\\']))]),
  (['\\', '{'],
    [.ok ((.text ['{']))]),
  (['\\', '}'],
    [.ok ((.text ['}']))]),
  (['\\', '{', '\\', '}'],
    [.ok ((.text ['{', '}']))]),
  (['\\', 'a'],
    [.ok ((.text ['a']))]),
  (['\\', 'a', '\\', 'b'],
    [.ok ((.text ['a', 'b']))]),
  (['\\'],
    [.ok ((.text []))]),
  (['a', '\\'],
    [.ok ((.text ['a']))]),
  (['a', '\\', 'b', '\\'],
    [.ok ((.text ['a', 'b']))]),
  (['{', 'b', '\\', ' ', 'o', ' ', 'b', '}'],
    [.ok ((.combination (.text ['b', ' ', 'o']) (.list (.text ['b']) .emptyList)))]),
  (['{', '\\', ' ', 'b', 'o', ' ', 'b', ' ', '}'],
    [.ok ((.combination (.text [' ', 'b', 'o']) (.list (.text ['b', ' ']) .emptyList)))]),
  (['{', '\\', ' ', 'b', 'o', '\\', ' ', 'b', ' ', '}'],
    [.ok ((.combination (.text [' ', 'b', 'o', ' ', 'b']) .emptyList))]),
  (['{', '\\', ' ', 'b', 'o', '\\', ' ', 'b', ' ', ' ', '}'],
    [.ok ((.combination (.text [' ', 'b', 'o', ' ', 'b']) (.list (.text [' ']) .emptyList)))]),
  (['{', '\\', ' ', '}'],
    [.ok ((.combination (.text [' ']) .emptyList))]),
  (['{', '\\', ' ', ' ', '}'],
    [.ok ((.combination (.text [' ']) .emptyList))]),
  (['{', '\\', ' ', ' ', ' ', '}'],
    [.ok ((.combination (.text [' ']) (.list (.text [' ']) .emptyList)))]),
  (['{', '\\', ' ', '\\', ' ', '}'],
    [.ok ((.combination (.text [' ', ' ']) .emptyList))]),
  (['{', 'y', 'z', '\\', ' ', '}'],
    [.ok ((.combination (.text ['y', 'z', ' ']) .emptyList))]),
  (['{', 'y', 'z', '\\', ' ', '\\', ' ', '}'],
    [.ok ((.combination (.text ['y', 'z', ' ', ' ']) .emptyList))]),
  (['{', 'y', 'z', '\\', ' ', '\\', ' ', ' ', '\\', ' ', '}'],
    [.ok ((.combination (.text ['y', 'z', ' ', ' ']) (.list (.text [' ']) .emptyList)))]),
  (['{', 'y', '\\', '\\', 'z', '}'],
    [.ok ((.combination (.text ['y', '\\', 'z']) .emptyList))]),
  (['{', 'y', 'z', '\\', '}', '}'],
    [.ok ((.combination (.text ['y', 'z', '}']) .emptyList))]),
  (['{', 'y', 'z', '\\', '{', '}'],
    [.ok ((.combination (.text ['y', 'z', '{']) .emptyList))]),
  (['{', 'y', '\\', '{', 'z', '}'],
    [.ok ((.combination (.text ['y', '{', 'z']) .emptyList))]),
  (['{', '\\', '{', ' ', 'y', 'z', '}'],
    [.ok ((.combination (.text ['{']) (.list (.text ['y', 'z']) .emptyList)))]),
  (['{', '\\', '\n', '}'],
    [.ok ((.combination (.text ['\n']) .emptyList))]),
  (['{', '\\', '\t', '}'],
    [.ok ((.combination (.text ['\t']) .emptyList))]),
  (['{', '\\', '\t', '\\', '\n', '}'],
    [.ok ((.combination (.text ['\t', '\n']) .emptyList))]),
  (['{'],
    [.err (.missingEndChar)]),
  (['}'],
    [.err (.unbalancedEndChar ())]),
  (['␛', '{'],
    [.ok ((.text ['␛'])), .err (.missingEndChar)]),
  (['␛', '}'],
    [.err (.unbalancedEndChar ())]),
  (['a', ' ', 'b', '{', '\n', '{', 'c', 'd', '}', ' ', ' ', '{', ' ', '}', ' ', ' ', ' ', '{', ' ', '{', 'e', '\r', 'e', ' ', ' ', '{', '\t', 'f', '}', '}', '\t', ' ', ' ', ' ', 'g', ' ', ' ', '}', '\t', ' ', 'h', 'i', ' ', '\n', ' ', 'j', ' ', '\t', '\t', '}', 'k', '\n', 'λ', '{', ' ', 'm', '{', '{', '}', '\r', '\r', '}', 'o', '}', '\n'],
    [.ok ((.text ['a', ' ', 'b'])), .ok ((.combination (.combination (.text ['c', 'd']) .emptyList) (.list (.text [' ']) (.list .emptyNest (.list (.text [' ', ' ', ' ']) (.list (.combination (.combination (.text ['e']) (.list (.text ['e', ' ', ' ']) (.list (.combination (.text ['f']) .emptyList) .emptyList))) (.list (.text [' ', ' ', ' ', 'g', ' ', ' ']) .emptyList)) (.list (.text ['\t', ' ', 'h', 'i', ' ', '\n', ' ', 'j', ' ', '\t', '\t']) .emptyList))))))), .ok ((.text ['k', '\n', 'λ'])), .ok ((.combination (.text ['m']) (.list (.combination .emptyNest (.list (.text ['\r']) .emptyList)) (.list (.text ['o']) .emptyList)))), .ok ((.text ['\n']))])]

/-- `suites.rs`: custom delimiters (one character of each kind, no bindings). -/
def customDelims : List Case := [
  ([],
    []),
  (['{', '}'],
    [.ok ((.text ['{', '}']))]),
  (['{', 'a', '}'],
    [.ok ((.text ['{', 'a', '}']))]),
  (['⟪', '⟫'],
    [.ok .emptyNest]),
  (['⟪', ' ', '⟫'],
    [.ok ((.combination (.text [' ']) .emptyList))]),
  (['⟪', 'a', '⟫'],
    [.ok ((.combination (.text ['a']) .emptyList))]),
  (['⟪', ' ', 'a', ' ', '⟫'],
    [.ok ((.combination (.text [' ', 'a', ' ']) .emptyList))]),
  (['⟪', 'a', '⟫'],
    [.ok ((.combination (.text ['a']) .emptyList))]),
  (['⟪', '-', 'a', '⟫'],
    [.ok ((.combination (.text ['a']) .emptyList))]),
  (['⟪', '-', '-', 'a', '⟫'],
    [.ok ((.combination (.text ['a']) .emptyList))]),
  (['⟪', 'a', '-', '⟫'],
    [.ok ((.combination (.text ['a']) .emptyList))]),
  (['⟪', 'a', '-', '-', '⟫'],
    [.ok ((.combination (.text ['a']) (.list (.text ['-']) .emptyList)))]),
  (['⟪', '-', 'a', '-', '⟫'],
    [.ok ((.combination (.text ['a']) .emptyList))]),
  (['⟪', 'a', '-', 'b', '⟫'],
    [.ok ((.combination (.text ['a']) (.list (.text ['b']) .emptyList)))]),
  (['⟪', '-', '-', 'a', '-', '-', '-', 'b', '-', '-', '⟫'],
    [.ok ((.combination (.text ['a']) (.list (.text ['-', '-', 'b', '-', '-']) .emptyList)))]),
  (['a', '-', '⟪', 'b', '-', 'c', '⟫', 'd', '-'],
    [.ok ((.text ['a', '-'])), .ok ((.combination (.text ['b']) (.list (.text ['c']) .emptyList))), .ok ((.text ['d', '-']))]),
  (['␛', '␛'],
    [.ok ((.text ['␛']))]),
  (['␛', '⟪'],
    [.ok ((.text ['⟪']))]),
  (['␛', '⟫'],
    [.ok ((.text ['⟫']))]),
  (['␛', '⟪', '␛', '⟫'],
    [.ok ((.text ['⟪', '⟫']))]),
  (['\\', '\\'],
    [.ok ((.text ['\\', '\\']))]),
  (['\\', '⟪', '\\', '⟫'],
    [.ok ((.text ['\\'])), .ok ((.combination (.text ['\\']) .emptyList))]),
  (['\\', '⟪'],
    [.ok ((.text ['\\'])), .err (.missingEndChar)]),
  (['\\', '⟫'],
    [.err (.unbalancedEndChar ())])]

/-- `suites.rs`: custom delimiters (two characters of each kind, no bindings). -/
def customDelims2 : List Case := [
  (['⟪', '⟫'],
    [.ok .emptyNest]),
  (['⟦', '⟧'],
    [.ok .emptyNest]),
  (['⟪', '⟧'],
    [.ok .emptyNest]),
  (['⟦', '.', ':', '.', '.', ':', ':', '⟫'],
    [.ok .emptyNest]),
  (['␛', '\u20e0'],
    [.ok ((.text ['\u20e0']))]),
  (['\u20e0', '␛'],
    [.ok ((.text ['␛']))]),
  (['\u20e0', '⟪', '␛', '⟫'],
    [.ok ((.text ['⟪', '⟫']))]),
  (['\\', '⟦'],
    [.ok ((.text ['\\'])), .err (.missingEndChar)]),
  (['\\', '⟧'],
    [.err (.unbalancedEndChar ())])]

/-- `suites.rs`: operatives and applicatives (default classifier, with the bindings of `suiteBindings`). -/
def combiners : List Case := [
  (['{', 'o', 'o', '}'],
    [.ok ((.text []))]),
  (['{', 'o', 'o', ' ', '}'],
    [.ok ((.text []))]),
  (['{', 'o', 'o', ' ', ' ', '}'],
    [.ok ((.text [' ']))]),
  (['{', 'o', 'o', '{', '}', '}'],
    [.ok ((.text ['{', '}']))]),
  (['{', 'o', 'o', ' ', 'z', 'a', 'b', ' ', '{', 'z', 'z', '}', ' ', 'y', 'o', '}'],
    [.ok ((.text ['z', 'a', 'b', ' ', '{', 'z', 'z', '}', ' ', 'y', 'o']))]),
  (['{', '\n', ' ', 'o', 'o', ' ', ' ', '{', '\n', ' ', 'z', 'a', 'b', ' ', '{', '{', '}', ' ', 'y', 'o', '}', '}', '}'],
    [.ok ((.text [' ', '{', '\n', ' ', 'z', 'a', 'b', ' ', '{', '{', '}', ' ', 'y', 'o', '}', '}']))]),
  (['{', 'u', ' ', '{', 'o', 'o', ' ', 'z', 'a', 'b', ' ', '{', 'z', 'z', '}', ' ', 'y', 'o', '}', '}'],
    [.ok ((.combination (.text ['u']) (.list (.text ['z', 'a', 'b', ' ', '{', 'z', 'z', '}', ' ', 'y', 'o']) .emptyList)))]),
  (['{', '{', 'o', 'o', '}', '}'],
    [.ok ((.combination (.text []) .emptyList))]),
  (['{', '{', 'o', 'o', ' ', 'z', 'z', '}', ' ', 'y', 'y', '}'],
    [.ok ((.combination (.text ['z', 'z']) (.list (.text ['y', 'y']) .emptyList)))]),
  (['{', '{', 'o', 'o', ' ', 'o', 'o', '}', ' ', 'y', 'y', '}'],
    [.ok ((.text ['y', 'y']))]),
  (['{', '{', '{', 'o', 'o', ' ', 'o', 'o', '}', ' ', 'o', 'o', '}', ' ', 'y', 'y', '}'],
    [.ok ((.text ['y', 'y']))]),
  (['{', 'o', 'o', ' ', '{', '}'],
    [.err (.missingEndChar)]),
  (['{', 'o', 'o', ' ', '{'],
    [.err (.missingEndChar)]),
  (['{', 'o', 'o', '}', '}'],
    [.ok ((.text [])), .err (.unbalancedEndChar ())]),
  (['{', 'a', 'a', '}'],
    [.ok .emptyList]),
  (['{', 'a', 'a', ' ', '}'],
    [.ok .emptyList]),
  (['{', 'a', 'a', ' ', ' ', '}'],
    [.ok ((.list (.text [' ']) .emptyList))]),
  (['{', 'a', 'a', '{', '}', '}'],
    [.ok ((.list .emptyNest .emptyList))]),
  (['{', 'a', 'a', ' ', 'z', 'a', 'b', ' ', '{', 'z', 'z', '}', ' ', 'y', 'o', '}'],
    [.ok ((.list (.text ['z', 'a', 'b', ' ']) (.list (.combination (.text ['z', 'z']) .emptyList) (.list (.text [' ', 'y', 'o']) .emptyList))))]),
  (['{', '\n', ' ', 'a', 'a', ' ', ' ', '{', '\n', ' ', 'z', 'a', 'b', ' ', '{', '{', '}', ' ', 'y', 'o', '}', '}', '}'],
    [.ok ((.list (.text [' ']) (.list (.combination (.text ['z', 'a', 'b']) (.list (.combination .emptyNest (.list (.text ['y', 'o']) .emptyList)) .emptyList)) .emptyList)))]),
  (['{', 'u', ' ', '{', 'a', 'a', ' ', 'z', 'a', 'b', ' ', '{', 'z', 'z', '}', ' ', 'y', 'o', '}', '}'],
    [.ok ((.combination (.text ['u']) (.list (.list (.text ['z', 'a', 'b', ' ']) (.list (.combination (.text ['z', 'z']) .emptyList) (.list (.text [' ', 'y', 'o']) .emptyList))) .emptyList)))]),
  (['{', '{', 'a', 'a', '}', '}'],
    [.ok ((.combination .emptyList .emptyList))]),
  (['{', '{', 'a', 'a', ' ', 'z', 'z', '}', ' ', 'y', 'y', '}'],
    [.ok ((.combination (.list (.text ['z', 'z']) .emptyList) (.list (.text ['y', 'y']) .emptyList)))]),
  (['{', '{', 'a', 'a', ' ', 'o', 'o', '}', ' ', 'y', 'y', '}'],
    [.ok ((.combination (.list (.text ['o', 'o']) .emptyList) (.list (.text ['y', 'y']) .emptyList)))]),
  (['{', '{', 'o', 'o', ' ', 'a', 'a', '}', ' ', 'y', 'y', '}'],
    [.ok ((.list (.text ['y', 'y']) .emptyList))]),
  (['{', '{', '{', 'a', 'a', ' ', 'a', 'a', '}', ' ', 'a', 'a', '}', ' ', 'y', 'y', '}'],
    [.ok ((.combination (.combination (.list (.text ['a', 'a']) .emptyList) (.list (.text ['a', 'a']) .emptyList)) (.list (.text ['y', 'y']) .emptyList)))]),
  (['{', '{', '{', 'o', 'o', ' ', 'a', 'a', '}', ' ', 'o', 'o', '}', ' ', 'y', 'y', '}'],
    [.ok ((.combination (.list (.text ['o', 'o']) .emptyList) (.list (.text ['y', 'y']) .emptyList)))]),
  (['{', 'a', 'a', ' ', '{', '}'],
    [.err (.missingEndChar)]),
  (['{', 'a', 'a', ' ', '{'],
    [.err (.missingEndChar)]),
  (['{', 'a', 'a', '}', '}'],
    [.ok .emptyList, .err (.unbalancedEndChar ())]),
  (['{', '#', '}'],
    []),
  (['{', '#', ' ', 'f', 'o', 'o', '}'],
    []),
  (['{', '#', ' ', '{', 'o', 'o', ' ', 'z', 'a', 'b', ' ', '{', 'z', 'z', '}', ' ', 'y', 'o', '}', '}'],
    []),
  (['{', '#', ' ', '{', 'a', 'a', ' ', 'z', 'a', 'b', ' ', '{', 'z', 'z', '}', ' ', 'y', 'o', '}', '}'],
    []),
  (['{', '#', ' ', '{', 'u', ' ', 'o', 'o', 'f', '}', '}'],
    []),
  (['{', 'o', 'o', ' ', '{', '#', '}', '}'],
    [.ok ((.text ['{', '#', '}']))]),
  (['{', 'o', 'o', ' ', '{', '#', ' ', '{', 'o', 'o', ' ', 'z', 'a', 'b', '}', '}', '}'],
    [.ok ((.text ['{', '#', ' ', '{', 'o', 'o', ' ', 'z', 'a', 'b', '}', '}']))]),
  (['{', 'a', 'a', ' ', '{', '#', '}', '}'],
    [.ok .emptyList]),
  (['{', 'a', 'a', ' ', '{', '#', ' ', '{', 'a', 'a', ' ', 'b', 'a', 'r', '}', '}', '}'],
    [.ok .emptyList]),
  (['{', 'a', 'a', ' ', '{', '#', '}', '{', '#', '#', '}', '{', '#', '}', '}'],
    [.ok ((.list (.combination (.text ['#', '#']) .emptyList) .emptyList))]),
  (['{', 'u', ' ', '{', '#', '}', '}'],
    [.ok ((.combination (.text ['u']) .emptyList))]),
  (['{', 'u', ' ', 'z', ' ', '{', '#', '}', ' ', 'y', '}'],
    [.ok ((.combination (.text ['u']) (.list (.text ['z', ' ']) (.list (.text [' ', 'y']) .emptyList))))]),
  (['{', '{', '#', '}', '}'],
    [.ok .emptyNest]),
  (['{', '{', '#', ' ', 'a', 'a', '}', 'o', 'o', ' ', 'x', 'y', 'z', '}'],
    [.ok ((.text ['x', 'y', 'z']))]),
  (['{', '{', '#', ' ', 'o', 'o', '}', 'a', 'a', ' ', 'x', 'y', 'z', '}'],
    [.ok ((.list (.text ['x', 'y', 'z']) .emptyList))]),
  (['{', '{', '#', ' ', '{', 'o', 'o', ' ', '{', '#', '}', '}', '}', ' ', 'u', '}'],
    [.ok ((.combination (.text ['u']) .emptyList))]),
  (['{', ' ', '{', '#', '}', ' ', ' ', 'u', '}'],
    [.ok ((.combination (.text ['u']) .emptyList))]),
  (['{', ' ', ' ', '{', '#', '}', ' ', ' ', '{', '#', '}', ' ', ' ', 'u', '}'],
    [.ok ((.combination (.text ['u']) .emptyList))]),
  (['{', ' ', ' ', '{', '#', '}', ' ', ' ', '{', '#', '}', ' ', ' ', 'u', '{', '#', ' ', 'u', '}', 'x', '{', '#', '}', '\n', '{', '#', ' ', 'y', '}', '{', '#', '}', '{', '#', ' ', 'z', '}', 'z', '}'],
    [.ok ((.combination (.text ['u']) (.list (.text ['x']) (.list (.text ['\n']) (.list (.text ['z']) .emptyList)))))]),
  (['x', '{', '#', '}', 'X'],
    [.ok ((.text ['x'])), .ok ((.text ['X']))]),
  ([' ', '{', '#', ' ', 'o', 'o', '}', ' ', ' ', 'x', ' ', '{', '#', ' ', 'a', 'a', '}', ' ', 'X', ' ', ' ', '{', '#', '}'],
    [.ok ((.text [' '])), .ok ((.text [' ', ' ', 'x', ' '])), .ok ((.text [' ', 'X', ' ', ' ']))]),
  (['{', 'c', 'c', '}'],
    [.ok ((.combination .emptyNest .emptyList))]),
  (['{', 'c', 'c', '}', ' ', '{', 'c', 'c', '}'],
    [.ok ((.combination .emptyNest .emptyList)), .ok ((.text [' '])), .ok ((.combination .emptyNest .emptyList))]),
  (['{', 'o', 'o', ' ', '{', 'c', 'c', ' ', 'a', ' ', 'b', '}', '}'],
    [.ok ((.text ['{', 'c', 'c', ' ', 'a', ' ', 'b', '}']))]),
  (['{', 'a', 'a', ' ', '{', 'c', 'c', ' ', '1', ' ', '2', '}', '{', 'c', 'c', ' ', '3', ' ', '4', ' ', '5', '}', '}'],
    [.ok ((.list (.combination .emptyNest .emptyList) (.list (.combination .emptyNest .emptyList) .emptyList)))]),
  (['{', 'f', 'f', '}'],
    [.err (.failedAlloc .allocExhausted)]),
  (['{', 'f', 'f', '}', ' ', 'z', 'a', 'b'],
    [.err (.failedAlloc .allocExhausted), .ok ((.text [' ', 'z', 'a', 'b']))]),
  (['{', 'o', 'o', ' ', '{', 'f', 'f', '}', '}'],
    [.ok ((.text ['{', 'f', 'f', '}']))]),
  (['{', 'a', 'a', ' ', 'x', '{', 'f', 'f', '}', 'y', '}'],
    [.err (.failedAlloc .allocExhausted), .err (.unbalancedEndChar ())])]

end Kul.Suite
