import Verif.Model.Base

/-!
# The provided character classifier

Models `core/src/parser/premade/default_classifier.rs`.
-/

namespace Kul

/-- Rust's `char::is_whitespace`: the Unicode property `White_Space`
(`PropList.txt`), as listed in the standard library's table. -/
def charIsWhitespace (c : Char) : Bool :=
  let n := c.toNat
  (0x09 ≤ n && n ≤ 0x0D) || n == 0x20 || n == 0x85 || n == 0xA0 || n == 0x1680 ||
  (0x2000 ≤ n && n ≤ 0x200A) || n == 0x2028 || n == 0x2029 || n == 0x202F || n == 0x205F || n == 0x3000

/-- `core/src/parser/premade/default_classifier.rs` 10-26 `DefaultCharClassifier`. -/
def defaultClassifier : Classifier where
  isNestStart c := c == '{'
  isNestEnd c := c == '}'
  isNestEscape c := c == '\\'
  isWhitespace c := charIsWhitespace c

end Kul
