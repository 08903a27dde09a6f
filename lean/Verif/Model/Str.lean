import Verif.Model.Base

/-!
# Rust strings

`&str`, `String`, `Rc<str>` etc. as their sequence of `char`s. The UTF-8 layout
matters only through byte offsets: a `char` takes `len_utf8` bytes, and slicing at
a byte offset inside a `char`, or out of range, panics. Models the parts of
`core::str` that `/repo` uses (standard library, by its documentation).
-/

namespace Kul

/-- A Rust string, as its `char`s. -/
abbrev Str := List Char

namespace Str

/-- `char::len_utf8`. -/
def lenUtf8 (c : Char) : Nat :=
  if c.val.toNat < 0x80 then 1 else if c.val.toNat < 0x800 then 2
  else if c.val.toNat < 0x10000 then 3 else 4

/-- `str::len`: the length in bytes. -/
def len : Str → Nat
  | [] => 0
  | c :: s => lenUtf8 c + len s

/-- `str::split_at`, `none` standing for its panic: at a byte offset that is out of
range or not on a `char` boundary. -/
def splitAt : Str → Nat → Option (Str × Str)
  | s, 0 => some ([], s)
  | [], _ + 1 => none
  | c :: s, n + 1 =>
    if lenUtf8 c ≤ n + 1 then
      (splitAt s (n + 1 - lenUtf8 c)).map fun (a, b) => (c :: a, b)
    else none

/-- `&s[start .. end]`, `none` standing for its panic. -/
def slice (s : Str) (start «end» : Nat) : Option Str :=
  if start ≤ «end» then
    match splitAt s «end» with
    | none => none
    | some (a, _) => (splitAt a start).map (·.2)
  else none

/-- `&s[start ..]`, `none` standing for its panic. -/
def sliceFrom (s : Str) (start : Nat) : Option Str := (splitAt s start).map (·.2)

/-- `str::char_indices`, from a given byte offset on. -/
def charIndicesFrom : Nat → Str → List (Nat × Char)
  | _, [] => []
  | b, c :: s => (b, c) :: charIndicesFrom (b + lenUtf8 c) s

/-- `str::char_indices`. -/
def charIndices (s : Str) : List (Nat × Char) := charIndicesFrom 0 s

end Str

end Kul
