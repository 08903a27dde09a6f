import Verif.Model.Streams

/-!
# What can be done with a text

Models the provided methods of trait `Text` (`core/src/text.rs` 164-245): `eq`, `cmp`,
`hash`, `chars`, `encode_utf8`, all of which iterate the text with `text::Iter`
(`Model/Streams.lean`); the trait impls of `TextVec` (`src/text/vec.rs` 38-74) and
`TextDatumList` (`core/src/text/premade/datum_list.rs` 50-87) only call these. The loops
have a step budget; it is proved that any budget greater than the number of characters
gives the result.
-/

namespace Kul

variable {C CS P τ α S S₁ S₂ A H : Type}

/-! ## Iterators of the standard library -/

/-- `Iterator::next` of some iterator; it may panic. -/
abbrev IterNext (S A : Type) := S → Outcome Empty (Option A) × S

/-- `Iterator::map` (standard library). -/
def IterNext.map {B : Type} (next : IterNext S A) (f : A → B) : IterNext S B := fun s =>
  match next s with
  | (.ok o, s) => (.ok (o.map f), s)
  | (.err e, _) => nomatch e
  | (.panic, s) => (.panic, s)
  | (.fuel, s) => (.fuel, s)

/-- `Iterator::eq` (standard library): the first argument is advanced first. -/
def iterEq [DecidableEq A] (next₁ : IterNext S₁ A) (next₂ : IterNext S₂ A) :
    Nat → S₁ → S₂ → Outcome Empty Bool
  | 0, _, _ => .fuel
  | n + 1, s₁, s₂ =>
    match next₁ s₁ with
    | (.ok none, _) =>
      match next₂ s₂ with
      | (.ok o, _) => .ok o.isNone
      | _ => .panic
    | (.ok (some x), s₁) =>
      match next₂ s₂ with
      | (.ok none, _) => .ok false
      | (.ok (some y), s₂) => if x = y then iterEq next₁ next₂ n s₁ s₂ else .ok false
      | _ => .panic
    | _ => .panic

/-- `Ord for char` (standard library): by code point. -/
def charCmp (c d : Char) : Ordering :=
  if c.val.toNat < d.val.toNat then .lt else if c.val.toNat = d.val.toNat then .eq else .gt

/-- `Iterator::cmp` (standard library), for characters. -/
def iterCmp (next₁ : IterNext S₁ Char) (next₂ : IterNext S₂ Char) :
    Nat → S₁ → S₂ → Outcome Empty Ordering
  | 0, _, _ => .fuel
  | n + 1, s₁, s₂ =>
    match next₁ s₁ with
    | (.ok none, _) =>
      match next₂ s₂ with
      | (.ok none, _) => .ok .eq
      | (.ok (some _), _) => .ok .lt
      | _ => .panic
    | (.ok (some x), s₁) =>
      match next₂ s₂ with
      | (.ok none, _) => .ok .gt
      | (.ok (some y), s₂) =>
        match charCmp x y with
        | .eq => iterCmp next₁ next₂ n s₁ s₂
        | r => .ok r
      | _ => .panic
    | _ => .panic

/-! ## Hashing -/

/-- The methods of `std::hash::Hasher` that are used: `write_u32` (by `Hash for char`) and
`write_isize` (by a derived `Hash` of an enum, for the discriminant). Any state type and
any effects on it. -/
structure HasherOps (H : Type) where
  writeU32 : H → Nat → H
  writeIsize : H → Nat → H

/-- `Hash for char` (standard library): `state.write_u32(*self as u32)`. -/
def hashChar (W : HasherOps H) (c : Char) (h : H) : H := W.writeU32 h c.val.toNat

/-- `core/src/text.rs` 185-189, the loop of `Text::hash`. -/
def hashLoop (W : HasherOps H) (next : IterNext S Char) : Nat → S → H → Outcome Empty H
  | 0, _, _ => .fuel
  | n + 1, s, h =>
    match next s with
    | (.ok none, _) => .ok h
    | (.ok (some c), s) => hashLoop W next n s (hashChar W c h)
    | _ => .panic

/-! ## Encoding -/

/-- `char::encode_utf8` (standard library) into `buf[pos..]`; panics if it does not fit.
Lean's own UTF-8 encoder is used. -/
def writeChar (c : Char) (buf : List UInt8) (pos : Nat) : Option (List UInt8) :=
  let bs := String.utf8EncodeChar c
  if pos ≤ buf.length ∧ bs.length ≤ buf.length - pos then
    some (buf.take pos ++ bs ++ buf.drop (pos + bs.length))
  else none

/-- `str::from_utf8` (standard library). Lean's own UTF-8 decoder is used. -/
def strFromUtf8 (bs : List UInt8) : Option Str := bs.toByteArray.utf8Decode?.map Array.toList

/-- `core/src/text.rs` 231-235 macro `as_str!` of `encode_utf8`: slicing and `unwrap`. -/
def asStr (buf : List UInt8) (pos : Nat) : Option Str :=
  if pos ≤ buf.length then strFromUtf8 (buf.take pos) else none

/-- `core/src/text.rs` 236-245, the loop of `encode_utf8`. The result is `Ok` or `Err` of a
string, with the final contents of the buffer. -/
def encodeLoop (next : IterNext S Char) : Nat → S → List UInt8 → Nat →
    Outcome Empty (Except Str Str × List UInt8)
  | 0, _, _, _ => .fuel
  | n + 1, s, buf, pos =>
    match next s with
    | (.ok none, _) =>
      match asStr buf pos with
      | some r => .ok (.ok r, buf)
      | none => .panic
    | (.ok (some c), s) =>
      if pos + Str.lenUtf8 c ≤ buf.length then
        match writeChar c buf pos with
        | some buf => encodeLoop next n s buf (pos + (String.utf8EncodeChar c).length)
        | none => .panic
      else
        match asStr buf pos with
        | some r => .ok (.error r, buf)
        | none => .panic
    | _ => .panic

/-! ## The methods of `Text` -/

namespace TextType

/-- `core/src/text.rs` 281-283 `Text::iter`. -/
def iter (O : ChunkOps C CS P) (T : TextType C τ α) (t : τ) : Outcome Empty (TextIter C CS P τ) :=
  match T.chunks t with
  | .ok cs => .ok (.ofChunks O cs)
  | .err e => nomatch e
  | .panic => .panic
  | .fuel => .fuel

/-- `core/src/text.rs` 101-103 `sii_ch` and 204-206 `Text::chars`: the iterator of the
characters. -/
def charsNext (O : ChunkOps C CS P) : IterNext (TextIter C CS P τ) Char :=
  IterNext.map (TextIter.next O) Item.ch

variable {C' CS' P' τ' α' : Type}

/-- `core/src/text.rs` 164-166 `Text::eq`, between texts of any two types. -/
def eq (O : ChunkOps C CS P) (T : TextType C τ α) (O' : ChunkOps C' CS' P') (T' : TextType C' τ' α')
    (n : Nat) (t : τ) (u : τ') : Outcome Empty Bool :=
  match T.iter O t, T'.iter O' u with
  | .ok s, .ok s' => iterEq (charsNext O) (charsNext O') n s s'
  | _, _ => .panic

/-- `core/src/text.rs` 177-179 `Text::cmp`, between texts of any two types. -/
def cmp (O : ChunkOps C CS P) (T : TextType C τ α) (O' : ChunkOps C' CS' P') (T' : TextType C' τ' α')
    (n : Nat) (t : τ) (u : τ') : Outcome Empty Ordering :=
  match T.iter O t, T'.iter O' u with
  | .ok s, .ok s' => iterCmp (charsNext O) (charsNext O') n s s'
  | _, _ => .panic

/-- `core/src/text.rs` 185-189 `Text::hash`. -/
def hash (O : ChunkOps C CS P) (T : TextType C τ α) (W : HasherOps H) (n : Nat) (t : τ) (h : H) :
    Outcome Empty H :=
  match T.iter O t with
  | .ok s => hashLoop W (charsNext O) n s h
  | _ => .panic

/-- `core/src/text.rs` 221-245 `Text::encode_utf8`. -/
def encodeUtf8 (O : ChunkOps C CS P) (T : TextType C τ α) (n : Nat) (t : τ) (buf : List UInt8) :
    Outcome Empty (Except Str Str × List UInt8) :=
  match T.iter O t with
  | .ok s => encodeLoop (charsNext O) n s buf 0
  | _ => .panic

end TextType

end Kul
