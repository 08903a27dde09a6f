import Verif.Model.RcCell

/-! # What taking a datum out of a counted reference must do. Specification only. -/

namespace Kul.RcCell

variable {V : Type}

/-- What taking out the datum and putting in `val` must do, when it succeeds: `this`, the only strong
reference, now refers to `val`, nobody else has a reference to that, and weak references to the old datum do
not upgrade anymore. -/
structure TakenOut (this : Nat) (val : V) (h : Heap V) (old : V) (this' : Nat) (h' : Heap V)
    (strong weak : List Nat) : Prop where
  /-- The old datum is returned. -/
  old : get this h = some old
  /-- The reference now gives the passed-in value. -/
  new : get this' h' = some val
  /-- No other reference is to where the value is, of either kind. -/
  sole : this' ∉ strong.erase this ∧ this' ∉ weak
  /-- Weak references to the old datum do not upgrade. -/
  noUpgrade : ∀ i ∈ weak, i = this → canUpgrade i h' = false
  /-- Other cells are as before. -/
  others : ∀ i, i ≠ this → i ≠ this' → h'.cell i = h.cell i
  /-- Setting cannot fail. -/
  set : ∀ v, ∃ h'', RcCell.set this' v h' = some h'' ∧ get this' h'' = some v ∧
    ∀ i, i ≠ this' → h''.cell i = h'.cell i
  /-- All the references can be used as before. -/
  continues : ∃ s', Steps ⟨h, strong, weak⟩ ⟨h', s', weak⟩ ∧ s'.Perm (this' :: strong.erase this)

/-- What can come of taking out a datum while other threads are running. `h` is the heap before, and the world `b`
is what the others have afterwards. -/
def ArcOutcome (this : Nat) (val : V) (h : Heap V) (b : World V) : Replaced V → Prop
  | .ok old this' h' =>
    -- the datum is returned, nobody else has a strong reference to it, and weak ones do not upgrade
    b.heap = h' ∧ get this h = some old ∧ this ∉ b.strong ∧ canUpgrade this h' = false ∧
    -- the reference now gives the passed-in value, and nobody else has a reference to it
    get this' h' = some val ∧ this' ∉ b.strong ∧ this' ∉ b.weak ∧
    -- setting cannot fail, even after others have done more
    ∀ c, Steps b c → ∀ v, ∃ h'', set this' v c.heap = some h'' ∧ get this' h'' = some v
  | .err v this' h' =>
    -- the reference, its datum and the passed-in value are unchanged
    b.heap = h' ∧ v = val ∧ this' = this ∧ get this h' = get this h
  | .panic => False

end Kul.RcCell
