import Verif.Model.DatumFns

/-!
# The provided bindings

Models `core/src/parser/premade/empty_bindings.rs` 44-55 (`noBindings` of `Spec/Seq.lean`
is the same function), `core/src/parser/premade/pair_bindings.rs` 80-90 and
`src/parser/hashmap_bindings.rs` 102-106.
-/

namespace Kul

variable {K V : Type}

/-- `empty_bindings.rs` 51-54 `lookup`. -/
def emptyLookup : K → Option V := fun _ => none

/-- `pair_bindings.rs` 80-90 `lookup`: `find_map` over the pairs; the operator looked up is
on the left of `==`. -/
def pairLookup (eq : K → K → Bool) (pairs : List (K × V)) (operator : K) : Option V :=
  pairs.findSome? fun (datum, combiner) => if eq operator datum then some combiner else none

/-! ## `HashMap` of the standard library

By its documentation: entries are found by the hash of their key and then by `==`. How the
table is laid out is not modelled; instead the entries may be rearranged at any time. -/

/-- An entry with the hash of its key. -/
structure Entry (K V : Type) where
  hash : Nat
  key : K
  value : V

/-- Is this the entry for `k`? Keys are compared only if the hashes agree. -/
def Entry.isFor (eq : K → K → Bool) (hash : K → Nat) (k : K) (e : Entry K V) : Bool :=
  hash k == e.hash && eq k e.key

/-- `HashMap::get`. -/
def hashGet (eq : K → K → Bool) (hash : K → Nat) (m : List (Entry K V)) (k : K) : Option V :=
  (m.find? (Entry.isFor eq hash k)).map Entry.value

/-- Gives the first entry with property `p` the value `v`. -/
def setFirst (p : Entry K V → Bool) (v : V) : List (Entry K V) → List (Entry K V)
  | [] => []
  | e :: m => if p e then { e with value := v } :: m else e :: setFirst p v m

/-- `HashMap::insert`: if there is an entry for the key, its value is replaced (and the old
key kept); otherwise a new entry is made. -/
def hashInsert (eq : K → K → Bool) (hash : K → Nat) (m : List (Entry K V)) (k : K) (v : V) :
    List (Entry K V) :=
  if m.any (Entry.isFor eq hash k) then setFirst (Entry.isFor eq hash k) v m
  else ⟨hash k, k, v⟩ :: m

/-- `HashMap::remove`. -/
def hashRemove (eq : K → K → Bool) (hash : K → Nat) (m : List (Entry K V)) (k : K) :
    List (Entry K V) :=
  m.eraseP (Entry.isFor eq hash k)

/-- `hashmap_bindings.rs` 102-106 `lookup`. -/
def hashLookup (eq : K → K → Bool) (hash : K → Nat) (hashmap : List (Entry K V)) (operator : K) :
    Option V := hashGet eq hash hashmap operator

end Kul
