import Verif.Conformance.Run

/-!
# The model passes the library's own test suite in a limited memory

As `Conformance/Checks.lean`, for the tests that use a slice of datums (the
string types `Rc<str>`, `Arc<String>`, ... of the chunks are not told apart in the model).
These are tests of the model's fidelity, computed by the kernel; they prove nothing about
other inputs. That the memory of the library's tests suffices is part of what is checked.
-/

namespace Kul.Suite

/-- The suite with the texts and the memory of `core/src/premade/inmem.rs`. -/
def coreRun (n : Nat) : Option (CoreMem Unit) :=
  suite0 posStrOps (textDatumList posStrOps (sliceAlloc _ _)) .ofStr (sliceAlloc _ _)
    (textIterOps posStrOps (textDatumList posStrOps (sliceAlloc _ _))) coreSource (slice _ n)

/-- `core/tests/mutref_stack_alloc.rs`, `core/tests/pair_bindings.rs`: a slice of 512 datums. -/
example : (coreRun 0x200).isSome = true := by decide +kernel

/-- `tests/stream_strish_source.rs` `suite0_text_datum_list`. -/
def strishListRun (pieces : Str → List Str) (n : Nat) :
    Option (SliceAlloc (Datum (TextDatumList PosStrish Unit) Unit)) :=
  suite0 posStrishOps (textDatumList posStrishOps (sliceAlloc _ _)) .ofStr (sliceAlloc _ _)
    (strishIterOps (textDatumList posStrishOps (sliceAlloc _ _))) (fun s => .new (pieces s))
    (slice _ n)

/-- `suite0_text_datum_list_each_char_rc_string`, `.._rc_box_str`. -/
example : (strishListRun eachChar 0x300).isSome = true := by decide +kernel
/-- `suite0_text_datum_list_variable_grouped_rc_str`. -/
example : (strishListRun (grouped [2, 1, 4, 3]) 0x200).isSome = true := by decide +kernel
/-- `suite0_text_datum_list_constant_grouped_arc_string`. -/
example : (strishListRun (grouped [2]) 0x200).isSome = true := by decide +kernel
/-- `suite0_text_datum_list_single_arc_box_str`, `.._arc_str`. -/
example : (strishListRun (fun s => [s]) 0x200).isSome = true := by decide +kernel

/-- `tests/stream_char_source.rs` `suite0_text_datum_list`. -/
example : (suite0 posStrishOps (textDatumList posStrishOps (sliceAlloc _ _)) .ofStr
    (sliceAlloc (TextDatumList PosStrish Unit) Unit)
    (charIterOps (textDatumList posStrishOps (sliceAlloc _ _))) CharIter.new
    (slice _ 0x200)).isSome = true := by
  decide +kernel

end Kul.Suite
