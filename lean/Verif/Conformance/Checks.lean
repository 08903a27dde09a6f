import Verif.Conformance.Run

/-!
# The model passes the library's own test suite

One check for each way in which the integration tests of the library run the suite (the
string types `Rc<str>`, `Arc<String>`, ... of the chunks are not told apart in the model).
These are tests of the model's fidelity, computed by the kernel; they prove nothing about
other inputs.
-/

namespace Kul.Suite

/-- Texts on the heap, parsed in memory: `tests/box_alloc.rs`, `tests/common_inmem.rs`. -/
example : (suite0 posStrOps (textVec Unit posStrOps) .ofStr (boxAlloc _ _ _)
    (textIterOps posStrOps (textVec Unit posStrOps)) inmemSource ()).isSome = true := by
  decide +kernel

/-- `tests/rc_alloc.rs`, `tests/arc_alloc.rs`. -/
example : (suite0 posStrOps (textVec _ posStrOps) .ofStr (rcAlloc _ _ Unit)
    (textIterOps posStrOps (textVec _ posStrOps)) inmemSource ([], ())).isSome = true := by
  decide +kernel

/-- `tests/common_stream.rs`, `tests/hashmap_bindings.rs` `suite0_box_types`: reference-counted
strings, from a text. -/
example : (suite0 posStrishOps (textVec Unit posStrishOps) .ofStr (boxAlloc _ _ _)
    (textIterOps posStrishOps (textVec Unit posStrishOps))
    (fun s => .ofChunks posStrishOps (TextVec.fromStr .ofStr s).chunks) ()).isSome = true := by
  decide +kernel

/-- `tests/hashmap_bindings.rs` `suite0_rc_types`, `suite0_arc_types`. -/
example : (suite0 posStrishOps (textVec _ posStrishOps) .ofStr (rcAlloc _ _ Unit)
    (textIterOps posStrishOps (textVec _ posStrishOps))
    (fun s => .ofChunks posStrishOps (TextVec.fromStr .ofStr s).chunks) ([], ())).isSome = true := by
  decide +kernel

/-- `tests/stream_strish_source.rs` `suite0_textvec`. -/
def strishRun (pieces : Str → List Str) : Option Unit :=
  suite0 posStrishOps (textVec Unit posStrishOps) .ofStr (boxAlloc _ _ _)
    (strishIterOps (textVec Unit posStrishOps)) (fun s => .new (pieces s)) ()

/-- `suite0_each_char_rc_string`, `suite0_each_char_arc_str`. -/
example : (strishRun eachChar).isSome = true := by decide +kernel
/-- `suite0_variable_grouped_rc_box_str`. -/
example : (strishRun (grouped [2, 3, 4])).isSome = true := by decide +kernel
/-- `suite0_constant_grouped_arc_string`. -/
example : (strishRun (grouped [5])).isSome = true := by decide +kernel
/-- `suite0_single_rc_str`, `suite0_single_arc_box_str`. -/
example : (strishRun fun s => [s]).isSome = true := by decide +kernel

/-- `tests/stream_char_source.rs` `suite0_textvec`. -/
example : (suite0 posStrishOps (textVec Unit posStrishOps) .ofStr (boxAlloc _ _ _)
    (charIterOps (textVec Unit posStrishOps)) CharIter.new ()).isSome = true := by
  decide +kernel

end Kul.Suite
