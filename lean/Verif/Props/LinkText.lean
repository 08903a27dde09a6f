import Verif.Proof.LinkStreams
import Verif.Props.Reads

/-!
# C79: texts linked through slots of the slice

Here also the chunks of texts are in memory: a `TextDatumList` refers to the rest of its chunks by a slot of the slice
(`Model/LinkText.lean`), and `concat` writes to the last of the slots of a text. In other files texts are by value. These
properties say that this makes no difference to a user, also when datums that were returned before are read later; and
that no slot is ever reached by two ways, which is what `DatumMutRef`, a `&mut` reference, promises.
-/

namespace Kul.Linked

open Mem (Addr Dat)

variable {C CS P ε CE : Type}

/-- C79, for texts of chunks of any type, in a slice `mem` of any length, with any bindings whose combiners respect
ownership. By value, a slice `mem'` of the same length is used. -/
theorem C79_slice (O : ChunkOps C CS P) (cc : Classifier)
    {lookup : Dat (LText C) ε → Slice C ε → Option (Mem.Combiner (LText C) ε (Slice C ε) P CE)}
    {lookup' : VDatum C ε → Option (Kul.Combiner (VText C ε) ε (VSlice C ε) P CE)} (hl : SameBindings lookup lookup')
    (source : List C) (mem : List (Dat (LText C) ε)) (mem' : List (VDatum C ε)) (hm : mem.length = mem'.length) :
    ReadBack (linkedEnv O cc lookup) (Kul.textEnv O (textDatumList O (sliceAlloc _ _)) cc (sliceAlloc _ _) lookup')
      (St.init (.ofChunks O source) (SliceAlloc.new mem)) (St.init (.ofChunks O source) (SliceAlloc.new mem')) := by
  refine (text_laws O cc hl).readBack ⟨rfl, [], ?_, Own.start mem mem' hm⟩
  cases source <;> exact .mk .none

/-- C79, for the parser of `kul_core::premade::inmem`, for any string and any slice of memory, also if it is too small.
And the parser never fails to return. -/
theorem C79_core (string : Str) (mem : List (Dat (LText PosStr) ε)) (mem' : List (VDatum PosStr ε))
    (hm : mem.length = mem'.length) :
    ReadBack (coreLinked (Mem.unbound _ ε _ _ CE)) (Kul.coreEnv (noBindings _ ε _ _ CE))
      (St.init (coreSource string) (SliceAlloc.new mem)) (St.init (Kul.coreSource string) (SliceAlloc.new mem')) ∧
    Mem.GoesOn (coreLinked (Mem.unbound _ ε _ _ CE)) (St.init (coreSource string) (SliceAlloc.new mem)) := by
  have L := text_laws (ε := ε) (CE := CE) posStrOps defaultClassifier (lookup := Mem.unbound _ ε _ _ CE)
    (lookup' := noBindings _ ε _ _ CE) fun _ _ => trivial
  have h0 : Hold SameIter (St.init (coreSource string) (SliceAlloc.new mem))
      (St.init (Kul.coreSource string) (SliceAlloc.new mem')) [] := ⟨rfl, [], .mk .none, Own.start mem mem' hm⟩
  exact ⟨L.readBack h0, L.goesOn (core_conf _) (AtItems.fresh (strSource_means _ string)) h0⟩

/-- C79, with the stream `StrishIterSourceStream`, for any strings. -/
theorem C79_strish (cc : Classifier)
    {lookup : Dat (LText PosStrish) ε → Slice PosStrish ε →
      Option (Mem.Combiner (LText PosStrish) ε (Slice PosStrish ε) CharPos CE)}
    {lookup' : VDatum PosStrish ε → Option (Kul.Combiner (VText PosStrish ε) ε (VSlice PosStrish ε) CharPos CE)}
    (hl : SameBindings lookup lookup') (strings : List Str) (mem : List (Dat (LText PosStrish) ε))
    (mem' : List (VDatum PosStrish ε)) (hm : mem.length = mem'.length) :
    ReadBack (Mem.strishEnv (linkedText posStrishOps) cc (Mem.sliceMem _ _) lookup)
      (Kul.strishEnv (textDatumList posStrishOps (sliceAlloc _ _)) cc (sliceAlloc _ _) lookup')
      (St.init (.new strings) (SliceAlloc.new mem)) (St.init (.new strings) (SliceAlloc.new mem')) ∧
    Mem.GoesOn (Mem.strishEnv (linkedText posStrishOps) cc (Mem.sliceMem _ _) lookup)
      (St.init (.new strings) (SliceAlloc.new mem)) := by
  have L := strish_laws cc hl
  have h0 : Hold SameStrish (St.init (.new strings) (SliceAlloc.new mem)) (St.init (.new strings) (SliceAlloc.new mem')) [] :=
    ⟨rfl, [], .mk .none, Own.start mem mem' hm⟩
  exact ⟨L.readBack h0, L.goesOn (strishEnv_conf (textDatumList_conf posStrish_conf _))
    (AtItems.fresh (StrishIter.new_means _ strings)) h0⟩

/-- C79, with the stream `CharIterSourceStream`, for any characters. -/
theorem C79_chars (cc : Classifier)
    {lookup : Dat (LText PosStrish) ε → Slice PosStrish ε →
      Option (Mem.Combiner (LText PosStrish) ε (Slice PosStrish ε) CharPos CE)}
    {lookup' : VDatum PosStrish ε → Option (Kul.Combiner (VText PosStrish ε) ε (VSlice PosStrish ε) CharPos CE)}
    (hl : SameBindings lookup lookup') (string : Str) (mem : List (Dat (LText PosStrish) ε))
    (mem' : List (VDatum PosStrish ε)) (hm : mem.length = mem'.length) :
    ReadBack (Mem.charEnv (linkedText posStrishOps) cc (Mem.sliceMem _ _) lookup)
      (Kul.charEnv (textDatumList posStrishOps (sliceAlloc _ _)) cc (sliceAlloc _ _) lookup')
      (St.init (.new string) (SliceAlloc.new mem)) (St.init (.new string) (SliceAlloc.new mem')) ∧
    Mem.GoesOn (Mem.charEnv (linkedText posStrishOps) cc (Mem.sliceMem _ _) lookup)
      (St.init (.new string) (SliceAlloc.new mem)) := by
  have L := char_laws cc hl
  have h0 : Hold SameChars (St.init (.new string) (SliceAlloc.new mem)) (St.init (.new string) (SliceAlloc.new mem')) [] :=
    ⟨rfl, [], .mk, Own.start mem mem' hm⟩
  exact ⟨L.readBack h0, L.goesOn (charEnv_conf (textDatumList_conf posStrish_conf _))
    (AtItems.fresh (CharIter.new_means string)) h0⟩

/-- C79: if a text reads back, without coming upon a slot twice, then iterating its chunks in memory gives what it gives
by value; it neither panics nor goes on forever. -/
theorem C79_chunks {m : List (Dat (LText C) ε)} {t : LText C} {T : VText C ε} {ps : List Addr}
    (h : Reads m (.text t) (.text T) ps) (hn : ps.Nodup) : ∃ cs, T.chunks = .ok cs ∧ chunks m t = .ok cs := by
  have h1 : chunks m t = T.chunks := h.chunksFrom (Nat.lt_succ_of_le (h.length_le hn))
  rw [h1]
  clear h1 hn
  generalize hd : Dat.text t = d at h
  generalize hD : Datum.text T = D at h
  induction h generalizing t T with
  | text => cases hd; cases hD; exact ⟨_, rfl, rfl⟩
  | @linked c _ _ _ _ _ _ ih =>
    cases hd; cases hD
    obtain ⟨cs, h1, _⟩ := ih rfl rfl
    exact ⟨c :: cs, by simp only [TextDatumList.chunks, h1], by simp only [TextDatumList.chunks, h1]⟩
  | _ => cases hD

/-! ## Non-vacuity -/

private def str (s : String) : Str := s.toList

private def okCount {P τ ε CE : Type} (os : List (Outcome (Err P CE) (Option (Dat τ ε)))) : List Nat :=
  os.map fun | .ok (some _) => 0 | .ok none => 1 | .err _ => 2 | _ => 3

/-- The strings of the chunks of a text, as they are found in memory. -/
private def shown (a : Slice PosStr Empty) : Dat (LText PosStr) Empty → List Str
  | .text t => match chunks a.mem t with
    | .ok cs => cs.map (·.val)
    | _ => []
  | _ => []

private abbrev Seen := List Nat × List Nat × List (List (List Str))

private instance : DecidableEq (List Nat × List (List (List Str))) := inferInstance
private instance : DecidableEq Seen := inferInstance

/-- Which calls succeeded; which datums are held; the texts among these; and the texts in all slots. -/
private def seen (os : List (Outcome (Err StrPos Empty) (Option (Dat (LText PosStr) Empty))))
    (held : List (Nat × Dat (LText PosStr) Empty))
    (t : St (TextIter PosStr PosStrIter StrPos (LText PosStr)) (Slice PosStr Empty)) :
    Seen :=
  (okCount os, held.map (·.1), [held.map fun x => shown t.alloc x.2, t.alloc.mem.map (shown t.alloc)])

private def slots (n : Nat) : List (Dat (LText PosStr) Empty) := List.replicate n .emptyNest

/-- An operative that appends its operands to its operator. -/
private def join (ε CE : Type) : Mem.Combiner (LText PosStr) ε (Slice PosStr ε) StrPos CE :=
  .operative fun operator operands a => match operator with
    | .text t =>
      match concat posStrOps t operands a with
      | (.ok t, a) => (.ok (some (.text t)), a)
      | (.err e, a) => (.error (.failedAlloc e), a)
      | (_, a) => (.ok none, a)
    | _ => (.ok none, a)

/-- The same by value. -/
private def joinV (ε CE : Type) : Kul.Combiner (VText PosStr ε) ε (VSlice PosStr ε) StrPos CE :=
  .operative fun operator operands b => match operator with
    | .text T =>
      match T.concat posStrOps (sliceAlloc _ _) operands b with
      | (.ok T, b) => (.ok (some (.text T)), b)
      | (.err e, b) => (.error (.failedAlloc e), b)
      | (_, b) => (.ok none, b)
    | _ => (.ok none, b)

/-- It respects ownership. -/
private theorem join_rel (ε CE : Type) : CombRel (join ε CE) (joinV ε CE) := by
  refine .operative fun d D rs t T ts a b xs hp ht h => ?_
  cases hp with
  | text hp =>
    have h1 := h.concat posStrOps hp ht
    rename_i t' T'
    dsimp only
    rcases q1 : concat posStrOps t' t a with ⟨o1, a1⟩
    rcases q2 : T'.concat posStrOps (sliceAlloc _ _) T b with ⟨o2, b1⟩
    rw [q1, q2] at h1
    rcases h1 with ⟨u, U, us, e1, e2, h3, h4⟩ | ⟨e, e1, e2, h3⟩ | ⟨e1, e2, h3⟩ <;> cases e1 <;> cases e2
    · exact Or.inr (Or.inl ⟨_, _, _, rfl, rfl, .text h3, h4⟩)
    · exact Or.inr (Or.inr ⟨_, rfl, rfl, h3⟩)
    · exact Or.inl ⟨rfl, rfl, h3⟩
  | _ => exact Or.inl ⟨rfl, rfl, h.drop.drop⟩

/-- All operators are bound to it. -/
private theorem join_same : SameBindings (fun _ _ => some (join Empty Empty)) (fun _ => some (joinV Empty Empty)) :=
  fun _ _ => join_rel _ _

/-- C79 with this combiner. -/
example (source : List PosStr) (mem : List (Dat (LText PosStr) Empty)) (mem' : List (VDatum PosStr Empty))
    (hm : mem.length = mem'.length) :=
  C79_slice posStrOps defaultClassifier join_same source mem mem' hm

/-- C79: the operator is a text of three chunks, its operand one of two, which are linked through slots and found again in
memory, after the second call failed for lack of memory. -/
example : ∃ os held t, (coreLinked (Mem.unbound _ Empty _ _ Empty)).Uses true
      (St.init (coreSource (str "{a\\{b\\}c d\\\\}{x y}")) (SliceAlloc.new (slots 8))) os held t ∧
      seen os held t = ([0, 2], [0], [[[]], [[str "{b", str "}c"], [str "}c"], [str "\\"], [str "d", str "\\"], [],
        [str "a", str "{b", str "}c"], [], [str "y"]]]) :=
  Mem.uses_of_view 60 [.call, .call] _ _ seen (by decide +kernel)

/-- C79: the combiner links the two chunks of its operands to the last of the two of its operator. -/
example : ∃ os held t, (linkedEnv posStrOps defaultClassifier fun _ _ => some (join Empty Empty)).Uses true
      (St.init (coreSource (str "{a\\{b c\\}}x")) (SliceAlloc.new (slots 4))) os held t ∧
      seen os held t = ([0, 0], [0, 1], [[[str "a", str "{b", str "c", str "}"], [str "x"]],
        [[str "{b", str "c", str "}"], [str "}"], [str "c", str "}"], []]]) :=
  Mem.uses_of_view 60 [.call, .call] _ _ seen (by decide +kernel)

/-- C79: texts that go over the ends of strings. The second nest is not ended; what was returned for the first is still held. -/
example : ∃ os held t, (Mem.strishEnv (ε := Empty) (linkedText posStrishOps) defaultClassifier (Mem.sliceMem _ _)
        (Mem.unbound _ Empty _ _ Empty)).Uses true
      (St.init (.new [str "{a", str "b c", str "}{d", str "e"]) (SliceAlloc.new (List.replicate 6 .emptyNest))) os held t ∧
      (okCount os, held.map (·.1)) = ([0, 2], [0]) :=
  Mem.uses_of_view 60 [.call, .call] _ _ (fun os held _ => (okCount os, held.map (·.1))) (by decide +kernel)

/-- C79: memory in which a text does not read back, because its link leads to itself: its chunks have no end. -/
example : chunks (ε := Empty) [.text ⟨'a', some 0⟩] ⟨'a', some 0⟩ = .fuel ∧
    ∀ T ps, ¬ Reads (ε := Empty) [.text ⟨'a', some 0⟩] (.text ⟨'a', some 0⟩) (.text T) ps := by
  refine ⟨rfl, fun T ps h => ?_⟩
  generalize hm : [Dat.text (LText.mk 'a' (some 0))] = m at h
  generalize hd : Dat.text (LText.mk 'a' (some 0)) = d at h
  generalize hD : Datum.text T = D at h
  induction h generalizing T with
  | linked h1 _ ih =>
    cases hd
    rw [← hm] at h1
    cases h1
    exact ih _ rfl rfl
  | _ => cases hd

end Kul.Linked
