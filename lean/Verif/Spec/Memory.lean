import Verif.Model.Premade

/-!
# Counting references

Specification only.
-/

namespace Kul

variable {τ ε C P CE : Type}

/-- The number of references in a text whose chunks are linked by datum references. -/
def TextDatumList.refs : TextDatumList C ε → Nat
  | .mk _ none => 0
  | .mk _ (some (.text t)) => 1 + refs t
  | .mk _ (some _) => 1

/-- The number of references in a datum, given that of texts: two for each combination
(operator and operands) and two for each list cell (element and next). -/
def Datum.refs (rt : τ → Nat) : Datum τ ε → Nat
  | .text t => rt t
  | .combination f a => 2 + (f.refs rt + a.refs rt)
  | .emptyNest => 0
  | .list e n => 2 + (e.refs rt + n.refs rt)
  | .emptyList => 0
  | .extra _ => 0

/-- The number of references in all of some results (none in errors). -/
def totalRefs {E : Type} (rt : τ → Nat) : List (Except E (Datum τ ε)) → Nat
  | [] => 0
  | .ok d :: l => d.refs rt + totalRefs rt l
  | .error _ :: l => totalRefs rt l

/-- Unlimited memory: the state counts how many datums were allocated. -/
def countAlloc (τ ε : Type) : AllocOps τ ε Nat where
  newDatum _ n := (.ok (), n + 1)
  getMutFresh _ := true

/-- The parser of a text whose chunks are linked by datum references, on a slice allocator and
without bindings; `coreEnv` is an instance. -/
def sliceEnv {C CS P : Type} (ε CE : Type) (O : ChunkOps C CS P) (cc : Classifier) :
    Env (TextIter C CS P (TextDatumList C ε)) P (TextDatumList C ε) ε
      (SliceAlloc (Datum (TextDatumList C ε) ε)) CE :=
  textEnv O (textDatumList O (sliceAlloc _ _)) cc (sliceAlloc _ _) fun _ => none

/-- The same with unlimited memory. -/
def unlimitedEnv {C CS P : Type} (ε CE : Type) (O : ChunkOps C CS P) (cc : Classifier) :
    Env (TextIter C CS P (TextDatumList C ε)) P (TextDatumList C ε) ε Nat CE :=
  textEnv O (textDatumList O (countAlloc _ _)) cc (countAlloc _ _) fun _ => none

/-- How many slots of a slice allocator were handed out: those not in `unused()`. -/
def SliceAlloc.used {D : Type} (s : SliceAlloc D) : Nat := s.mem.length - (s.unused.getD []).length

/-- What the owner of a slice allocator and of the references it handed out can do: request
a datum, or write through the reference to slot `i`. -/
inductive SliceOp (D : Type) where
  | request (d : D)
  | write (i : Nat) (d : D)

/-- A history of such operations, with the answers to the requests, in order. -/
inductive SliceAlloc.History {D : Type} :
    SliceAlloc D → List (SliceOp D) → List (Except AllocErr Nat) → SliceAlloc D → Prop where
  | nil {s} : History s [] [] s
  | request {s d x s' ops xs s''} : s.newDatum d = (x, s') → History s' ops xs s'' →
      History s (.request d :: ops) (x :: xs) s''
  | write {s i d ops xs s'} : i < s.used → History { s with mem := s.mem.set i d } ops xs s' →
      History s (.write i d :: ops) xs s'

/-- A reference just made can be written through. -/
def AllocOps.Writable {τ ε α : Type} (al : AllocOps τ ε α) : Prop :=
  ∀ d a a', al.newDatum d a = (.ok (), a') → al.getMutFresh a' = true

end Kul
