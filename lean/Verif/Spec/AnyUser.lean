import Verif.Model.AnyUser
import Verif.Model.Delims

/-!
# What can be said of any user code

Specification only.
-/

namespace Kul

variable {W P τ ε CE σ α : Type}

namespace AnyUser

variable (U : AnyUser W P τ ε CE)

/-- Worlds that calls of the user's functions lead to from `w₀`, in any order and with any arguments. -/
inductive Reach (w₀ : W) : W → Prop where
  | start : Reach w₀ w₀
  | peek {w} : Reach w₀ w → Reach w₀ (U.peek w).2
  | next {w} : Reach w₀ w → Reach w₀ (U.next w).2
  | nextAccum {w} : Reach w₀ w → Reach w₀ (U.nextAccum w).2
  | accumDone {w} : Reach w₀ w → Reach w₀ (U.accumDone w).2
  | emptyText {w} : Reach w₀ w → Reach w₀ (U.emptyText w).2
  | concat {w} (t u : τ) : Reach w₀ w → Reach w₀ (U.concat t u w).2
  | ask {w} (q : Ask) (ch : Char) : Reach w₀ w → Reach w₀ (U.ask q ch w).2
  | newDatum {w} (d : Datum τ ε) : Reach w₀ w → Reach w₀ (U.newDatum d w).2
  | getMut {w} (d : Datum τ ε) : Reach w₀ w → Reach w₀ (U.getMut d w).2
  | lookup {w} (d : Datum τ ε) : Reach w₀ w → Reach w₀ (U.lookup d w).2
  | operative {w w' d f} (t : τ) : Reach w₀ w → (U.lookup d w).1 = .ok (some (.operative f)) → Reach w₀ w' →
      Reach w₀ (f d t w').2
  | applicative {w w' d f} (l : Datum τ ε) : Reach w₀ w → (U.lookup d w).1 = .ok (some (.applicative f)) →
      Reach w₀ w' → Reach w₀ (f d l w').2

/-- A combiner that was looked up has given this error. -/
def CombinerGave (w₀ : W) (e : Err P CE) : Prop :=
  ∃ w w' d, U.Reach w₀ w ∧ U.Reach w₀ w' ∧
    ((∃ f t, (U.lookup d w).1 = .ok (some (.operative f)) ∧ (f d t w').1 = .err e) ∨
      ∃ f l, (U.lookup d w).1 = .ok (some (.applicative f)) ∧ (f d l w').1 = .err e)

/-- Where the parser has an error of its own from. -/
inductive Cause (w₀ : W) : Err P CE → Prop where
  /-- The position is that of a character which the stream gave and the classifier called an end. -/
  | unbalancedEndChar {w w' it} : U.Reach w₀ w → (U.next w).1 = .ok (some it) → U.Reach w₀ w' →
      (∃ ch, (U.ask .nestEnd ch w').1 = .ok true) → Cause w₀ (.unbalancedEndChar it.pos)
  /-- The stream said that it is at its end. -/
  | missingEndChar {w} : U.Reach w₀ w → ((U.peek w).1 = .ok none ∨ (U.next w).1 = .ok none) → Cause w₀ .missingEndChar
  /-- The stream, a text or the allocator gave the error. -/
  | failedAlloc {w e} : U.Reach w₀ w → ((U.nextAccum w).1 = .err e ∨ (U.accumDone w).1 = .err e ∨
      (∃ t u, (U.concat t u w).1 = .err e) ∨ ∃ d, (U.newDatum d w).1 = .err e) → Cause w₀ (.failedAlloc e)
  /-- A new datum could not be changed. -/
  | failedDerefTryMut {w d} : U.Reach w₀ w → (U.getMut d w).1 = .ok false → Cause w₀ .failedDerefTryMut

/-- Texts that the user's functions made: an empty text, to which accumulated texts were appended, one after another. -/
inductive MadeText (w₀ : W) : τ → Prop where
  | empty {w t} : U.Reach w₀ w → (U.emptyText w).1 = .ok t → MadeText w₀ t
  | concat {w w' t u v} : MadeText w₀ t → U.Reach w₀ w → (U.accumDone w).1 = .ok u → U.Reach w₀ w' →
      (U.concat t u w').1 = .ok v → MadeText w₀ v

mutual

/-- Datums that are made of nothing but what the user's functions gave. -/
inductive Made (w₀ : W) : Datum τ ε → Prop where
  | text {t} : U.MadeText w₀ t → Made w₀ (.text t)
  | emptyNest : Made w₀ .emptyNest
  /-- Head and operands are what the allocator gave for what was made; there is no combiner for the head. -/
  | combination {h es last h' l' w w' w''} : Made w₀ h → U.Reach w₀ w → (U.lookup h w).1 = .ok none →
      MadeList w₀ es last → U.Reach w₀ w' → (U.newDatum h w').1 = .ok h' →
      U.Reach w₀ w'' → (U.newDatum (es.foldr .list last) w'').1 = .ok l' → Made w₀ (.combination h' l')
  /-- What a combiner gave for a head and a text that were made. -/
  | operative {h t f d w w'} : Made w₀ h → U.Reach w₀ w → (U.lookup h w).1 = .ok (some (.operative f)) →
      U.MadeText w₀ t → U.Reach w₀ w' → (f h t w').1 = .ok (some d) → Made w₀ d
  /-- What a combiner gave for a head and a list that were made. -/
  | applicative {h es last f d w w'} : Made w₀ h → U.Reach w₀ w → (U.lookup h w).1 = .ok (some (.applicative f)) →
      MadeList w₀ es last → U.Reach w₀ w' → (f h (es.foldr .list last) w').1 = .ok (some d) → Made w₀ d

/-- The elements of a list, and what is after the last: each element is what the allocator gave for a datum that was made, and
after the last is what the allocator gave there for an empty list, which could be changed. -/
inductive MadeList (w₀ : W) : List (Datum τ ε) → Datum τ ε → Prop where
  | nil : MadeList w₀ [] .emptyList
  | snoc {es last d e last' w w' w''} : MadeList w₀ es last → Made w₀ d → U.Reach w₀ w → (U.newDatum d w).1 = .ok e →
      U.Reach w₀ w' → (U.newDatum .emptyList w').1 = .ok last' → U.Reach w₀ w'' → (U.getMut last' w'').1 = .ok true →
      MadeList w₀ (es ++ [e]) last'

end

/-- `μ w` bounds how many characters are still to come in `w`: no function makes it greater, there is a character
to see only if it is not 0, and then a character that is taken makes it less. And every function of the user's returns. -/
structure Finite (μ : W → Nat) : Prop where
  peek : ∀ w, (U.peek w).1 ≠ .fuel ∧ μ (U.peek w).2 ≤ μ w
  shown : ∀ w it w', U.peek w = (.ok (some it), w') → 0 < μ w'
  next : ∀ w, (U.next w).1 ≠ .fuel ∧ μ (U.next w).2 ≤ μ w ∧ (0 < μ w → μ (U.next w).2 < μ w)
  nextAccum : ∀ w, (U.nextAccum w).1 ≠ .fuel ∧ μ (U.nextAccum w).2 ≤ μ w ∧ (0 < μ w → μ (U.nextAccum w).2 < μ w)
  accumDone : ∀ w, (U.accumDone w).1 ≠ .fuel ∧ μ (U.accumDone w).2 ≤ μ w
  emptyText : ∀ w, (U.emptyText w).1 ≠ .fuel ∧ μ (U.emptyText w).2 ≤ μ w
  concat : ∀ t u w, (U.concat t u w).1 ≠ .fuel ∧ μ (U.concat t u w).2 ≤ μ w
  ask : ∀ q ch w, (U.ask q ch w).1 ≠ .fuel ∧ μ (U.ask q ch w).2 ≤ μ w
  newDatum : ∀ d w, (U.newDatum d w).1 ≠ .fuel ∧ μ (U.newDatum d w).2 ≤ μ w
  getMut : ∀ d w, (U.getMut d w).1 ≠ .fuel ∧ μ (U.getMut d w).2 ≤ μ w
  lookup : ∀ d w, (U.lookup d w).1 ≠ .fuel ∧ μ (U.lookup d w).2 ≤ μ w
  operative : ∀ d w f, (U.lookup d w).1 = .ok (some (.operative f)) →
    ∀ t w', (f d t w').1 ≠ .fuel ∧ μ (f d t w').2 ≤ μ w'
  applicative : ∀ d w f, (U.lookup d w).1 = .ok (some (.applicative f)) →
    ∀ l w', (f d l w').1 ≠ .fuel ∧ μ (f d l w').2 ≤ μ w'

/-- While only looking is done, the same is seen: `view w` is the character that the stream shows in `w`, and `cc w` is how
characters are classified. Peeking, asking the classifier and making an empty text change neither, unless they panic. -/
structure Steady (view : W → Option (Item P)) (cc : W → Classifier) : Prop where
  peek : ∀ w o w', U.peek w = (.ok o, w') → o = view w ∧ view w' = view w ∧ cc w' = cc w
  ask : ∀ q ch w b w', U.ask q ch w = (.ok b, w') → b = q.of (cc w) ch ∧ view w' = view w ∧ cc w' = cc w
  emptyText : ∀ w t w', U.emptyText w = (.ok t, w') → view w' = view w ∧ cc w' = cc w

/-- Moreover: what is shown is what comes next, and taking it does not reclassify characters; nor does finishing a text, which
also takes no character; and no whitespace ends nests. -/
structure Orderly (view : W → Option (Item P)) (cc : W → Classifier) : Prop extends U.Steady view cc where
  next : ∀ w o w', U.next w = (.ok o, w') → o = view w ∧ cc w' = cc w
  accumDone : ∀ w t w', U.accumDone w = (.ok t, w') → view w' = view w ∧ cc w' = cc w
  concat : ∀ t u w v w', U.concat t u w = (.ok v, w') → view w' = view w ∧ cc w' = cc w
  disjoint : ∀ w ch, (cc w).isWhitespace ch = true → (cc w).isNestEnd ch = false

/-- No function of the user's panics. -/
structure Calm : Prop where
  peek : ∀ w, (U.peek w).1 ≠ .panic
  next : ∀ w, (U.next w).1 ≠ .panic
  nextAccum : ∀ w, (U.nextAccum w).1 ≠ .panic
  accumDone : ∀ w, (U.accumDone w).1 ≠ .panic
  emptyText : ∀ w, (U.emptyText w).1 ≠ .panic
  concat : ∀ t u w, (U.concat t u w).1 ≠ .panic
  ask : ∀ q ch w, (U.ask q ch w).1 ≠ .panic
  newDatum : ∀ d w, (U.newDatum d w).1 ≠ .panic
  getMut : ∀ d w, (U.getMut d w).1 ≠ .panic
  lookup : ∀ d w, (U.lookup d w).1 ≠ .panic
  operative : ∀ d w f, (U.lookup d w).1 = .ok (some (.operative f)) → ∀ t w', (f d t w').1 ≠ .panic
  applicative : ∀ d w f, (U.lookup d w).1 = .ok (some (.applicative f)) → ∀ l w', (f d l w').1 ≠ .panic

end AnyUser

/-! ## The user code of the other models -/

/-- A function of the stream and the allocator, that first may panic. -/
def orPanic {E A : Type} (p : Option (σ × α)) (f : Outcome E A × σ × α) : Outcome E A × σ × α :=
  match p with
  | some w => (.panic, w)
  | none => f

/-- `Result` as an outcome. -/
def exceptOut {E A B : Type} (b : A → B) : Except E A → Outcome E B
  | .ok a => .ok (b a)
  | .error e => .err e

/-- A combiner that first may panic. -/
def PEnv.anyCombiner (U : PEnv σ P τ ε α CE) : Combiner τ ε α P CE → AnyCombiner (σ × α) P τ ε CE
  | .operative f => .operative fun d t w => orPanic ((U.panics (.operative d t) w.2).map (w.1, ·))
      (exceptOut id (f d t w.2).1, w.1, (f d t w.2).2)
  | .applicative f => .applicative fun d l w => orPanic ((U.panics (.applicative d l) w.2).map (w.1, ·))
      (exceptOut id (f d l w.2).1, w.1, (f d l w.2).2)

/-- A combiner that does not panic. -/
def Combiner.asAny : Combiner τ ε α P CE → AnyCombiner (σ × α) P τ ε CE
  | .operative f => .operative fun d t w => (exceptOut id (f d t w.2).1, w.1, (f d t w.2).2)
  | .applicative f => .applicative fun d l w => (exceptOut id (f d l w.2).1, w.1, (f d l w.2).2)

/-- The user code of `Model/Panics.lean`: any function may panic, classifier and bindings are fixed. -/
def PEnv.asAny (U : PEnv σ P τ ε α CE) : AnyUser (σ × α) P τ ε CE where
  peek w := orPanic (U.strmPanics .peek w.1 w.2) ((U.env.strm.peek w.1).1, (U.env.strm.peek w.1).2, w.2)
  next w := orPanic (U.strmPanics .next w.1 w.2) ((U.env.strm.next w.1).1, (U.env.strm.next w.1).2, w.2)
  nextAccum w := orPanic (U.strmPanics .nextAccum w.1 w.2) (U.env.strm.nextAccum w.1 w.2)
  accumDone w := orPanic (U.strmPanics .accumDone w.1 w.2) (U.env.strm.accumDone w.1 w.2)
  emptyText w := orPanic ((U.panics .emptyText w.2).map (w.1, ·)) (.ok U.env.text.empty, w)
  concat t u w := orPanic ((U.panics (.concat t u) w.2).map (w.1, ·))
    ((U.env.text.concat t u w.2).1, w.1, (U.env.text.concat t u w.2).2)
  ask q ch w := orPanic ((U.panics (.ask q ch) w.2).map (w.1, ·)) (.ok (q.of U.env.cc ch), w)
  newDatum d w := orPanic ((U.panics (.newDatum d) w.2).map (w.1, ·))
    (exceptOut (fun _ => d) (U.env.alloc.newDatum d w.2).1, w.1, (U.env.alloc.newDatum d w.2).2)
  getMut _ w := orPanic ((U.panics .getMut w.2).map (w.1, ·)) (.ok (U.env.alloc.getMutFresh w.2), w)
  lookup d w := orPanic ((U.panics (.lookup d) w.2).map (w.1, ·)) (.ok ((U.env.lookup d).map U.anyCombiner), w)

/-- The user code of `Model/Delims.lean`: the classifier and the bindings depend on a state that combiners can change. -/
def ClsEnv.asAny (U : ClsEnv σ P τ ε α CE) : AnyUser (σ × α) P τ ε CE where
  peek w := ((U.env.strm.peek w.1).1, (U.env.strm.peek w.1).2, w.2)
  next w := ((U.env.strm.next w.1).1, (U.env.strm.next w.1).2, w.2)
  nextAccum w := U.env.strm.nextAccum w.1 w.2
  accumDone w := U.env.strm.accumDone w.1 w.2
  emptyText w := (.ok U.env.text.empty, w)
  concat t u w := ((U.env.text.concat t u w.2).1, w.1, (U.env.text.concat t u w.2).2)
  ask q ch w := (.ok (q.of (U.cc w.2) ch), w)
  newDatum d w := (exceptOut (fun _ => d) (U.env.alloc.newDatum d w.2).1, w.1, (U.env.alloc.newDatum d w.2).2)
  getMut _ w := (.ok (U.env.alloc.getMutFresh w.2), w)
  lookup d w := (.ok ((U.lookup d w.2).1.map Combiner.asAny), w.1, (U.lookup d w.2).2)

/-- The state of a parse, with the stream and the allocator in one. -/
def St.joined (s : St σ α) : St (σ × α) Unit := ⟨(s.strm, s.alloc), (), s.ndepth⟩

end Kul
