import Verif.Model.Api

/-!
# Counting the calls that the parser makes on its source

Specification only: `S.counted` is the source stream `S` with a counter of how often any of
its methods has been called.
-/

namespace Kul

variable {σ P τ ε α CE : Type}

/-- The stream with a counter of the calls of `peek`, `next`, `next_accum` and `accum_done`. -/
def StreamOps.counted (S : StreamOps σ P τ α) : StreamOps (σ × Nat) P τ α where
  peek s := ((S.peek s.1).1, ((S.peek s.1).2, s.2 + 1))
  next s := ((S.next s.1).1, ((S.next s.1).2, s.2 + 1))
  nextAccum s a := ((S.nextAccum s.1 a).1, ((S.nextAccum s.1 a).2.1, s.2 + 1), (S.nextAccum s.1 a).2.2)
  accumDone s a := ((S.accumDone s.1 a).1, ((S.accumDone s.1 a).2.1, s.2 + 1), (S.accumDone s.1 a).2.2)

/-- The same parser on the stream with a counter. -/
def Env.counted (E : Env σ P τ ε α CE) : Env (σ × Nat) P τ ε α CE where
  cc := E.cc
  strm := E.strm.counted
  text := E.text
  alloc := E.alloc
  lookup := E.lookup

end Kul
