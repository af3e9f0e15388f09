import Verif.Model.Queue
import Mathlib.Algebra.Order.Monoid.Defs

/-!
# Model of the event loop of examples/ToF/ToF_example.cpp 187-206

`pop_current`, `hop`, `walker_time.second += getDwellTime()`, then `sortedAdd` or removal. The system
is abstracted to the decision it delivers for each iteration: the new dwell time, and whether the
walker left. The cut-off conditions of the `while` only decide how many iterations are made.
-/

namespace Mythical
variable {K : Type _} [LinearOrder K] [Add K]

/-- What one loop iteration gets from the simulated system (ToF_example.cpp 192-199). -/
structure LoopInput (K : Type _) where
  /-- `hole->getDwellTime()` after the hop -/
  dwell : K
  /-- the walker reached the collecting plane (`new_x_pos >= getLength()-1`) -/
  leaves : Bool

/-- What one loop iteration leaves on record. -/
structure LoopEvent (K : Type _) where
  walker : Int
  time : K
  left : Bool

/-- ToF_example.cpp 188-205: one iteration. -/
def loopStep (q : Queue K) (i : LoopInput K) : Except Fault (Queue K × LoopEvent K) :=
  match q.popCurrent with
  | .error f => .error f
  | .ok (e, q') =>
    if i.leaves then .ok (q', ⟨e.1, e.2, true⟩)
    else .ok (q'.sortedAdd (e.1, e.2 + i.dwell), ⟨e.1, e.2, false⟩)

/-- ToF_example.cpp 187: iterations while inputs last and the queue is not empty
(`while(walker_global_times.size() && ...)`). -/
def runLoop (q : Queue K) : List (LoopInput K) → Except Fault (Queue K × List (LoopEvent K))
  | [] => .ok (q, [])
  | i :: is =>
    if q.size = 0 then .ok (q, [])
    else match loopStep q i with
      | .error f => .error f
      | .ok (q', ev) => match runLoop q' is with
        | .error f => .error f
        | .ok (q'', evs) => .ok (q'', ev :: evs)

end Mythical
