import Verif.Model.Rounded
import Verif.Model.ToFMain
import Verif.Model.ToFOutput

/-!
# Model of the loops of examples/ToF/ToF_example.cpp in rounded arithmetic

As `Model/ToFMain.lean`, with a rounding `fl` after every operation on `double`s. Simplification: lattice and system are
represented by what the hops bring (they are modelled in `Model/ToFMain.lean`), and the counters `current_index` and
`charges_remain` are left out. Conversions of integers to `double` are exact (below 2^53).
-/

namespace Mythical.Rounded
open Mythical

/-- What a hop brings (ToF_example.cpp 190-200): the new dwell time, `new_x_pos - old_x_pos`, and whether the charge
arrives at the last plane. -/
structure Hop (K : Type) where
  dwell : K
  shift : Int
  leaves : Bool

/-- The record of a hop: the charge, the time at which it was popped (ToF_example.cpp 188) and what the hop brought. -/
structure Popped (K : Type) where
  walker : Int
  time : K
  hop : Hop K

/-- The variables of the loops (ToF_example.cpp 165, 174-186), with the hops made so far. `samples` holds `sample_time` as written
in 214 and the entry of `transient_current`, `none` standing for a value that is not a finite number. -/
structure Loops (K : Type) where
  queue : Queue K
  sampleTime : K
  deltaX : K
  /-- control is in the inner loop -/
  inside : Bool
  hops : List (Popped K)
  samples : List (K × Option K)

variable {K : Type} [Field K] [LinearOrder K] [IsStrictOrderedRing K] [FloorRing K]
variable (fl : K → K)

/-- The number of hops of charge `w` in a record. -/
def hopsOf (w : Int) (l : List (Popped K)) : Nat := (l.filter fun h => h.walker == w).length

/-- ToF_example.cpp 165, 174-186: before the loops. -/
def beginLoops (cfg : ToF.Config K) (q : Queue K) : Loops K := ⟨q, cfg.dt, 0, false, [], []⟩

/-- ToF_example.cpp 188-205: one round of the inner loop; `inp w k` is what hop number `k` of charge `w` brings. -/
def iterateHop (inp : Int → Nat → Hop K) (s : Loops K) : Except Fault (Loops K) := do
  let (e, q) ← s.queue.popCurrent
  let h := inp e.1 (hopsOf e.1 s.hops)
  let deltaX := fl (s.deltaX + (h.shift : K))
  let time := fl (e.2 + h.dwell)
  let hops := s.hops ++ [⟨e.1, e.2, h⟩]
  if h.leaves then .ok { s with queue := q, deltaX := deltaX, hops := hops }
  else .ok { s with queue := q.sortedAdd (e.1, time), deltaX := deltaX, hops := hops }

/-- ToF_example.cpp 208-211: the current density; see `ToF.current`. -/
def current (cfg : ToF.Config K) (n : Nat) (deltaX : K) : Option K :=
  if fl ((n : K) * cfg.dt) = 0 ∨ cfg.volume = 0 then none
  else some (fl (fl (fl (cfg.q * n) / cfg.volume) * fl (fl (deltaX * cfg.nm) / fl (n * cfg.dt))))

/-- ToF_example.cpp 207-216: after the inner loop. -/
def sampleNow (cfg : ToF.Config K) (s : Loops K) : Loops K :=
  { s with samples := s.samples ++ [(s.sampleTime, current fl cfg s.queue.size s.deltaX)], sampleTime := fl (s.sampleTime + cfg.dt),
           inside := false }

/-- ToF_example.cpp 185-217: what is done next; `none` if the loops are over. -/
def advance (cfg : ToF.Config K) (inp : Int → Nat → Hop K) (s : Loops K) : Except Fault (Option (Loops K)) :=
  if s.inside then do
    if ← ToF.due s.queue s.sampleTime then
      let s ← iterateHop fl inp s
      .ok (some s)
    else .ok (some (sampleNow fl cfg s))
  else do
    if ← ToF.due s.queue cfg.cutoffTime then .ok (some { s with deltaX := 0, inside := true }) else .ok none

/-- ToF_example.cpp 185-217: the first `n` steps in the loops: the state, and whether the loops are over. -/
def loops (cfg : ToF.Config K) (inp : Int → Nat → Hop K) : Nat → Loops K → Except Fault (Loops K × Bool)
  | 0, s => .ok (s, false)
  | n + 1, s =>
    match advance fl cfg inp s with
    | .error f => .error f
    | .ok none => .ok (s, true)
    | .ok (some s) => loops cfg inp n s

/-- ToF_example.cpp 131-135: the times written to the file for `n` samples, from the time `t` on. -/
def fileTimes (dt : K) : Nat → K → List K
  | 0, _ => []
  | n + 1, t => fl (t + dt) :: fileTimes dt n (fl (t + dt))

end Mythical.Rounded
