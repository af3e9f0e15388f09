import Verif.Model.RoundedLoop

/-! # Specification vocabulary for the loops of the time-of-flight example in rounded arithmetic -/

namespace Mythical.RoundSpec
open Mythical Rounded
variable {K : Type} [Field K] [LinearOrder K] [IsStrictOrderedRing K] [FloorRing K]

/-- The queue the loops start with: in the order of time, every charge once, times that are not negative and `double`s. -/
structure Ready (fl : K → K) (q : Queue K) : Prop where
  ordered : q.entries.Pairwise fun a b => a.2 ≤ b.2
  once : (q.entries.map Prod.fst).Nodup
  dbl : ∀ e ∈ q.entries, fl e.2 = e.2
  nonneg : ∀ e ∈ q.entries, 0 ≤ e.2

/-- A clock set to `t` that is advanced by `l` one after the other. -/
def clock (fl : K → K) : K → List K → K
  | t, [] => t
  | t, x :: l => clock fl (fl (t + x)) l

/-- The end of the interval of sample number `k - 1` and the start of that of sample number `k`. -/
def tick (fl : K → K) (dt : K) (k : Nat) : K := clock fl 0 (List.replicate k dt)

/-- The dwell times the hops of charge `w` brought. -/
def dwells (w : Int) (l : List (Popped K)) : List K := (l.filter fun h => h.walker == w).map fun h => h.hop.dwell

/-- What the charges moved by hops at a time from `a` to before `b`. -/
def moved (a b : K) (l : List (Popped K)) : Int :=
  ((l.filter fun h => decide (a ≤ h.time ∧ h.time < b)).map fun h => h.hop.shift).sum

/-- The number of charges that left before `b`. -/
def gone (b : K) (l : List (Popped K)) : Nat := (l.filter fun h => h.hop.leaves && decide (h.time < b)).length

/-- The current density by the formula without rounding. -/
def density (cfg : ToF.Config K) (n : Nat) (D : Int) : K := (cfg.q * n / cfg.volume) * ((D : K) * cfg.nm / (n * cfg.dt))

end Mythical.RoundSpec
