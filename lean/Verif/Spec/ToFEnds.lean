import Verif.Spec.ToFMain
import Verif.Spec.SystemStays

/-! # Bounds on the numbers used by the time-of-flight program -/

namespace Mythical.ToFSpec
open Mythical World ToF
variable {K : Type} [Field K] [LinearOrder K] [IsStrictOrderedRing K] [FloorRing K]

/-- The rates are at least `r` each, and those out of a site at most `R` together. -/
def RowsWithin (mem : Addr → K) (m : IMap (IMap Addr)) (r R : K) : Prop :=
  ∀ ir ∈ m, (∀ na ∈ ir.2, r ≤ mem na.2) ∧ (ir.2.map fun na => mem na.2).sum ≤ R

/-- All draws from the exponential distribution are at least `ε`. -/
def ChancesAtLeast (ε : K) (ch : Chances K) : Prop := (∀ k, ε ≤ (ch.first k).1) ∧ ∀ evs h, ε ≤ (ch.draw evs h).e

end Mythical.ToFSpec
