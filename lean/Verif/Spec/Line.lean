import Verif.Model.Programs
import Verif.Spec.Box

/-! # Specification of the simulation on a line (regression/test_1Dsystem.cpp) -/

namespace Mythical.LineSpec

/-- The energy of site `i` in eV. -/
noncomputable def level (i : Int) : ℝ := if i % 8 = 0 ∨ i % 9 = 1 then -0.05 else 0

/-- Sites `i` and `j` of a line of `d` sites lie next to each other. -/
def Beside (d i j : Int) : Prop := (0 ≤ i ∧ i < d) ∧ (0 ≤ j ∧ j < d) ∧ (j = i + 1 ∨ i = j + 1)

end Mythical.LineSpec

namespace Mythical.LineSpec
variable {K : Type} [Field K] [LinearOrder K]

/-- The displacement by the hops at times from `a` until before `b`. -/
def gained (log : List (K × Int)) (a b : K) : K := ((log.filter fun h => a ≤ h.1 ∧ h.1 < b).map fun h => (h.2 : K)).sum

/-- The displacement by all hops. -/
def total (log : List (K × Int)) : K := (log.map fun h => (h.2 : K)).sum

/-- The hops stay on the line of `d` sites. -/
def OnLine (d : Int) (hop : List (K × Int) → Int × K) : Prop := ∀ l, 0 ≤ (hop l).1 ∧ (hop l).1 < d

/-- The dwell times are not negative. -/
def NonnegTimes (hop : List (K × Int) → Int × K) : Prop := ∀ l, 0 ≤ (hop l).2

end Mythical.LineSpec
