import Verif.Model.ToF
import Mathlib.Analysis.SpecialFunctions.Exp

/-! # Specification vocabulary for the rates of the time-of-flight example in rounded arithmetic -/

namespace Mythical.RoundSpec
open ToF

/-- The part by which the rate between two sites may be wrong: site energies `Ei` and `Ej`, `dx` lattice steps of length `s`
apart along the field and at distance `r`. -/
noncomputable def tofErr (ε : ℝ) (p : Params) (s Ei Ej : ℝ) (dx : Int) (r : ℝ) : ℝ :=
  (20 + 14 * |p.alpha| * r +
    34 * (|p.lambda| + |Ei| + |Ej| + |p.field * (dx * s) * p.charge|) ^ 2 / (4 * p.lambda * 8.617333262145e-5 * p.temp)) * ε

end Mythical.RoundSpec
