import Verif.Spec.Rounded
import Mathlib.Analysis.Real.Sqrt
import Mathlib.Analysis.SpecialFunctions.Exp

/-! # Specification vocabulary for Marcus rates in rounded arithmetic -/

namespace Mythical.RoundSpec

/-- The exponential, the square and the square root of a library have a relative error of at most `ε`. -/
structure Libm (ex sq rt : ℝ → ℝ) (ε : ℝ) : Prop where
  exp : ∀ x, |ex x - Real.exp x| ≤ ε * Real.exp x
  sq : ∀ x, |sq x - x ^ 2| ≤ ε * x ^ 2
  sqrt : ∀ x, 0 ≤ x → |rt x - Real.sqrt x| ≤ ε * Real.sqrt x

/-- The part by which a Marcus rate may be wrong: `lam`, `T`, `Ei`, `Ej` as for the rate. -/
noncomputable def marcusErr (ε lam T Ei Ej : ℝ) : ℝ :=
  (16 + 21 * (|lam| + |Ei| + |Ej|) ^ 2 / (4 * lam * 8.617333262145e-5 * T)) * ε

end Mythical.RoundSpec
