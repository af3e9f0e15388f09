import Verif.Model.Basic
import Mathlib.Analysis.Real.Sqrt
import Mathlib.Analysis.SpecialFunctions.Exp

/-!
# Model of `charge_transport::Marcus`
(src/libmythical/charge_transport/marcus.cpp)

Real arithmetic; `std::pow(T,0.5)` is the square root, `std::pow(x,2.0)` the square. A result that is an
infinity or NaN in C++ is `Fault.nonFinite`.
-/

namespace Mythical

/-- include/mythical/constants.hpp 14: `k_B`. -/
noncomputable def kB : ℝ := 8.617333262145e-5
/-- include/mythical/constants.hpp 16: `SRk_B`. -/
noncomputable def SRkB : ℝ := 0.009282959260
/-- include/mythical/constants.hpp 18: `h_bar`. -/
noncomputable def hBar : ℝ := 6.582119569e-16
/-- include/mythical/constants.hpp 20: `PI`. -/
noncomputable def PI : ℝ := 3.14159265359
/-- include/mythical/constants.hpp 22: `SRPI`. -/
noncomputable def SRPI : ℝ := 1.77245385091

/-- include/mythical/charge_transport/marcus.hpp 40-49. -/
structure Marcus where
  lambda : ℝ
  exponDenom : ℝ
  preFactor : ℝ

/-- charge_transport/marcus.cpp 11-14: constructor. For `T = 0` the prefactor is infinite, for `T < 0` it is
NaN. -/
noncomputable def Marcus.construct (lambda T : ℝ) : Except Fault Marcus :=
  if T ≤ 0 then .error .nonFinite
  else .ok ⟨lambda, 4 * lambda * kB * T, 2 * PI / hBar * 1 / (SRPI * 2 * SRkB * Real.sqrt T)⟩

/-- charge_transport/marcus.cpp 16-19: `getRate`. A zero denominator gives `exp(-inf)` or NaN. -/
noncomputable def Marcus.getRate (m : Marcus) (Ei Ej H : ℝ) : Except Fault ℝ :=
  if m.exponDenom = 0 then .error .nonFinite
  else .ok (m.preFactor * H * H * Real.exp (-1 * (m.lambda + Ej - Ei) ^ 2 / m.exponDenom))

end Mythical
