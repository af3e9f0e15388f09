import Verif.Model.Marcus

/-!
# Model of `charge_transport::Marcus` with rounding
(src/libmythical/charge_transport/marcus.cpp, include/mythical/constants.hpp)

As `Marcus`, with `fl` for the rounding of every operation and of every constant, and `ex`, `sq`, `rt` for `std::exp`,
`std::pow(x, 2.0)` and `std::pow(x, 0.5)` of the C library. Exponents are not bounded.
-/

namespace Mythical.Rounded
open Mythical
variable (fl ex sq rt : ℝ → ℝ)

/-- charge_transport/marcus.cpp 11-14 and constants.hpp 14-22: constructor. For `T = 0` the prefactor is infinite, for
`T < 0` it is NaN. -/
noncomputable def marcus (lambda T : ℝ) : Except Fault Marcus :=
  let den := fl (fl (fl (fl SRPI * 2) * fl SRkB) * rt T)
  if T < 0 ∨ den = 0 then .error .nonFinite
  else .ok ⟨lambda, fl (fl (fl (4 * lambda) * fl kB) * T), fl (fl (fl (fl (2 * fl PI) / fl hBar) * 1) / den)⟩

/-- charge_transport/marcus.cpp 16-19: `getRate`. -/
noncomputable def marcusRate (m : Marcus) (Ei Ej H : ℝ) : Except Fault ℝ :=
  if m.exponDenom = 0 then .error .nonFinite
  else .ok (fl (fl (fl (m.preFactor * H) * H) *
    ex (fl (fl (-1 * sq (fl (fl (m.lambda + Ej) - Ei))) / m.exponDenom))))

end Mythical.Rounded
