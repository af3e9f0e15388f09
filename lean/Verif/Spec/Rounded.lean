import Mathlib.Algebra.Order.Field.Basic

/-! # Specification vocabulary for rounded arithmetic -/

namespace Mythical.RoundSpec
variable {K : Type} [Field K] [LinearOrder K] [IsStrictOrderedRing K]

/-- A rounding to a set of numbers (the fixed points of `fl`) with relative error at most `ε`. -/
structure Rounding (fl : K → K) (ε : K) : Prop where
  mono : Monotone fl
  idem : ∀ x, fl (fl x) = fl x
  err : ∀ x, |fl x - x| ≤ ε * |x|

end Mythical.RoundSpec
