import Verif.Model.Rounded

/-!
# The range of `double`

`Rounded.binary64` has no least and no greatest exponent. `Rounded.double` has the least exponents of `double`.
-/

namespace Mythical.Rounded
variable {K : Type} [Field K] [LinearOrder K] [IsStrictOrderedRing K] [FloorRing K]

/-- The rounding of the type `double` of all the code in /repo (e.g. site.cpp 101, 162, 171, 177; marcus.cpp 11-19) with gradual
underflow: below `2^-1022` the results are multiples of `2^-1074`. Simplification: results above the largest `double` are not
infinite but as in `binary64`. -/
def double (x : K) : K :=
  if |x| < 2 ^ (-1022 : Int) then nearest (x / 2 ^ (-1074 : Int)) * 2 ^ (-1074 : Int) else binary64 x

end Mythical.Rounded
