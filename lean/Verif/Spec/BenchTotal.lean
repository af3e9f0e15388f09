import Verif.Spec.Bench
import Verif.Spec.ToFMain

/-! # What the choices in a simulation with coarse graining have to be like (C116) -/

namespace Mythical.BenchSpec
open World SystemSpec
variable {K : Type} [Field K] [LinearOrder K] [IsStrictOrderedRing K] [FloorRing K]

/-- The times that the library finds when it searches a basin are those of paths in it (C70). -/
def Covering (mem : Addr → K) (luck : Bench.Luck K) : Prop :=
  ∀ evs h v w, (ToFSpec.worldAfter evs).hopMove h h (luck.draw evs h) = .ok (v, w) → CoversTimes mem w v (luck.draw evs h)

end Mythical.BenchSpec
