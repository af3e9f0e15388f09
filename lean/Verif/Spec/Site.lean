import Verif.Model.Site

/-! # Specification vocabulary for `Site` -/

namespace Mythical.SiteSpec
open Mythical Site
variable {K : Type}

/-- The address of the rate to `n` after one more call: the last one given wins. -/
def neighAfter (old : Int → Option Addr) : Op → Int → Option Addr
  | .setRates m, n => (IMap.get? m n).or (old n)
  | .addNeigh k a, n => if n = k then some a else old n
  | .resetNeigh k a, n => if n = k then some a else old n

/-- The address of the rate to `n` that the user has given last in a history of calls on a new site. -/
def neighOf (ops : List ((Addr → K) × Op)) : Int → Option Addr :=
  ops.foldl (fun old mo => neighAfter old mo.2) fun _ => none

/-- The maps given to `setRatesToNeighbors` are maps. -/
def ValidOp : Op → Prop
  | .setRates m => m.WF
  | _ => True

/-- A draw of `uniform_real_distribution(0,1)`. -/
def Draw [Zero K] [One K] [LE K] [LT K] (u : K) : Prop := 0 ≤ u ∧ u < 1

end Mythical.SiteSpec

/-- The hop probabilities and the time constant kept by a site are those of the current rates: what the last
rate-setting call has established unless a rate was changed in place afterwards. -/
structure Mythical.Site.Fresh {K : Type} [Field K] (mem : Mythical.Addr → K) (s : Mythical.Site K) : Prop where
  sum : s.sumRates mem ≠ 0
  tau : s.tau = 1 / s.sumRates mem
  perm : s.prob.Perm (s.neigh.map fun na => (na.1, mem na.2 / s.sumRates mem))
