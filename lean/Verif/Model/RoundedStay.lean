import Verif.Model.Rounded

/-!
# Model of the stay of a walker in a cluster in rounded arithmetic

As `Rounded.lean`: every operation on `double`s is followed by the rounding `fl`.
-/

namespace Mythical.Rounded
open Mythical
variable {K : Type} [Field K] [LinearOrder K] [IsStrictOrderedRing K] [FloorRing K]
variable (fl : K → K)

/-- cluster.cpp 205-221, topology_feature.cpp 64-67: `Cluster::getDwellTime(walker_id)`, with `e` the rounded value of
`-log(number)`, drawn if the walker is new. -/
def clusterDwell (c : Cluster K) (wid : Int) (e : K) : Except Fault (K × Cluster K) :=
  match c.tau, c.timeInc with
  | none, _ => .error .assertFail
  | some _, none => .error (.ub .uninitRead)
  | some t, some dt =>
    let d := (c.remaining.get? wid).getD (fl (e * t))
    let c := { c with remaining := c.remaining.set wid (fl (d - dt)) }
    if d > dt then .ok (dt, c)
    else if d > 0 then .ok (d, c)
    else .error .assertFail

/-- cluster.hpp 178-183: `setResolution`. -/
def setResolution (c : Cluster K) (r : K) : Except Fault (Cluster K) :=
  if r ≥ 2 then .ok { c with resolution := r, timeInc := c.tau.map fun t => fl (t / r) } else .error .assertFail

/-- A call about walker `w` with the number drawn: cluster.cpp 205-221 or cluster.cpp 174-179. -/
inductive Call (K : Type)
  | dwell (w : Int) (e : K)
  | pick (w : Int) (u : K)

/-- What such a call returns (cluster.cpp 205, 174). -/
inductive Reply (K : Type)
  | time (t : K)
  | num (n : Int)
  deriving DecidableEq

/-- A call to a cluster; `pickNewSiteId` does no arithmetic and is that of the exact model. -/
def call (c : Cluster K) : Call K → Except Fault (Reply K × Cluster K)
  | .dwell w e => do
    let (t, c) ← clusterDwell fl c w e
    pure (.time t, c)
  | .pick w u => do
    let (n, c) ← c.pickNewSiteId w u
    pure (.num n, c)

end Mythical.Rounded
