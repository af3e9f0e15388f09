import Verif.Model.Cuboid
import Verif.Tests.Units

/-!
# The repository's unit tests of clusters and lattices, run on the model

Tests, not proofs of properties; see `Verif.Tests.Units`. `#guard` evaluates its argument with the interpreter.
-/

namespace Mythical.Tests
open Mythical

/-! ## test_cluster.cpp -/

section Clusters
open Mythical.Cluster

/-- A cluster with the given sites, after `setConvergenceIterations n` and `updateProbabilitiesAndTimeConstant`. -/
def clusterOf (mem : Addr → ℚ) (n : Int) (l : List (Site ℚ)) : Cluster ℚ :=
  (runOps witEnv mem (Cluster.new 1) [.setConvergenceIterations n, .addSites l, .update]).2

def unit (_ : Addr) : ℚ := 1

/-- test_cluster.cpp 46-68. -/
example : ((Cluster.new 1 : Cluster ℚ).addSite (siteTo unit 1 [2])).map (·.sites.length) = .ok 1 ∧
    (Cluster.new 1 : Cluster ℚ).siteIsInCluster 1 = false ∧
    ((Cluster.new 1 : Cluster ℚ).addSite (Site.new 1)).map (·.siteIsInCluster 1) = .ok true := by decide +kernel

/-- The cluster of test_cluster.cpp 70-127; sites 1 and 2 have been visited 5 and 3 times. -/
def visited : Cluster ℚ :=
  clusterOf unit 3 [{ siteTo unit 1 [2] with visits := 5 }, { siteTo unit 2 [1, 3] with visits := 3 }]

-- test_cluster.cpp 70-127: the earlier visits of a site do not count for the cluster; a count that is set is returned.
#guard visited.siteIsInCluster 1 = true ∧ (visited.getVisitFrequency 1).1 = .ok 0 ∧
    (visited.setVisitFrequency 3 1).map (fun c => (c.getVisitFrequency 1).1) = .ok (.ok 3)

-- test_cluster.cpp 129-159: two sites with the same rates, half each (line 154 rounds to whole percents).
#guard [1, 2].map (fun i => ((clusterOf unit 3 [siteTo unit 1 [2], siteTo unit 2 [1]]).getProbabilityOfOccupying i).map
    fun p => roundHalf (100 * p)) = [.ok 50, .ok 50]

-- test_cluster.cpp 189-192.
#guard (siteTo unit 1 [2]).probabilityTo 2 = .ok 1 ∧ (siteTo unit 2 [1, 3]).probabilityTo 1 = .ok (1 / 2) ∧
    (siteTo unit 2 [1, 3]).probabilityTo 3 = .ok (1 / 2) ∧ (siteTo unit 3 [2]).probabilityTo 2 = .ok 1

-- test_cluster.cpp 161-217: three sites in a row, a quarter at either end and half in the middle. The test cuts the
-- percentages off; the model's are exact, so that an iteration that only approaches a quarter from below would show as 24.
#guard [1, 2, 3].map (fun i => ((clusterOf unit 10 [siteTo unit 1 [2], siteTo unit 2 [1, 3], siteTo unit 3 [2]]).getProbabilityOfOccupying
    i).map fun p => truncInt (100 * p)) = [.ok 25, .ok 50, .ok 25]

-- test_cluster.cpp 219-254: a pair with one exit at either end.
#guard [1, 4].map (fun i => ((clusterOf unit 6 [siteTo unit 2 [1, 3], siteTo unit 3 [2, 4]]).getProbabilityOfHoppingToNeighbor
    i).map fun p => roundHalf (100 * p)) = [.ok 50, .ok 50]

-- test_cluster.cpp 256-294: three sites with one exit at either end.
#guard [4, 5].map (fun i => ((clusterOf unit 6 [siteTo unit 1 [2, 5], siteTo unit 2 [1, 3],
    siteTo unit 3 [2, 4]]).getProbabilityOfHoppingToNeighbor i).map fun p => roundHalf (100 * p)) = [.ok 50, .ok 50]

/-- The cluster of test_cluster.cpp 296-335: exits at rate 1/1000. The test asks for 50 iterations per
site, the exact fractions of which are too long to compute with; three are made here. -/
def slowExits : Cluster ℚ :=
  (runOps witEnv (fun a => if a = 15 ∨ a = 34 then 1 / 1000 else 1) (Cluster.new 1) [.setConvergenceIterations 3,
    .setResolution 2, .addSites [siteTo (fun a => if a = 15 ∨ a = 34 then 1 / 1000 else 1) 1 [2, 5],
      siteTo (fun a => if a = 15 ∨ a = 34 then 1 / 1000 else 1) 2 [1, 3],
      siteTo (fun a => if a = 15 ∨ a = 34 then 1 / 1000 else 1) 3 [2, 4]], .update]).2

/-- One round of test_cluster.cpp 358-371. -/
def slowRound (site : Int) (e u : ℚ) : List (Op ℚ) := [.occupySite site, .getDwellTime 1 e, .pickNewSiteId 1 u, .vacateSite 1]

-- The sites chosen in three rounds of the loop of test_cluster.cpp 353-385 are those of the cluster or its two
-- neighbours.
#guard ((runOps witEnv (fun _ => 1) slowExits (slowRound 2 1 (1 / 2) ++ slowRound 2 (1 / 100000) (1 / 3) ++
    slowRound 1 1 (9 / 10))).1.filterMap fun ev => match ev.op, ev.res with
      | .pickNewSiteId .., .ok (.num n) => some (decide (n ∈ [1, 2, 3, 4, 5]))
      | .pickNewSiteId .., _ => some false
      | _, _ => none) = [true, true, true]

end Clusters

/-! ## test_cuboid_lattice.cpp -/

section Lattices
open Mythical.Cuboid

/-- Result of the constructor with the given boundaries and unit spacing. -/
noncomputable def box (l w h : Int) (xb yb zb : Boundary) : Cuboid := ⟨l, w, h, l * w * h, 1, xb, yb, zb⟩

/-- test_cuboid_lattice.cpp 49-84. -/
example : (box 2 3 4 .fixed .fixed .fixed).getIndex ⟨0, 0, 0⟩ = .ok 0 ∧ (box 2 3 4 .fixed .fixed .fixed).getIndex ⟨1, 0, 0⟩ = .ok 1 ∧
    (box 2 3 4 .fixed .fixed .fixed).getIndex ⟨0, 1, 0⟩ = .ok 2 ∧ (box 2 3 4 .fixed .fixed .fixed).getIndex ⟨0, 0, 1⟩ = .ok 6 ∧
    threw ((box 2 3 4 .fixed .fixed .fixed).getIndex ⟨2, 0, 0⟩) = true ∧
    threw ((box 2 3 4 .fixed .fixed .fixed).getIndex ⟨0, 3, 0⟩) = true ∧
    threw ((box 2 3 4 .fixed .fixed .fixed).getIndex ⟨0, 0, 4⟩) = true ∧
    (box 2 3 4 .fixed .fixed .fixed).getPosition 0 = .ok ⟨0, 0, 0⟩ ∧ threw ((box 2 3 4 .fixed .fixed .fixed).getPosition 24) = true ∧
    (box 2 3 4 .fixed .fixed .fixed).getPosition 23 = .ok ⟨1, 2, 3⟩ ∧
    [1, 0].map (box 2 3 4 .fixed .fixed .fixed).getX = [.ok 1, .ok 0] ∧
    [5, 6].map (box 2 3 4 .fixed .fixed .fixed).getY = [.ok 2, .ok 0] ∧
    [5, 18].map (box 2 3 4 .fixed .fixed .fixed).getZ = [.ok 0, .ok 3] := by decide +kernel

end Lattices
end Mythical.Tests
