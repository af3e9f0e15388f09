import Verif.Lemmas.ClusterWitness
import Verif.Props.Queue
import Verif.Model.Basin
import Verif.Model.GraphAdapter
import Verif.Model.RateContainer

/-!
# The repository's own unit tests, run on the model

Each `example` repeats assertions of a test below /repo/CoarseGrainSites/src/tests/unit on the model, over `ℚ`. They are
tests, not proofs of properties: they show that the model does what the tests expect of the code. No property rests on
them. Assertions on printed output are left out.
-/

namespace Mythical.Tests
open Mythical

/-- The value of a call, or a default where it fails. -/
def orElse {α : Type} (d : α) : Except Fault α → α
  | .ok x => x
  | .error _ => d

/-! ## test_site.cpp -/

/-- The rates 400, 200, 10 and 1 at addresses 0 to 3 (test_site.cpp 44-50), and 1 elsewhere. -/
def siteMem (a : Addr) : ℚ := match a with | 0 => 400 | 1 => 200 | 2 => 10 | _ => 1

def siteRates : Site ℚ := orElse (Site.new 1) ((Site.new 1).setRatesToNeighbors siteMem [(1, 0), (2, 1), (3, 2), (4, 3)])

/-- test_site.cpp 58-76. -/
example : [1, 2, 3, 4].map (siteRates.getRateToNeighbor siteMem) = [.ok 400, .ok 200, .ok 10, .ok 1] := by decide +kernel

/-- test_site.cpp 78-104: rates added one by one. -/
example : (do let s ← (Site.new 1 : Site ℚ).addNeighRate siteMem 1 0
              let s ← s.addNeighRate siteMem 2 1
              let s ← s.addNeighRate siteMem 3 2
              let s ← s.addNeighRate siteMem 4 3
              .ok ([1, 2, 3, 4].map (s.getRateToNeighbor siteMem))) =
    (.ok [.ok 400, .ok 200, .ok 10, .ok 1] : Except Fault (List (Except Fault ℚ))) := by decide +kernel

/-- test_site.cpp 106-142: after the reset the rates are those of the new pointers. -/
example : (do let s ← siteRates.resetNeighRate siteMem 1 3
              let s ← s.resetNeighRate siteMem 4 0
              .ok ([1, 2, 3, 4].map (s.getRateToNeighbor siteMem))) =
    (.ok [.ok 1, .ok 200, .ok 10, .ok 400] : Except Fault (List (Except Fault ℚ))) := by decide +kernel

/-- test_site.cpp 144-164. -/
example : [0, 1, 2, 3, 4, 5].map siteRates.isNeighbor = [false, true, true, true, true, false] := by decide +kernel

/-- test_site.cpp 166-174. -/
example : (do let s : Site ℚ := Site.new 1
              let s1 ← s.occupy
              let s2 ← s1.vacate
              .ok [s.isOccupied, s1.isOccupied, s2.isOccupied]) = (.ok [false, true, false] : Except Fault (List Bool)) := by
  decide +kernel

/-- test_site.cpp 176-183. -/
example : (Site.new 1 : Site ℚ).partOfCluster = false ∧ { (Site.new 1 : Site ℚ) with clusterId := 1 }.partOfCluster = true := by
  decide +kernel

/-- test_site.cpp 185-212: four equal rates, probability a quarter each. -/
example : [1, 2, 3, 4].map ((orElse (Site.new 1) ((Site.new 1 : Site ℚ).setRatesToNeighbors (fun _ => 1)
    [(1, 0), (2, 1), (3, 2), (4, 3)])).probabilityTo) = [.ok (1 / 4), .ok (1 / 4), .ok (1 / 4), .ok (1 / 4)] := by
  decide +kernel

/-- test_site.cpp 214-247. -/
example : siteRates.getNeighborSiteIds.Perm [1, 2, 3, 4] := by decide +kernel

/-! ## test_queue.cpp -/

section Queue
open Mythical.Queue

/-- test_queue.cpp 17-22. -/
example : (init : Queue ℚ).size = 0 ∧ (init : Queue ℚ).isSorted = true := by decide +kernel

/-- The three events of test_queue.cpp 26-31. -/
def pr1 : Int × ℚ := (1, 231 / 10)
def pr2 : Int × ℚ := (3, 103 / 10)
def pr3 : Int × ℚ := (2, 13 / 100)

def added : Queue ℚ := ((init.add pr1).add pr2).add pr3

/-- test_queue.cpp 24-43. -/
example : added.isSorted = false ∧ [0, 1, 2].map added.at_ = [.ok pr1, .ok pr2, .ok pr3] := by decide +kernel

/-- test_queue.cpp 45-62. -/
example : (added.sort (SortCall.insertion ℚ)).isSorted = true ∧
    (added.sort (SortCall.insertion ℚ)).entries = [pr3, pr2, pr1] := by decide +kernel

def sortedlyAdded : Queue ℚ := ((init.sortedAdd pr1).sortedAdd pr2).sortedAdd pr3

/-- test_queue.cpp 64-84. -/
example : sortedlyAdded.isSorted = true ∧ [0, 1, 2].map sortedlyAdded.at_ = [.ok pr3, .ok pr2, .ok pr1] := by decide +kernel

/-- test_queue.cpp 86-109. -/
example : (do let (a, q) ← sortedlyAdded.popCurrent
              let (b, q) ← q.popCurrent
              let (c, q) ← q.popCurrent
              .ok ([a, b, c], q.size)) = (.ok ([pr3, pr2, pr1], 0) : Except Fault (List (Int × ℚ) × Nat)) := by decide +kernel

end Queue

/-! ## test_rate_container.cpp -/

section Rates
open Mythical.RateContainer

/-- test_rate_container.cpp 24-33: 1 to 2 and 3 to 2. -/
def rates2 : RateContainer := ((⟨[]⟩ : RateContainer).addRates [(1, [(2, some 0)]), (3, [(2, some 1)])]).2
/-- test_rate_container.cpp 178-196: and 4 to 3. -/
def rates3 : RateContainer := ((⟨[]⟩ : RateContainer).addRates [(1, [(2, some 0)]), (3, [(2, some 1)]), (4, [(3, some 2)])]).2

/-- test_rate_container.cpp 22-50. -/
example : [2, 1, 3].map (fun i => (rates2.incomingRateCount i).1) = [2, 0, 0] ∧
    [2, 1, 3].map (fun i => (rates2.outgoingRateCount i).1) = [0, 1, 1] := by decide +kernel

/-- test_rate_container.cpp 85-117. -/
example : (rates2.getRate 1 2).1 = .ok (some 0) ∧ (rates2.getRate 3 2).1 = .ok (some 1) ∧
    (match (rates2.getRate 2 3).1 with | .ok _ => false | .error e => e.isException) = true ∧
    (match (rates2.getRate 0 1).1 with | .ok _ => false | .error e => e.isException) = true := by decide +kernel

/-- test_rate_container.cpp 119-151. -/
example : (rates2.getIncomingRates 2).1.length = 2 ∧ (rates2.getIncomingRates 1).1.length = 0 := by decide +kernel

/-- test_rate_container.cpp 153-174. -/
example : (rates2.getOutgoingRates 2).1.length = 0 ∧ (rates2.getOutgoingRates 1).1.length = 1 ∧
    (rates2.getOutgoingRates 3).1.length = 1 := by decide +kernel

/-- test_rate_container.cpp 176-224. -/
example : rates3.getSourceSiteIds.1.Perm [1, 4] ∧ rates3.getSinkSiteIds.1 = [2] := by decide +kernel

end Rates

/-! ## test_site_container.cpp and test_cluster_container.cpp -/

section Containers

/-- Whether a call threw. -/
def threw {α : Type} : Except Fault α → Bool
  | .ok _ => false
  | .error e => e.isException

def twoSites : SiteContainer ℚ := (SiteContainer.addSites [] [Site.new 1, Site.new 2]).2

/-- test_site_container.cpp 18-58: adding a site a second time throws. -/
example : threw (SiteContainer.addSite ([] : SiteContainer ℚ) (Site.new 1)).1 = false ∧
    threw ((SiteContainer.addSite ([] : SiteContainer ℚ) (Site.new 1)).2.addSite (Site.new 1)).1 = true ∧
    threw (SiteContainer.addSites ([] : SiteContainer ℚ) [Site.new 1, Site.new 2]).1 = false ∧
    threw (SiteContainer.addSites ([] : SiteContainer ℚ) [Site.new 1, Site.new 1]).1 = true := by decide +kernel

/-- test_site_container.cpp 60-153. -/
example : (twoSites.getSite 1).map (·.id) = .ok 1 ∧ threw (twoSites.getSite 0) = true ∧
    (twoSites.getSitesOf [1, 2] []).map List.length = .ok 2 ∧ threw (twoSites.getSitesOf [1, 3] []) = true ∧
    twoSites.length = 2 := by decide +kernel

def clustered : SiteContainer ℚ := (twoSites.setClusterId 1 3).2

/-- test_site_container.cpp 155-222. -/
example : clustered.getClusterIdOfSite 1 = .ok 3 ∧ threw (clustered.getClusterIdOfSite 0) = true ∧
    clustered.partOfCluster 1 = .ok true ∧ clustered.partOfCluster 2 = .ok false ∧ threw (clustered.partOfCluster 0) = true ∧
    (clustered.getSmallestClusterId [1, 2]).1 = 3 := by decide +kernel

/-- test_site_container.cpp 224-245. -/
example : ((SiteContainer.addSite [] siteRates).2.getRateToNeighborOfSite siteMem 1 2) = .ok 200 := by decide +kernel

def oneCluster : ClusterContainer ℚ := (ClusterContainer.addCluster [] (Cluster.new 1)).2

/-- test_cluster_container.cpp 18-116. -/
example : threw (oneCluster.addCluster (Cluster.new 1)).1 = true ∧
    threw (ClusterContainer.addClusters ([] : ClusterContainer ℚ) [Cluster.new 1, Cluster.new 1]).1 = true ∧
    threw (ClusterContainer.addClusters ([] : ClusterContainer ℚ) [Cluster.new 1, Cluster.new 2]).1 = false ∧
    (oneCluster.getCluster 1).map (·.id) = .ok 1 ∧ threw (oneCluster.getCluster 0) = true ∧ oneCluster.length = 1 ∧
    oneCluster.exist 1 = true ∧ oneCluster.exist 0 = false := by decide +kernel

/-- test_cluster_container.cpp 118-171. -/
example : oneCluster.isOccupied 1 = .ok false ∧ (oneCluster.occupy 1).2.isOccupied 1 = .ok true ∧
    ((oneCluster.occupy 1).2.vacate 1).2.isOccupied 1 = .ok false := by decide +kernel

end Containers

/-! ## test_graph_library_adapter.cpp and test_basin_explorer.cpp -/

section Graph

/-- A site with all its rates at address `10 * id + neighbour`. -/
def siteTo (mem : Addr → ℚ) (id : Nat) (ns : List Nat) : Site ℚ :=
  orElse (Site.new (id : Int)) ((Site.new (id : Int)).setRatesToNeighbors mem (ns.map fun (n : Nat) => ((n : Int), 10 * id + n)))

def chain3 : SiteContainer ℚ :=
  (SiteContainer.addSites [] [siteTo (fun _ => 1) 1 [2], siteTo (fun _ => 1) 2 [1, 3], siteTo (fun _ => 1) 3 [2]]).2

/-- test_graph_library_adapter.cpp 16-102: two edges lead away from site 2, to sites 1 and 3. -/
example : ((GraphAdapter.edgesOfSite (fun _ => (1 : ℚ)) chain3 2).map fun e => (e.src, e.dst)).Perm [(2, 1), (2, 3)] := by
  decide +kernel

/-- Edges offered in the order they are stored; the first open edge is explored first. -/
def firstVisitor : Visitor := ⟨fun _ _ l => l, fun _ _ l => .refl l, fun _ _ => 0, id, fun l => .refl l⟩

/-- test_basin_explorer.cpp 16-58: the rates of the chain 1-2-3-4. -/
def chainMem (a : Addr) : ℚ := match a with | 21 => 1 | 34 => 1 | _ => 100
def chain4 : SiteContainer ℚ :=
  (SiteContainer.addSites [] [siteTo chainMem 1 [2], siteTo chainMem 2 [1, 3], siteTo chainMem 3 [2, 4], siteTo chainMem 4 [3]]).2

/-- test_basin_explorer.cpp 60-87: the basin found from site 2 is {2, 3}. -/
example : ((Explorer.default : Explorer ℚ).findBasin firstVisitor chainMem chain4 [] 2).map (fun l => decide (l.Perm [2, 3])) =
    .ok true := by decide +kernel

end Graph
end Mythical.Tests
