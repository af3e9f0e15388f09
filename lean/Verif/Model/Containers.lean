import Verif.Model.Cluster

/-!
# Model of `Site_Container` and `Cluster_Container`
(src/libmythical/site_container.cpp, site_container.hpp, cluster_container.cpp, cluster_container.hpp)

The only data member of each is an `unordered_map` from ids to objects. A call returns its result together with the
container it leaves behind, also when it throws. `getSite` and `getCluster` return references; a change made through such
a reference is `put`. Sites and clusters handed to `addSite`, `addCluster` have their id set (otherwise `getId` throws,
identity.hpp 22-24). The size of an `unordered_map` is the length of the list.
-/

namespace Mythical

/-- site_container.hpp 49: `sites_`. -/
abbrev SiteContainer (K : Type) := IMap (Site K)

/-- cluster_container.hpp 45: `clusters_`. -/
abbrev ClusterContainer (K : Type) := IMap (Cluster K)

namespace SiteContainer
variable {K : Type} [Field K] [LinearOrder K] [IsStrictOrderedRing K] [FloorRing K]

/-- site_container.cpp 8-13. -/
def addSite (m : SiteContainer K) (s : Site K) : Except Fault Unit × SiteContainer K :=
  if IMap.has m s.id then (.error .invalidArgument, m) else (.ok (), IMap.set m s.id s)

/-- site_container.cpp 15-19. -/
def addSites (m : SiteContainer K) : List (Site K) → Except Fault Unit × SiteContainer K
  | [] => (.ok (), m)
  | s :: rest =>
    match addSite m s with
    | (.error e, m) => (.error e, m)
    | (.ok _, m) => addSites m rest

/-- site_container.cpp 21-26 (and the identical checks of 45-47, 52-54, 59-61, 85-88, 93-96, 101-104, 145-148, 153-156,
170-173, 178-181, 186-189). -/
def getSite (m : SiteContainer K) (id : Int) : Except Fault (Site K) :=
  match IMap.get? m id with
  | none => .error .invalidArgument
  | some s => .ok s

/-- A change of a stored site through the reference returned by `getSite`. -/
def put (m : SiteContainer K) (id : Int) (s : Site K) : SiteContainer K := IMap.set m id s

/-- site_container.cpp 28-38. -/
def getSitesOf (m : SiteContainer K) : List Int → IMap (Site K) → Except Fault (IMap (Site K))
  | [], acc => .ok acc
  | id :: rest, acc => do
    let s ← getSite m id
    getSitesOf m rest (IMap.set acc id s)

/-- site_container.cpp 44-49. -/
def setClusterId (m : SiteContainer K) (id cid : Int) : Except Fault Unit × SiteContainer K :=
  match getSite m id with
  | .error e => (.error e, m)
  | .ok s => (.ok (), IMap.set m id { s with clusterId := cid })

/-- site_container.cpp 51-56. -/
def getClusterIdOfSite (m : SiteContainer K) (id : Int) : Except Fault Int := do
  let s ← getSite m id
  .ok s.clusterId

/-- site_container.cpp 58-63. -/
def partOfCluster (m : SiteContainer K) (id : Int) : Except Fault Bool := do
  let s ← getSite m id
  .ok s.partOfCluster

/-- site_container.cpp 68-76: the loop of `getSmallestClusterId`. `sites_[siteId]` inserts a default constructed site (which
is in no cluster, site.cpp 34-38) if the id is unknown. -/
def smallestLoop (m : SiteContainer K) (fav : Int) : List Int → Int × SiteContainer K
  | [] => (fav, m)
  | id :: rest =>
    let s := (IMap.get? m id).getD Cluster.defaultSite
    let m := IMap.set m id s
    let fav :=
      if fav = unassignedId then s.clusterId
      else if s.clusterId ≠ unassignedId ∧ s.clusterId < fav then s.clusterId
      else fav
    smallestLoop m fav rest

/-- site_container.cpp 65-78. -/
def getSmallestClusterId (m : SiteContainer K) (ids : List Int) : Int × SiteContainer K := smallestLoop m unassignedId ids

/-- site_container.cpp 80-82. -/
def exist (m : SiteContainer K) (id : Int) : Bool := IMap.has m id

/-- site_container.cpp 84-90. -/
def isOccupied (m : SiteContainer K) (id : Int) : Except Fault Bool := do
  let s ← getSite m id
  .ok s.isOccupied

/-- site_container.cpp 92-98. -/
def vacate (m : SiteContainer K) (id : Int) : Except Fault Unit × SiteContainer K :=
  match getSite m id with
  | .error e => (.error e, m)
  | .ok s => match s.vacate with
    | .error e => (.error e, m)
    | .ok s => (.ok (), IMap.set m id s)

/-- site_container.cpp 100-106. -/
def occupy (m : SiteContainer K) (id : Int) : Except Fault Unit × SiteContainer K :=
  match getSite m id with
  | .error e => (.error e, m)
  | .ok s => match s.occupy with
    | .error e => (.error e, m)
    | .ok s => (.ok (), IMap.set m id s)

/-- site_container.cpp 116-122. -/
def getSiteIds (m : SiteContainer K) : List Int := IMap.keys m

/-- site_container.cpp 144-150, drawing `e`. -/
def getDwellTime (m : SiteContainer K) (id : Int) (e : K) : Except Fault K := do
  let s ← getSite m id
  .ok (s.getDwellTime e)

/-- site_container.cpp 152-158. -/
def getTimeConstant (m : SiteContainer K) (id : Int) : Except Fault K := do
  let s ← getSite m id
  .ok s.tau

/-- site_container.cpp 160-167. -/
def getRates (m : SiteContainer K) : IMap (IMap Addr) := m.map fun is => (is.1, is.2.neigh)

/-- site_container.cpp 169-175. -/
def getFastestRateOffSite (mem : Addr → K) (m : SiteContainer K) (id : Int) : Except Fault K := do
  let s ← getSite m id
  .ok (s.getFastestRate mem)

/-- site_container.cpp 177-183. -/
def getRateToNeighborOfSite (mem : Addr → K) (m : SiteContainer K) (id n : Int) : Except Fault K := do
  let s ← getSite m id
  s.getRateToNeighbor mem n

/-- site_container.cpp 185-191. -/
def getSiteIdsOfNeighbors (m : SiteContainer K) (id : Int) : Except Fault (List Int) := do
  let s ← getSite m id
  .ok s.getNeighborSiteIds

/-- A public call on a site container. `put` is a change through the reference returned by `getSite`. -/
inductive Op (K : Type) where
  | addSite (s : Site K)
  | addSites (l : List (Site K))
  | put (id : Int) (s : Site K)
  | setClusterId (id cid : Int)
  | getSmallestClusterId (ids : List Int)
  | vacate (id : Int)
  | occupy (id : Int)

/-- The result of a call (`none`: no value) and the container it leaves behind. The reference of `getSite` exists only for
known ids. -/
def step (m : SiteContainer K) : Op K → Except Fault (Option Int) × SiteContainer K
  | .addSite s => ((addSite m s).1.map fun _ => none, (addSite m s).2)
  | .addSites l => ((addSites m l).1.map fun _ => none, (addSites m l).2)
  | .put id s => match getSite m id with
    | .error e => (.error e, m)
    | .ok _ => (.ok none, put m id s)
  | .setClusterId id cid => ((setClusterId m id cid).1.map fun _ => none, (setClusterId m id cid).2)
  | .getSmallestClusterId ids => (.ok (some (getSmallestClusterId m ids).1), (getSmallestClusterId m ids).2)
  | .vacate id => ((vacate m id).1.map fun _ => none, (vacate m id).2)
  | .occupy id => ((occupy m id).1.map fun _ => none, (occupy m id).2)

end SiteContainer

namespace ClusterContainer
variable {K : Type} [Field K] [LinearOrder K] [IsStrictOrderedRing K] [FloorRing K]

/-- cluster_container.cpp 33-38. -/
def exist (m : ClusterContainer K) (id : Int) : Bool := IMap.has m id

/-- cluster_container.cpp 10-16. -/
def addCluster (m : ClusterContainer K) (c : Cluster K) : Except Fault Unit × ClusterContainer K :=
  if exist m c.id then (.error .invalidArgument, m) else (.ok (), IMap.set m c.id c)

/-- cluster_container.cpp 18-22. -/
def addClusters (m : ClusterContainer K) : List (Cluster K) → Except Fault Unit × ClusterContainer K
  | [] => (.ok (), m)
  | c :: rest =>
    match addCluster m c with
    | (.error e, m) => (.error e, m)
    | (.ok _, m) => addClusters m rest

/-- cluster_container.cpp 24-31 (and the identical checks of 48-51, 56-59, 64-67, 80-83, 88-91, 96-99, 104-107). -/
def getCluster (m : ClusterContainer K) (id : Int) : Except Fault (Cluster K) :=
  match IMap.get? m id with
  | none => .error .invalidArgument
  | some c => .ok c

/-- A change of a stored cluster through the reference returned by `getCluster`. -/
def put (m : ClusterContainer K) (id : Int) (c : Cluster K) : ClusterContainer K := IMap.set m id c

/-- cluster_container.cpp 40-45. -/
def erase (m : ClusterContainer K) (id : Int) : ClusterContainer K := IMap.erase m id

/-- cluster_container.cpp 47-53. -/
def isOccupied (m : ClusterContainer K) (id : Int) : Except Fault Bool := do
  let c ← getCluster m id
  .ok c.isOccupied

/-- cluster_container.cpp 55-61. -/
def vacate (m : ClusterContainer K) (id : Int) : Except Fault Unit × ClusterContainer K :=
  match getCluster m id with
  | .error e => (.error e, m)
  | .ok c => match c.vacate with
    | .error e => (.error e, m)
    | .ok c => (.ok (), IMap.set m id c)

/-- cluster_container.cpp 63-69. -/
def occupy (m : ClusterContainer K) (id : Int) : Except Fault Unit × ClusterContainer K :=
  match getCluster m id with
  | .error e => (.error e, m)
  | .ok c => match c.occupy with
    | .error e => (.error e, m)
    | .ok c => (.ok (), IMap.set m id c)

/-- cluster_container.cpp 71-77. -/
def getClusterIds (m : ClusterContainer K) : List Int := IMap.keys m

/-- cluster_container.cpp 79-85, drawing `e`. -/
def getDwellTime (m : ClusterContainer K) (wid id : Int) (e : K) : Except Fault K × ClusterContainer K :=
  match getCluster m id with
  | .error e => (.error e, m)
  | .ok c => match c.getDwellTime wid e with
    | .error e => (.error e, m)
    | .ok (t, c) => (.ok t, IMap.set m id c)

/-- cluster_container.cpp 87-93. The sentinel is `none`. -/
def getTimeConstant (m : ClusterContainer K) (id : Int) : Except Fault (Option K) := do
  let c ← getCluster m id
  .ok c.tau

/-- cluster_container.cpp 95-101. -/
def getFastestRateOffCluster (mem : Addr → K) (m : ClusterContainer K) (id : Int) : Except Fault K := do
  let c ← getCluster m id
  .ok (c.getFastestRateOffCluster mem)

/-- cluster_container.cpp 103-109. -/
def getSiteIdsOfNeighbors (m : ClusterContainer K) (id : Int) : Except Fault (List Int) := do
  let c ← getCluster m id
  .ok c.getSiteIdsNeighboringCluster

/-- cluster_container.cpp 111-117. -/
def getSiteIdsOfClusters (m : ClusterContainer K) : IMap (List Int) := m.map fun ic => (ic.1, ic.2.getSiteIdsInCluster)

/-- cluster_container.cpp 119-125. -/
def getResolutionOfClusters (m : ClusterContainer K) : IMap K := m.map fun ic => (ic.1, ic.2.resolution)

/-- cluster_container.cpp 127-133. -/
def getTimeIncrementOfClusters (m : ClusterContainer K) : Except Fault (IMap K) :=
  m.mapM fun ic => do
    let t ← ic.2.getTimeIncrement
    .ok (ic.1, t)

/-- A public call on a cluster container. `put` is a change through the reference returned by `getCluster`. -/
inductive Op (K : Type) where
  | addCluster (c : Cluster K)
  | addClusters (l : List (Cluster K))
  | put (id : Int) (c : Cluster K)
  | erase (id : Int)
  | vacate (id : Int)
  | occupy (id : Int)
  | getDwellTime (wid id : Int) (e : K)

/-- The result of a call (`none`: no value) and the container it leaves behind. -/
def step (m : ClusterContainer K) : Op K → Except Fault (Option K) × ClusterContainer K
  | .addCluster c => ((addCluster m c).1.map fun _ => none, (addCluster m c).2)
  | .addClusters l => ((addClusters m l).1.map fun _ => none, (addClusters m l).2)
  | .put id c => match getCluster m id with
    | .error e => (.error e, m)
    | .ok _ => (.ok none, put m id c)
  | .erase id => (.ok none, erase m id)
  | .vacate id => ((vacate m id).1.map fun _ => none, (vacate m id).2)
  | .occupy id => ((occupy m id).1.map fun _ => none, (occupy m id).2)
  | .getDwellTime wid id e => ((getDwellTime m wid id e).1.map some, (getDwellTime m wid id e).2)

end ClusterContainer
end Mythical
