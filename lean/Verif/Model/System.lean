import Verif.Model.Basin

/-!
# Model of `CoarseGrainSystem` and `Walker`
(src/libmythical/coarsegrainsystem.cpp, include/mythical/coarsegrainsystem.hpp, src/libmythical/walker.cpp,
include/mythical/walker.hpp)

A `World` is one system together with the walkers of the user and the program's counter of cluster ids. A call returns its
result together with the world it leaves behind, also when it throws. Random numbers, the choices of the graph library and
of the hash tables are arguments of the calls.

* `topology_features_` holds pointers: `FPtr`. A pointer to a site stays valid (sites are never erased); a pointer to a
  cluster dangles once the cluster is erased, and its use is undefined behaviour.
* `topology_features_[id]` of a missing id inserts a null pointer. In `hop` and `removeWalkerFromSystem` it is dereferenced
  at once, so that the insertion itself is not modelled.
* Walkers are shared pointers held by the user: they are named by a handle; every handle passed to a call is valid.
* The graph library computes the traversal times (`maxMinimumDistanceBetweenEveryVertex`); they are an argument of `hop`.
* `getExternalTimeLimit_`, `getFavoredClusterId_` (never called) and the declared but undefined member functions are not
  modelled, nor is the logging.
-/

namespace Mythical

/-- walker.hpp 57-65, walker.cpp 12-16. -/
structure Walker (K : Type) where
  site : Int
  pot : Int
  dwell : K
  deriving DecidableEq

/-- `TopologyFeature *`. -/
inductive FPtr where
  | null
  | site (id : Int)
  | cluster (id : Int)
  deriving DecidableEq

/-- coarsegrainsystem.hpp 219-263 (`seed_set_` and `seed_`, `time_resolution_set_` and `time_resolution_` are one field
each; `minimum_coarse_graining_resolution_` is always 2), cluster.cpp 20 `clusterIdCounter`, and the user's walkers. -/
structure World (K : Type) where
  perfRatio : K
  seed : Option Nat
  timeRes : Option K
  iteration : Int
  threshold : Int
  thresholdMin : Int
  feats : IMap FPtr
  sites : SiteContainer K
  clusters : ClusterContainer K
  nextId : Int
  walkers : IMap (Walker K)
  deriving DecidableEq

/-- The choices in a hop that are not made by the library: the draws `e = -log(number)` and `u`, the choices of the graph
visitor, the traversal times found by the graph library, and the iteration order of the set of cluster ids. -/
structure Choices (K : Type) where
  e : K
  u : K
  vis : Visitor
  times : List K
  order : List Int → List Int
  order_perm : ∀ l, (order l).Perm l

/-- An entry of the argument of `initializeWalkers`, with the draws made for it. -/
structure Entry (K : Type) where
  wid : Int
  handle : Int
  e : K
  u : K

namespace World
variable {K : Type} [Field K] [LinearOrder K] [IsStrictOrderedRing K] [FloorRing K]

/-- coarsegrainsystem.cpp 53-64, in a program in which `n` cluster ids have been used. -/
def new (n : Nat) : World K where
  perfRatio := 1
  seed := none
  timeRes := none
  iteration := 0
  threshold := 1000
  thresholdMin := 1000
  feats := []
  sites := []
  clusters := []
  nextId := n
  walkers := []

/-! ## Settings -/

/-- coarsegrainsystem.cpp 69-75. -/
def getTimeResolution (w : World K) : Except Fault K :=
  match w.timeRes with
  | none => .error .runtimeError
  | some t => .ok t

/-- coarsegrainsystem.cpp 77-83. -/
def setTimeResolution (w : World K) (t : K) : Except Fault Unit × World K :=
  if t ≤ 0 then (.error .invalidArgument, w) else (.ok (), { w with timeRes := some t })

/-- coarsegrainsystem.cpp 177-181. -/
def setMinThreshold (w : World K) (n : Int) : World K := { w with thresholdMin := n, threshold := n }

/-- coarsegrainsystem.cpp 183-191 (`unsigned long`, 64 bits). -/
def setRandomSeed (w : World K) (n : Nat) : Except Fault Unit × World K :=
  if w.feats.length ≠ 0 then (.error .runtimeError, w) else (.ok (), { w with seed := some (n % 2 ^ 64) })

/-- coarsegrainsystem.hpp 216-218. -/
def setPerformanceRatio (w : World K) (r : K) : World K := { w with perfRatio := r }

/-- coarsegrainsystem.cpp 99-100, 332-333: the seed after `++seed_`. -/
def nextSeed (w : World K) : Option Nat := w.seed.map fun s => (s + 1) % 2 ^ 64

/-- coarsegrainsystem.cpp 98-101: the site with its seed. -/
def seedSite (w : World K) (s : Site K) : Site K :=
  match w.seed with
  | some n => s.setRandomSeed n
  | none => s

/-- coarsegrainsystem.cpp 331-334: the cluster with its seed. -/
def seedCluster (w : World K) (c : Cluster K) : Cluster K :=
  match w.seed with
  | some n => c.setRandomSeed n
  | none => c

/-! ## Initialisation -/

/-- coarsegrainsystem.cpp 94-105: one round of the first loop of `initializeSystem`. -/
def initSite (mem : Addr → K) (w : World K) (id : Int) (rates : IMap Addr) : Except Fault Unit × World K :=
  match (Site.new id).setRatesToNeighbors mem rates with
  | .error e => (.error e, w)
  | .ok s =>
    match w.sites.addSite (w.seedSite s) with
    | (.error e, _) => (.error e, { w with seed := w.nextSeed })
    | (.ok _, sites) => (.ok (), { w with seed := w.nextSeed, sites := sites, feats := w.feats.set id (.site id) })

/-- coarsegrainsystem.cpp 94-105. -/
def initSites (mem : Addr → K) (w : World K) : List (Int × IMap Addr) → Except Fault Unit × World K
  | [] => (.ok (), w)
  | (id, rates) :: rest =>
    match initSite mem w id rates with
    | (.error e, w) => (.error e, w)
    | (.ok _, w) => initSites mem w rest

/-- coarsegrainsystem.cpp 107-115: the drains, in some order (which has no effect). -/
def drains (m : IMap (IMap Addr)) : List Int :=
  ((m.flatMap fun ir => IMap.keys ir.2).filter fun n => !(IMap.has m n)).dedup

/-- coarsegrainsystem.cpp 117-122. -/
def initDrains (w : World K) : List Int → Except Fault Unit × World K
  | [] => (.ok (), w)
  | id :: rest =>
    match w.sites.addSite (Site.new id) with
    | (.error e, _) => (.error e, w)
    | (.ok _, sites) => initDrains { w with sites := sites, feats := w.feats.set id (.site id) } rest

/-- coarsegrainsystem.cpp 85-123: `initializeSystem`. -/
def initializeSystem (mem : Addr → K) (w : World K) (m : IMap (IMap Addr)) : Except Fault Unit × World K :=
  match w.timeRes with
  | none => (.error .runtimeError, w)
  | some _ =>
    match initSites mem w m with
    | (.error e, w) => (.error e, w)
    | (.ok _, w) => initDrains w (drains m)

/-! ## Calls through a feature pointer (topology_feature.hpp 107-150) -/

/-- The site behind a pointer. -/
def siteOf (w : World K) (id : Int) : Except Fault (Site K) :=
  match w.sites.get? id with
  | none => .error (.ub .danglingDeref)
  | some s => .ok s

/-- The cluster behind a pointer. -/
def clusterOf (w : World K) (id : Int) : Except Fault (Cluster K) :=
  match w.clusters.get? id with
  | none => .error (.ub .danglingDeref)
  | some c => .ok c

/-- The pointer stored for a site id. -/
def feat (w : World K) (id : Int) : FPtr := (w.feats.get? id).getD .null

/-- `feature->isOccupied(siteId)`. -/
def isOccupiedAt (w : World K) (p : FPtr) (i : Int) : Except Fault Bool :=
  match p with
  | .null => .error (.ub .nullDeref)
  | .site id => do .ok (← w.siteOf id).isOccupied
  | .cluster id => do (← w.clusterOf id).isOccupiedSite i

/-- `feature->vacate(siteId)`. -/
def vacateAt (w : World K) (p : FPtr) (i : Int) : Except Fault (World K) :=
  match p with
  | .null => .error (.ub .nullDeref)
  | .site id => do
    let s ← (← w.siteOf id).vacate
    .ok { w with sites := w.sites.put id s }
  | .cluster id => do
    let c ← (← w.clusterOf id).vacateSite i
    .ok { w with clusters := w.clusters.put id c }

/-- `feature->occupy(siteId)`. -/
def occupyAt (w : World K) (p : FPtr) (i : Int) : Except Fault (World K) :=
  match p with
  | .null => .error (.ub .nullDeref)
  | .site id => do
    let s ← (← w.siteOf id).occupy
    .ok { w with sites := w.sites.put id s }
  | .cluster id => do
    let c ← (← w.clusterOf id).occupySite i
    .ok { w with clusters := w.clusters.put id c }

/-- `feature->occupy()`. -/
def occupyFeat (w : World K) (p : FPtr) : Except Fault (World K) :=
  match p with
  | .null => .error (.ub .nullDeref)
  | .site id => do
    let s ← (← w.siteOf id).occupy
    .ok { w with sites := w.sites.put id s }
  | .cluster id => do
    let c ← (← w.clusterOf id).occupy
    .ok { w with clusters := w.clusters.put id c }

/-- `feature->removeWalker(walker_id, siteId)`. -/
def removeAt (w : World K) (p : FPtr) (wid i : Int) : Except Fault (World K) :=
  match p with
  | .null => .error (.ub .nullDeref)
  | .site id => do
    let s ← (← w.siteOf id).vacate
    .ok { w with sites := w.sites.put id s }
  | .cluster id => do
    let c ← (← w.clusterOf id).removeWalker wid i
    .ok { w with clusters := w.clusters.put id c }

/-- `feature->getDwellTime(walker_id)`. -/
def dwellAt (w : World K) (p : FPtr) (wid : Int) (e : K) : Except Fault (K × World K) :=
  match p with
  | .null => .error (.ub .nullDeref)
  | .site id => do .ok ((← w.siteOf id).getDwellTime e, w)
  | .cluster id => do
    let (t, c) ← (← w.clusterOf id).getDwellTime wid e
    .ok (t, { w with clusters := w.clusters.put id c })

/-- `feature->pickNewSiteId(walker_id)`. -/
def pickAt (w : World K) (p : FPtr) (wid : Int) (u : K) : Except Fault (Int × World K) :=
  match p with
  | .null => .error (.ub .nullDeref)
  | .site id => do .ok ((← w.siteOf id).pickNewSiteId u, w)
  | .cluster id => do
    let (n, c) ← (← w.clusterOf id).pickNewSiteId wid u
    .ok (n, { w with clusters := w.clusters.put id c })

/-! ## Walkers -/

/-- The walker behind a handle. -/
def walkerOf (w : World K) (h : Int) : Except Fault (Walker K) :=
  match w.walkers.get? h with
  | none => .error (.ub .nullDeref)
  | some x => .ok x

/-- walker.cpp 18-28. -/
def walkerSite (x : Walker K) : Except Fault Int := if x.site = unassignedId then .error .runtimeError else .ok x.site

/-- walker.cpp 30-37. -/
def walkerPot (x : Walker K) : Except Fault Int := if x.pot = unassignedId then .error .runtimeError else .ok x.pot

/-- `new Walker` under the handle `h`. -/
def newWalker (w : World K) (h : Int) : World K := { w with walkers := w.walkers.set h ⟨unassignedId, unassignedId, -1⟩ }

/-- walker.hpp 25. -/
def walkerOccupy (w : World K) (h i : Int) : Except Fault (World K) := do
  let x ← w.walkerOf h
  .ok { w with walkers := w.walkers.set h { x with site := i } }

/-- walker.hpp 40. -/
def walkerSetPotential (w : World K) (h i : Int) : Except Fault (World K) := do
  let x ← w.walkerOf h
  .ok { w with walkers := w.walkers.set h { x with pot := i } }

/-- walker.hpp 55. -/
def walkerSetDwell (w : World K) (h : Int) (t : K) : Except Fault (World K) := do
  let x ← w.walkerOf h
  .ok { w with walkers := w.walkers.set h { x with dwell := t } }

/-- coarsegrainsystem.cpp 148-173: one round of the loop of `initializeWalkers`. -/
def initWalker (w : World K) (a : Entry K) : Except Fault (World K) := do
  let x ← w.walkerOf a.handle
  let i ← walkerSite x
  if w.feats.has i then
    let p := w.feat i
    let w ← w.occupyFeat p
    let (t, w) ← w.dwellAt p a.wid a.e
    let (n, w) ← w.pickAt p a.wid a.u
    .ok { w with walkers := w.walkers.set a.handle { x with dwell := t, pot := n } }
  else .error .runtimeError

/-- coarsegrainsystem.cpp 148-174. -/
def initWalkers (w : World K) : List (Entry K) → Except Fault Unit × World K
  | [] => (.ok (), w)
  | a :: rest =>
    match initWalker w a with
    | .error e => (.error e, w)
    | .ok w => initWalkers w rest

/-- coarsegrainsystem.cpp 139-175: `initializeWalkers`. -/
def initializeWalkers (w : World K) (l : List (Entry K)) : Except Fault Unit × World K :=
  if w.feats.length = 0 then (.error .runtimeError, w) else initWalkers w l

/-- coarsegrainsystem.cpp 193-201: `removeWalkerFromSystem`. -/
def removeWalker (w : World K) (wid h : Int) : Except Fault (World K) := do
  let x ← w.walkerOf h
  let i ← walkerSite x
  w.removeAt (w.feat i) wid i

/-! ## Queries -/

/-- coarsegrainsystem.cpp 125-137. -/
def getVisitFrequencyOfSite (w : World K) (i : Int) : Except Fault Int × World K :=
  match w.sites.get? i with
  | none => (.error .invalidArgument, w)
  | some s =>
    if s.partOfCluster then
      match w.clusters.getCluster s.clusterId with
      | .error e => (.error e, w)
      | .ok c =>
        match c.getVisitFrequency i with
        | (.error e, c) => (.error e, { w with clusters := w.clusters.put s.clusterId c })
        | (.ok n, c) => (chk (s.visits + n), { w with clusters := w.clusters.put s.clusterId c })
    else (.ok s.visits, w)

/-- coarsegrainsystem.cpp 203-205. -/
def getClusterIdOfSite (w : World K) (i : Int) : Except Fault Int := w.sites.getClusterIdOfSite i

/-- coarsegrainsystem.cpp 461-463. -/
def getClusters (w : World K) : IMap (List Int) := w.clusters.getSiteIdsOfClusters

/-- coarsegrainsystem.cpp 465-467. -/
def getResolutionOfClusters (w : World K) : IMap K := w.clusters.getResolutionOfClusters

/-- coarsegrainsystem.cpp 469-471. -/
def getTimeIncrementOfClusters (w : World K) : Except Fault (IMap K) := w.clusters.getTimeIncrementOfClusters

/-! ## Coarse graining -/

/-- coarsegrainsystem.cpp 417-421: the largest of the traversal times, at least 0. -/
def maxTime (times : List K) : K := times.foldl (fun m t => if t > m then t else m) 0

/-- coarsegrainsystem.cpp 447-454: the sum of the rates out of the sites `l` to sites outside `all`. -/
def exitSum (mem : Addr → K) (sites : SiteContainer K) (all : List Int) : List Int → K → Except Fault K
  | [], sum => .ok sum
  | i :: rest, sum => do
    let ns ← sites.getSiteIdsOfNeighbors i
    let sum ← ns.foldlM (fun sum n => if n ∈ all then .ok sum else do
      let r ← sites.getRateToNeighborOfSite mem i n
      .ok (sum + r)) sum
    exitSum mem sites all rest sum

/-- coarsegrainsystem.cpp 440-459. -/
def timeConstant (mem : Addr → K) (w : World K) (l : List Int) : Except Fault K := do
  let sum ← exitSum mem w.sites l l 0
  if sum = 0 then .ok 0 else .ok (1 / sum)

/-- coarsegrainsystem.cpp 431-438. -/
def satisfies (mem : Addr → K) (w : World K) (l : List Int) (maxtime : K) : Except Fault Bool := do
  let tc ← timeConstant mem w l
  let traverse := maxtime * 2
  match w.timeRes with
  | none => .error (.ub .uninitRead)
  | some res => .ok (decide (tc > traverse * w.perfRatio ∧ traverse < res))

/-- coarsegrainsystem.cpp 296-306. -/
def clustersOfSites (w : World K) : List Int → IMap Int → Except Fault (IMap Int)
  | [], acc => .ok acc
  | i :: rest, acc => do
    let p ← w.sites.partOfCluster i
    let c ← if p then w.sites.getClusterIdOfSite i else .ok unassignedId
    clustersOfSites w rest (acc.set i c)

/-- coarsegrainsystem.cpp 274-280. -/
def countUniqueClusters (sc : IMap Int) : Nat := (sc.map Prod.snd).dedup.length

/-- coarsegrainsystem.cpp 282-293. -/
def favoredClusterId (sc : IMap Int) : Int :=
  sc.foldl (fun best ic =>
    if ic.2 ≠ unassignedId then (if best = unassignedId ∨ ic.2 < best then ic.2 else best) else best) unassignedId

/-- coarsegrainsystem.cpp 322-328: the resolution of a new cluster. Division by a traversal time of 0 gives an infinity, so
that the other bound is taken. -/
def chosenResolution (tau maxtime res : K) : Except Fault K :=
  if maxtime = 0 ∧ ¬ 0 < tau then .error .nonFinite
  else
    let allowed := tau / res
    let chosen := if maxtime = 0 ∨ allowed < tau / (2 * maxtime) then allowed else tau / (2 * maxtime)
    .ok (if chosen < 2 then 2 else chosen)

/-- coarsegrainsystem.cpp 311-330: the new cluster, before it gets its seed. An exception or abort in here leaves the world
as it is except for the counter of ids. If the cluster has no exit (which takes a negative performance ratio), its time
constant is the sentinel, the C++ chooses the resolution 2 and goes on until a hop asks for the dwell time, where an
assert fails; the model stops already here. -/
def buildCluster (env : Env K) (mem : Addr → K) (w : World K) (id : Int) (l : List Int) (maxtime : K) :
    Except Fault (Cluster K) := do
  let c ← ((Cluster.new id).setConvergenceMethod .tolerance).setConvergenceTolerance (1 / 1000)
  let sites ← l.mapM w.sites.getSite
  let c ← c.addSites sites
  match c.update env mem with
  | (.error e, _) => .error e
  | (.ok _, c) =>
    match c.tau, w.timeRes with
    | some tau, some res => do
      let r ← chosenResolution tau maxtime res
      c.setResolution r
    | none, _ => .error .nonFinite
    | _, none => .error (.ub .uninitRead)

/-- coarsegrainsystem.cpp 337-340 (and 361-362): sites `l` are made members of cluster `cid`. -/
def attach (w : World K) (cid : Int) : List Int → Except Fault Unit × World K
  | [] => (.ok (), w)
  | i :: rest =>
    match w.sites.setClusterId i cid with
    | (.error e, _) => (.error e, w)
    | (.ok _, sites) => attach { w with sites := sites, feats := w.feats.set i (.cluster cid) } cid rest

/-- coarsegrainsystem.cpp 308-347: `createCluster_`. Adding the cluster to the container constructs a second cluster, which
takes an id too (cluster_container.cpp 15). -/
def createCluster (env : Env K) (mem : Addr → K) (w : World K) (l : List Int) (maxtime : K) :
    Except Fault Unit × World K :=
  match chk (w.nextId + 1) with
  | .error e => (.error e, w)
  | .ok next =>
    match buildCluster env mem w w.nextId l maxtime with
    | .error e => (.error e, { w with nextId := next })
    | .ok c =>
      match w.clusters.addCluster (w.seedCluster c) with
      | (.error e, _) => (.error e, { w with seed := w.nextSeed, nextId := next })
      | (.ok _, clusters) =>
        match chk (next + 1) with
        | .error e => (.error e, { w with seed := w.nextSeed, nextId := next })
        | .ok next => attach { w with seed := w.nextSeed, nextId := next, clusters := clusters } c.id l

/-- coarsegrainsystem.cpp 355-365: the loop over the sites of the basin. Returns the isolated sites and the ids of the other
clusters as well. -/
def mergeCollect (w : World K) (fav : Int) (iso : List (Site K)) (cids : List Int) :
    List (Int × Int) → Except Fault (List (Site K) × List Int) × World K
  | [] => (.ok (iso, cids), w)
  | (i, c) :: rest =>
    if c ≠ fav then
      match w.sites.getSite i with
      | .error e => (.error e, w)
      | .ok s =>
        match w.clusters.getCluster fav with
        | .error e => (.error e, w)
        | .ok _ =>
          match w.attach fav [i] with
          | (.error e, w) => (.error e, w)
          | (.ok _, w) =>
            if c = unassignedId then mergeCollect w fav (iso ++ [s]) cids rest
            else mergeCollect w fav iso (if c ∈ cids then cids else cids ++ [c]) rest
    else mergeCollect w fav iso cids rest

/-- coarsegrainsystem.cpp 368-371: the loop over the other clusters. -/
def mergeClusters (env : Env K) (mem : Addr → K) (fav : Int) (w : World K) : List Int → Except Fault Unit × World K
  | [] => (.ok (), w)
  | cid :: rest =>
    match w.clusters.getCluster fav, w.clusters.getCluster cid with
    | .error e, _ => (.error e, w)
    | _, .error e => (.error e, w)
    | .ok c, .ok src =>
      match c.migrateSitesFrom env mem src with
      | (.error e, c, src) => (.error e, { w with clusters := (w.clusters.put fav c).put cid src })
      | (.ok _, c, _) => mergeClusters env mem fav { w with clusters := (w.clusters.put fav c).erase cid } rest

/-- coarsegrainsystem.cpp 349-373: `mergeSitesAndClusters_`. -/
def merge (env : Env K) (mem : Addr → K) (w : World K) (order : List Int → List Int) (sc : IMap Int) (fav : Int) :
    Except Fault Unit × World K :=
  match mergeCollect w fav [] [] sc with
  | (.error e, w) => (.error e, w)
  | (.ok (iso, cids), w) =>
    match w.clusters.getCluster fav with
    | .error e => (.error e, w)
    | .ok c =>
      match c.addSites iso with
      | .error e => (.error e, w)
      | .ok c =>
        match c.update env mem with
        | (.error e, c) => (.error e, { w with clusters := w.clusters.put fav c })
        | (.ok _, c) => mergeClusters env mem fav { w with clusters := w.clusters.put fav c } (order cids)

/-- coarsegrainsystem.cpp 257-270: what is done with a basin that satisfies the equilibrium condition. -/
def coarseGrainBasin (env : Env K) (mem : Addr → K) (w : World K) (a : Choices K) (basin : List Int) :
    Except Fault Bool × World K :=
  match w.clustersOfSites basin [] with
  | .error e => (.error e, w)
  | .ok sc =>
    if countUniqueClusters sc = 1 ∧ (sc.head?.map Prod.snd) = some unassignedId then
      match createCluster env mem w basin (maxTime a.times) with
      | (.error e, w) => (.error e, w)
      | (.ok _, w) => (.ok true, w)
    else if countUniqueClusters sc ≠ 1 then
      match merge env mem w a.order sc (favoredClusterId sc) with
      | (.error e, w) => (.error e, w)
      | (.ok _, w) => (.ok true, w)
    else (.ok false, w)

/-- coarsegrainsystem.cpp 249-272: `coarseGrain_`. -/
def coarseGrain (env : Env K) (mem : Addr → K) (w : World K) (a : Choices K) (v : Int) : Except Fault Bool × World K :=
  match Explorer.default.findBasin a.vis mem w.sites w.clusters v with
  | .error e => (.error e, w)
  | .ok basin =>
    match w.satisfies mem basin (maxTime a.times) with
    | .error e => (.error e, w)
    | .ok false => (.ok false, w)
    | .ok true => coarseGrainBasin env mem w a basin

/-! ## Hop -/

/-- coarsegrainsystem.cpp 212-229: the move of the walker; returns the site it meant to hop to. -/
def hopMove (w : World K) (wid h : Int) (a : Choices K) : Except Fault (Int × World K) := do
  let x ← w.walkerOf h
  let i ← walkerSite x
  let j ← walkerPot x
  let p := w.feat i
  let q := w.feat j
  if ← w.isOccupiedAt q j then
    let w ← w.vacateAt p i
    let w ← w.occupyAt p i
    let (t, w) ← w.dwellAt p wid a.e
    let (n, w) ← w.pickAt p wid a.u
    .ok (j, { w with walkers := w.walkers.set h { x with dwell := t, pot := n } })
  else
    let w ← w.vacateAt p i
    let w ← w.occupyAt q j
    let (t, w) ← w.dwellAt q wid a.e
    let (n, w) ← w.pickAt q wid a.u
    .ok (j, { w with walkers := w.walkers.set h ⟨j, n, t⟩ })

/-- coarsegrainsystem.cpp 231-242: the counter and the coarse-graining attempt. -/
def hopCount (env : Env K) (mem : Addr → K) (w : World K) (a : Choices K) (j : Int) : Except Fault Unit × World K :=
  match chk (w.iteration + 1) with
  | .error e => (.error e, w)
  | .ok it =>
    let w := { w with iteration := it }
    if w.iteration > w.threshold then
      if w.thresholdMin ≠ infIterations then
        match coarseGrain env mem w a j with
        | (.error e, w) => (.error e, w)
        | (.ok true, w) => (.ok (), { w with threshold := w.thresholdMin, iteration := 0 })
        | (.ok false, w) =>
          match chk (w.threshold * 2) with
          | .error e => (.error e, w)
          | .ok t => (.ok (), { w with threshold := t, iteration := 0 })
      else (.ok (), { w with iteration := 0 })
    else (.ok (), w)

/-- coarsegrainsystem.cpp 207-243: `hop`. -/
def hop (env : Env K) (mem : Addr → K) (w : World K) (wid h : Int) (a : Choices K) : Except Fault Unit × World K :=
  match hopMove w wid h a with
  | .error e => (.error e, w)
  | .ok (j, w) => hopCount env mem w a j

/-! ## Histories -/

/-- A call of the user: on the system, on a walker, or (`elsewhere`) on another system of the program, which uses up `n`
cluster ids. -/
inductive Op (K : Type) where
  | setTimeResolution (t : K)
  | setMinThreshold (n : Int)
  | setRandomSeed (n : Nat)
  | setPerformanceRatio (r : K)
  | initializeSystem (m : IMap (IMap Addr))
  | newWalker (h : Int)
  | walkerOccupy (h i : Int)
  | walkerSetPotential (h i : Int)
  | walkerSetDwell (h : Int) (t : K)
  | initializeWalkers (l : List (Entry K))
  | hop (wid h : Int) (a : Choices K)
  | removeWalker (wid h : Int)
  | getVisitFrequencyOfSite (i : Int)
  | elsewhere (n : Nat)

/-- A call that returns nothing, and that leaves the world as it is when it fails. -/
def simple (w : World K) (r : Except Fault (World K)) : Except Fault Int × World K :=
  match r with
  | .ok w => (.ok 0, w)
  | .error e => (.error e, w)

/-- The result of a call (0 if it returns nothing) and the world it leaves behind. -/
def step (env : Env K) (mem : Addr → K) (w : World K) : Op K → Except Fault Int × World K
  | .setTimeResolution t => ((w.setTimeResolution t).1.map fun _ => 0, (w.setTimeResolution t).2)
  | .setMinThreshold n => (.ok 0, w.setMinThreshold n)
  | .setRandomSeed n => ((w.setRandomSeed n).1.map fun _ => 0, (w.setRandomSeed n).2)
  | .setPerformanceRatio r => (.ok 0, w.setPerformanceRatio r)
  | .initializeSystem m => ((w.initializeSystem mem m).1.map fun _ => 0, (w.initializeSystem mem m).2)
  | .newWalker h => (.ok 0, w.newWalker h)
  | .walkerOccupy h i => w.simple (w.walkerOccupy h i)
  | .walkerSetPotential h i => w.simple (w.walkerSetPotential h i)
  | .walkerSetDwell h t => w.simple (w.walkerSetDwell h t)
  | .initializeWalkers l => ((w.initializeWalkers l).1.map fun _ => 0, (w.initializeWalkers l).2)
  | .hop wid h a => ((w.hop env mem wid h a).1.map fun _ => 0, (w.hop env mem wid h a).2)
  | .removeWalker wid h => w.simple (w.removeWalker wid h)
  | .getVisitFrequencyOfSite i => w.getVisitFrequencyOfSite i
  | .elsewhere n => match chk (w.nextId + n) with
    | .error e => (.error e, w)
    | .ok next => (.ok 0, { w with nextId := next })

/-- A call in a history: the world before it, the contents of the rate variables, the call, its result and the world after
it. -/
structure Event (K : Type) where
  pre : World K
  mem : Addr → K
  op : Op K
  res : Except Fault Int
  post : World K

/-- The history `evs` leads from `w` to `w'`. After a C++ exception the program may go on, after any other fault not.
Between two calls the rate variables may change in any way. -/
inductive Trace (env : Env K) : World K → List (Event K) → World K → Prop where
  | nil (w : World K) : Trace env w [] w
  | snoc {w w1 w' : World K} {evs : List (Event K)} {op : Op K} {res : Except Fault Int} (mem : Addr → K)
      (ht : Trace env w evs w1) (h : w1.step env mem op = (res, w')) (hr : Cluster.GoesOn res) :
      Trace env w (evs ++ [⟨w1, mem, op, res, w'⟩]) w'

end World
end Mythical
