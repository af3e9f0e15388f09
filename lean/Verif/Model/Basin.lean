import Verif.Model.Containers

/-!
# Model of `BasinExplorer` (src/libmythical/basin_explorer.cpp, basin_explorer.hpp)

The graph library (`GraphVisitorLargestKnownValue`) is not part of the repository. Its contract, as far as it is used here:
it keeps a set of explored vertices (at first the starting vertex) and a set of open edges; `edgeCanBeAdded` is true for an
edge from an explored to an unexplored vertex; `getNextEdge` returns some open edge (which one is left open),
`chooseTerminalVertex` its unexplored end; `exploreEdge` makes that end explored and drops all open edges to it;
`allEdgesExplored` means that there are no open edges; `getExploredVertices` lists the explored vertices in some order.
The choices it leaves open, and the iteration order of the edges (which are kept in an `unordered_set` of pointers,
graph_library_adapter.hpp 34-51), are given by a `Visitor`, on which the results must not depend.
-/

namespace Mythical

/-- The choices left open by the graph library and by the hash tables: the order in which the edges out of a vertex are
offered (which may depend on the vertices explored so far), the open edge that is explored next, and the order of the
result. -/
structure Visitor where
  order : List Int → Int → List Int → List Int
  order_perm : ∀ ex v l, (order ex v l).Perm l
  next : List Int → List (Int × Int) → Nat
  out : List Int → List Int
  out_perm : ∀ l, (out l).Perm l

/-- basin_explorer.hpp 19, 23: `threshold_` and `max_exploration_count_`. -/
structure Explorer (K : Type) where
  threshold : K
  maxCount : Nat

/-- The state of one search: the visitor's explored vertices and open edges, and `fastest_rate_`, `slowest_rate_`,
`current_sites_fastest_rate_` (basin_explorer.hpp 20-22; overwritten at the start of each search). -/
structure Search (K : Type) where
  explored : List Int
  opn : List (Int × Int)
  fastest : K
  slowest : K
  cur : K

namespace Explorer
variable {K : Type} [Field K] [LinearOrder K] [IsStrictOrderedRing K] [FloorRing K]

/-- basin_explorer.hpp 14. -/
def default : Explorer K := ⟨19 / 20, 5⟩

/-- basin_explorer.cpp 90-92. -/
def setThreshold (ex : Explorer K) (t : K) : Explorer K := { ex with threshold := t }

/-- basin_explorer.cpp 94-96: the `int` is converted to `size_t`. -/
def setMaxExplorationCount (ex : Explorer K) (n : Int) : Explorer K := { ex with maxCount := (n % 2 ^ 64).toNat }

/-- basin_explorer.cpp 98-102. -/
def updateFastest (st : Search K) (rate : K) : Search K := { st with fastest := if rate > st.fastest then rate else st.fastest }

/-- basin_explorer.cpp 104-108. -/
def updateSlowest (st : Search K) (rate : K) : Search K := { st with slowest := if rate < st.slowest then rate else st.slowest }

/-- basin_explorer.cpp 110-116. -/
def rateFastEnough (ex : Explorer K) (st : Search K) (rate : K) : Except Fault Bool :=
  if st.fastest = 0 ∨ st.cur = 0 then .error .nonFinite
  else .ok (decide (rate / st.fastest * ((rate - st.cur) / st.cur) > ex.threshold ∨ rate ≥ st.slowest * (9999 / 10000)))

/-- basin_explorer.cpp 71-86: the body of the loop of `addEdges_`, for the edge from `v` to `n`; 118-126 `getRate_`. -/
def addEdge (ex : Explorer K) (mem : Addr → K) (sites : SiteContainer K) (v : Int) (st : Search K) (n : Int) :
    Except Fault (Search K) :=
  if n ∈ st.explored then .ok st
  else do
    let rate ← sites.getRateToNeighborOfSite mem v n
    let st := updateFastest st rate
    let cur ← sites.getFastestRateOffSite mem v
    let st := { st with cur := cur }
    if ← rateFastEnough ex st rate then
      .ok (updateSlowest { st with opn := st.opn ++ [(v, n)] } rate)
    else .ok st

/-- basin_explorer.cpp 65-88: `addEdges_`. -/
def addEdges (ex : Explorer K) (mem : Addr → K) (sites : SiteContainer K) (v : Int) :
    Search K → List Int → Except Fault (Search K)
  | st, [] => .ok st
  | st, n :: ns => do
    let st ← addEdge ex mem sites v st n
    addEdges ex mem sites v st ns

/-- graph_library_adapter.hpp 34-51: the ends of the edges out of `v`, in the order of the visitor. An unknown `v` has no
edges (`rate_map` is a copy). -/
def edgesOf (vis : Visitor) (sites : SiteContainer K) (explored : List Int) (v : Int) : List Int :=
  vis.order explored v (((sites.getRates).get? v).getD []).keys

/-- basin_explorer.cpp 42-58: the loop of `findBasin`; `outOfFuel` after the given number of rounds. -/
def searchLoop (ex : Explorer K) (vis : Visitor) (mem : Addr → K) (sites : SiteContainer K) :
    Nat → Search K → Except Fault (List Int)
  | 0, _ => .error .outOfFuel
  | fuel + 1, st =>
    match st.opn with
    | [] => .ok (vis.out st.explored)
    | e :: es => do
      let n := ((e :: es).getD (vis.next st.explored (e :: es) % (e :: es).length) e).2
      let st := { st with explored := st.explored ++ [n], opn := st.opn.filter fun e => e.2 ≠ n }
      let st ← addEdges ex mem sites n st (edgesOf vis sites st.explored n)
      if st.explored.length > ex.maxCount then .ok []
      else searchLoop ex vis mem sites fuel st

/-- basin_explorer.cpp 30-36: the slowest rate at the start. -/
def startSlowest (mem : Addr → K) (sites : SiteContainer K) (clusters : ClusterContainer K) (v : Int) (fastest : K) :
    Except Fault K := do
  if ← sites.partOfCluster v then
    let cid ← sites.getClusterIdOfSite v
    let c ← clusters.getCluster cid
    .ok (c.getFastestRateOffCluster mem)
  else .ok fastest

/-- basin_explorer.cpp 16-63: `findBasin`. The loop is given as many rounds as it can need. -/
def findBasin (ex : Explorer K) (vis : Visitor) (mem : Addr → K) (sites : SiteContainer K) (clusters : ClusterContainer K)
    (v : Int) : Except Fault (List Int) := do
  let fastest ← sites.getFastestRateOffSite mem v
  let slowest ← startSlowest mem sites clusters v fastest
  let st ← addEdges ex mem sites v ⟨[v], [], fastest, slowest, fastest⟩ (edgesOf vis sites [v] v)
  searchLoop ex vis mem sites (ex.maxCount + 2) st

end Explorer
end Mythical
