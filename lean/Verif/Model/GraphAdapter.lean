import Verif.Model.Containers

/-! # Model of graph_library_adapter.{hpp,cpp} and of the graph that coarsegrainsystem.cpp builds with it -/

set_option linter.unusedSectionVars false

namespace Mythical
variable {K : Type} [Field K] [LinearOrder K] [IsStrictOrderedRing K] [FloorRing K]

/-- An `ugly::EdgeDirectedWeighted`: an edge from `src` to `dst` (graph_library_adapter.hpp 25, 44, 65, 86). -/
structure WEdge (K : Type) where
  src : Int
  dst : Int
  weight : K
  deriving DecidableEq

/-- An `ugly::Graph<string>` of such edges: its nodes and edges (coarsegrainsystem.cpp 411-412). The nodes carry nothing. -/
structure WGraph (K : Type) where
  nodes : List Int
  edges : List (WEdge K)

namespace GraphAdapter

/-- graph_library_adapter.cpp 9-20: the nodes, one for every id in the list. -/
def nodes : List Int → List Int → List Int
  | [], acc => acc
  | i :: ids, acc => if i ∈ acc then nodes ids acc else nodes ids (acc ++ [i])

/-- graph_library_adapter.hpp 22-28, 41-47: the edges out of site `i`, put before those in `acc`. `rate_map` is a copy, so
that an unknown site has no edges. The order of the neighbours is that of the list. -/
def ratesOfSite (mem : Addr → K) (rates : IMap (IMap Addr)) (i : Int) (acc : List (WEdge K)) : List (WEdge K) :=
  ((rates.get? i).getD []).foldl (fun acc na => ⟨i, na.1, mem na.2⟩ :: acc) acc

/-- graph_library_adapter.hpp 17-31, 34-51: `convertSitesOutgoingRatesToUniqueWeightedEdges` and
`convertSitesOutgoingRatesToSharedWeightedEdges` for one site. The two differ in the kind of pointer only. -/
def edgesOfSite (mem : Addr → K) (sites : SiteContainer K) (i : Int) : List (WEdge K) := ratesOfSite mem sites.getRates i []

/-- graph_library_adapter.hpp 54-72: `convertSitesOutgoingRatesToSharedWeightedEdges` for a list of sites. -/
def edgesOfSites (mem : Addr → K) (sites : SiteContainer K) (ids : List Int) : List (WEdge K) :=
  ids.foldl (fun acc i => ratesOfSite mem sites.getRates i acc) []

/-- graph_library_adapter.hpp 74-91: `convertSitesOutgoingRatesToTimeSharedWeightedEdges`. A rate of 0 gives an infinite
time in the code (and 0 here); the theorems are about positive rates. -/
def timeEdgesOfSites (mem : Addr → K) (sites : SiteContainer K) (ids : List Int) : List (WEdge K) :=
  ids.foldl (fun acc i =>
    ((sites.getRates.get? i).getD []).foldl (fun acc na => ⟨i, na.1, 1 / mem na.2⟩ :: acc) acc) []

/-- coarsegrainsystem.cpp 400-412: the graph of the sites of a basin, whose shortest paths are the traversal times. -/
def timeGraph (mem : Addr → K) (sites : SiteContainer K) (ids : List Int) : WGraph K :=
  ⟨nodes ids [], timeEdgesOfSites mem sites ids⟩

end GraphAdapter
end Mythical
