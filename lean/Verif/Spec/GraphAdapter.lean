import Verif.Model.GraphAdapter
import Verif.Spec.System

/-! # Specification vocabulary for the graphs given to the graph library -/

namespace Mythical.GraphSpec
open Mythical
variable {K : Type}

/-- There is a way from `x` along edges of the graph, the weights of which add up to `t`. -/
inductive Walk [Field K] (g : WGraph K) (x : Int) : Int → K → Prop where
  | start : Walk g x x 0
  | hop {i : Int} {t : K} (h : Walk g x i t) (e : WEdge K) (he : e ∈ g.edges) (hi : e.src = i) : Walk g x e.dst (t + e.weight)

/-- The contract of `maxMinimumDistanceBetweenEveryVertex`, as far as it is used: for any two vertices, the second of which can be
reached from the first, one of the distances `times` that it returns is at least the length of some way between them; and every
distance it returns is the length of a shortest way between two vertices. -/
def Distances [Field K] [LinearOrder K] (g : WGraph K) (times : List K) : Prop :=
  (∀ x ∈ g.nodes, ∀ y ∈ g.nodes, x ≠ y → (∃ d, Walk g x y d) → ∃ t ∈ times, ∃ t' ≤ t, Walk g x y t') ∧
  ∀ t ∈ times, ∃ x ∈ g.nodes, ∃ y ∈ g.nodes, x ≠ y ∧ Walk g x y t ∧ ∀ t', Walk g x y t' → t ≤ t'

/-- The traversal times of every hop in the history are the distances in the graph of the basin, as the library returns them. -/
def LibraryTimes [Field K] [LinearOrder K] [IsStrictOrderedRing K] [FloorRing K] (evs : List (World.Event K)) : Prop :=
  ∀ ev ∈ evs, ∀ wid h a v w1 B, ev.op = .hop wid h a → ev.pre.hopMove wid h a = .ok (v, w1) →
    Explorer.default.findBasin a.vis ev.mem w1.sites w1.clusters v = .ok B →
    Distances (GraphAdapter.timeGraph ev.mem w1.sites B) a.times

end Mythical.GraphSpec
