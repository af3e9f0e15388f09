import Verif.Spec.Site

/-! # Specification vocabulary: the order of the hash map of a site -/

namespace Mythical.SiteSpec
open Mythical Site
variable {K : Type}

/-- Two sites whose data members are the same except for the order in which the map of neighbours is iterated. -/
structure Reordered (s s' : Site K) : Prop where
  rest : s' = { s with neigh := s'.neigh }
  wf : s.neigh.WF
  perm : List.Perm s.neigh s'.neigh

/-- The same call; the map given to `setRatesToNeighbors` may be iterated in another order. -/
inductive SameCall : Op → Op → Prop where
  | set {m m' : IMap Addr} (hw : m.WF) (h : List.Perm m m') : SameCall (.setRates m) (.setRates m')
  | add (n : Int) (a : Addr) : SameCall (.addNeigh n a) (.addNeigh n a)
  | reset (n : Int) (a : Addr) : SameCall (.resetNeigh n a) (.resetNeigh n a)

variable [Field K] [LinearOrder K] [IsStrictOrderedRing K] [FloorRing K]

/-- The results of two calls agree: both return, with reordered sites, or both fail in the same way. -/
def Agree (r r' : Except Fault (Site K)) : Prop :=
  (∃ s s', r = .ok s ∧ r' = .ok s' ∧ Reordered s s') ∨ ∃ e, r = .error e ∧ r' = .error e

/-- Successful calls, each with its own values of the rate variables. Before every call, and at the end, the map of neighbours may
come in another order, and so may the maps given. -/
inductive Runs : Site K → List ((Addr → K) × Op) → Site K → Prop where
  | nil {s s' : Site K} (h : Reordered s s') : Runs s [] s'
  | cons {s s0 s1 s' : Site K} {mem : Addr → K} {o o' : Op} {ops : List ((Addr → K) × Op)} (h : Reordered s s0)
      (ho : SameCall o o') (hc : s0.step mem o' = .ok s1) (ht : Runs s1 ops s') : Runs s ((mem, o) :: ops) s'

end Mythical.SiteSpec
