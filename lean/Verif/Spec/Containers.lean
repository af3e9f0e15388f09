import Verif.Model.Containers

/-! # Specification of the two containers: a finite map from ids to objects

A map is just the function from ids to what is stored there. -/

namespace Mythical.ContainerSpec
open Mythical
variable {K : Type} [Field K] [LinearOrder K] [IsStrictOrderedRing K] [FloorRing K]

/-- What is stored under each id. -/
abbrev Store (V : Type) := Int → Option V

/-- The store with `v` put under `id`; everything else is as before. -/
def Store.upd {V : Type} (A : Store V) (id : Int) (v : V) : Store V := fun j => if j = id then some v else A j

/-- The store without anything under `id`; everything else is as before. -/
def Store.del {V : Type} (A : Store V) (id : Int) : Store V := fun j => if j = id then none else A j

/-- Adding an object whose id is taken throws and changes nothing. -/
def add {V : Type} (A : Store V) (id : Int) (v : V) : Except Fault Unit × Store V :=
  if A id = none then (.ok (), A.upd id v) else (.error .invalidArgument, A)

/-- Objects are added one by one until one of them throws. -/
def addAll {V : Type} (idOf : V → Int) (A : Store V) : List V → Except Fault Unit × Store V
  | [] => (.ok (), A)
  | v :: rest => match (add A (idOf v) v).1 with
    | .error e => (.error e, A)
    | .ok _ => addAll idOf (add A (idOf v) v).2 rest

/-- Changing the object under `id` throws, and changes nothing, if there is none, or if the change itself fails; otherwise
it touches that object only. -/
def modify {V R : Type} (A : Store V) (id : Int) (f : V → Except Fault (R × V)) : Except Fault R × Store V :=
  match A id with
  | none => (.error .invalidArgument, A)
  | some v => match f v with
    | .error e => (.error e, A)
    | .ok (r, v) => (.ok r, A.upd id v)

/-- The smallest id of a cluster among the sites `ids`; the "unassigned" id if there is none. -/
def smallest (A : Store (Site K)) (ids : List Int) : Int :=
  ((ids.filterMap fun i => (A i).bind fun s => if s.clusterId = unassignedId then none else some s.clusterId).min?).getD
    unassignedId

/-- What a call on a site container should do. Asking for the smallest cluster id of sites of which one is unknown throws
(as every other lookup does); it never changes anything. -/
def siteStep (A : Store (Site K)) : SiteContainer.Op K → Except Fault (Option Int) × Store (Site K)
  | .addSite s => ((add A s.id s).1.map fun _ => none, (add A s.id s).2)
  | .addSites l => ((addAll (·.id) A l).1.map fun _ => none, (addAll (·.id) A l).2)
  | .put id s => modify A id fun _ => .ok (none, s)
  | .setClusterId id cid => modify A id fun s => .ok (none, { s with clusterId := cid })
  | .getSmallestClusterId ids =>
    (if ∀ i ∈ ids, A i ≠ none then .ok (some (smallest A ids)) else .error .invalidArgument, A)
  | .vacate id => modify A id fun s => s.vacate.map fun s => (none, s)
  | .occupy id => modify A id fun s => s.occupy.map fun s => (none, s)

/-- What a call on a cluster container should do. -/
def clusterStep (A : Store (Cluster K)) : ClusterContainer.Op K → Except Fault (Option K) × Store (Cluster K)
  | .addCluster c => ((add A c.id c).1.map fun _ => none, (add A c.id c).2)
  | .addClusters l => ((addAll (·.id) A l).1.map fun _ => none, (addAll (·.id) A l).2)
  | .put id c => modify A id fun _ => .ok (none, c)
  | .erase id => (.ok none, A.del id)
  | .vacate id => modify A id fun c => c.vacate.map fun c => (none, c)
  | .occupy id => modify A id fun c => c.occupy.map fun c => (none, c)
  | .getDwellTime wid id e => modify A id fun c => (c.getDwellTime wid e).map fun tc => (some tc.1, tc.2)

/-- The results of a sequence of calls, and what is there at the end. -/
def runAll {S Op R : Type} (f : S → Op → R × S) (s : S) : List Op → List R × S
  | [] => ([], s)
  | op :: ops => ((f s op).1 :: (runAll f (f s op).2 ops).1, (runAll f (f s op).2 ops).2)

/-- The container holds exactly what the store holds, each id once. -/
def Holds {V : Type} (m : IMap V) (A : Store V) : Prop := m.WF ∧ ∀ i, m.get? i = A i

/-- No call asks for the smallest cluster id of an unknown site. -/
def AsksKnown : Store (Site K) → List (SiteContainer.Op K) → Prop
  | _, [] => True
  | A, op :: ops =>
    (match op with
      | .getSmallestClusterId ids => ∀ i ∈ ids, A i ≠ none
      | _ => True) ∧ AsksKnown (siteStep A op).2 ops

end Mythical.ContainerSpec
