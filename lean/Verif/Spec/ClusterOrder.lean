import Verif.Model.Cluster

/-! # Specification vocabulary for the order of hash maps

The C++ standard does not say in which order an `unordered_map` is iterated, and not in which order `std::sort` leaves
equal elements. Two maps are the same map if they have the same entries, in whatever order. -/

namespace Mythical.OrderSpec
open Mythical
variable {K : Type}

/-- The same entries in some other order, each key at most once. -/
structure SameMap {V : Type} (m m' : IMap V) : Prop where
  wf : m.WF
  perm : List.Perm m m'

/-- Two clusters whose data members are the same except for the order in which the hash maps are iterated. `P` relates
the tables of probabilities (vectors, whose order matters), `I` and `N` the two cumulative tables. -/
structure Same (P I N : List (Int × K) → List (Int × K) → Prop) (c c' : Cluster K) : Prop where
  id : c'.id = c.id
  visits : c'.visits = c.visits
  prevVisits : c'.prevVisits = c.prevVisits
  occupied : c'.occupied = c.occupied
  tau : c'.tau = c.tau
  internalTau : c'.internalTau = c.internalTau
  timeInc : c'.timeInc = c.timeInc
  resolution : c'.resolution = c.resolution
  iterations : c'.iterations = c.iterations
  tol : c'.tol = c.tol
  method : c'.method = c.method
  seed : c'.seed = c.seed
  remaining : SameMap c.remaining c'.remaining
  sites : SameMap c.sites c'.sites
  probOn : SameMap c.probOn c'.probOn
  hopOff : SameMap c.hopOff c'.hopOff
  hopBetween : SameMap c.hopBetween c'.hopBetween
  sumEscape : SameMap c.sumEscape c'.sumEscape
  sumInternal : SameMap c.sumInternal c'.sumInternal
  internalDwell : SameMap c.internalDwell c'.internalDwell
  siteVisits : SameMap c.siteVisits c'.siteVisits
  probInternal : P c.probInternal c'.probInternal
  probNeigh : P c.probNeigh c'.probNeigh
  cumInternal : I c.cumInternal c'.cumInternal
  cumNeigh : N c.cumNeigh c'.cumNeigh

/-- Only the order of the hash maps differs. -/
abbrev Reordered (c c' : Cluster K) : Prop := Same Eq Eq Eq c c'

/-- The order of the hash maps differs, and so may that of the entries in the tables of probabilities (and with it all
the cumulative values). -/
abbrev Shuffled (c c' : Cluster K) : Prop := Same List.Perm (fun _ _ => True) (fun _ _ => True) c c'

/-- The sort does not let the order of its input show (it breaks ties by the site ids, say). -/
def Canonical [LE K] (sort : SortFn K) : Prop := ∀ l l', List.Perm l l' → sort.f l = sort.f l'

/-- The same public call; the cluster that sites are taken from may differ in the order of its maps. -/
inductive SameCall (R : Cluster K → Cluster K → Prop) : Cluster.Op K → Cluster.Op K → Prop where
  | same (op : Cluster.Op K) (h : ∀ src, op ≠ .migrateSitesFrom src) : SameCall R op op
  | migrate {src src' : Cluster K} (h : R src src') : SameCall R (.migrateSitesFrom src) (.migrateSitesFrom src')

/-- The call asks for a site. -/
def IsPick : Cluster.Op K → Prop
  | .pickNewSiteId _ _ => True
  | _ => False

variable [Field K] [LinearOrder K] [IsStrictOrderedRing K] [FloorRing K]

/-- A history of successful calls with their results, each with its own values of the rate variables. Before every call
the hash maps may be put into any other order (a rehash, say), and every call may have its own way of sorting. `S` says
which ways of sorting are allowed. -/
inductive Runs (S : SortFn K → Prop) (fuel : Nat) : Cluster K → List ((Addr → K) × Cluster.Op K × Cluster.Out K) →
    Cluster K → Prop where
  | nil {c c' : Cluster K} (h : Reordered c c') : Runs S fuel c [] c'
  | cons {c c0 c1 c' : Cluster K} {mem : Addr → K} {op : Cluster.Op K} {r : Cluster.Out K} {evs} (sort : SortFn K)
      (hs : S sort) (h : Reordered c c0) (hc : c0.step ⟨sort, fuel⟩ mem op = (.ok r, c1)) (ht : Runs S fuel c1 evs c') :
      Runs S fuel c ((mem, op, r) :: evs) c'

/-- Two lists of calls with the same rates, the same arguments and, off the picks or everywhere, the same results. -/
def SameCalls (R : Cluster K → Cluster K → Prop) (picks : Bool)
    (evs evs' : List ((Addr → K) × Cluster.Op K × Cluster.Out K)) : Prop :=
  List.Forall₂ (fun a b => a.1 = b.1 ∧ SameCall R a.2.1 b.2.1 ∧ (picks = true ∨ ¬ IsPick a.2.1 → a.2.2 = b.2.2)) evs evs'

/-- Two lists of calls with the same rates and the same arguments. -/
def SameArgs (R : Cluster K → Cluster K → Prop) (evs evs' : List ((Addr → K) × Cluster.Op K × Cluster.Out K)) : Prop :=
  List.Forall₂ (fun a b => a.1 = b.1 ∧ SameCall R a.2.1 b.2.1) evs evs'

end Mythical.OrderSpec
