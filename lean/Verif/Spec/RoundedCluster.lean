import Verif.Model.Rounded
import Verif.Spec.Cluster

/-! # Specification vocabulary for clusters in rounded arithmetic -/

namespace Mythical.RoundSpec
open Mythical
variable {K : Type} [Field K] [LinearOrder K] [IsStrictOrderedRing K] [FloorRing K]

/-- No number the computation starts from is negative, the resolution is positive, and the maps are maps. -/
structure Nonneg (mem : Addr → K) (c : Cluster K) : Prop where
  rate : ∀ is ∈ c.sites, ∀ na ∈ is.2.neigh, 0 ≤ mem na.2
  tau : ∀ is ∈ c.sites, 0 ≤ is.2.tau
  prob : ∀ is ∈ c.sites, ∀ np ∈ is.2.prob, 0 ≤ np.2
  on : ∀ ip ∈ c.probOn, 0 ≤ ip.2
  res : 0 < c.resolution
  onWF : c.probOn.WF

/-- The number of links of the sites of a cluster. -/
def links (c : Cluster K) : Nat := (c.sites.map fun is => is.2.neigh.length).sum

/-- A rule that picks a key of `shares` for a draw: the draws that pick a key form an interval whose length differs from its
share by at most `d`; the draws below a threshold, which differs from 1 by at most `e`, pick a key, the others give -1. -/
def PicksLike (shares : IMap K) (e d : K) (pick : K → Int) : Prop :=
  ∃ last : K, |last - 1| ≤ e ∧ (∀ u, 0 ≤ u → (pick u ∈ shares.keys ↔ u < last) ∧ (pick u = -1 ↔ last ≤ u)) ∧
    ∀ n p, shares.get? n = some p → ∃ lo hi : K, 0 ≤ lo ∧ lo ≤ hi ∧ hi ≤ last ∧ |hi - lo - p| ≤ d ∧
      ∀ u, 0 ≤ u → (pick u = n ↔ lo ≤ u ∧ u < hi)

/-- Two times that may be missing: both are, or they differ by at most the part `d` of the first. -/
def Within (d : K) : Option K → Option K → Prop
  | none, none => True
  | some t, some t' => |t' - t| ≤ d * t
  | _, _ => False

/-- The probability of a hop to `n` a site has stored. -/
def stored (s : Site K) (n : Int) : K := ((s.prob.find? fun np => np.1 == n).map Prod.snd).getD 0

/-- The sites of a cluster have tables for their neighbours whose entries are not negative and add up to 1 up to `δ`; hops
between sites of the cluster go both ways; a site hops to a site of the cluster with a probability of at least `φ`; no
site has more than `d` neighbours. -/
structure Basin (c : Cluster K) (d : Nat) (δ φ : K) : Prop where
  wf : c.sites.WF
  neighWF : ∀ is ∈ c.sites, is.2.neigh.WF
  tab : ∀ is ∈ c.sites, ∀ n ∈ is.2.neigh.keys, n ∈ is.2.prob.map Prod.fst
  nonneg : ∀ is ∈ c.sites, ∀ np ∈ is.2.prob, 0 ≤ np.2
  both : ∀ is ∈ c.sites, ∀ js ∈ c.sites, js.1 ∈ is.2.neigh.keys → is.1 ∈ js.2.neigh.keys
  one : ∀ is ∈ c.sites, |(is.2.neigh.keys.map (stored is.2)).sum - 1| ≤ δ
  inside : ∀ is ∈ c.sites, φ ≤ ((is.2.neigh.keys.filter fun n => n ∈ c.sites.keys).map (stored is.2)).sum
  deg : ∀ is ∈ c.sites, is.2.neigh.length ≤ d

/-- The sites of a cluster got their neighbours and tables from sequences of settings of rates, in the arithmetic with rounding
`fl`; the last rates are positive, and those to sites of the cluster are together at least the part `θ` of all rates of a
site; links between sites of the cluster go both ways; no site has more than `d` neighbours. -/
structure Island (fl : K → K) (c : Cluster K) (d : Nat) (θ : K) : Prop where
  wf : c.sites.WF
  made : ∀ is ∈ c.sites, ∃ (ops : List ((Addr → K) × Site.Op)) (mem : Addr → K) (o : Site.Op) (s : Site K),
    (∀ mo ∈ ops ++ [(mem, o)], SiteSpec.ValidOp mo.2) ∧ Rounded.run fl (Site.new is.1) (ops ++ [(mem, o)]) = .ok s ∧
    is.2.prob = s.prob ∧ is.2.neigh = s.neigh ∧ (∀ na ∈ is.2.neigh, 0 < mem na.2) ∧
    θ * (is.2.neigh.map fun na => mem na.2).sum ≤ ((is.2.neigh.filter fun na => na.1 ∈ c.sites.keys).map fun na => mem na.2).sum
  both : ∀ is ∈ c.sites, ∀ js ∈ c.sites, js.1 ∈ is.2.neigh.keys → is.1 ∈ js.2.neigh.keys
  deg : ∀ is ∈ c.sites, is.2.neigh.length ≤ d

/-- As `Island`, with the same rates in memory at the last setting of every site, and with the time constants. -/
structure IslandAt (fl : K → K) (mem : Addr → K) (c : Cluster K) (d : Nat) (θ : K) : Prop where
  wf : c.sites.WF
  made : ∀ is ∈ c.sites, ∃ (ops : List ((Addr → K) × Site.Op)) (o : Site.Op) (s : Site K),
    (∀ mo ∈ ops ++ [(mem, o)], SiteSpec.ValidOp mo.2) ∧ Rounded.run fl (Site.new is.1) (ops ++ [(mem, o)]) = .ok s ∧
    is.2.prob = s.prob ∧ is.2.neigh = s.neigh ∧ is.2.tau = s.tau
  pos : ∀ is ∈ c.sites, ∀ na ∈ is.2.neigh, 0 < mem na.2
  inside : ∀ i ∈ ClusterSpec.ids c, θ * ClusterSpec.outRate mem c i ≤ ClusterSpec.inRate mem c i
  both : ∀ is ∈ c.sites, ∀ js ∈ c.sites, js.1 ∈ is.2.neigh.keys → is.1 ∈ js.2.neigh.keys
  deg : ∀ is ∈ c.sites, is.2.neigh.length ≤ d

/-- The part of its stay in the cluster that a walker spends on site `i`, if it is on the sites with the probabilities of
`rounds` between its hops. -/
def stayShare (mem : Addr → K) (c : Cluster K) (n : Nat) (i : Int) : K :=
  ClusterSpec.rounds mem c n i * ClusterSpec.siteTime mem c i /
    ∑ j ∈ ClusterSpec.ids c, ClusterSpec.rounds mem c n j * ClusterSpec.siteTime mem c j

/-- The probability that such a walker leaves the cluster to site `j`. -/
def exitShare (mem : Addr → K) (c : Cluster K) (n : Nat) (j : Int) : K :=
  (∑ i ∈ ClusterSpec.ids c, ClusterSpec.rounds mem c n i * ClusterSpec.hopProb mem c i j) /
    ∑ k ∈ ClusterSpec.exits c, ∑ i ∈ ClusterSpec.ids c, ClusterSpec.rounds mem c n i * ClusterSpec.hopProb mem c i k

end Mythical.RoundSpec
