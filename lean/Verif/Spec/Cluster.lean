import Verif.Model.Cluster
import Verif.Spec.Site
import Mathlib.Algebra.BigOperators.Group.Finset.Basic

/-! # Specification vocabulary for `Cluster`

Everything here is in terms of the rates that the user has given to the sites of the cluster. -/

namespace Mythical.ClusterSpec
open Mythical
variable {K : Type} [Field K] [LinearOrder K]

/-- The ids of the sites in the cluster. -/
def ids (c : Cluster K) : Finset Int := c.sites.keys.toFinset

/-- The rate from site `i` of the cluster to `j`; 0 if there is none. -/
def rate (mem : Addr → K) (c : Cluster K) (i j : Int) : K :=
  match c.sites.get? i with
  | none => 0
  | some s => match s.neigh.get? j with
    | none => 0
    | some a => mem a

/-- The ids of all sites that some site of the cluster has a rate to. -/
def reach (c : Cluster K) : Finset Int := (c.sites.flatMap fun is => is.2.neigh.keys).toFinset

/-- The sites outside the cluster that some site of the cluster has a rate to. -/
def exits (c : Cluster K) : Finset Int := reach c \ ids c

/-- Sum of the rates out of site `i`. -/
def outRate (mem : Addr → K) (c : Cluster K) (i : Int) : K := ∑ j ∈ reach c, rate mem c i j

/-- Sum of the rates from site `i` to sites inside the cluster. -/
def inRate (mem : Addr → K) (c : Cluster K) (i : Int) : K := ∑ j ∈ ids c, rate mem c i j

/-- Sum of the rates from site `i` to sites outside the cluster. -/
def exitRate (mem : Addr → K) (c : Cluster K) (i : Int) : K := ∑ j ∈ exits c, rate mem c i j

/-- Probability that a hop from site `i` goes to `j`. -/
def hopProb (mem : Addr → K) (c : Cluster K) (i j : Int) : K := rate mem c i j / outRate mem c i

/-- Mean time spent on site `i` before a hop. -/
def siteTime (mem : Addr → K) (c : Cluster K) (i : Int) : K := 1 / outRate mem c i

/-- The occupation probability that the cluster reports for site `i`. -/
def occ (c : Cluster K) (i : Int) : K :=
  match c.getProbabilityOfOccupying i with
  | .ok p => p
  | .error _ => 0

/-- Probability that a walker which is on site `i` with probability `occ c i` leaves the cluster with its next hop. -/
def leaveProb (mem : Addr → K) (c : Cluster K) : K := ∑ i ∈ ids c, occ c i * (exitRate mem c i / outRate mem c i)

/-- Mean time until the next hop of a walker which is on site `i` with probability `occ c i`. -/
def meanTime (mem : Addr → K) (c : Cluster K) : K := ∑ i ∈ ids c, occ c i * siteTime mem c i

/-- A cluster made of sites with positive rates whose cached values are up to date. -/
structure Sound (mem : Addr → K) (c : Cluster K) : Prop where
  /-- site ids are distinct (it is a map) -/
  wf : c.sites.WF
  /-- the neighbours of a site are a map -/
  neighWF : ∀ i s, c.sites.get? i = some s → s.neigh.WF
  /-- rates are positive -/
  pos : ∀ i s, c.sites.get? i = some s → ∀ na ∈ s.neigh, 0 < mem na.2
  /-- the sites' cached probabilities and time constants are those of the rates -/
  fresh : ∀ i s, c.sites.get? i = some s → s.Fresh mem

/-- Every link inside the cluster goes both ways. -/
def Mutual (mem : Addr → K) (c : Cluster K) : Prop :=
  ∀ i ∈ ids c, ∀ j ∈ ids c, 0 < rate mem c i j → 0 < rate mem c j i

/-- Every site of the cluster has a link to a site of the cluster. -/
def Linked (mem : Addr → K) (c : Cluster K) : Prop :=
  ∀ i ∈ ids c, ∃ j ∈ ids c, 0 < rate mem c i j

/-- Some site of the cluster has a rate to a site outside. -/
def HasExit (mem : Addr → K) (c : Cluster K) : Prop := ∃ i ∈ ids c, ∃ j, j ∉ ids c ∧ 0 < rate mem c i j

/-- There is a chain of links inside the cluster from `i` to `j`. -/
inductive Path (mem : Addr → K) (c : Cluster K) : Int → Int → Prop where
  | refl (i : Int) : Path mem c i i
  | step {i j k : Int} (h : Path mem c i j) (hk : k ∈ ids c) (hr : 0 < rate mem c j k) : Path mem c i k

/-- Any two sites of the cluster are connected inside the cluster. -/
def Connected (mem : Addr → K) (c : Cluster K) : Prop := ∀ i ∈ ids c, ∀ j ∈ ids c, Path mem c i j

/-- Neither an update nor a merge is among the calls. -/
def NotUpdated (evs : List (Cluster.Event K)) : Prop :=
  ∀ ev ∈ evs, match ev.op with
    | .update | .migrateSitesFrom _ => False
    | _ => True

/-- The visit counts that the cluster keeps can be read (no counter overflows while they are brought up to date). An
update saves and restores them. -/
def VisitsReadable [IsStrictOrderedRing K] [FloorRing K] (c : Cluster K) : Prop :=
  ∀ i ∈ c.siteVisits.keys, ∃ n c', c.getVisitFrequency i = (.ok n, c')

/-! ## What an observer of the calls writes down about one walker -/

/-- The stay of a walker in the cluster. -/
structure Stay (K : Type) where
  /-- the dwell time drawn when the walker was first asked about -/
  drawn : K
  /-- sum of the dwell times handed out since -/
  given : K
  /-- how many they were -/
  calls : Nat

variable [IsStrictOrderedRing K] [FloorRing K]

/-- One line in the observer's book on walker `w`. The first dwell time handed out opens a stay (with the drawn time: the
exponential draw times the cluster's time constant), every further one is added to it, and a pick of a site that is not
in `S` closes it. -/
def book (S : Finset Int) (w : Int) (stay : Option (Stay K)) (ev : Cluster.Event K) : Option (Stay K) :=
  match ev.op, ev.res with
  | .getDwellTime w' e, .ok (.time t) =>
    if w' = w then
      match stay with
      | none => some ⟨e * ev.pre.tau.getD 0, t, 1⟩
      | some a => some ⟨a.drawn, a.given + t, a.calls + 1⟩
    else stay
  | .pickNewSiteId w' _, .ok (.num n) => if w' = w ∧ n ∉ S then none else stay
  | _, _ => stay

/-- The book after a history. -/
def stayOf (S : Finset Int) (w : Int) (evs : List (Cluster.Event K)) : Option (Stay K) := evs.foldl (book S w) none

/-- Every time increment in the history is positive. -/
def PosIncrement (evs : List (Cluster.Event K)) : Prop := ∀ ev ∈ evs, ∀ dt, ev.pre.timeInc = some dt → 0 < dt

/-- Every draw for a pick is in `[0,1)`. -/
def ValidDraws (evs : List (Cluster.Event K)) : Prop := ∀ ev ∈ evs, ∀ w u, ev.op = .pickNewSiteId w u → SiteSpec.Draw u

/-! ## What an observer of the calls writes down about one site -/

/-- Whether site `i` is occupied: from an occupy of it until a vacate of it (removing a walker vacates the site). -/
def occupiedAfter (i : Int) (b : Bool) (ev : Cluster.Event K) : Bool :=
  match ev.op, ev.res with
  | .occupySite j, .ok _ => if j = i then true else b
  | .vacateSite j, .ok _ => if j = i then false else b
  | .removeWalker _ j, .ok _ => if j = i then false else b
  | _, _ => b

/-- Site `i`, occupied at first iff `b`, is only vacated while it is occupied. -/
def VacatedOnlyIfOccupied (i : Int) : Bool → List (Cluster.Event K) → Prop
  | _, [] => True
  | b, ev :: evs =>
    (match ev.op with
      | .vacateSite j => j = i → b = true
      | .removeWalker _ j => j = i → b = true
      | _ => True) ∧ VacatedOnlyIfOccupied i (occupiedAfter i b ev) evs

/-- The clusters that are merged into this one in the history have distinct site ids (they are maps). -/
def ProperSources (evs : List (Cluster.Event K)) : Prop := ∀ ev ∈ evs, ∀ src, ev.op = .migrateSitesFrom src → src.sites.WF

/-! ## The master equation -/

/-- What the user has asked for: how the iteration stops, after how many rounds, and with what tolerance. -/
structure Settings (K : Type) where
  method : Method
  rounds : Int
  tolerance : K

/-- The settings after a call that sets one of them and returns. -/
def setting (s : Settings K) (ev : Cluster.Event K) : Settings K :=
  match ev.op, ev.res with
  | .setConvergenceMethod m, .ok _ => { s with method := m }
  | .setConvergenceIterations n, .ok _ => { s with rounds := n }
  | .setConvergenceTolerance t, .ok _ => { s with tolerance := t }
  | _, _ => s

/-- The settings after a history: at first 3 rounds per site and a tolerance of 1/100. -/
def settingsOf (evs : List (Cluster.Event K)) : Settings K := evs.foldl setting ⟨.iterationsPerSite, 3, 1 / 100⟩

/-- Where a walker on site `n` with probability `p n` is after one hop, if the hop does not leave the cluster. -/
def afterHop (mem : Addr → K) (c : Cluster K) (p : Int → K) (i : Int) : K :=
  (∑ n ∈ ids c, p n * hopProb mem c n i) / ∑ j ∈ ids c, ∑ n ∈ ids c, p n * hopProb mem c n j

/-- The distribution after `n` rounds from the uniform one, each the mean of the distribution and that after one hop. -/
def rounds (mem : Addr → K) (c : Cluster K) : Nat → Int → K
  | 0, _ => 1 / (ids c).card
  | n + 1, i => (rounds mem c n i + afterHop mem c (rounds mem c n) i) / 2

/-- A positive distribution on the sites that is the same after one hop that does not leave the cluster. -/
structure Stationary (mem : Addr → K) (c : Cluster K) (p : Int → K) : Prop where
  pos : ∀ i ∈ ids c, 0 < p i
  one : ∑ i ∈ ids c, p i = 1
  same : ∀ i ∈ ids c, afterHop mem c p i = p i

/-- The square of the Euclidean distance between the distributions before and after round `n + 1`. -/
def change (mem : Addr → K) (c : Cluster K) (n : Nat) : K :=
  ∑ i ∈ ids c, (rounds mem c (n + 1) i - rounds mem c n i) ^ 2

/-- The cluster reports `n` as the number of visits of site `i`. -/
def reports (c : Cluster K) (i n : Int) : Prop := (c.getVisitFrequency i).1 = .ok n

end Mythical.ClusterSpec
