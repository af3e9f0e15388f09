import Verif.Model.Site

/-!
# Model of `Cluster` (src/libmythical/topologyfeatures/cluster.cpp, cluster.hpp)

Conventions as in `Verif.Model.Site`; moreover

* a call that can throw a C++ exception or that changes the object returns its result together with the cluster it
  leaves behind; a call that can fail only by an assert, undefined behaviour or a non-finite number, after which the
  program does not go on, returns plain `Except`;
* `tau = none` is the sentinel `constants::unassigned_value`; a computed time constant that happens to be equal to the
  sentinel (`DBL_MIN`) is not identified with it;
* `timeInc = none`: `time_increment_` has not been initialised (or was set from the sentinel by `setResolution`);
* a read `m[k]` of a missing key, which inserts 0, is modelled as the value 0 without the insertion where the inserted
  entry has no effect (the private maps below); for `sitesInCluster_` the insertion is modelled;
* `operator<<` and `getInternalRatesFromNeighborsComingToSite_` (never called) are not modelled.
-/

namespace Mythical

/-- `std::sort` with `x.second > y.second` (cluster.cpp 604-608, 656-660): any function that returns a descending
permutation; equal elements may come in any order. -/
structure SortFn (K : Type) [LE K] where
  f : List (Int × K) → List (Int × K)
  perm : ∀ l, (f l).Perm l
  desc : ∀ l, (f l).Pairwise fun x y => y.2 ≤ x.2

/-- What a call depends on besides the object: the sorting algorithm, and the number of rounds after which the
tolerance loop is given up (reported as `Fault.outOfFuel`; termination is a separate theorem). -/
structure Env (K : Type) [LE K] where
  sort : SortFn K
  fuel : Nat

/-- cluster.hpp 84-88. -/
inductive Method where
  | iterationsPerCluster
  | iterationsPerSite
  | tolerance
  deriving DecidableEq

/-- cluster.hpp 278-360 and topology_feature.hpp 31-56. -/
@[ext] structure Cluster (K : Type) where
  id : Int
  /-- `total_visit_freq_` -/
  visits : Int
  /-- `prev_total_visit_freq_` -/
  prevVisits : Int
  /-- `occupied_` of the cluster itself -/
  occupied : Int
  /-- `escape_time_constant_` -/
  tau : Option K
  /-- `internal_time_constant_` (only ever written) -/
  internalTau : Option K
  /-- `time_increment_` -/
  timeInc : Option K
  resolution : K
  iterations : Nat
  tol : K
  method : Method
  /-- `remaining_walker_dwell_times_` -/
  remaining : IMap K
  /-- `sitesInCluster_` -/
  sites : IMap (Site K)
  /-- `probabilityOnSite_` -/
  probOn : IMap K
  /-- `probabilityHopOffInternalSite_` -/
  hopOff : IMap K
  /-- `probabilityHopBetweenInternalSite_` -/
  hopBetween : IMap K
  /-- `sumOfEscapeRateFromSiteToNeighbor_` -/
  sumEscape : IMap K
  /-- `sumOfEscapeRateFromSiteToInternalSite_` -/
  sumInternal : IMap K
  /-- `internal_dwell_time_` -/
  internalDwell : IMap K
  /-- `site_visits_` -/
  siteVisits : IMap K
  /-- `probabilityHopToInternalSite_` -/
  probInternal : List (Int × K)
  /-- `cumulitive_probabilityHopToInternalSite_` -/
  cumInternal : List (Int × K)
  /-- `probabilityHopToNeighbor_` -/
  probNeigh : List (Int × K)
  /-- `cumulitive_probabilityHopToNeighbor_` -/
  cumNeigh : List (Int × K)
  seed : Option Nat
  deriving DecidableEq

/-- `std::round`: half away from zero. -/
def roundHalf {K : Type} [Field K] [LinearOrder K] [FloorRing K] (x : K) : Int :=
  if 0 ≤ x then ⌊x + 1 / 2⌋ else -⌊-x + 1 / 2⌋

/-- Sum of the values of a map. -/
def IMap.sumVals {K : Type} [Add K] [Zero K] (m : IMap K) : K := m.foldl (fun t kv => t + kv.2) 0

/-- `m[k]` read of a map of doubles. -/
def IMap.at0 {K : Type} [Zero K] (m : IMap K) (k : Int) : K := (m.get? k).getD 0

namespace Cluster
variable {K : Type} [Field K] [LinearOrder K] [IsStrictOrderedRing K] [FloorRing K]

/-- cluster.cpp 52-66, topology_feature.cpp 40-58: a new cluster with the id taken from `clusterIdCounter`. -/
def new (id : Int) : Cluster K where
  id := id
  visits := 0
  prevVisits := 0
  occupied := 0
  tau := some 0
  internalTau := none
  timeInc := none
  resolution := 20
  iterations := 3
  tol := 1 / 100
  method := .iterationsPerSite
  remaining := []
  sites := []
  probOn := []
  hopOff := []
  hopBetween := []
  sumEscape := []
  sumInternal := []
  internalDwell := []
  siteVisits := []
  probInternal := []
  cumInternal := []
  probNeigh := []
  cumNeigh := []
  seed := none

/-! ## Occupancy -/

/-- A default constructed `Site` (its id is not set, which `new` cannot express; the id of such a site is never
read). -/
def defaultSite : Site K := Site.new unassignedId

/-- `sitesInCluster_[siteId]`. -/
def siteAt (c : Cluster K) (id : Int) : Site K := (c.sites.get? id).getD defaultSite

/-- cluster.cpp 26-33: `occupy(siteId)`. -/
def occupySite (c : Cluster K) (id : Int) : Except Fault (Cluster K) :=
  if c.siteVisits.has id then do
    let v ← chk (c.visits + 1)
    .ok { c with visits := v, sites := c.sites.set id (c.siteAt id).setToOccupiedStatus }
  else .error .assertFail

/-- cluster.cpp 35-39: `isOccupied(siteId)`. -/
def isOccupiedSite (c : Cluster K) (id : Int) : Except Fault Bool :=
  match c.sites.get? id with
  | some s => .ok s.isOccupied
  | none => .error .assertFail

/-- cluster.cpp 41-45: `vacate(siteId)`; the last line decrements the cluster's own flag
(topology_feature.cpp 20-22). -/
def vacateSite (c : Cluster K) (id : Int) : Except Fault (Cluster K) := do
  let s ← (c.siteAt id).vacate
  let o ← chk (c.occupied - 1)
  .ok { c with sites := c.sites.set id s, occupied := o }

/-- topology_feature.cpp 10-13: `occupy()` of a cluster. -/
def occupy (c : Cluster K) : Except Fault (Cluster K) := do
  let o ← chk (c.occupied + 1)
  let v ← chk (c.visits + 1)
  .ok { c with occupied := o, visits := v }

/-- topology_feature.cpp 20-22: `vacate()` of a cluster. -/
def vacate (c : Cluster K) : Except Fault (Cluster K) := do
  let o ← chk (c.occupied - 1)
  .ok { c with occupied := o }

/-- topology_feature.cpp 28-30: `isOccupied()` of a cluster. -/
def isOccupied (c : Cluster K) : Bool := c.occupied > 0

/-- topology_feature.hpp 124-127 with `remove_ptr_ = &removeWalker_` (topology_feature.cpp 57, 36-38):
`removeWalker(walker_id, site_id)`; `removeWalkerCluster_` (cluster.cpp 47-50) is never installed. -/
def removeWalker (c : Cluster K) (_wid id : Int) : Except Fault (Cluster K) := c.vacateSite id

/-! ## Sites -/

/-- cluster.hpp 121-123. -/
def siteIsInCluster (c : Cluster K) (id : Int) : Bool := c.sites.has id

/-- cluster.cpp 68-74 (the caller's copy of the site gets the same cluster id; not modelled). -/
def addSite (c : Cluster K) (s : Site K) : Except Fault (Cluster K) :=
  if c.sites.has s.id then .error .assertFail
  else .ok { c with sites := c.sites.set s.id { s with clusterId := c.id } }

/-- cluster.cpp 76-83. -/
def addSites (c : Cluster K) : List (Site K) → Except Fault (Cluster K)
  | [] => .ok c
  | s :: rest => do
    let c ← c.addSite s
    c.addSites rest

/-- cluster.cpp 123-129. -/
def getSiteIdsInCluster (c : Cluster K) : List Int := c.sites.keys

/-- cluster.cpp 131-135. -/
def getSiteIdsNeighboringCluster (c : Cluster K) : List Int := c.probNeigh.map Prod.fst

/-- cluster.cpp 137-140. -/
def getProbabilityOfOccupying (c : Cluster K) (id : Int) : Except Fault K :=
  if c.sites.has id then .ok (c.probOn.at0 id) else .error .assertFail

/-- cluster.cpp 181-193. -/
def getProbabilityOfHoppingToNeighbor (c : Cluster K) (n : Int) : Except Fault K :=
  match IMap.get? c.probNeigh n with
  | some p => .ok p
  | none => .error .assertFail

/-! ## Rates -/

/-- cluster.cpp 293-307: `getRatesToNeighborsOfCluster_`; only sites with an outside neighbour have an entry. -/
def ratesToNeighbors (mem : Addr → K) (c : Cluster K) : IMap (IMap K) :=
  (c.sites.map fun is =>
    (is.1, (is.2.neigh.filter fun na => !c.siteIsInCluster na.1).map fun na => (na.1, mem na.2))).filter
      fun ir => !ir.2.isEmpty

/-- cluster.cpp 309-323: `getRatesBetweenInternalSites_`. -/
def ratesInternal (mem : Addr → K) (c : Cluster K) : IMap (IMap K) :=
  (c.sites.map fun is =>
    (is.1, (is.2.neigh.filter fun na => c.siteIsInCluster na.1).map fun na => (na.1, mem na.2))).filter
      fun ir => !ir.2.isEmpty

/-- cluster.cpp 274-285. -/
def getFastestRateOffCluster (mem : Addr → K) (c : Cluster K) : K :=
  (c.ratesToNeighbors mem).foldl
    (fun best ir => ir.2.foldl (fun best nr => if nr.2 > best then nr.2 else best) best) 0

/-! ## Master equation -/

/-- cluster.cpp 325-331. Sites are never removed one by one, so the keys of `probabilityOnSite_` become those of
`sitesInCluster_`. -/
def initProb (c : Cluster K) : Cluster K :=
  { c with probOn := c.sites.foldl (fun m is => m.set is.1 (1 / (c.sites.length : K))) c.probOn }

/-- cluster.cpp 343-352: the change of the temporary probability of site `id` by one of its neighbours. -/
def iterNeigh (c : Cluster K) (id : Int) (s : Site K) (t : K) (n : Int) : Except Fault K := do
  let t ← match c.sites.get? n with
    | some sn => do
      let p ← sn.probabilityTo id
      pure (t + p * c.probOn.at0 n)
    | none => pure t
  let p ← s.probabilityTo n
  pure (t - p * c.probOn.at0 id)

/-- cluster.cpp 343-352: the temporary probability of site `id` (initialised on line 338). -/
def iterSite (c : Cluster K) (id : Int) (s : Site K) : Except Fault K :=
  s.getNeighborSiteIds.foldlM (c.iterNeigh id s) (c.probOn.at0 id)

/-- cluster.cpp 335-354: the temporary probabilities. -/
def iterTemp (c : Cluster K) : Except Fault (IMap K) :=
  c.sites.mapM fun is => do
    let t ← c.iterSite is.1 is.2
    pure (is.1, t)

/-- cluster.cpp 333-372. A division by a zero total would make all probabilities NaN. -/
def iterate (c : Cluster K) : Except Fault (Cluster K) := do
  let temp ← c.iterTemp
  let total := temp.sumVals
  if total = 0 then .error .nonFinite
  else
    let mixed : IMap K := temp.map fun it => (it.1, (it.2 * (1 / total) + c.probOn.at0 it.1) * (1 / 2))
    let total2 := mixed.sumVals
    if total2 = 0 then .error .nonFinite
    else .ok { c with probOn := mixed.foldl (fun m it => m.set it.1 (it.2 * (1 / total2))) c.probOn }

/-- cluster.cpp 379-381, 387-389: `n` rounds. -/
def iterateN : Nat → Cluster K → Except Fault (Cluster K)
  | 0, c => .ok c
  | n + 1, c => do
    let c ← c.iterate
    iterateN n c

/-- cluster.cpp 396-400: the square of `error`. -/
def errorSq (old new : Cluster K) : K :=
  old.probOn.foldl (fun e ip => e + (ip.2 - new.probOn.at0 ip.1) ^ 2) 0

/-- cluster.cpp 393-402 from the body on: one round, then test. `pow(error,0.5) > tolerance` is
`error > tolerance^2` since the tolerance is not negative (setConvergenceTolerance). -/
def toleranceLoop : Nat → Cluster K → Except Fault (Cluster K)
  | 0, _ => .error .outOfFuel
  | n + 1, c => do
    let c' ← c.iterate
    if errorSq c c' > c.tol ^ 2 then toleranceLoop n c' else .ok c'

/-- cluster.cpp 376-403: the iteration part of `solveMasterEquation_`. The product of iterations and number of sites
is assumed to fit in a `long`. -/
def solveProb (env : Env K) (c : Cluster K) : Except Fault (Cluster K) :=
  let c := c.initProb
  match c.method with
  | .iterationsPerCluster => iterateN c.iterations c
  | .iterationsPerSite => iterateN (c.iterations * c.sites.length) c
  | .tolerance => if c.tol * (11 / 10) > c.tol then toleranceLoop env.fuel c else .ok c

/-- cluster.cpp 610-615, 662-667: running totals. -/
def cumulate : K → List (Int × K) → List (Int × K)
  | _, [] => []
  | t, (n, p) :: rest => (n, p + t) :: cumulate (p + t) rest

/-- cluster.cpp 584-616. The cumulative list is appended to, not replaced. -/
def calcHopToInternal (env : Env K) (c : Cluster K) : Except Fault (Cluster K) :=
  let vals := c.probOn.map fun ip => (ip.1, ip.2 * (c.siteAt ip.1).tau)
  let total := IMap.sumVals vals
  if vals ≠ [] ∧ total = 0 then .error .nonFinite
  else
    let sorted := env.sort.f (vals.map fun ip => (ip.1, ip.2 / total))
    .ok { c with probInternal := sorted, cumInternal := c.cumInternal ++ cumulate 0 sorted }

/-- cluster.cpp 626-636: one neighbour of one site. -/
def hopNeighStep (c : Cluster K) (id : Int) (s : Site K) (acc : IMap K) (n : Int) : Except Fault (IMap K) :=
  if c.siteIsInCluster n then .ok acc
  else do
    let p ← s.probabilityTo n
    .ok (acc.set n (acc.at0 n + p * c.probOn.at0 id))

/-- cluster.cpp 622-638. -/
def hopNeighTemp (c : Cluster K) : Except Fault (IMap K) :=
  c.sites.foldlM (fun acc is => is.2.getNeighborSiteIds.foldlM (c.hopNeighStep is.1 is.2) acc) []

/-- cluster.cpp 619-668. The cumulative list is appended to, not replaced. -/
def calcHopToNeighbors (env : Env K) (c : Cluster K) : Except Fault (Cluster K) := do
  let temp ← c.hopNeighTemp
  let total := IMap.sumVals temp
  if temp ≠ [] ∧ total = 0 then .error .nonFinite
  else
    let sorted := env.sort.f (temp.map fun np => (np.1, np.2 * (1 / total)))
    .ok { c with probNeigh := sorted, cumNeigh := c.cumNeigh ++ cumulate 0 sorted }

/-- cluster.cpp 670-680. -/
def calcInternalDwell (mem : Addr → K) (c : Cluster K) : Except Fault (Cluster K) :=
  let rates := c.ratesInternal mem
  if ∃ ir ∈ rates, IMap.sumVals ir.2 = 0 then .error .nonFinite
  else .ok { c with internalDwell := rates.foldl (fun m ir => m.set ir.1 (1 / IMap.sumVals ir.2)) c.internalDwell }

/-- cluster.cpp 374-407. -/
def solveMasterEquation (env : Env K) (mem : Addr → K) (c : Cluster K) : Except Fault (Cluster K) := do
  let c ← c.solveProb env
  let c ← c.calcHopToInternal env
  let c ← c.calcHopToNeighbors env
  c.calcInternalDwell mem

/-! ## Time constants -/

/-- cluster.cpp 520-537. -/
def calcSumEscape (mem : Addr → K) (c : Cluster K) : Cluster K :=
  { c with sumEscape := (c.ratesToNeighbors mem).map fun ir => (ir.1, IMap.sumVals ir.2) }

/-- cluster.cpp 541-555. -/
def calcSumInternal (mem : Addr → K) (c : Cluster K) : Cluster K :=
  { c with sumInternal := (c.ratesInternal mem).map fun ir => (ir.1, IMap.sumVals ir.2) }

/-- cluster.cpp 465-470: the sum of all rates leaving the cluster. -/
def sumRatesOff (mem : Addr → K) (c : Cluster K) : K :=
  (c.ratesToNeighbors mem).foldl (fun t ir => ir.2.foldl (fun t nr => t + nr.2) t) 0

/-- cluster.cpp 459-485. If the rates off the cluster add up to zero (in particular if it has no exits) the C++ computes
0/0 and fills the table with NaN. `calcEscape` reads an entry only if its site has a positive sum of rates off the
cluster, and `calcHopBetween` (line 513) divides NaN once more. So if no site has such a sum, the NaN values are never
read and the model leaves the table empty; if one has (rates of both signs), the model stops. -/
def calcHopOff (mem : Addr → K) (c : Cluster K) : Except Fault (Cluster K) :=
  if c.sites.length ≤ 1 then .error .assertFail
  else
    let off := c.sumRatesOff mem
    let sumTau := c.probOn.foldl (fun t ip => t + (c.siteAt ip.1).tau) 0
    if off = 0 then
      if c.probOn.any fun ip => decide (0 < c.sumEscape.at0 ip.1) then .error .nonFinite
      else .ok { c with hopOff := [] }
    else if sumTau = 0 then .error .nonFinite
    else
      let raw := c.probOn.map fun ip =>
        (ip.1, ip.2 * c.sumEscape.at0 ip.1 / off * (c.siteAt ip.1).tau / sumTau)
      let total2 := IMap.sumVals raw
      if total2 = 0 then .error .nonFinite
      else .ok { c with hopOff := raw.map fun ip => (ip.1, ip.2 / total2) }

/-- cluster.cpp 488-516. The normalisation on line 513 divides `probabilityHopOffInternalSite_`. -/
def calcHopBetween (mem : Addr → K) (c : Cluster K) : Except Fault (Cluster K) :=
  if c.sites.length ≤ 1 then .error .assertFail
  else
    let hb : IMap K := (c.ratesInternal mem).map fun ir =>
      (ir.1, IMap.sumVals ir.2 * (c.siteAt ir.1).tau * c.probOn.at0 ir.1)
    let sumInt := IMap.sumVals hb
    if hb ≠ [] ∧ sumInt = 0 then .error .nonFinite
    else .ok { c with
      hopBetween := hb
      hopOff := hb.foldl (fun m ib => m.set ib.1 (m.at0 ib.1 / sumInt)) c.hopOff }

/-- cluster.cpp 557-570. In the first branch line 569 sets the time increment to the sentinel over the resolution, which
the model represents by `none`, as in `setResolution`. -/
def calcEscape (mem : Addr → K) (c : Cluster K) : Except Fault (Cluster K) :=
  if c.resolution = 0 then .error .nonFinite
  else if (c.ratesToNeighbors mem).length = 0 then .ok { c with tau := none, timeInc := none }
  else
    let t := c.hopOff.foldl (fun t ip =>
      if c.sumEscape.at0 ip.1 > 0 then t + 1 / c.sumEscape.at0 ip.1 * ip.2 else t) 0
    .ok { c with tau := some t, timeInc := some (t / c.resolution) }

/-- cluster.cpp 571-583. -/
def calcInternalTau (mem : Addr → K) (c : Cluster K) : Cluster K :=
  if (c.ratesInternal mem).length = 0 then { c with internalTau := none }
  else
    { c with internalTau := some (c.hopBetween.foldl (fun t ip =>
      if c.sumInternal.at0 ip.1 > 0 then t + 1 / c.sumInternal.at0 ip.1 * ip.2 else t) 0) }

/-! ## Visit counts -/

/-- cluster.cpp 246-250: the visits credited to site `id` for `diff` visits of the cluster. -/
def visitShare (c : Cluster K) (t diff : K) (id : Int) : Except Fault K :=
  match c.sites.get? id, c.internalDwell.get? id with
  | some s, some d =>
    if d = 0 ∨ c.resolution = 0 then .error .nonFinite
    else .ok (roundHalf (t * (diff * c.probOn.at0 id * s.tau / d) / c.resolution) : Int)
  | _, _ => .error .outOfRange

/-- cluster.cpp 245-251: the loop over (a copy of the entries of) `site_visits_`. -/
def flushLoop (c : Cluster K) (t diff : K) : List Int → Except Fault Unit × Cluster K
  | [] => (.ok (), c)
  | id :: rest =>
    match c.visitShare t diff id with
    | .error e => (.error e, c)
    | .ok v => flushLoop { c with siteVisits := c.siteVisits.set id (c.siteVisits.at0 id + v) } t diff rest

/-- cluster.cpp 243-253. -/
def flush (c : Cluster K) (t : K) : Except Fault Unit × Cluster K :=
  if c.visits = c.prevVisits then (.ok (), c)
  else
    match chk (c.visits - c.prevVisits) with
    | .error e => (.error e, c)
    | .ok d =>
      match c.flushLoop t (d : K) c.siteVisits.keys with
      | (.ok _, c') => (.ok (), { c' with prevVisits := c'.visits })
      | r => r

/-- cluster.cpp 236-257: `getVisitFrequency(siteId)`. -/
def getVisitFrequency (c : Cluster K) (id : Int) : Except Fault Int × Cluster K :=
  if c.siteVisits.has id then
    match c.tau with
    | none => (.error .assertFail, c)
    | some t =>
      match c.flush t with
      | (.error e, c') => (.error e, c')
      | (.ok _, c') =>
        let n := roundHalf (c'.siteVisits.at0 id)
        if FitsInt n then (.ok n, c') else (.error (.ub .floatToInt), c')
  else (.error .assertFail, c)

/-- cluster.cpp 223-234: `setVisitFrequency(frequency, siteId)`. -/
def setVisitFrequency (c : Cluster K) (freq id : Int) : Except Fault (Cluster K) :=
  if c.siteVisits.has id && c.tau.isSome then .ok { c with siteVisits := c.siteVisits.set id (freq : K) }
  else .error .assertFail

/-- cluster.cpp 111-113: the loop of `getVisitFrequencies_`. -/
def visitFreqsLoop (c : Cluster K) (acc : IMap Int) : List Int → Except Fault (IMap Int) × Cluster K
  | [] => (.ok acc, c)
  | id :: rest =>
    match c.getVisitFrequency id with
    | (.error e, c') => (.error e, c')
    | (.ok n, c') => visitFreqsLoop c' (acc.set id n) rest

/-- cluster.cpp 98-103: rebuild `site_visits_`, which has been cleared. -/
def restoreVisits (freqs : IMap Int) (c : Cluster K) : List Int → Except Fault (Cluster K)
  | [] => .ok c
  | id :: rest => do
    let c := { c with siteVisits := c.siteVisits.set id 0 }
    let c ← match freqs.get? id with
      | some f => c.setVisitFrequency f id
      | none => pure c
    restoreVisits freqs c rest

/-- cluster.cpp 89-104: `updateProbabilitiesAndTimeConstant` after the visit frequencies have been saved. -/
def rebuild (env : Env K) (mem : Addr → K) (freqs : IMap Int) (c : Cluster K) : Except Fault (Cluster K) := do
  let c ← c.solveMasterEquation env mem
  let c := c.calcSumEscape mem
  let c := c.calcSumInternal mem
  let c ← c.calcHopOff mem
  let c ← c.calcHopBetween mem
  let c ← c.calcEscape mem
  let c := c.calcInternalTau mem
  let c ← restoreVisits freqs { c with siteVisits := [] } c.sites.keys
  c.calcInternalDwell mem

/-- cluster.cpp 85-106: `updateProbabilitiesAndTimeConstant`. -/
def update (env : Env K) (mem : Addr → K) (c : Cluster K) : Except Fault Unit × Cluster K :=
  match c.visitFreqsLoop [] c.siteVisits.keys with
  | (.error e, c') => (.error e, c')
  | (.ok freqs, c') =>
    match rebuild env mem freqs c' with
    | .error e => (.error e, c')
    | .ok c'' => (.ok (), c'')

/-- cluster.cpp 145-148: the loop over the source's sites. -/
def migrateLoop (tid : Int) (src : Cluster K) (acc : IMap Int) : List Int → Except Fault (IMap Int) × Cluster K
  | [] => (.ok acc, src)
  | id :: rest =>
    let src := { src with sites := src.sites.set id { src.siteAt id with clusterId := tid } }
    match src.getVisitFrequency id with
    | (.error e, src) => (.error e, src)
    | (.ok n, src) => migrateLoop tid src (acc.set id n) rest

/-- cluster.cpp 169-171. -/
def addBackVisits (c : Cluster K) : List (Int × Int) → Except Fault (Cluster K)
  | [] => .ok c
  | (id, n) :: rest => do
    let c ← c.setVisitFrequency n id
    c.addBackVisits rest

/-- cluster.cpp 155-163. -/
def emptied (src : Cluster K) : Cluster K :=
  { src with
    sites := [], probOn := [], sumEscape := [], siteVisits := [], internalDwell := [], probNeigh := [],
    cumNeigh := [], tau := none, internalTau := none }

/-- `insert` of a map entry: an existing entry stays. -/
def insertIfNew (m : IMap (Site K)) (is : Int × Site K) : IMap (Site K) := if m.has is.1 then m else m.set is.1 is.2

/-- cluster.cpp 142-172: `migrateSitesFrom` (the two clusters are different objects). Returns the result, the target
and the source. `inserter` does not replace an existing entry. -/
def migrateSitesFrom (env : Env K) (mem : Addr → K) (c src : Cluster K) :
    Except Fault Unit × Cluster K × Cluster K :=
  match migrateLoop c.id src [] src.sites.keys with
  | (.error e, src) => (.error e, c, src)
  | (.ok visits, src) =>
    let c := { c with sites := src.sites.foldl insertIfNew c.sites }
    let src := src.emptied
    match c.update env mem with
    | (.error e, c) => (.error e, c, src)
    | (.ok _, c) =>
      match c.addBackVisits visits with
      | .error e => (.error e, c, src)
      | .ok c => (.ok (), c, src)

/-! ## Walkers -/

/-- cluster.cpp 205-221: `getDwellTime(walker_id)`, drawing `e = -log(number)` if the walker is new. -/
def getDwellTime (c : Cluster K) (wid : Int) (e : K) : Except Fault (K × Cluster K) :=
  match c.tau, c.timeInc with
  | none, _ => .error .assertFail
  | some _, none => .error (.ub .uninitRead)
  | some t, some dt =>
    let d := (c.remaining.get? wid).getD (e * t)
    let c := { c with remaining := c.remaining.set wid (d - dt) }
    if d > dt then .ok (dt, c)
    else if d > 0 then .ok (d, c)
    else .error .assertFail

/-- cluster.cpp 438-440, 449-453: first entry whose cumulative value exceeds the draw. -/
def pickCum (u : K) : List (Int × K) → Int
  | [] => -1
  | (n, p) :: rest => if u < p then n else pickCum u rest

/-- cluster.cpp 174-179, 427-457: `pickNewSiteId(walker_id)`. (The asserts on lines 441 and 454 have string literals
as conditions and never fire.) -/
def pickNewSiteId (c : Cluster K) (wid : Int) (u : K) : Except Fault (Int × Cluster K) :=
  match c.remaining.get? wid with
  | none => .error .assertFail
  | some r =>
    if r > 0 then .ok (pickCum u c.cumInternal, c)
    else .ok (pickCum u c.cumNeigh, { c with remaining := c.remaining.erase wid })

/-! ## Settings -/

/-- cluster.hpp 178-183. -/
def setResolution (c : Cluster K) (r : K) : Except Fault (Cluster K) :=
  if r ≥ 2 then .ok { c with resolution := r, timeInc := c.tau.map fun t => t / r } else .error .assertFail

/-- cluster.hpp 189-191. -/
def getTimeIncrement (c : Cluster K) : Except Fault K :=
  match c.timeInc with
  | some t => .ok t
  | none => .error (.ub .uninitRead)

/-- cluster.hpp 213-215. -/
def setConvergenceMethod (c : Cluster K) (m : Method) : Cluster K := { c with method := m }

/-- cluster.cpp 195-198. -/
def setConvergenceTolerance (c : Cluster K) (t : K) : Except Fault (Cluster K) :=
  if t ≥ 0 then .ok { c with tol := t } else .error .assertFail

/-- cluster.cpp 200-203. -/
def setConvergenceIterations (c : Cluster K) (n : Int) : Except Fault (Cluster K) :=
  if n > 0 then .ok { c with iterations := n.toNat } else .error .assertFail

/-- topology_feature.cpp 60-62. -/
def setRandomSeed (c : Cluster K) (seed : Nat) : Cluster K := { c with seed := some (seed % 2 ^ 32) }

/-! ## Histories -/

/-- A public call on a cluster that changes it or hands out a walker's time or site. -/
inductive Op (K : Type) where
  | addSite (s : Site K)
  | addSites (l : List (Site K))
  | update
  | migrateSitesFrom (src : Cluster K)
  | occupySite (id : Int)
  | vacateSite (id : Int)
  | occupy
  | vacate
  | removeWalker (wid id : Int)
  | getDwellTime (wid : Int) (e : K)
  | pickNewSiteId (wid : Int) (u : K)
  | getVisitFrequency (id : Int)
  | setVisitFrequency (n id : Int)
  | setResolution (r : K)
  | setConvergenceMethod (m : Method)
  | setConvergenceTolerance (t : K)
  | setConvergenceIterations (n : Int)
  | setRandomSeed (n : Nat)

/-- What a call returns. -/
inductive Out (K : Type) where
  | unit
  | time (t : K)
  | num (n : Int)

/-- A call that returns nothing and cannot throw a C++ exception. -/
def simple (c : Cluster K) (r : Except Fault (Cluster K)) : Except Fault (Out K) × Cluster K :=
  match r with
  | .ok c' => (.ok .unit, c')
  | .error e => (.error e, c)

/-- The result of a call and the cluster it leaves behind. -/
def step (env : Env K) (mem : Addr → K) (c : Cluster K) : Op K → Except Fault (Out K) × Cluster K
  | .addSite s => c.simple (c.addSite s)
  | .addSites l => c.simple (c.addSites l)
  | .update => match c.update env mem with
    | (.ok _, c') => (.ok .unit, c')
    | (.error e, c') => (.error e, c')
  | .migrateSitesFrom src => match c.migrateSitesFrom env mem src with
    | (.ok _, c', _) => (.ok .unit, c')
    | (.error e, c', _) => (.error e, c')
  | .occupySite id => c.simple (c.occupySite id)
  | .vacateSite id => c.simple (c.vacateSite id)
  | .occupy => c.simple c.occupy
  | .vacate => c.simple c.vacate
  | .removeWalker wid id => c.simple (c.removeWalker wid id)
  | .getDwellTime wid e => match c.getDwellTime wid e with
    | .ok (t, c') => (.ok (.time t), c')
    | .error e => (.error e, c)
  | .pickNewSiteId wid u => match c.pickNewSiteId wid u with
    | .ok (n, c') => (.ok (.num n), c')
    | .error e => (.error e, c)
  | .getVisitFrequency id => match c.getVisitFrequency id with
    | (.ok n, c') => (.ok (.num n), c')
    | (.error e, c') => (.error e, c')
  | .setVisitFrequency n id => c.simple (c.setVisitFrequency n id)
  | .setResolution r => c.simple (c.setResolution r)
  | .setConvergenceMethod m => (.ok .unit, c.setConvergenceMethod m)
  | .setConvergenceTolerance t => c.simple (c.setConvergenceTolerance t)
  | .setConvergenceIterations n => c.simple (c.setConvergenceIterations n)
  | .setRandomSeed n => (.ok .unit, c.setRandomSeed n)

/-- A call in a history: the cluster before it, the call, and its result. -/
structure Event (K : Type) where
  pre : Cluster K
  op : Op K
  res : Except Fault (Out K)

/-- A result after which the program can go on: a value, or a C++ exception that the caller has caught. -/
def GoesOn {α : Type} : Except Fault α → Prop
  | .ok _ => True
  | .error e => e.isException = true

/-- The history `evs` leads from `c` to `c'`. Between any two calls the rate variables may change in any way (each
call has its own `mem`). -/
inductive Trace (env : Env K) : Cluster K → List (Event K) → Cluster K → Prop where
  | nil (c : Cluster K) : Trace env c [] c
  | cons {c c1 c' : Cluster K} {op : Op K} {res : Except Fault (Out K)} {evs : List (Event K)} (mem : Addr → K)
      (h : c.step env mem op = (res, c1)) (hr : GoesOn res) (ht : Trace env c1 evs c') :
      Trace env c (⟨c, op, res⟩ :: evs) c'

end Cluster
end Mythical
