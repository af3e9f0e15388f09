import Verif.Model.System
import Mathlib.Data.Int.Log

/-!
# Model of `Site` and of the tables of `Cluster` in rounded arithmetic

The other files take `double` as an exact field. Here every operation of the code on `double`s is followed by a rounding
`fl : K → K`, as in IEEE 754. Simplification: the range of exponents is not bounded (no overflow, no underflow).
Conversions and comparisons are exact.
-/

namespace Mythical.Rounded
open Mythical
variable {K : Type} [Field K] [LinearOrder K] [IsStrictOrderedRing K] [FloorRing K]

/-- Round to the nearest integer, ties to even (part of the arithmetic of `double`, e.g. site.cpp 101, 162, 171, 177). -/
def nearest (x : K) : Int :=
  if x - ⌊x⌋ < 1 / 2 then ⌊x⌋
  else if 1 / 2 < x - ⌊x⌋ then ⌊x⌋ + 1
  else if ⌊x⌋ % 2 = 0 then ⌊x⌋ else ⌊x⌋ + 1

/-- The rounding of the type `double` of all the code in /repo (IEEE 754 binary64, round to nearest, ties to even): 53
significant bits. -/
def binary64 (x : K) : K :=
  if x = 0 then 0 else nearest (x / 2 ^ (Int.log 2 |x| - 52)) * 2 ^ (Int.log 2 |x| - 52)

variable (fl : K → K)

/-! ## Site -/

/-- site.cpp 174-180: `getSumOfRates_`. -/
def sumRates (mem : Addr → K) (s : Site K) : K := s.neigh.foldl (fun sum na => fl (sum + mem na.2)) 0

/-- site.cpp 169-172: `calculateDwellTimeConstant_`. -/
def calcTau (mem : Addr → K) (s : Site K) : Except Fault (Site K) :=
  if sumRates fl mem s = 0 then .error .nonFinite else .ok { s with tau := fl (1 / sumRates fl mem s) }

/-- site.cpp 157-167: `calculateProbabilityHopToNeighbors_`. -/
def calcProb (mem : Addr → K) (s : Site K) : Except Fault (Site K) :=
  if s.neigh ≠ [] ∧ sumRates fl mem s = 0 then .error .nonFinite
  else
    let vals := s.neigh.map fun na => (na.1, fl (mem na.2 / sumRates fl mem s))
    if 1 < vals.length ∧ ∃ v ∈ vals, ¬ Site.TruncOk v.2 then .error (.ub .floatToInt)
    else .ok { s with prob := vals.foldl (fun l v => Site.setInsert v l) [] }

/-- site.cpp 50-51, 58-59, 64-65. -/
def recalc (mem : Addr → K) (s : Site K) : Except Fault (Site K) := do
  let s ← calcTau fl mem s
  calcProb fl mem s

/-- site.cpp 42-52: `setRatesToNeighbors`; the loop (`Site.setRatesLoop`) does no arithmetic. -/
def setRatesToNeighbors (mem : Addr → K) (s : Site K) (m : IMap Addr) : Except Fault (Site K) :=
  if m.length = 0 then .error .assertFail
  else do
    let s ← s.setRatesLoop mem m
    recalc fl mem s

/-- site.cpp 54-60: `addNeighRate`. -/
def addNeighRate (mem : Addr → K) (s : Site K) (n : Int) (a : Addr) : Except Fault (Site K) :=
  if s.neigh.has n then .error .assertFail
  else recalc fl mem { s with neigh := s.neigh.set n a }

/-- site.cpp 62-66: `resetNeighRate`. -/
def resetNeighRate (mem : Addr → K) (s : Site K) (n : Int) (a : Addr) : Except Fault (Site K) :=
  recalc fl mem { s with neigh := s.neigh.set n a }

/-- The site after a call that changes its rates (as `Site.step`). -/
def step (mem : Addr → K) (s : Site K) : Site.Op → Except Fault (Site K)
  | .setRates m => setRatesToNeighbors fl mem s m
  | .addNeigh n a => addNeighRate fl mem s n a
  | .resetNeigh n a => resetNeighRate fl mem s n a

/-- The site after a sequence of calls (as `Site.run`). -/
def run (s : Site K) : List ((Addr → K) × Site.Op) → Except Fault (Site K)
  | [] => .ok s
  | (mem, o) :: ops => do
    let s ← step fl mem s o
    run s ops

/-- site.cpp 99-103, 107: the loop of `pickNewSiteId` from threshold `thr`. -/
def pickLoop (u : K) : K → List (Int × K) → Int
  | _, [] => -1
  | thr, (n, p) :: rest => if u < fl (thr + p) then n else pickLoop u (fl (thr + p)) rest

/-- site.cpp 93-108: `pickNewSiteId`, drawing `u`. -/
def pickNewSiteId (s : Site K) (u : K) : Int := pickLoop fl u 0 s.prob

/-- topology_feature.cpp 64-67: `getDwellTime`, with `e` the rounded value of `-log(number)`. -/
def getDwellTime (s : Site K) (e : K) : K := fl (e * s.tau)

/-- coarsegrainsystem.cpp 148-173: one round of the loop of `initializeWalkers`, for a walker on a single site. A walker
on a cluster or without a known site is left to the exact model. -/
def initWalker (w : World K) (a : Entry K) : Except Fault (World K) :=
  match w.walkers.get? a.handle with
  | none => .error (.ub .nullDeref)
  | some x =>
    match w.feats.get? x.site with
    | some (.site id) => do
      let s ← (← w.siteOf id).occupy
      .ok { w with
        sites := w.sites.put id s
        walkers := w.walkers.set a.handle { x with dwell := getDwellTime fl s a.e, pot := pickNewSiteId fl s a.u } }
    | _ => w.initWalker a

/-! ## Tables of a cluster -/

/-- cluster.cpp 610-615, 662-667: running totals. -/
def cumulate : K → List (Int × K) → List (Int × K)
  | _, [] => []
  | t, (n, p) :: rest => (n, fl (p + t)) :: cumulate (fl (p + t)) rest

/-- Sum of the values of a map in the order of iteration (cluster.cpp 592, 642). -/
def sumVals (m : IMap K) : K := m.foldl (fun t ip => fl (t + ip.2)) 0

/-- cluster.cpp 584-616, from the occupation probabilities and the time constants of the sites. -/
def calcHopToInternal (env : Env K) (c : Cluster K) : Except Fault (Cluster K) :=
  let vals := c.probOn.map fun ip => (ip.1, fl (ip.2 * (c.siteAt ip.1).tau))
  let total := sumVals fl vals
  if vals ≠ [] ∧ total = 0 then .error .nonFinite
  else
    let sorted := env.sort.f (vals.map fun ip => (ip.1, fl (ip.2 / total)))
    .ok { c with probInternal := sorted, cumInternal := c.cumInternal ++ cumulate fl 0 sorted }

/-- cluster.cpp 626-636: one neighbour of one site. -/
def hopNeighStep (c : Cluster K) (id : Int) (s : Site K) (acc : IMap K) (n : Int) : Except Fault (IMap K) :=
  if c.siteIsInCluster n then .ok acc
  else do
    let p ← s.probabilityTo n
    if acc.has n then .ok (acc.set n (fl (acc.at0 n + fl (p * c.probOn.at0 id))))
    else .ok (acc.set n (fl (p * c.probOn.at0 id)))

/-- cluster.cpp 622-638. -/
def hopNeighTemp (c : Cluster K) : Except Fault (IMap K) :=
  c.sites.foldlM (fun acc is => is.2.getNeighborSiteIds.foldlM (hopNeighStep fl c is.1 is.2) acc) []

/-- cluster.cpp 619-668, from the occupation probabilities and the tables of the sites. -/
def calcHopToNeighbors (env : Env K) (c : Cluster K) : Except Fault (Cluster K) := do
  let temp ← hopNeighTemp fl c
  let total := sumVals fl temp
  if temp ≠ [] ∧ total = 0 then .error .nonFinite
  else
    let sorted := env.sort.f (temp.map fun np => (np.1, fl (np.2 * fl (1 / total))))
    .ok { c with probNeigh := sorted, cumNeigh := c.cumNeigh ++ cumulate fl 0 sorted }

/-- cluster.cpp 325-331: the occupation probabilities at the beginning. -/
def initProb (c : Cluster K) : Cluster K :=
  { c with probOn := c.sites.foldl (fun m is => m.set is.1 (fl (1 / (c.sites.length : K)))) c.probOn }

/-- cluster.cpp 343-352: the change of the temporary probability of site `id` by one of its neighbours. -/
def iterNeigh (c : Cluster K) (id : Int) (s : Site K) (t : K) (n : Int) : Except Fault K := do
  let t ← match c.sites.get? n with
    | some sn => do
      let p ← sn.probabilityTo id
      pure (fl (t + fl (p * c.probOn.at0 n)))
    | none => pure t
  let p ← s.probabilityTo n
  pure (fl (t - fl (p * c.probOn.at0 id)))

/-- cluster.cpp 343-352: the temporary probability of site `id`. -/
def iterSite (c : Cluster K) (id : Int) (s : Site K) : Except Fault K :=
  s.getNeighborSiteIds.foldlM (iterNeigh fl c id s) (c.probOn.at0 id)

/-- cluster.cpp 335-354: the temporary probabilities. -/
def iterTemp (c : Cluster K) : Except Fault (IMap K) :=
  c.sites.mapM fun is => do
    let t ← iterSite fl c is.1 is.2
    pure (is.1, t)

/-- cluster.cpp 333-372: one round. A division by a zero total makes all probabilities NaN. The constant 0.5 of line 362 is
a double. -/
def iterate (c : Cluster K) : Except Fault (Cluster K) := do
  let temp ← iterTemp fl c
  let total := sumVals fl temp
  if total = 0 then .error .nonFinite
  else
    let mixed : IMap K := temp.map fun it =>
      (it.1, fl (fl (fl (it.2 * fl (1 / total)) + c.probOn.at0 it.1) * (1 / 2)))
    let total2 := sumVals fl mixed
    if total2 = 0 then .error .nonFinite
    else .ok { c with probOn := mixed.foldl (fun m it => m.set it.1 (fl (it.2 * fl (1 / total2)))) c.probOn }

/-- cluster.cpp 379-381, 387-389: `n` rounds. -/
def iterateN : Nat → Cluster K → Except Fault (Cluster K)
  | 0, c => .ok c
  | n + 1, c => do
    let c ← iterate fl c
    iterateN n c

/-- cluster.cpp 376-403 with the number of rounds as an argument. The methods differ in that number only; the test of the
method by tolerance (lines 391-402, with `pow`) is not modelled with rounding. -/
def solveProb (rounds : Nat) (c : Cluster K) : Except Fault (Cluster K) := iterateN fl rounds (initProb fl c)

/-- cluster.cpp 670-680. -/
def calcInternalDwell (mem : Addr → K) (c : Cluster K) : Except Fault (Cluster K) :=
  let rates := c.ratesInternal mem
  if ∃ ir ∈ rates, sumVals fl ir.2 = 0 then .error .nonFinite
  else .ok { c with internalDwell := rates.foldl (fun m ir => m.set ir.1 (fl (1 / sumVals fl ir.2))) c.internalDwell }

/-- cluster.cpp 527-533: the first rate is stored as it is, the others are added. -/
def sumFirst : List (Int × K) → K
  | [] => 0
  | nr :: rest => rest.foldl (fun t nr => fl (t + nr.2)) nr.2

/-- cluster.cpp 520-537. -/
def calcSumEscape (mem : Addr → K) (c : Cluster K) : Cluster K :=
  { c with sumEscape := (c.ratesToNeighbors mem).map fun ir => (ir.1, sumFirst fl ir.2) }

/-- cluster.cpp 541-555; the addition on line 552 is to zero. -/
def calcSumInternal (mem : Addr → K) (c : Cluster K) : Cluster K :=
  { c with sumInternal := (c.ratesInternal mem).map fun ir => (ir.1, fl (0 + sumVals fl ir.2)) }

/-- cluster.cpp 465-470. -/
def sumRatesOff (mem : Addr → K) (c : Cluster K) : K :=
  (c.ratesToNeighbors mem).foldl (fun t ir => ir.2.foldl (fun t nr => fl (t + nr.2)) t) 0

/-- cluster.cpp 459-485; divisions by zero as in `Cluster.calcHopOff`. -/
def calcHopOff (mem : Addr → K) (c : Cluster K) : Except Fault (Cluster K) :=
  if c.sites.length ≤ 1 then .error .assertFail
  else
    let off := sumRatesOff fl mem c
    let sumTau := c.probOn.foldl (fun t ip => fl (t + (c.siteAt ip.1).tau)) 0
    if off = 0 then
      if c.probOn.any fun ip => decide (0 < c.sumEscape.at0 ip.1) then .error .nonFinite
      else .ok { c with hopOff := [] }
    else if sumTau = 0 then .error .nonFinite
    else
      let raw := c.probOn.map fun ip =>
        (ip.1, fl (fl (fl (fl (ip.2 * c.sumEscape.at0 ip.1) / off) * (c.siteAt ip.1).tau) / sumTau))
      let total2 := sumVals fl raw
      if total2 = 0 then .error .nonFinite
      else .ok { c with hopOff := raw.map fun ip => (ip.1, fl (ip.2 / total2)) }

/-- cluster.cpp 488-516; line 513 divides `probabilityHopOffInternalSite_`. -/
def calcHopBetween (mem : Addr → K) (c : Cluster K) : Except Fault (Cluster K) :=
  if c.sites.length ≤ 1 then .error .assertFail
  else
    let hb : IMap K := (c.ratesInternal mem).map fun ir =>
      (ir.1, fl (fl (sumVals fl ir.2 * (c.siteAt ir.1).tau) * c.probOn.at0 ir.1))
    let sumInt := sumVals fl hb
    if hb ≠ [] ∧ sumInt = 0 then .error .nonFinite
    else .ok { c with
      hopBetween := hb
      hopOff := hb.foldl (fun m ib => m.set ib.1 (fl (m.at0 ib.1 / sumInt))) c.hopOff }

/-- cluster.cpp 557-570. -/
def calcEscape (mem : Addr → K) (c : Cluster K) : Except Fault (Cluster K) :=
  if c.resolution = 0 then .error .nonFinite
  else if (c.ratesToNeighbors mem).length = 0 then .ok { c with tau := none, timeInc := none }
  else
    let t := c.hopOff.foldl (fun t ip =>
      if c.sumEscape.at0 ip.1 > 0 then fl (t + fl (fl (1 / c.sumEscape.at0 ip.1) * ip.2)) else t) 0
    .ok { c with tau := some t, timeInc := some (fl (t / c.resolution)) }

/-- cluster.cpp 571-583. -/
def calcInternalTau (mem : Addr → K) (c : Cluster K) : Cluster K :=
  if (c.ratesInternal mem).length = 0 then { c with internalTau := none }
  else
    { c with internalTau := some (c.hopBetween.foldl (fun t ip =>
      if c.sumInternal.at0 ip.1 > 0 then fl (t + fl (fl (1 / c.sumInternal.at0 ip.1) * ip.2)) else t) 0) }

/-- cluster.cpp 404-406, 90-95: what follows from the occupation probabilities. -/
def derive (env : Env K) (mem : Addr → K) (c : Cluster K) : Except Fault (Cluster K) := do
  let c ← calcHopToInternal fl env c
  let c ← calcHopToNeighbors fl env c
  let c ← calcInternalDwell fl mem c
  let c := calcSumEscape fl mem c
  let c := calcSumInternal fl mem c
  let c ← calcHopOff fl mem c
  let c ← calcHopBetween fl mem c
  let c ← calcEscape fl mem c
  pure (calcInternalTau fl mem c)

/-- cluster.cpp 89-95: the part of `updateProbabilitiesAndTimeConstant` that computes. -/
def solve (env : Env K) (mem : Addr → K) (rounds : Nat) (c : Cluster K) : Except Fault (Cluster K) := do
  let c ← solveProb fl rounds c
  derive fl env mem c

end Mythical.Rounded
