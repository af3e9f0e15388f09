import Verif.Model.Basic
import Mathlib.Algebra.Order.Field.Basic
import Mathlib.Algebra.Order.Floor.Ring

/-!
# Model of `Site` and of the part of `TopologyFeature` it uses
(src/libmythical/topologyfeatures/site.cpp, site.hpp, topology_feature.cpp, topology_feature.hpp)

Numbers: `double` is an arbitrary linearly ordered field `K` with floor (exact arithmetic, no rounding). A division
by zero is `Fault.nonFinite`.

Rates are held by pointer: `Addr` is the address of a `double` owned by the user and `mem : Addr → K` the current
contents of these variables. Pointers handed to a site are assumed to be valid (not null, not dangling).

Random numbers are arguments: `u` is the number drawn from `uniform_real_distribution(0,1)`; for dwell times the
argument is `e = (-1.0)*log(number)`.
-/

namespace Mythical

/-- Address of a rate (`double *`, never null). -/
abbrev Addr := Nat

/-- topology_feature.hpp 31-48 (`total_visit_freq_`, `occupied_`, `escape_time_constant_`, the seed of
`random_engine_`) and site.hpp 173-183. `seed = none`: seeded from the clock (topology_feature.cpp 41-42). -/
structure Site (K : Type) where
  id : Int
  visits : Int
  occupied : Int
  tau : K
  clusterId : Int
  neigh : IMap Addr
  prob : List (Int × K)
  seed : Option Nat
  deriving DecidableEq

/-- Conversion `double → int` of a number in range: truncation towards zero. -/
def truncInt {K : Type} [Field K] [LinearOrder K] [FloorRing K] (x : K) : Int := if 0 ≤ x then ⌊x⌋ else ⌈x⌉

namespace Site
variable {K : Type} [Field K] [LinearOrder K] [IsStrictOrderedRing K] [FloorRing K]

/-- site.cpp 34-38, topology_feature.cpp 40-58, site.hpp (`setId`): a new site with the given id. -/
def new (id : Int) : Site K := ⟨id, 0, 0, 0, unassignedId, [], [], none⟩

/-- topology_feature.cpp 60-62: `setRandomSeed`. `mt19937` keeps the low 32 bits of the seed. -/
def setRandomSeed (s : Site K) (seed : Nat) : Site K := { s with seed := some (seed % 2 ^ 32) }

/-- site.cpp 174-180: `getSumOfRates_`. -/
def sumRates (mem : Addr → K) (s : Site K) : K := s.neigh.foldl (fun sum na => sum + mem na.2) 0

/-- site.cpp 169-172: `calculateDwellTimeConstant_`. -/
def calcTau (mem : Addr → K) (s : Site K) : Except Fault (Site K) :=
  if s.sumRates mem = 0 then .error .nonFinite else .ok { s with tau := 1 / s.sumRates mem }

/-- site.cpp 15-28: `CustomComparitor` on the elements `pair<int,double>` of the set, which are implicitly
converted to `pair<double,int>`: the id becomes `first`, the truncated probability `second`. -/
def compare (a b : Int × K) : Bool :=
  if a.1 = b.1 then false
  else if truncInt a.2 = truncInt b.2 then a.1 < b.1
  else truncInt a.2 < truncInt b.2

/-- `std::set::insert` with `CustomComparitor`, on the sorted list of elements. -/
def setInsert (x : Int × K) : List (Int × K) → List (Int × K)
  | [] => [x]
  | y :: l => if compare x y then x :: y :: l else if compare y x then y :: setInsert x l else y :: l

/-- The conversion `int(p)` inside the comparator is defined. -/
def TruncOk (p : K) : Prop := FitsInt (truncInt p)

instance (p : K) : Decidable (TruncOk p) := by unfold TruncOk; infer_instance

/-- site.cpp 157-167: `calculateProbabilityHopToNeighbors_`. With two or more elements each takes part in a
comparison, which converts its probability to `int`. -/
def calcProb (mem : Addr → K) (s : Site K) : Except Fault (Site K) :=
  if s.neigh ≠ [] ∧ s.sumRates mem = 0 then .error .nonFinite
  else
    let vals := s.neigh.map fun na => (na.1, mem na.2 / s.sumRates mem)
    if 1 < vals.length ∧ ∃ v ∈ vals, ¬ TruncOk v.2 then .error (.ub .floatToInt)
    else .ok { s with prob := vals.foldl (fun l v => setInsert v l) [] }

/-- site.cpp 50-51, 58-59, 64-65. -/
def recalc (mem : Addr → K) (s : Site K) : Except Fault (Site K) := do
  let s ← s.calcTau mem
  s.calcProb mem

/-- site.cpp 45-49: the loop of `setRatesToNeighbors`. -/
def setRatesLoop (mem : Addr → K) (s : Site K) : IMap Addr → Except Fault (Site K)
  | [] => .ok s
  | (n, a) :: rest =>
    if mem a = 0 then .error .assertFail
    else setRatesLoop mem { s with neigh := s.neigh.set n a } rest

/-- site.cpp 42-52: `setRatesToNeighbors`; `m` lists the entries of the user's map with their addresses. -/
def setRatesToNeighbors (mem : Addr → K) (s : Site K) (m : IMap Addr) : Except Fault (Site K) :=
  if m.length = 0 then .error .assertFail
  else do
    let s ← s.setRatesLoop mem m
    s.recalc mem

/-- site.cpp 54-60: `addNeighRate`. -/
def addNeighRate (mem : Addr → K) (s : Site K) (n : Int) (a : Addr) : Except Fault (Site K) :=
  if s.neigh.has n then .error .assertFail
  else recalc mem { s with neigh := s.neigh.set n a }

/-- site.cpp 62-66: `resetNeighRate`. -/
def resetNeighRate (mem : Addr → K) (s : Site K) (n : Int) (a : Addr) : Except Fault (Site K) :=
  recalc mem { s with neigh := s.neigh.set n a }

/-- site.hpp 72-74: `isNeighbor`. -/
def isNeighbor (s : Site K) (n : Int) : Bool := s.neigh.has n

/-- site.hpp 81: `partOfCluster`. -/
def partOfCluster (s : Site K) : Bool := s.clusterId > -1

/-- site.cpp 68-72: `getRateToNeighbors`. -/
def getRateToNeighbors (mem : Addr → K) (s : Site K) : List K := s.neigh.map fun na => mem na.2

/-- site.cpp 74-77: `getRateToNeighbor`. -/
def getRateToNeighbor (mem : Addr → K) (s : Site K) (n : Int) : Except Fault K :=
  match s.neigh.get? n with
  | none => .error .assertFail
  | some a => .ok (mem a)

/-- site.cpp 79-85: `getFastestRate`. -/
def getFastestRate (mem : Addr → K) (s : Site K) : K :=
  s.neigh.foldl (fun rate na => if mem na.2 > rate then mem na.2 else rate) 0

/-- site.cpp 87-91: `getNeighborSiteIds`. -/
def getNeighborSiteIds (s : Site K) : List Int := s.neigh.keys

/-- site.cpp 99-107: the loop of `pickNewSiteId` from threshold `thr`. -/
def pickLoop (u : K) : K → List (Int × K) → Int
  | _, [] => -1
  | thr, (n, p) :: rest => if u < thr + p then n else pickLoop u (thr + p) rest

/-- site.cpp 93-108: `pickNewSiteId`, drawing `u`. (The `assert` on line 104 has a string literal as its
condition and never fires.) -/
def pickNewSiteId (s : Site K) (u : K) : Int := pickLoop u 0 s.prob

/-- site.cpp 118-131: `getProbabilityOfHoppingToNeighboringSite`; a failed `find_if` would be dereferenced. -/
def probabilityTo (s : Site K) (n : Int) : Except Fault K :=
  if s.neigh.has n then
    match IMap.get? s.prob n with
    | some p => .ok p
    | none => .error (.ub .endIterator)
  else .error .assertFail

/-- topology_feature.hpp 156: `getTimeConstant`. -/
def getTimeConstant (s : Site K) : K := s.tau

/-- topology_feature.cpp 64-67: `getDwellTime`, with `e = -log(number)`. -/
def getDwellTime (s : Site K) (e : K) : K := e * s.tau

/-- topology_feature.cpp 10-18: `occupy()` / `occupy(siteId)` of a site. -/
def occupy (s : Site K) : Except Fault (Site K) := do
  let o ← chk (s.occupied + 1)
  let v ← chk (s.visits + 1)
  .ok { s with occupied := o, visits := v }

/-- topology_feature.cpp 20-26: `vacate()` / `vacate(siteId)` of a site. -/
def vacate (s : Site K) : Except Fault (Site K) := do
  let o ← chk (s.occupied - 1)
  .ok { s with occupied := o }

/-- topology_feature.cpp 28-34: `isOccupied()` / `isOccupied(siteId)` of a site. -/
def isOccupied (s : Site K) : Bool := s.occupied > 0

/-- topology_feature.hpp 148: `setToOccupiedStatus`. -/
def setToOccupiedStatus (s : Site K) : Site K := { s with occupied := 1 }

/-- A public call that changes the rates of a site. -/
inductive Op where
  | setRates (m : IMap Addr)
  | addNeigh (n : Int) (a : Addr)
  | resetNeigh (n : Int) (a : Addr)

/-- The site after a call. -/
def step (mem : Addr → K) (s : Site K) : Op → Except Fault (Site K)
  | .setRates m => s.setRatesToNeighbors mem m
  | .addNeigh n a => s.addNeighRate mem n a
  | .resetNeigh n a => s.resetNeighRate mem n a

/-- The site after a sequence of calls, all of which return; each call comes with the contents of the rate
variables at that time. -/
def run (s : Site K) : List ((Addr → K) × Op) → Except Fault (Site K)
  | [] => .ok s
  | (mem, o) :: ops => do
    let s ← s.step mem o
    s.run ops

end Site
end Mythical
