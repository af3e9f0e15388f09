import Verif.Model.Basic
import Mathlib.Data.List.Dedup

/-!
# Model of `Rate_Container` (src/libmythical/rate_container.cpp, rate_container.hpp)

Every call returns its result together with the container it leaves behind, also when it throws.
-/

namespace Mythical

/-- A `double *`: an address, or the null pointer (`none`). -/
abbrev Ptr := Option Nat

/-- rate_container.hpp 10: `Rate_Map`. -/
abbrev RateMap := IMap (IMap Ptr)

/-- rate_container.hpp 14-36: the only member is `rates_`. -/
structure RateContainer where
  rates : RateMap

namespace RateContainer

/-- `rates_[siteId]`: the row, which is inserted empty if it is missing (`operator[]`). -/
def row (c : RateContainer) (s : Int) : IMap Ptr × RateContainer :=
  match c.rates.get? s with
  | some r => (r, c)
  | none => ([], ⟨c.rates.set s []⟩)

/-- rate_container.cpp 11-18. -/
def addRate (c : RateContainer) (s n : Int) (p : Ptr) : Except Fault Unit × RateContainer :=
  if c.rates.has s && (c.row s).1.has n then (.error .invalidArgument, c)
  else
    let (r, c') := c.row s
    (.ok (), ⟨c'.rates.set s (r.set n p)⟩)

/-- rate_container.cpp 25-27: the inner loop of `addRates`. -/
def addRow (c : RateContainer) (s : Int) : IMap Ptr → Except Fault Unit × RateContainer
  | [] => (.ok (), c)
  | (n, p) :: rest =>
    match c.addRate s n p with
    | (.ok _, c') => addRow c' s rest
    | (.error e, c') => (.error e, c')

/-- rate_container.cpp 24-28: the outer loop of `addRates`. -/
def addRows (c : RateContainer) : RateMap → Except Fault Unit × RateContainer
  | [] => (.ok (), c)
  | (s, r) :: rest =>
    match c.addRow s r with
    | (.ok _, c') => addRows c' rest
    | (.error e, c') => (.error e, c')

/-- rate_container.cpp 20-31. -/
def addRates (c : RateContainer) (m : RateMap) : Except Fault Unit × RateContainer :=
  if c.rates.length = 0 then (.ok (), ⟨m⟩) else c.addRows m

/-- rate_container.cpp 33-40. Both `operator[]` calls insert: an empty row, resp. a null pointer. -/
def getRate (c : RateContainer) (s n : Int) : Except Fault Ptr × RateContainer :=
  let miss := !c.rates.has s
  let (r, c1) := if miss then c.row s else ([], c)
  if miss && !r.has n then (.error .invalidArgument, c1)
  else
    let (r, c2) := c1.row s
    match r.get? n with
    | some p => (.ok p, c2)
    | none => (.ok none, ⟨c2.rates.set s (r.set n none)⟩)

/-- rate_container.cpp 42-46. -/
def incomingRateCount (c : RateContainer) (s : Int) : Nat × RateContainer :=
  ((c.rates.filter fun sr => sr.2.has s).length, c)

/-- rate_container.cpp 48-50. -/
def outgoingRateCount (c : RateContainer) (s : Int) : Nat × RateContainer :=
  let (r, c') := c.row s
  (r.length, c')

/-- rate_container.cpp 55-59: the inner loop of `getIncomingRates` for source row `s`, target `n`. -/
def incomingRow (s n : Int) : RateMap → IMap Ptr → RateMap
  | acc, [] => acc
  | acc, (j, p) :: rest =>
    incomingRow s n (if j = n then acc.set s (((acc.get? s).getD []).set j p) else acc) rest

/-- rate_container.cpp 52-62. -/
def getIncomingRates (c : RateContainer) (n : Int) : RateMap × RateContainer :=
  (c.rates.foldl (fun acc sr => incomingRow sr.1 n acc sr.2) [], c)

/-- rate_container.cpp 64-70. -/
def getOutgoingRates (c : RateContainer) (s : Int) : RateMap × RateContainer :=
  if c.rates.has s then
    let (r, c') := c.row s
    ([(s, r)], c')
  else ([], c)

/-- rate_container.cpp 85-89: a set, listed without repetition (its iteration order is not modelled). -/
def outgoingIds (c : RateContainer) : List Int := c.rates.keys.dedup

/-- rate_container.cpp 104-112: a set, listed without repetition (its iteration order is not modelled). -/
def incomingIds (c : RateContainer) : List Int := (c.rates.flatMap fun sr => sr.2.keys).dedup

/-- rate_container.cpp 72-83. -/
def getSourceSiteIds (c : RateContainer) : List Int × RateContainer :=
  (c.outgoingIds.filter fun i => !c.incomingIds.contains i, c)

/-- rate_container.cpp 91-102. -/
def getSinkSiteIds (c : RateContainer) : List Int × RateContainer :=
  (c.incomingIds.filter fun i => !c.outgoingIds.contains i, c)

/-- A public call. -/
inductive Op where
  | addRate (s n : Int) (p : Ptr)
  | addRates (m : RateMap)
  | getRate (s n : Int)
  | incomingRateCount (s : Int)
  | outgoingRateCount (s : Int)
  | getIncomingRates (s : Int)
  | getOutgoingRates (s : Int)
  | getSourceSiteIds
  | getSinkSiteIds

/-- The container after a call (all exceptions caught by the caller). -/
def step (c : RateContainer) : Op → RateContainer
  | .addRate s n p => (c.addRate s n p).2
  | .addRates m => (c.addRates m).2
  | .getRate s n => (c.getRate s n).2
  | .incomingRateCount s => (c.incomingRateCount s).2
  | .outgoingRateCount s => (c.outgoingRateCount s).2
  | .getIncomingRates s => (c.getIncomingRates s).2
  | .getOutgoingRates s => (c.getOutgoingRates s).2
  | .getSourceSiteIds => c.getSourceSiteIds.2
  | .getSinkSiteIds => c.getSinkSiteIds.2

/-- The container after a sequence of calls. -/
def run (c : RateContainer) (ops : List Op) : RateContainer := ops.foldl step c

end RateContainer
end Mythical
