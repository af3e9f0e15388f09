import Verif.Model.Box
import Verif.Model.Site
import Mathlib.Data.List.Sort

/-!
# Model of the crude Monte Carlo simulation in src/tests/performance/test_crude_vs_coarsegrain.cpp (186-374)

The same text, with other seeds, is in performance/test_crude_vs_coarsegrain_correlated.cpp 449-615.

* The numbers are exact ones. `-log(u)` of a random number `u` is an argument, here called `e`; so are the other random numbers.
* The order in which the loop in 343 meets the entries of an `unordered_map` is an argument (`order`).
* `siteOccupied`, a set, is a list. `frequency` (333, 354-358) is never read and not modelled.
* `list::sort` is stable, so that its result is determined: `insertionSort`.
-/

namespace Mythical.Crude
open Cuboid (Pos)
open Box (around to1D to3D flat cube)
variable {K : Type} [Field K] [LinearOrder K]

/-- `m[k]` of a map of numbers (`operator[]`, lines 247, 290-295, 320, 355, 361): 0 if there is no entry. The entry that is added then is not modelled. -/
def val (m : IMap K) (k : Int) : K := (m.get? k).getD 0

/-- 244-255: the sum of the rates of a site, in the order of the loops. `rates[siteId][neighId]` is `operator[]`. -/
def sumRate (row : IMap K) (ns : List Int) : K := ns.foldl (fun s n => s + val row n) 0

/-- 286-300: the entries of `cummulitive_probability` and `pval` after the neighbours `ns`. -/
def cumulate (row : IMap K) (sum : K) (ns : List Int) : IMap K × K :=
  ns.foldl (fun tp n => ((tp.1.set n (val row n / sum)).set n (val row n / sum + tp.2), tp.2 + val row n / sum)) ([], 0)

/-- 220-221, 263: the tables of the simulation. -/
structure Tables (K : Type) where
  sojourn : IMap K
  cumul : IMap (IMap K)

/-- 227-257, 269-303: the entries of one site. A sum of 0 gives infinities and NaN. -/
def siteTables (d : Int) (R : IMap (IMap K)) (T : Tables K) (p : Pos) : Except Fault (Tables K) := do
  let site ← to1D d p
  let ns ← around d p
  let row := (R.get? site).getD []
  let sum := sumRate row (ns.map Prod.fst)
  if sum = 0 then .error .nonFinite
  else
    let t := (cumulate row sum (ns.map Prod.fst)).1
    if t.length ≠ 0 then .ok ⟨T.sojourn.set site (1 / sum), T.cumul.set site t⟩ else .error .assertFail

/-- 220-307: the tables. The loops for the sums are finished before those for the probabilities begin, which makes no difference,
since they do not depend on each other. -/
def tables (d : Int) (R : IMap (IMap K)) : Except Fault (Tables K) := (cube d).foldlM (siteTables d R) ⟨[], []⟩

/-- The variables of the simulation: `siteOccupied`, `walker_positions`, `walker_global_times`. -/
structure State (K : Type) where
  occupied : List Int
  positions : IMap Pos
  times : List (Int × K)

/-- 186-212: walkers are placed on random sites until there are `n`; `k` have been placed so far. -/
def place (d : Int) (n : Nat) : List Pos → Nat → List Int → IMap Pos → Except Fault (List Int × IMap Pos)
  | [], k, occ, pos => if k < n then .error .outOfFuel else .ok (occ, pos)
  | q :: picks, k, occ, pos =>
    if k < n then
      if (q.x < d ∧ q.y < d ∧ q.z < d) ∧ 0 ≤ q.x ∧ 0 ≤ q.y ∧ 0 ≤ q.z then do
        let site ← to1D d q
        if site ∈ occ then place d n picks k occ pos else place d n picks (k + 1) (occ ++ [site]) (pos.set k q)
      else .error .assertFail
    else .ok (occ, pos)

/-- 319-320, 337-338: `converter.to1D(walker_positions[k])`. A missing entry is an empty vector, whose `at` throws. -/
def siteOf (d : Int) (pos : IMap Pos) (k : Int) : Except Fault Int :=
  match pos.get? k with
  | none => .error .outOfRange
  | some p => flat d p

/-- 323, 368: `walker_global_times.sort(compareSecondItemOfPair)`. -/
def sortTimes (l : List (Int × K)) : List (Int × K) := l.insertionSort fun a b => a.2 ≤ b.2

/-- 318-322: the first times. -/
def firstTimes (d : Int) (T : Tables K) (pos : IMap Pos) (e : Nat → K) (n : Nat) : Except Fault (List (Int × K)) :=
  (List.range n).mapM fun k : Nat => do
    let site ← siteOf d pos k
    .ok ((k : Int), val T.sojourn site * e k)

/-- 343-345, 364: the first entry whose value is greater than the random number. -/
def choose (u : K) : List (Int × K) → Option Int
  | [] => none
  | np :: rest => if u < np.2 then some np.1 else choose u rest

/-- 336-368: one round of the loop, with the random number `u` and the time `e`. -/
def hop (d : Int) (T : Tables K) (order : IMap K → List (Int × K)) (u e : K) (k : Int) (t : K) (rest : List (Int × K))
    (s : State K) : Except Fault (State K) := do
  let site ← siteOf d s.positions k
  let table := (T.cumul.get? site).getD []
  if table.length ≠ 0 then
    match choose u (order table) with
    | none => .ok { s with times := sortTimes ((k, t) :: rest) }
    | some n =>
      if n ∈ s.occupied then .ok { s with times := sortTimes ((k, t + val T.sojourn site * e) :: rest) }
      else do
        let q ← to3D d n
        .ok ⟨s.occupied.filter (· ≠ site) ++ [n], s.positions.set k q, sortTimes ((k, t + val T.sojourn n * e) :: rest)⟩
  else .error .assertFail

/-- 335-369: what is done next; `none` if the loop is over. `begin()` of an empty list must not be dereferenced. -/
def advance (d : Int) (T : Tables K) (order : IMap K → List (Int × K)) (cutoff : K) (ue : K × K) (s : State K) :
    Except Fault (Option (State K)) :=
  match s.times with
  | [] => .error (.ub .endIterator)
  | (k, t) :: rest =>
    if t < cutoff then do
      let s ← hop d T order ue.1 ue.2 k t rest s
      .ok (some s)
    else .ok none

/-- 335-369: the rounds with the random numbers `ues`. -/
def loops (d : Int) (T : Tables K) (order : IMap K → List (Int × K)) (cutoff : K) : List (K × K) → State K → Except Fault (State K)
  | [], s => .ok s
  | ue :: ues, s =>
    match advance d T order cutoff ue s with
    | .error f => .error f
    | .ok none => .ok s
    | .ok (some s) => loops d T order cutoff ues s

/-- 186-374: the simulation with the rates `R` up to the rounds with the random numbers `ues`. -/
def simulate (d : Int) (R : IMap (IMap K)) (n : Nat) (picks : List Pos) (e : Nat → K) (order : IMap K → List (Int × K)) (cutoff : K)
    (ues : List (K × K)) : Except Fault (State K) := do
  let (occ, pos) ← place d n picks 0 [] []
  let T ← tables d R
  let times ← firstTimes d T pos e n
  let times := sortTimes times
  match times with
  | [] => .error (.ub .endIterator)
  | kt :: _ => if kt.2 < cutoff then loops d T order cutoff ues ⟨occ, pos, times⟩ else .error .assertFail

end Mythical.Crude
