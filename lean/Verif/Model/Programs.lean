import Verif.Model.Box
import Verif.Model.ToFOutput

/-!
# Model of three programs under src/tests

* performance/test_coarsegrain_cluster_vs_nocluster_toy.cpp 65-196 (`Toy`; below called toy),
* regression/test_ToF.cpp 119-292 (`Flight`; the rates in 129-211 are in `Model/Box.lean`),
* regression/test_1Dsystem.cpp 69-238 (`Line`).

Output and the measuring of times are left out. Arguments are numbers; parsing them is left out. A division of a `double` by zero
ends the model with `nonFinite`.
-/

namespace Mythical
open World

/-- A quotient of `double`s. -/
def quot {K : Type} [Field K] [DecidableEq K] (a b : K) : Except Fault K := if b = 0 then .error .nonFinite else .ok (a / b)

/-! ## The toy system -/

namespace Toy
open ToF
variable {K : Type} [Field K] [LinearOrder K] [IsStrictOrderedRing K] [FloorRing K]

/-- toy 65-69: the arguments. -/
structure Args (K : Type) where
  time1 : K
  time2 : K
  walkers : Int
  threshold : Int
  inc : K

/-- All that the program does not determine itself: the draws in `initializeWalkers` and the choices in the hops of walker `k`. -/
structure Luck (K : Type) where
  first : Nat → K × K
  hops : Nat → List (Choices K)

/-- toy 93-100: the rates as references, in one order. -/
def table : IMap (IMap Addr) := [(4, [(1, 0), (3, 1), (7, 2), (5, 3)]), (5, [(4, 4), (2, 5), (6, 6), (8, 7)])]

/-- toy 82-83, 93-100: the values they refer to. -/
def values (rate1 rate2 : K) (a : Addr) : K := if a = 3 ∨ a = 4 then rate1 else rate2

/-- toy 127-136, 174-183: the loop of walker `k`, whose id is 0. It is entered with `site` 4. -/
def run (env : Env K) (mem : Addr → K) (k : Int) : List (Choices K) → Prog K → Except Fault (Prog K)
  | [], _ => .error .outOfFuel
  | a :: as, p => do
    let p ← p.call env mem (.hop 0 k a)
    let x ← p.world.walkerOf k
    let j ← walkerPot x
    if j = 4 ∨ j = 5 then run env mem k as p else .ok p

/-- toy 115-120: the walker that is handed to the system is a new one. The variable `elec`, here the walker -1, is placed on site 4. -/
def create1 (env : Env K) (mem : Addr → K) (k : Int) (p : Prog K) : Except Fault (Prog K) := do
  let p ← p.call env mem (.newWalker (-1))
  let p ← p.call env mem (.walkerOccupy (-1) 4)
  p.call env mem (.newWalker k)

/-- toy 163-167: the walker that is handed to the system is placed on site 4. -/
def create2 (env : Env K) (mem : Addr → K) (k : Int) (p : Prog K) : Except Fault (Prog K) := do
  let p ← p.call env mem (.newWalker k)
  p.call env mem (.walkerOccupy k 4)

/-- toy 111-139, 160-186: the walkers from number `k` on. -/
def walkers (env : Env K) (mem : Addr → K) (create : Int → Prog K → Except Fault (Prog K)) (l : Luck K) :
    Nat → Nat → Prog K → Except Fault (Prog K)
  | 0, _, p => .ok p
  | n + 1, k, p => do
    let p ← create k p
    let p ← p.call env mem (.initializeWalkers [⟨0, k, (l.first k).1, (l.first k).2⟩])
    let p ← run env mem k (l.hops k) p
    let p ← p.call env mem (.removeWalker 0 k)
    walkers env mem create l n (k + 1) p

/-- toy 106-139, 154-186: one of the two simulations. `m` lists the rates in the order of the hash maps. -/
def part (env : Env K) (mem : Addr → K) (m : IMap (IMap Addr)) (create : Int → Prog K → Except Fault (Prog K)) (A : Args K)
    (threshold : Int) (l : Luck K) (p : Prog K) : Except Fault (Prog K) := do
  let p ← p.call env mem (.setRandomSeed 3)
  let p ← p.call env mem (.setMinThreshold threshold)
  let p ← p.call env mem (.setTimeResolution A.inc)
  let p ← p.call env mem (.initializeSystem m)
  walkers env mem create l A.walkers.toNat 0 p

/-- toy 82-83, 105-196: `main`. Returns the number of clusters that the second simulation has found. -/
def main (env : Env K) (A : Args K) (m m' : IMap (IMap Addr)) (l l' : Luck K) : Except Fault Nat := do
  let rate1 ← quot 1 A.time1
  let rate2 ← quot 1 A.time2
  let mem := values rate1 rate2
  let p ← part env mem m (create1 env mem) A infIterations l ⟨World.new 0, []⟩
  if p.world.getClusters.length ≠ 0 then .error .runtimeError
  else do
    let p ← part env mem m' (create2 env mem) A A.threshold l' ⟨{ World.new 0 with nextId := p.world.nextId }, []⟩
    .ok p.world.getClusters.length

end Toy

/-! ## The time-of-flight simulation among the regression tests -/

namespace Flight
open ToF Cuboid
variable {K : Type} [Field K] [LinearOrder K] [IsStrictOrderedRing K] [FloorRing K]

/-- test_ToF.cpp 213-239: the positions of the walkers, for the numbers `picks` drawn; `ps` are those found so far. -/
def place (d walkers : Int) : List (Int × Int) → List Pos → Except Fault (List Pos)
  | [], ps => if (ps.length : Int) < walkers then .error .outOfFuel else .ok ps
  | (y, z) :: picks, ps =>
    if (ps.length : Int) < walkers then
      if (0 ≤ y ∧ y < d) ∧ 0 ≤ z ∧ z < d then do
        let _ ← Box.to1D d ⟨0, y, z⟩
        place d walkers picks (if ⟨0, y, z⟩ ∈ ps then ps else ps ++ [⟨0, y, z⟩])
      else .error .assertFail
    else .ok ps

/-- test_ToF.cpp 254-264: the walkers from number `k` on. As in the toy program a variable, here the walker -1, is placed on the
site, while a new walker is handed to the system. -/
def create (env : Env K) (mem : Addr → K) (d : Int) : Nat → List Pos → Prog K → Except Fault (Prog K)
  | _, [], p => .ok p
  | k, a :: ps, p => do
    let p ← p.call env mem (.newWalker (-1))
    let i ← Box.flat d a
    let p ← p.call env mem (.walkerOccupy (-1) i)
    let p ← p.call env mem (.newWalker k)
    create env mem d (k + 1) ps p

/-- test_ToF.cpp 254-292: from the walkers to the assertion on the first entry of `walker_global_times`, which is undefined if
there is none. -/
def start (env : Env K) (mem : Addr → K) (d : Int) (m : IMap (IMap Addr)) (ps : List Pos) (seed threshold : Int)
    (cutoff : K) (sampleRate : Int) (first : Nat → K × K) : Except Fault (Prog K) := do
  let p ← create env mem d 0 ps ⟨World.new 0, []⟩
  let inc ← quot cutoff (sampleRate : K)
  let p ← p.call env mem (.setRandomSeed (seed % 2 ^ 64).toNat)
  let p ← p.call env mem (.setTimeResolution inc)
  let p ← p.call env mem (.setMinThreshold threshold)
  let p ← p.call env mem (.initializeSystem m)
  let p ← p.call env mem (.initializeWalkers (entries ps.length first))
  if ps.length = 0 then .error (.ub .endIterator) else .ok p

/-- test_ToF.cpp 119-292: from the rates to the loops. `visit` is the order of the entries of the map of rates. -/
noncomputable def main (env : Env ℝ) (d walkers seed threshold sampleRate : Int) (cutoff field : ℝ) (energies : List ℝ)
    (visit : IMap (IMap ℝ) → List (Int × List (Int × ℝ))) (picks : List (Int × Int)) (first : Nat → ℝ × ℝ) :
    Except Fault (Prog ℝ) := do
  let R ← Box.rates d energies (field * 10e-7)
  mkDistribution d
  let ps ← place d walkers picks []
  start env (memOf (visit R)) d (layout (visit R)) ps seed threshold cutoff sampleRate first

end Flight

/-! ## The simulation on a line -/

namespace Line
open Cuboid

/-- test_1Dsystem.cpp 78-86: the energies. -/
noncomputable def energies (d : Int) : List ℝ :=
  (Box.axis d).map fun i => if i.tmod 8 = 0 ∨ i.tmod 9 = 1 then -Box.reorganization * 5 else 0

/-- test_1Dsystem.cpp 92-104, 115-129: one neighbour; the constants are those of `Box`. -/
noncomputable def setRate (d : Int) (field : ℝ) (x : Int) (R : IMap (IMap ℝ)) (x2 : Int) : Except Fault (IMap (IMap ℝ)) :=
  if 0 ≤ x2 ∧ x2 < d then
    if x ≠ x2 then do
      let dx ← chk (x2 - x)
      let k ← Box.rate (energies d) field dx x x2
      .ok (set2 R x x2 k)
    else .ok R
  else .error .assertFail

/-- test_1Dsystem.cpp 106-131: the rates of one site. -/
noncomputable def siteRates (d : Int) (field : ℝ) (R : IMap (IMap ℝ)) (x : Int) : Except Fault (IMap (IMap ℝ)) := do
  let xs ← Box.span d x
  let R ← xs.foldlM (setRate d field x) R
  if ((R.get? x).getD []).length ≠ 0 then .ok R else .error .assertFail

/-- test_1Dsystem.cpp 78-132: the rates. A negative length is a huge size of the vector in 78. `field` is `field_nm`. -/
noncomputable def rates (d : Int) (field : ℝ) : Except Fault (IMap (IMap ℝ)) :=
  if d < 0 then .error .lengthError else (Box.axis d).foldlM (siteRates d field) []

variable {K : Type} [Field K] [LinearOrder K]

/-- The variables of one repetition (test_1Dsystem.cpp 173-214). -/
structure Rep (K : Type) where
  /-- the time in the one entry of `walker_global_times`, if there is one -/
  time : Option K
  /-- the site of the electron -/
  pos : Int
  deltaX : K
  /-- `current_index` -/
  index : Int
  /-- `sample_time` -/
  sampleTime : K
  /-- `transient_current` -/
  currents : List K
  /-- not a variable: the times and the displacements of the hops made so far in the repetition -/
  log : List (K × Int)

/-- test_1Dsystem.cpp 190-208: the inner loop. `hop l` is the site after the next hop and the dwell time there, after the hops `l`:
the library is not part of this model. `fuel` bounds the number of rounds. -/
def inner (d : Int) (hop : List (K × Int) → Int × K) : Nat → Rep K → Except Fault (Rep K)
  | 0, _ => .error .outOfFuel
  | fuel + 1, s =>
    match s.time with
    | none => .ok s
    | some t =>
      if t < s.sampleTime then do
        let dx ← chk ((hop s.log).1 - s.pos)
        let last ← chk (d - 1)
        inner d hop fuel { s with pos := (hop s.log).1, deltaX := s.deltaX + (dx : K), log := s.log ++ [(t, dx)],
                                  time := if (hop s.log).1 = last then none else some (t + (hop s.log).2) }
      else .ok s

/-- test_1Dsystem.cpp 188-214: the outer loop. -/
def outer (d : Int) (hop : List (K × Int) → Int × K) (cutoff inc nm : K) (fuel : Nat) : Nat → Rep K → Except Fault (Rep K)
  | 0, _ => .error .outOfFuel
  | n + 1, s =>
    match s.time with
    | none => .ok s
    | some t =>
      if t < cutoff then do
        let s ← inner d hop fuel { s with deltaX := 0 }
        if 0 ≤ s.index ∧ s.index < s.currents.length then do
          let index ← chk (s.index + 1)
          outer d hop cutoff inc nm fuel n { s with currents := s.currents.set s.index.toNat (s.deltaX * nm / inc), index := index,
                                                    sampleTime := s.sampleTime + inc }
        else .error .outOfRange
      else .ok s

/-- test_1Dsystem.cpp 164-224: one repetition, in which the electron starts on site 0 with dwell time `first`. `sample_time` is a
variable of the whole program. -/
def repetition (d : Int) (hop : List (K × Int) → Int × K) (first cutoff inc nm : K) (sampleRate : Nat) (fuel : Nat) (sampleTime : K) :
    Except Fault (Rep K) :=
  if first < cutoff then
    outer d hop cutoff inc nm fuel fuel ⟨some first, 0, 0, 0, sampleTime, List.replicate sampleRate 0, []⟩
  else .error .assertFail

/-- test_1Dsystem.cpp 160-224: the repetitions (there are 8), each with its hops and its first dwell time. -/
def repetitions (d : Int) (cutoff inc nm : K) (sampleRate : Nat) (fuel : Nat) : List ((List (K × Int) → Int × K) × K) → K →
    Except Fault (List (Rep K))
  | [], _ => .ok []
  | (hop, first) :: rest, sampleTime => do
    let s ← repetition d hop first cutoff inc nm sampleRate fuel sampleTime
    let l ← repetitions d cutoff inc nm sampleRate fuel rest s.sampleTime
    .ok (s :: l)

/-- test_1Dsystem.cpp 148-154, 164-224: with the sampling interval computed. A sample rate that is not positive makes
`setTimeResolution` throw (154) or is a division by zero. -/
def simulate (d : Int) (cutoff nm : K) (sampleRate : Int) (fuel : Nat) (runs : List ((List (K × Int) → Int × K) × K)) :
    Except Fault (List (Rep K)) := do
  let inc ← quot cutoff (sampleRate : K)
  if inc ≤ 0 then .error .invalidArgument
  else repetitions d cutoff inc nm sampleRate.toNat fuel runs inc

/-- test_1Dsystem.cpp 230-238: the mean of all entries. -/
def mean (l : List (List K)) : Except Fault K :=
  quot (l.map List.sum).sum (l.map fun t => (t.length : K)).sum

end Line

end Mythical
