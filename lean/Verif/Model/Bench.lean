import Verif.Model.Programs
import Verif.Model.Crude

/-!
# Model of the simulations in src/tests/performance/test_coarsegrain_cluster_vs_nocluster.cpp (191-340)

The program simulates walkers in a box twice, first with coarse graining switched off (219-277) and then with a given threshold
(279-340). The rates (124-189) are in `Model/Box.lean`; the random positions (191-217) are chosen as in
performance/test_crude_vs_coarsegrain.cpp, see `Crude.place`.

* The calls on the system and on the walkers are made one after the other, as in `Model/ToFMain.lean`: exact numbers, the walker at
  index `k` of `electrons` has the id `k` and the handle `k`, and the random numbers and the choices in the hops are arguments.
* `list::sort` is stable, see `Crude.sortTimes`.
* Output and the measuring of times are left out, and so are `current_time_sample_increment` as a variable of its own and the
  generator in 250-252, which is never used.
-/

namespace Mythical.Bench
open World ToF
variable {K : Type} [Field K] [LinearOrder K] [IsStrictOrderedRing K] [FloorRing K]

/-- All that a simulation does not determine itself: the draws for walker `k` in `initializeWalkers` (246, 310) and the choices in the
hop of a walker after a history (262, 328). -/
structure Luck (K : Type) where
  first : Nat → K × K
  draw : List (Event K) → Int → Choices K

/-- The variables of a simulation: the calls made so far and `walker_global_times` (248, 312). -/
structure Sim (K : Type) where
  prog : Prog K
  times : List (Int × K)

/-- 226-230, 287-291: the sites of the walkers. Here they are looked up before the first walker is created. -/
def sitesOf (d : Int) (pos : IMap Cuboid.Pos) (n : Nat) : Except Fault (List Int) := (List.range n).mapM fun k : Nat => Crude.siteOf d pos k

/-- 255-257, 319-321: the entries of `walker_global_times`. -/
def dwells (w : World K) (n : Nat) : Except Fault (List (Int × K)) :=
  (List.range n).mapM fun k : Nat => do
    let x ← w.walkerOf k
    .ok ((k : Int), x.dwell)

/-- 224-260, 283-324: from the walkers to the assertion. `begin()` of an empty list must not be dereferenced. `seed` is converted to
`unsigned long`. -/
def start (env : Env K) (mem : Addr → K) (m : IMap (IMap Addr)) (sites : List Int) (seed threshold : Int) (cutoff : K) (rate : Int)
    (luck : Luck K) (p : Prog K) : Except Fault (Sim K) := do
  let p ← place env mem p 0 sites
  let inc ← quot cutoff (rate : K)
  let p ← p.call env mem (.setRandomSeed (seed % 2 ^ 64).toNat)
  let p ← p.call env mem (.setMinThreshold threshold)
  let p ← p.call env mem (.setTimeResolution inc)
  let p ← p.call env mem (.initializeSystem m)
  let p ← p.call env mem (.initializeWalkers (entries sites.length luck.first))
  let l ← dwells p.world sites.length
  match Crude.sortTimes l with
  | [] => .error (.ub .endIterator)
  | e :: es => if e.2 < cutoff then .ok ⟨p, e :: es⟩ else .error .assertFail

/-- 261-268, 325-334: what is done next with `n` walkers; `none` if the loop is over. `electrons[walker_index]` outside of the vector is
undefined; in the second simulation it is `electrons.at(walker_index)`, which would throw. -/
def advance (env : Env K) (mem : Addr → K) (n : Nat) (cutoff : K) (luck : Luck K) (s : Sim K) : Except Fault (Option (Sim K)) :=
  match s.times with
  | [] => .error (.ub .endIterator)
  | (k, t) :: rest =>
    if t < cutoff then
      if 0 ≤ k ∧ k < n then do
        let p ← s.prog.call env mem (.hop k k (luck.draw s.prog.calls k))
        let x ← p.world.walkerOf k
        .ok (some ⟨p, Crude.sortTimes ((k, t + x.dwell) :: rest)⟩)
      else .error (.ub .endIterator)
    else .ok none

/-- The first `r` rounds of the loop: the variables, and whether the loop is over. -/
def loops (env : Env K) (mem : Addr → K) (n : Nat) (cutoff : K) (luck : Luck K) : Nat → Sim K → Except Fault (Sim K × Bool)
  | 0, s => .ok (s, false)
  | r + 1, s =>
    match advance env mem n cutoff luck s with
    | .error f => .error f
    | .ok none => .ok (s, true)
    | .ok (some s) => loops env mem n cutoff luck r s

/-- 224-268, 283-334: a simulation up to the first `r` rounds of its loop. -/
def part (env : Env K) (mem : Addr → K) (m : IMap (IMap Addr)) (sites : List Int) (seed threshold : Int) (cutoff : K) (rate : Int)
    (luck : Luck K) (p : Prog K) (r : Nat) : Except Fault (Sim K × Bool) := do
  let s ← start env mem m sites seed threshold cutoff rate luck p
  loops env mem sites.length cutoff luck r s

/-- A simulation whose loop is over within `r` rounds. -/
def whole (env : Env K) (mem : Addr → K) (m : IMap (IMap Addr)) (sites : List Int) (seed threshold : Int) (cutoff : K) (rate : Int)
    (luck : Luck K) (p : Prog K) (r : Nat) : Except Fault (Sim K) := do
  let sf ← part env mem m sites seed threshold cutoff rate luck p r
  if sf.2 then .ok sf.1 else .error .outOfFuel

/-- 270-274: the end of the first simulation. -/
def check (s : Sim K) : Except Fault Unit :=
  if s.prog.world.getClusters.length ≠ 0 then .error .runtimeError else .ok ()

/-- 219-340: both simulations with the rates in `mem`, to which `m` refers. The map of rates is not changed in between, so that it
is gone through in the same order; the counter of the clusters goes on. Returns the number of clusters that is printed. -/
def both (env : Env K) (mem : Addr → K) (m : IMap (IMap Addr)) (sites : List Int) (seed threshold : Int) (cutoff : K) (rate : Int)
    (luck luck' : Luck K) (r r' : Nat) : Except Fault Nat := do
  let s ← whole env mem m sites seed infIterations cutoff rate luck ⟨World.new 0, []⟩ r
  check s
  let s' ← whole env mem m sites seed threshold cutoff rate luck' ⟨{ World.new 0 with nextId := s.prog.world.nextId }, []⟩ r'
  .ok s'.prog.world.getClusters.length

/-- 124-340: `main` from the rates on. `visit` is the order of the entries of the map of rates. A negative number of walkers is none. -/
noncomputable def main (env : Env ℝ) (d walkers seed threshold rate : Int) (cutoff : ℝ) (energies : List ℝ)
    (visit : IMap (IMap ℝ) → List (Int × List (Int × ℝ))) (picks : List Cuboid.Pos) (luck luck' : Luck ℝ) (r r' : Nat) :
    Except Fault Nat := do
  let R ← Box.rates d energies 0
  let _ ← chk (seed + 1)
  Cuboid.mkDistribution d
  let (_, pos) ← Crude.place d walkers.toNat picks 0 [] []
  let sites ← sitesOf d pos walkers.toNat
  both env (memOf (visit R)) (layout (visit R)) sites seed threshold cutoff rate luck luck' r r'

end Mythical.Bench
