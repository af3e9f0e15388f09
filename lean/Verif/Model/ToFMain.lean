import Verif.Model.System
import Verif.Model.Queue
import Verif.Model.Cuboid

/-!
# Model of the program examples/ToF/ToF_example.cpp (81-115, 139-221)

The calls of the program on the system and on the walkers are made one after the other with `World.step`; none of the
exceptions is caught. The nested loops (185-217) are a transition system: `inside` tells whether control is in the inner loop.

* The numbers are exact ones, as in the model of the system.
* `class Hole` (79) adds nothing to `Walker`. The walker at index `k` of `holes` has the id `k` and the handle `k`.
* The rates are those in the variables `mem`, to which the map `m` refers; calculating them is modelled in `Verif/Model/ToF.lean`.
* Writing to the screen is not modelled, nor is `reserve`. The site energies, the file (117-137, 218) and `main` as a whole are in
  `Verif/Model/ToFOutput.lean`.
* The random numbers, the order in which the set of sites is gone through, the result of `std::sort` and the choices made in the
  hops (`Choices`) are arguments. Those of a hop may depend on all that has happened before.
-/

namespace Mythical.ToF
open World

/-- The constants of the program (ToF_example.cpp 140-141, 159, 163-164, 167, 184). -/
structure Config (K : Type) where
  /-- `num_charges` -/
  charges : Nat
  /-- `cutoff_time` -/
  cutoffTime : K
  /-- `current_time_sample_increment` -/
  dt : K
  /-- `random_number_seed` -/
  seed : Nat
  /-- `q` -/
  q : K
  /-- `nm_to_cm` -/
  nm : K
  /-- `volume` -/
  volume : K

/-- All that the program does not determine itself. -/
structure Chances (K : Type) [LinearOrder K] where
  /-- the numbers drawn in the calls of `getRandomSite` (85) -/
  picks : List (Int × Int)
  /-- the order in which the loop in 93 goes through the set -/
  order : List Int → List Int
  order_perm : ∀ l, (order l).Perm l
  /-- the draws for walker `k` in `initializeWalkers` (172) -/
  first : Nat → K × K
  /-- the call of `std::sort` in `Queue::sort` (111) -/
  sort : SortCall K
  /-- the choices in the hop (192) of a walker after a history -/
  draw : List (Event K) → Int → Choices K

/-- The program between two calls: the world and the calls made so far. -/
structure Prog (K : Type) where
  world : World K
  calls : List (Event K)

/-- The variables of the loops (ToF_example.cpp 165, 174-186). `samples` holds the entries of `transient_current`, `none` standing
for a value that is not a finite number, and of `charges_left`. -/
structure Sim (K : Type) where
  prog : Prog K
  /-- `walker_global_times` -/
  queue : Queue K
  /-- `charges_remain` -/
  remain : Int
  /-- `sample_time` -/
  sampleTime : K
  /-- `deltaX` -/
  deltaX : K
  /-- control is in the inner loop -/
  inside : Bool
  samples : List (Option K × Int)
  /-- `current_index` -/
  index : Int

variable {K : Type} [Field K] [LinearOrder K] [IsStrictOrderedRing K] [FloorRing K]

/-- A call on the system or on a walker. An exception ends the program. -/
def Prog.call (env : Env K) (mem : Addr → K) (p : Prog K) (op : Op K) : Except Fault (Prog K) :=
  match p.world.step env mem op with
  | (.error f, _) => .error f
  | (.ok r, w) => .ok ⟨w, p.calls ++ [⟨p.world, mem, op, .ok r, w⟩]⟩

/-- ToF_example.cpp 83-87: random sites of the first plane are put into a set until it has `n` elements. -/
def pickSites (c : Cuboid) (n : Nat) : List (Int × Int) → List Int → Except Fault (List Int)
  | ds, occ =>
    if occ.length < n then
      match ds with
      | [] => .error .outOfFuel
      | d :: ds => do
        let site ← c.getRandomSite .YZ 0 d.1 d.2
        pickSites c n ds (if site ∈ occ then occ else occ ++ [site])
    else .ok occ

/-- ToF_example.cpp 89-97: the charges from number `k` on are created and placed. -/
def place (env : Env K) (mem : Addr → K) : Prog K → Int → List Int → Except Fault (Prog K)
  | p, _, [] => .ok p
  | p, k, site :: rest => do
    let p ← p.call env mem (.newWalker k)
    let p ← p.call env mem (.walkerOccupy k site)
    place env mem p (k + 1) rest

/-- ToF_example.cpp 108-110: the dwell times of the charges `ks` are added to the queue. -/
def addAll (w : World K) : List Nat → Queue K → Except Fault (Queue K)
  | [], q => .ok q
  | k :: ks, q => do
    let x ← w.walkerOf k
    addAll w ks (q.add (k, x.dwell))

/-- ToF_example.cpp 101-115: `createQueue`. -/
def createQueue (w : World K) (n : Nat) (s : SortCall K) (cutoff : K) : Except Fault (Queue K) := do
  let q ← addAll w (List.range n) .init
  let q := q.sort s
  let e ← q.at_ 0
  if e.2 < cutoff then .ok q else .error .assertFail

/-- The argument of `initializeWalkers` (ToF_example.cpp 172) with the draws made. -/
def entries (n : Nat) (first : Nat → K × K) : List (Entry K) :=
  (List.range n).map fun k : Nat => ⟨(k : Int), (k : Int), (first k).1, (first k).2⟩

/-- ToF_example.cpp 158-183: up to the loops. -/
def start (env : Env K) (mem : Addr → K) (c : Cuboid) (m : IMap (IMap Addr)) (cfg : Config K) (ch : Chances K) :
    Except Fault (Sim K) := do
  let sites ← pickSites c cfg.charges ch.picks []
  let p ← place env mem ⟨World.new 0, []⟩ 0 (ch.order sites)
  let p ← p.call env mem (.setRandomSeed cfg.seed)
  let p ← p.call env mem (.setTimeResolution cfg.dt)
  let p ← p.call env mem (.initializeSystem m)
  let p ← p.call env mem (.initializeWalkers (entries cfg.charges ch.first))
  let q ← createQueue p.world cfg.charges ch.sort cfg.cutoffTime
  .ok ⟨p, q, cfg.charges, cfg.dt, 0, false, [], 0⟩

/-- `holes.at(i)` (ToF_example.cpp 189) for `n` charges: the handle. -/
def holeAt (n : Nat) (i : Int) : Except Fault Int :=
  if 0 ≤ i ∧ i < n then .ok i else .error .outOfRange

/-- ToF_example.cpp 188-205: one round of the inner loop. -/
def iterate (env : Env K) (mem : Addr → K) (c : Cuboid) (cfg : Config K) (ch : Chances K) (s : Sim K) : Except Fault (Sim K) := do
  let (e, q) ← s.queue.popCurrent
  let h ← holeAt cfg.charges e.1
  let x ← s.prog.world.walkerOf h
  let i ← walkerSite x
  let old ← c.getX i
  let p ← s.prog.call env mem (.hop e.1 h (ch.draw s.prog.calls h))
  let y ← p.world.walkerOf h
  let j ← walkerSite y
  let new ← c.getX j
  let d ← chk (new - old)
  let last ← chk (c.length - 1)
  if new < last then
    .ok { s with prog := p, queue := q.sortedAdd (e.1, e.2 + y.dwell), deltaX := s.deltaX + (d : K) }
  else do
    let p ← p.call env mem (.removeWalker e.1 h)
    let r ← chk (s.remain - 1)
    .ok { s with prog := p, queue := q, deltaX := s.deltaX + (d : K), remain := r }

/-- ToF_example.cpp 208-211: the current density. Without charges in the queue the velocity is `x / 0`, an infinity or NaN, and the
density 0, so that the product is NaN. -/
def current (cfg : Config K) (n : Nat) (deltaX : K) : Option K :=
  if (n : K) * cfg.dt = 0 ∨ cfg.volume = 0 then none
  else some ((cfg.q * n / cfg.volume) * (deltaX * cfg.nm / (n * cfg.dt)))

/-- ToF_example.cpp 207-216: after the inner loop. -/
def sample (cfg : Config K) (s : Sim K) : Except Fault (Sim K) := do
  let samples := s.samples ++ [(current cfg s.queue.size s.deltaX, s.remain)]
  if 0 ≤ s.index ∧ s.index < samples.length then
    let index ← chk (s.index + 1)
    .ok { s with samples := samples, index := index, sampleTime := s.sampleTime + cfg.dt, inside := false }
  else .error .outOfRange

/-- `walker_global_times.size() && walker_global_times.at(0).second < t` (ToF_example.cpp 185, 187). -/
def due (q : Queue K) (t : K) : Except Fault Bool :=
  if q.size = 0 then .ok false
  else do
    let e ← q.at_ 0
    .ok (decide (e.2 < t))

/-- ToF_example.cpp 185-217: what is done next; `none` if the loops are over. -/
def advance (env : Env K) (mem : Addr → K) (c : Cuboid) (cfg : Config K) (ch : Chances K) (s : Sim K) :
    Except Fault (Option (Sim K)) :=
  if s.inside then do
    if ← due s.queue s.sampleTime then
      let s ← iterate env mem c cfg ch s
      .ok (some s)
    else
      let s ← sample cfg s
      .ok (some s)
  else do
    if ← due s.queue cfg.cutoffTime then .ok (some { s with deltaX := 0, inside := true }) else .ok none

/-- The first `n` steps in the loops: the state, and whether the loops are over. -/
def loops (env : Env K) (mem : Addr → K) (c : Cuboid) (cfg : Config K) (ch : Chances K) : Nat → Sim K → Except Fault (Sim K × Bool)
  | 0, s => .ok (s, false)
  | n + 1, s =>
    match advance env mem c cfg ch s with
    | .error f => .error f
    | .ok none => .ok (s, true)
    | .ok (some s) => loops env mem c cfg ch n s

/-- ToF_example.cpp 139-221: `main` up to the first `n` steps in the loops. -/
def program (env : Env K) (mem : Addr → K) (c : Cuboid) (m : IMap (IMap Addr)) (cfg : Config K) (ch : Chances K) (n : Nat) :
    Except Fault (Sim K × Bool) := do
  let s ← start env mem c m cfg ch
  loops env mem c cfg ch n s

end Mythical.ToF
