import Verif.Lemmas.SystemWitness
import Verif.Model.GraphAdapter
import Verif.Tests.Units

/-!
# The repository's unit tests of whole systems, run on the model

Tests, not proofs of properties; see `Verif.Tests.Units`. The random numbers come from a linear congruential generator, the
traversal times from a shortest-path computation on the graph that the adapter builds, and `#guard` evaluates the outcome with
the interpreter.
-/

namespace Mythical.Tests
open Mythical Mythical.World

/-! ## What the model leaves open: random numbers and shortest paths -/

/-- Shorten the distances `d` by one pass over the edges. -/
def relax (es : List (WEdge ℚ)) (d : IMap ℚ) : IMap ℚ :=
  es.foldl (fun d e => match d.get? e.src with
    | none => d
    | some t => match d.get? e.dst with
      | none => d.set e.dst (t + e.weight)
      | some t' => if t + e.weight < t' then d.set e.dst (t + e.weight) else d) d

/-- `n` passes. -/
def relaxN (es : List (WEdge ℚ)) : Nat → IMap ℚ → IMap ℚ
  | 0, d => d
  | n + 1, d => relaxN es n (relax es d)

/-- The shortest distances between any two nodes (`maxMinimumDistanceBetweenEveryVertex`, coarsegrainsystem.cpp 414-415). -/
def distances (g : WGraph ℚ) : List ℚ :=
  let es := g.edges.filter fun e => e.src ∈ g.nodes ∧ e.dst ∈ g.nodes
  g.nodes.flatMap fun x => ((relaxN es g.nodes.length [(x, 0)]).filter fun yd => yd.1 ≠ x).map Prod.snd

/-- The next state of the generator. -/
def lcg (s : Nat) : Nat := (s * 6364136223846793005 + 1442695040888963407) % 2 ^ 64

/-- A number in [0, 1). -/
def uOf (s : Nat) : ℚ := mkRat (s / 2 ^ 40) (2 ^ 24)

/-- Minus the logarithm of a number in (0, 1), to 16 binary digits. -/
def eOf (s : Nat) : ℚ :=
  mkRat (-(Float.log ((s / 2 ^ 11).toFloat + 0.5) - 53 * Float.log 2) * 65536).toUInt64.toNat 65536

/-- A system and the state of the generator. -/
structure Run where
  w : World ℚ
  s : Nat

/-- Hop walker 1 (handle 0). -/
def Run.hop (mem : Addr → ℚ) (r : Run) : Except Fault Run :=
  let s1 := lcg r.s
  let s2 := lcg s1
  let a := { witChoice (uOf s2) [] with e := eOf s1 }
  match r.w.hopMove 1 0 a with
  | .error e => .error e
  | .ok (v, w1) =>
    let times := if w1.iteration + 1 > w1.threshold then
      (match Explorer.default.findBasin a.vis mem w1.sites w1.clusters v with
        | .ok B => distances (GraphAdapter.timeGraph mem w1.sites B)
        | .error _ => []) else []
    match r.w.hop Cluster.witEnv mem 1 0 { a with times := times } with
    | (.ok _, w) => .ok ⟨w, s2⟩
    | (.error e, _) => .error e

/-- Put a new walker on site `i`. -/
def Run.place (r : Run) (i : Int) : Except Fault Run := do
  let s1 := lcg r.s
  let s2 := lcg s1
  let w ← (r.w.newWalker 0).walkerOccupy 0 i
  match w.initializeWalkers [⟨1, 0, eOf s1, uOf s2⟩] with
  | (.error e, _) => .error e
  | (.ok _, w) => .ok ⟨w, s2⟩

/-- The dwell time of the walker. -/
def Run.dwell (r : Run) : ℚ := ((r.w.walkers.get? 0).map (·.dwell)).getD 0

/-- A new system. -/
def Run.new (mem : Addr → ℚ) (m : IMap (IMap Addr)) (threshold : Int) (res ratio : ℚ) (seed : Nat) : Run :=
  ⟨(runOps Cluster.witEnv mem (World.new 0) [.setRandomSeed 1, .setTimeResolution res, .setPerformanceRatio ratio,
    .setMinThreshold threshold, .initializeSystem m]).2, seed⟩

/-- `while(time<time_limit)` (test_coarsegrainsystem.cpp 264-271), for at most `n` hops. -/
def Run.until (mem : Addr → ℚ) (limit : ℚ) : Nat → ℚ → Run → Except Fault Run
  | 0, _, r => .ok r
  | n + 1, t, r => if t < limit then do
      let r ← r.hop mem
      Run.until mem limit n (t + r.dwell) r
    else .ok r

/-- The sites of the only cluster, if its id is 0. -/
def onlyCluster (r : Except Fault Run) : Option (List Int) :=
  match r with
  | .ok r => match r.w.getClusters with
    | [(0, l)] => some l
    | _ => none
  | .error _ => none

/-- A row of rates at addresses `100 * id + neighbour`. -/
def rowOf (r : Nat × List Nat) : Int × IMap Addr := ((r.1 : Int), r.2.map fun (n : Nat) => ((n : Int), 100 * r.1 + n))

/-! ## test_coarsegrainsystem.cpp, "hop" -/

/-- test_coarsegrainsystem.cpp 143-234: the lattice of 12 sites. -/
def lattice12 : IMap (IMap Addr) := [(1, [2, 5]), (2, [1, 3, 6]), (3, [2, 4, 7]), (4, [3, 8]), (5, [1, 6, 9]), (6, [2, 5, 7, 10]),
  (7, [3, 6, 8, 11]), (8, [4, 7, 12]), (9, [5, 10]), (10, [6, 9, 11]), (11, [7, 10, 12]), (12, [8, 11])].map rowOf

/-- Its rates: fast between 6 and 7, very slow away from them. -/
def rates12 (a : Addr) : ℚ := if a = 607 ∨ a = 706 then 100 else if a / 100 = 6 ∨ a / 100 = 7 then 1 / 1000 else 1

-- test_coarsegrainsystem.cpp 237-292, for 2000 hops: without a limit on the iterations there are no clusters.
#guard match (Run.new rates12 lattice12 infIterations 1000 1 1).place 1 >>= Run.until rates12 10000 2000 0 with
  | .ok r => decide (r.w.getClusters = [])
  | .error _ => false

-- test_coarsegrainsystem.cpp 294-361: in the end there is one cluster, with id 0, which contains sites 6 and 7.
#guard match onlyCluster ((Run.new rates12 lattice12 1000 1000 1 1).place 1 >>= Run.until rates12 10000 5000 0) with
  | some l => decide (6 ∈ l ∧ 7 ∈ l)
  | none => false

/-! ## test_coarsegrainsystem2.cpp, "mergeCluster" -/

/-- test_coarsegrainsystem2.cpp 19-150: the lattice of 16 sites. -/
def lattice16 : IMap (IMap Addr) := [(1, [2, 5]), (2, [1, 3, 6]), (3, [2, 4, 7]), (4, [3, 8]), (5, [1, 6, 9]), (6, [2, 5, 7, 10]),
  (7, [3, 6, 8, 11]), (8, [4, 7, 12]), (9, [5, 10, 13]), (10, [6, 9, 11, 14]), (11, [7, 10, 12, 15]), (12, [8, 11, 16]),
  (13, [9, 14]), (14, [10, 13, 15]), (15, [11, 14, 16]), (16, [12, 15])].map rowOf

/-- Its rates: fast between 6 and 10 and between 7 and 11, moderate between 6 and 7 and between 10 and 11. -/
def rates16 (a : Addr) : ℚ :=
  if a = 610 ∨ a = 1006 ∨ a = 711 ∨ a = 1107 then 10000 else if a = 607 ∨ a = 706 ∨ a = 1011 ∨ a = 1110 then 100 else 1

-- test_coarsegrainsystem2.cpp 206-272, for 5000 hops: the two clusters become one, with id 0, of the sites 6, 7, 10 and 11.
#guard match onlyCluster ((Run.new rates16 lattice16 500 100 1 1).place 1 >>= Run.until rates16 1000 5000 0) with
  | some l => decide (l.Perm [6, 7, 10, 11])
  | none => false

/-! ## test_coarsegrainsystem.cpp, "hop 2" -/

/-- test_coarsegrainsystem.cpp 376-484: five inner sites and nine neighbours. -/
def sites14 : IMap (IMap Addr) := [(1, [14, 6, 2, 5]), (2, [1, 7, 3, 4]), (3, [2, 8, 9, 10]), (4, [5, 2, 10, 11]), (5, [13, 1, 4, 12]),
  (6, [1]), (7, [2]), (8, [3]), (9, [3]), (10, [3]), (11, [4]), (12, [4]), (13, [5]), (14, [5])].map rowOf

/-- Their rates. -/
def rates14 (a : Addr) : ℚ :=
  if a = 204 then 10 else if a ∈ [102, 105, 201, 203, 405, 402, 501, 504] then 1 else if a ∈ [106, 513] then 1 / 100
  else if a = 302 then 1 / 25 else if a = 410 then 1 / 300 else 1 / 400

/-- test_coarsegrainsystem.cpp 527-531: hop until the walker is on a neighbour, and add up the times on the sites. -/
def Run.escape (mem : Addr → ℚ) : Nat → Run → IMap ℚ → Except Fault (Run × IMap ℚ)
  | 0, r, t => .ok (r, t)
  | n + 1, r, t => if (whereIs r.w 0).getD 0 < 6 then do
      let r ← r.hop mem
      let i := (whereIs r.w 0).getD 0
      Run.escape mem n r (t.set i (t.at0 i + r.dwell))
    else .ok (r, t)

/-- test_coarsegrainsystem.cpp 515-535: `n` electrons, one after the other. -/
def Run.electrons (mem : Addr → ℚ) : Nat → Nat → Run → IMap ℚ → Except Fault (Run × IMap ℚ)
  | 0, _, r, t => .ok (r, t)
  | n + 1, k, r, t => do
    let r ← r.place (k % 5 + 1)
    let (r, t) ← r.escape mem 100000 t
    let w ← r.w.removeWalker 1 0
    Run.electrons mem n (k + 1) ⟨w, r.s⟩ t

/-- The part of the time on the inner sites that was spent on site `i`. -/
def portion (t : IMap ℚ) (i : Int) : ℚ := t.at0 i / ([1, 2, 3, 4, 5].map t.at0).sum

-- test_coarsegrainsystem.cpp 497-644, with 200 electrons in place of 8000: no clusters, and the portions of time asserted there.
#guard match Run.electrons rates14 200 0 (Run.new rates14 sites14 infIterations 1000 1 1) [] with
  | .ok (r, t) => decide (r.w.getClusters = [] ∧
      0.075 < portion t 1 ∧ portion t 1 < 0.09 ∧ 0.02 < portion t 2 ∧ portion t 2 < 0.03 ∧ 0.54 < portion t 3 ∧ portion t 3 < 0.56 ∧
      0.19 < portion t 4 ∧ portion t 4 < 0.21 ∧ 0.13 < portion t 5 ∧ portion t 5 < 0.15)
  | .error _ => false

-- test_coarsegrainsystem.cpp 646-740, with 100 electrons: one cluster, of the five inner sites.
#guard match onlyCluster ((Run.electrons rates14 100 0 (Run.new rates14 sites14 10 1000 (1 / 5) 1) []).map Prod.fst) with
  | some l => decide (l.Perm [1, 2, 3, 4, 5])
  | none => false

end Mythical.Tests
