import Verif.Model.Escape

/-!
# Model of the unit test src/tests/unit/test_coarsegrainsystem2.cpp

One electron hops on 16 sites in a square, first without coarse graining (163-213) and then with it (218-272), where two clusters should
be found and merged.

* Numbers are exact; the random numbers and the choices in the hops are arguments; the `while` loop (189, 244) is cut off after `r`
  rounds, as in `Model/Escape.lean`, from which the functions for the map of rates and for the entries of the vectors are taken (the code
  is the same here). The electron has the handle 0.
* The sums and ratios of 202-211, which are not used, and the output are left out.
-/

namespace Mythical.Merging
open World ToF
variable {K : Type} [Field K] [LinearOrder K] [IsStrictOrderedRing K] [FloorRing K]

/-- 39-106: the rates, each with the site it leads to. -/
def rates : List (Int × K) :=
  let fast := 10000
  let moderate := 100
  let slow := 1
  [(2, slow), (5, slow),
   (1, slow), (3, slow), (6, slow),
   (2, slow), (4, slow), (7, slow),
   (3, slow), (8, slow),
   (1, slow), (6, slow), (9, slow),
   (2, slow), (5, slow), (7, moderate), (10, fast),
   (3, slow), (6, moderate), (8, slow), (11, fast),
   (4, slow), (7, slow), (12, slow),
   (5, slow), (10, slow), (13, slow),
   (6, fast), (9, slow), (11, moderate), (14, slow),
   (7, fast), (10, moderate), (12, slow), (15, slow),
   (8, slow), (11, slow), (16, slow),
   (9, slow), (14, slow),
   (10, slow), (13, slow), (15, slow),
   (11, slow), (14, slow), (16, slow),
   (12, slow), (15, slow)]

/-- 109-113: `idsOfEachSite`. -/
def ids : List Int := [1, 2, 3, 4, 5, 6, 7, 8, 9, 10, 11, 12, 13, 14, 15, 16]

/-- 116-120: `numberOfNeighbors`. -/
def counts : List Nat := [2, 3, 3, 2, 3, 4, 4, 3, 3, 4, 4, 3, 2, 3, 3, 2]

/-- 140-158: `ratesToNeighbors`, and how many of the rates are used. -/
def table : Except Fault (IMap (IMap K) × Nat) := Escape.tableFrom rates (ids.zip counts) 0 []

/-- All that a block does not determine itself: the draws in `initializeWalkers` (180, 235) and the choices in the hop after a history
(190, 245). -/
structure Luck (K : Type) where
  first : K × K
  draw : List (Event K) → Choices K

/-- 182-186, 237-241: `time_spent_on_sites`, `hops_made_to_sites`, `time` and `hop_count`. -/
structure Books (K : Type) where
  times : List K
  hops : List Int
  time : K
  count : Int

/-- 182-186, 237-241. -/
def Books.new : Books K := ⟨List.replicate 16 0, List.replicate 16 0, 0, 0⟩

/-- 190-195, 245-250: one hop of the electron and its entries in the books. The time on a site is overwritten, not added. -/
def hopOnce (env : Env K) (mem : Addr → K) (luck : Luck K) (p : Prog K) (b : Books K) : Except Fault (Prog K × Books K) := do
  let p ← p.call env mem (.hop 1 0 (luck.draw p.calls))
  let x ← p.world.walkerOf 0
  let i ← walkerSite x
  let times ← Escape.bump b.times i fun _ => .ok x.dwell
  let hops ← Escape.bump b.hops i fun n => chk (n + 1)
  let count ← chk (b.count + 1)
  .ok (p, ⟨times, hops, b.time + x.dwell, count⟩)

/-- 161, 189-196, 244-251: the loop, for at most `r` rounds. -/
def roam (env : Env K) (mem : Addr → K) (luck : Luck K) : Nat → Prog K → Books K → Except Fault (Prog K × Books K)
  | r, p, b =>
    if b.time < 1000 then
      match r with
      | 0 => .error .outOfFuel
      | r + 1 => do
        let (p, b) ← hopOnce env mem luck p b
        roam env mem luck r p b
    else .ok (p, b)

/-- 164-196, 219-251: a block up to the end of its loop, with the rates in `mem` and the references `m` to them. -/
def block (env : Env K) (mem : Addr → K) (m : IMap (IMap Addr)) (threshold : Int) (luck : Luck K) (r : Nat) (p : Prog K) :
    Except Fault (Prog K × Books K) := do
  let p ← p.call env mem (.setRandomSeed 1)
  let p ← p.call env mem (.setTimeResolution (1000 / 10))
  let p ← p.call env mem (.setMinThreshold threshold)
  let p ← p.call env mem (.initializeSystem m)
  let p ← p.call env mem (.newWalker 0)
  let p ← p.call env mem (.walkerOccupy 0 1)
  let p ← p.call env mem (.initializeWalkers [⟨1, 0, luck.first.1, luck.first.2⟩])
  roam env mem luck r p Books.new

/-- 253-270: what is checked of the clusters (253) after the second block. A failed `assert` aborts; `clusters.at(0)` (260) asks for the
cluster with the id 0. -/
def found (clusters : IMap (List Int)) : Except Fault Unit :=
  if clusters.length ≠ 1 then .error .assertFail
  else if (clusters.headD (0, [])).2.length ≠ 4 then .error .assertFail
  else
    match clusters.get? 0 with
    | none => .error .outOfRange
    | some l => if 6 ∈ l ∧ 7 ∈ l ∧ 10 ∈ l ∧ 11 ∈ l then .ok () else .error .assertFail

/-- 15-274: the test with the given threshold in the second block (223), where `n0` ids of clusters have been given in the process before.
`visit` and `visit'` are the orders in which the entries of the maps of rates are gone through; the counter of the clusters goes on. -/
def both (env : Env K) (visit visit' : IMap (IMap K) → IMap (IMap K)) (threshold : Int) (n0 : Nat) (luck luck' : Luck K) (r r' : Nat) :
    Except Fault ((Prog K × Books K) × Prog K × Books K) := do
  let (R, _) ← table
  let pb ← block env (memOf (visit R)) (layout (visit R)) infIterations luck r ⟨World.new n0, []⟩
  if pb.1.world.getClusters.length ≠ 0 then .error .assertFail else do
    let pb' ← block env (memOf (visit' R)) (layout (visit' R)) threshold luck' r' ⟨{ World.new 0 with nextId := pb.1.world.nextId }, []⟩
    found pb'.1.world.getClusters
    .ok (pb, pb')

end Mythical.Merging
