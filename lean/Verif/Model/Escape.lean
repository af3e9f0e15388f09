import Verif.Model.ToFOutput
import Verif.Model.ToFMain

/-!
# Model of the program src/tests/performance/test_kmc_coarsegrainsystem.cpp

Electrons are put one after the other on the sites 1 to 5 of a system of 14 sites and hop until they leave these sites, first with
coarse graining (35-188) and then without (192-337).

* Numbers are exact; the random numbers and the choices in the hops are arguments; the `while` loop of an electron (170, 326) is cut off
  after `r` rounds, as in `Model/Bench.lean`. Electron `i` has the handle `i`; the id given to the system is 0 for all of them.
* The two blocks differ in the performance ratio and in the threshold only. That the walker is created before the vector (316-321) or
  in it (162-164) makes no difference to the calls.
* Output and the measuring of times, with the assertion in 345 that compares them, are left out.
-/

namespace Mythical.Escape
open World ToF
variable {K : Type} [Field K] [LinearOrder K] [IsStrictOrderedRing K] [FloorRing K]

/-- 25-30, 50-85, 207-242: the rates, each with the site it leads to. -/
def rates : List (Int × K) :=
  let rate1 := 1 / 1
  let rate2 := 1 / 400
  let rate3 := 1 / 100
  let rate4 := 1 / 5
  let rate5 := 1 / 300
  let rate6 := 10
  [(14, rate2), (6, rate3), (2, rate1), (5, rate1),
   (1, rate1), (7, rate2), (3, rate1), (4, rate6),
   (2, rate4), (8, rate2), (9, rate2), (10, rate2),
   (5, rate1), (2, rate1), (10, rate5), (11, rate2),
   (13, rate3), (1, rate1), (4, rate1), (12, rate2),
   (1, rate2), (2, rate2), (3, rate2), (3, rate2), (3, rate2), (4, rate2), (4, rate2), (5, rate2), (5, rate2), (1, rate2)]

/-- 88-92, 245-249: `idsOfEachSite`. -/
def ids : List Int := [1, 2, 3, 4, 5, 6, 7, 8, 9, 10, 11, 12, 13, 14]

/-- 95-99, 252-256: `numberOfNeighbors`. -/
def counts : List Nat := [4, 4, 4, 4, 4, 1, 1, 1, 1, 1, 1, 1, 1, 1]

/-- 127-135, 284-292: the next `n` rates from `global_index` on, as a row of the map. -/
def rowFrom (l : List (Int × K)) : Nat → Nat → IMap K → Except Fault (IMap K × Nat)
  | 0, g, row => .ok (row, g)
  | n + 1, g, row =>
    match l[g]? with
    | none => .error .outOfRange
    | some jk => rowFrom l n (g + 1) (row.set jk.1 jk.2)

/-- 121-138, 278-295: the map of rates for the sites with the given numbers of rates, and `global_index` at the end. -/
def tableFrom (l : List (Int × K)) : List (Int × Nat) → Nat → IMap (IMap K) → Except Fault (IMap (IMap K) × Nat)
  | [], g, R => .ok (R, g)
  | (i, n) :: rest, g, R => do
    let (row, g) ← rowFrom l n g []
    tableFrom l rest g (R.set i row)

/-- 119-138, 276-295: `ratesToNeighbors`, and how many of the rates are used. -/
def table : Except Fault (IMap (IMap K) × Nat) := tableFrom rates (ids.zip counts) 0 []

/-- All that a block does not determine itself: the draws for electron `i` in `initializeWalkers` (165, 322) and the choices in the hop
of an electron after a history (172, 327). -/
structure Luck (K : Type) where
  first : Nat → K × K
  draw : List (Event K) → Int → Choices K

/-- 151-154, 306-309: `hopsToSites`, `timeOnSites` and `escapeTimes`. -/
structure Books (K : Type) where
  hops : List Int
  times : List K
  escapes : List K

/-- 151-154, 306-309. -/
def Books.new : Books K := ⟨List.replicate 14 0, List.replicate 14 0, []⟩

/-- `v.at(site-1)` replaced by its value under `f` (173-174, 328-329). -/
def bump {V : Type} (l : List V) (site : Int) (f : V → Except Fault V) : Except Fault (List V) := do
  let j ← chk (site - 1)
  if 0 ≤ j then
    match l[j.toNat]? with
    | none => .error .outOfRange
    | some v => do
      let v ← f v
      .ok (l.set j.toNat v)
  else .error .outOfRange

/-- 172-175, 327-330: one hop of the electron with handle `h` and its entries in the books. -/
def hopOnce (env : Env K) (mem : Addr → K) (luck : Luck K) (h : Int) (p : Prog K) (b : Books K) (total : K) :
    Except Fault (Prog K × Books K × K) := do
  let p ← p.call env mem (.hop 0 h (luck.draw p.calls h))
  let x ← p.world.walkerOf h
  let i ← walkerSite x
  let hops ← bump b.hops i fun n => chk (n + 1)
  let times ← bump b.times i fun t => .ok (t + x.dwell)
  .ok (p, { b with hops := hops, times := times }, total + x.dwell)

/-- 170-176, 326-331: the loop of an electron, for at most `r` rounds. -/
def roam (env : Env K) (mem : Addr → K) (luck : Luck K) (h : Int) : Nat → Prog K → Books K → K → Except Fault (Prog K × Books K × K)
  | r, p, b, total => do
    let x ← p.world.walkerOf h
    let i ← walkerSite x
    if i < 6 then
      match r with
      | 0 => .error .outOfFuel
      | r + 1 => do
        let (p, b, total) ← hopOnce env mem luck h p b total
        roam env mem luck h r p b total
    else .ok (p, b, total)

/-- 159-180, 315-335: electron `i`. -/
def electron (env : Env K) (mem : Addr → K) (luck : Luck K) (r : Nat) (pb : Prog K × Books K) (i : Nat) : Except Fault (Prog K × Books K) := do
  let p ← pb.1.call env mem (.newWalker i)
  let p ← p.call env mem (.walkerOccupy i ((i : Int).tmod 5 + 1))
  let p ← p.call env mem (.initializeWalkers [⟨0, i, (luck.first i).1, (luck.first i).2⟩])
  let (p, b, total) ← roam env mem luck i r p pb.2 0
  let p ← p.call env mem (.removeWalker 0 i)
  .ok (p, { b with escapes := b.escapes ++ [total] })

/-- 143: the performance ratio, which is set in the first block only. -/
def ratioTo (env : Env K) (mem : Addr → K) (p : Prog K) : Option K → Except Fault (Prog K)
  | none => .ok p
  | some q => p.call env mem (.setPerformanceRatio q)

/-- 141-146, 297-301: the system. -/
def system (env : Env K) (mem : Addr → K) (m : IMap (IMap Addr)) (ratio : Option K) (threshold : Int) (p : Prog K) : Except Fault (Prog K) := do
  let p ← p.call env mem (.setRandomSeed 1)
  let p ← ratioTo env mem p ratio
  let p ← p.call env mem (.setTimeResolution 100)
  let p ← p.call env mem (.setMinThreshold threshold)
  p.call env mem (.initializeSystem m)

/-- 141-180, 297-335: a block with `n` electrons, the rates in `mem` and the references `m` to them. -/
def block (env : Env K) (mem : Addr → K) (m : IMap (IMap Addr)) (ratio : Option K) (threshold : Int) (luck : Luck K) (n r : Nat) (p : Prog K) :
    Except Fault (Prog K × Books K) := do
  let p ← system env mem m ratio threshold p
  (List.range n).foldlM (electron env mem luck r) (p, Books.new)

/-- 35-337: both blocks, with `n` electrons each and the given threshold in the first. `visit` and `visit'` are the orders in which the
entries of the maps of rates are gone through; the counter of the clusters goes on. -/
def both (env : Env K) (visit visit' : IMap (IMap K) → IMap (IMap K)) (threshold : Int) (n : Nat) (luck luck' : Luck K) (r r' : Nat) :
    Except Fault ((Prog K × Books K) × Prog K × Books K) := do
  let (R, _) ← table
  let pb ← block env (memOf (visit R)) (layout (visit R)) (some (1 / 5)) threshold luck n r ⟨World.new 0, []⟩
  if pb.1.world.getClusters.length ≠ 1 then .error .runtimeError else do
    let pb' ← block env (memOf (visit' R)) (layout (visit' R)) none infIterations luck' n r'
      ⟨{ World.new 0 with nextId := pb.1.world.nextId }, []⟩
    .ok (pb, pb')

/-- 16-346: `main` with its threshold (145) and numbers of electrons (156, 311). -/
def main (env : Env K) (visit visit' : IMap (IMap K) → IMap (IMap K)) (luck luck' : Luck K) (r r' : Nat) :
    Except Fault ((Prog K × Books K) × Prog K × Books K) := both env visit visit' 10000 5000 luck luck' r r'

end Mythical.Escape
