import Verif.Model.ToF
import Mathlib.Algebra.Order.Field.Rat

/-!
# Model of the box of sites in the programs under src/tests
(src/tests/performance/test_crude_vs_coarsegrain.cpp 22-47, 106-184; the same text is in
performance/test_crude_vs_coarsegrain_correlated.cpp 24-46, 123, 386-450, performance/test_coarsegrain_cluster_vs_nocluster.cpp
26-48, 111-189 and, with an electric field, regression/test_ToF.cpp 25-56, 129-211)

* The line numbers given below are those of performance/test_crude_vs_coarsegrain.cpp unless another file is named.
* `int` arithmetic is checked, asserts are enabled. The energies are real numbers; drawing them is not modelled.
* `std::pow(x,2.0)` is the square, `std::pow(x,1.0/2.0)` the square root.
-/

namespace Mythical.Box
open Cuboid (Pos forEach loopRange divI modI set2)

/-- 34-36: `Converter::to1D(vector)`, for a vector of three numbers; also the expression in 32. -/
def flat (d : Int) (p : Pos) : Except Fault Int := do
  let a ← chk (p.z * d)
  let a ← chk (a * d)
  let b ← chk (p.y * d)
  let s ← chk (a + b)
  chk (s + p.x)

/-- 28-33: `Converter::to1D(x,y,z)`. -/
def to1D (d : Int) (p : Pos) : Except Fault Int :=
  if p.x < d ∧ p.y < d ∧ p.z < d then flat d p else .error .assertFail

/-- 37-44: `Converter::to3D`. -/
def to3D (d i : Int) : Except Fault Pos := do
  let dd ← chk (d * d)
  let z ← divI i dd
  let a ← chk (z * d)
  let a ← chk (a * d)
  let i ← chk (i - a)
  let y ← divI i d
  let x ← modI i d
  .ok ⟨x, y, z⟩

/-- regression/test_ToF.cpp 45-52: `Converter::x`. -/
def xOf (d i : Int) : Except Fault Int := do
  let p ← to3D d i
  .ok p.x

/-- 143, 152: `int xlow = x; if(xlow-1>0) --xlow;` (also for y and z). -/
def low (x : Int) : Except Fault Int := do
  let x' ← chk (x - 1)
  .ok (if x' > 0 then x' else x)

/-- 144, 153: `int xhigh = x; if(xhigh+1<distance) ++xhigh;` (also for y and z). -/
def high (d x : Int) : Except Fault Int := do
  let x' ← chk (x + 1)
  .ok (if x' < d then x' else x)

/-- 160-162: the values of a loop from the lower to the upper end. -/
def span (d x : Int) : Except Fault (List Int) := do
  let lo ← low x
  let hi ← high d x
  loopRange lo hi

/-- 163-172: the body of the loops over the surroundings of a site: what is added to `neighbors[siteId]`, here together with
the position. -/
def neighborAt (d site : Int) (q : Pos) : Except Fault (List (Int × Pos)) :=
  if (0 ≤ q.x ∧ q.x < d) ∧ (0 ≤ q.y ∧ q.y < d) ∧ 0 ≤ q.z ∧ q.z < d then do
    let n ← to1D d q
    .ok (if site ≠ n then [(n, q)] else [])
  else .error .assertFail

/-- 142-179: the neighbours of the site at `p` in the order in which the loops meet them. -/
def around (d : Int) (p : Pos) : Except Fault (List (Int × Pos)) := do
  let xs ← span d p.x
  let ys ← span d p.y
  let zs ← span d p.z
  let site ← to1D d p
  forEach (fun x2 => forEach (fun y2 => forEach (fun z2 => neighborAt d site ⟨x2, y2, z2⟩) zs) ys) xs

/-- 124: `reorganization_energy`. -/
noncomputable def reorganization : ℝ := 0.01
/-- 125: `J`. -/
noncomputable def transfer : ℝ := 0.01
/-- 126: `kBT`. -/
noncomputable def kBT : ℝ := 0.025
/-- 133: `hbar = pow(6.582,-16)`. -/
noncomputable def hbar : ℝ := (6.582 ^ 16)⁻¹
/-- 134: `pi`. -/
noncomputable def pi : ℝ := 3.14
/-- 137: `coef`. -/
noncomputable def coef : ℝ := 2 * pi / hbar * transfer ^ 2 * 1 / Real.sqrt (4 * pi * kBT)

/-- 173-175, regression/test_ToF.cpp 183-196 for a `field` (`field_nm`): the rate over a distance of `dx` along x. The programs
without a field are those with field 0. -/
noncomputable def rate (energies : List ℝ) (field : ℝ) (dx i j : Int) : Except Fault ℝ := do
  let ej ← ToF.energyAt energies j
  let ei ← ToF.energyAt energies i
  let deltaE := ej - ei - -1 * (dx : ℝ) * field
  .ok (coef * Real.exp (-(reorganization - deltaE) ^ 2 / (4 * reorganization * kBT)))

/-- 175: one assignment to `rates[siteId][neighId]`. -/
noncomputable def setRate (energies : List ℝ) (field : ℝ) (x site : Int) (R : IMap (IMap ℝ)) (nq : Int × Pos) :
    Except Fault (IMap (IMap ℝ)) := do
  let dx ← chk (nq.2.x - x)
  let k ← rate energies field dx site nq.1
  .ok (set2 R site nq.1 k)

/-- 142-180: the rates of one site. `rates[siteId]` in 180 is empty if no rate was set. -/
noncomputable def siteRates (d : Int) (energies : List ℝ) (field : ℝ) (R : IMap (IMap ℝ)) (p : Pos) :
    Except Fault (IMap (IMap ℝ)) := do
  let site ← to1D d p
  let ns ← around d p
  let R ← ns.foldlM (setRate energies field p.x site) R
  if ((R.get? site).getD []).length ≠ 0 then .ok R else .error .assertFail

/-- The values of a loop `for(int x=0; x<distance; ++x)`: no increment goes beyond `distance`, an `int`. -/
def axis (d : Int) : List Int := (List.range d.toNat).map fun k : Nat => (k : Int)

/-- 139-141: the positions in the order of the loops. -/
def cube (d : Int) : List Pos := (axis d).flatMap fun x => (axis d).flatMap fun y => (axis d).map fun z => ⟨x, y, z⟩

/-- 112: `totalNumberSites`. -/
def total (d : Int) : Except Fault Int := do
  let a ← chk (d * d)
  chk (a * d)

/-- 106-184: the rates of the box. `energies` is the vector filled in 113-115. -/
noncomputable def rates (d : Int) (energies : List ℝ) (field : ℝ) : Except Fault (IMap (IMap ℝ)) := do
  let _ ← total d
  (cube d).foldlM (siteRates d energies field) []

end Mythical.Box
