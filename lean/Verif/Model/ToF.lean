import Verif.Model.Cuboid
import Verif.Model.Marcus

/-!
# Model of the rates of examples/ToF/ToF_example.cpp (40-76)

The example names the lattice class `myct::Cubic`; the library of this commit calls it `Cuboid`
(include/mythical/charge_transport/cuboid_lattice.hpp), and that is what is modelled. Real arithmetic.
-/

namespace Mythical.ToF
open Cuboid

/-- ToF_example.cpp 44-56: the constants of `calculateRates`. -/
structure Params where
  /-- `cutoff_dist` -/
  cutoff : ℝ
  /-- `lambda` -/
  lambda : ℝ
  /-- `Temp` -/
  temp : ℝ
  /-- `alpha` -/
  alpha : ℝ
  /-- `A` -/
  A : ℝ
  /-- `electric_field` -/
  field : ℝ
  /-- `charge` -/
  charge : ℝ

/-- ToF_example.cpp 44-56: their values. -/
noncomputable def params : Params := ⟨2, 0.02, 300, 6, 8, 0.05, 1⟩

/-- `site_energies.at(i)` (ToF_example.cpp 64, 69): a negative index becomes a huge one. -/
def energyAt (energies : List ℝ) (i : Int) : Except Fault ℝ :=
  if i < 0 then .error .outOfRange
  else match energies[i.toNat]? with
    | none => .error .outOfRange
    | some e => .ok e

/-- ToF_example.cpp 66-75: one round of the inner loop, for the neighbour `jd` of site `i`. -/
noncomputable def pairRates (c : Cuboid) (mar : Marcus) (p : Params) (energies : List ℝ) (i xi : Int) (ei : ℝ)
    (rates : IMap (IMap ℝ)) (jd : Int × ℝ) : Except Fault (IMap (IMap ℝ)) := do
  let xj ← c.getX jd.1
  let dx ← chk (xj - xi)
  let e ← energyAt energies jd.1
  let ej := e - p.field * ((dx : ℝ) * c.spacing) * p.charge
  let H := p.A * Real.exp (-1 * p.alpha * jd.2)
  let rij ← mar.getRate ei ej H
  let rji ← mar.getRate ej ei H
  .ok (set2 (set2 rates i jd.1 rij) jd.1 i rji)

/-- ToF_example.cpp 61-76: one round of the outer loop. -/
noncomputable def siteRates (c : Cuboid) (mar : Marcus) (p : Params) (energies : List ℝ)
    (rates : IMap (IMap ℝ)) (ir : Int × List (Int × ℝ)) : Except Fault (IMap (IMap ℝ)) := do
  let xi ← c.getX ir.1
  let ei ← energyAt energies ir.1
  ir.2.foldlM (pairRates c mar p energies ir.1 xi ei) rates

/-- ToF_example.cpp 40-78: `calculateRates`. `visit` is the order in which the loops meet the entries of the
`unordered_map` (and of the maps in it). -/
noncomputable def calculateRates (c : Cuboid) (p : Params) (energies : List ℝ)
    (visit : IMap (IMap ℝ) → List (Int × List (Int × ℝ))) : Except Fault (IMap (IMap ℝ)) := do
  let mar ← Marcus.construct p.lambda p.temp
  let distances ← c.getAllNeighborDistances p.cutoff
  (visit distances).foldlM (siteRates c mar p energies) []

end Mythical.ToF
