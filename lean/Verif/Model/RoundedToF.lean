import Verif.Model.RoundedCuboid
import Verif.Model.RoundedMarcus
import Verif.Model.ToF

/-!
# Model of the rates of examples/ToF/ToF_example.cpp (40-76) in rounded arithmetic

As `Model/ToF.lean`, with a rounding `fl` after every operation on `double`s. `ex`, `sq`, `rt` are `std::exp`, `std::pow(·, 2.0)`
and `std::pow(·, 0.5)` of the mathematical library. The conversion of an `int` to `double` is exact.
-/

namespace Mythical.Rounded
open Mythical Cuboid ToF
variable (fl ex sq rt : ℝ → ℝ)

/-- cuboid_lattice.cpp 454-498: the pairs found for one `index`: neighbour index and distance. -/
noncomputable def latticeWrites (c : Cuboid) (n : Int) (cutoff : ℝ) (index : Int) : Except Fault (List (Int × Int × ℝ)) := do
  let p ← c.rawPos index
  let xmin ← chk (p.x - n)
  let ymin ← chk (p.y - n)
  let zmin ← chk (p.z - n)
  let xs ← loopRange xmin p.x
  forEach (fun xi => do
    let xl ← lattice c.xb c.length xi
    if xl ≥ 0 ∧ xl < c.length then do
      let ys ← loopRange ymin p.y
      forEach (fun yi => do
        let yl ← lattice c.yb c.width yi
        if yl ≥ 0 ∧ yl < c.width then do
          let zs ← loopRange zmin p.z
          forEach (fun zi => do
            let zl ← lattice c.zb c.height zi
            if zl ≥ 0 ∧ zl < c.height then do
              let dist ← distance fl rt c ⟨xi, yi, zi⟩ p
              if dist ≤ cutoff then do
                let neigh ← c.rawIndex ⟨xl, yl, zl⟩
                if neigh ≠ index then .ok [(index, neigh, dist)] else .ok []
              else .ok []
            else .ok []) zs
        else .ok []) ys
    else .ok []) xs

/-- cuboid_lattice.cpp 442-501: `getNeighborDistances(cutoff)` for the whole lattice; see `Cuboid.getAllNeighborDistances`. -/
noncomputable def getAllNeighborDistances (c : Cuboid) (cutoff : ℝ) : Except Fault (IMap (IMap ℝ)) := do
  let n ← numSites fl c cutoff
  let lw ← chk (c.length * c.width)
  let t ← chk (lw * c.height)
  let is ← loopRange 0 (t - 1)
  let ws ← forEach (latticeWrites fl rt c n cutoff) is
  .ok (ws.foldl (fun m w => set2 (set2 m w.2.1 w.1 w.2.2) w.1 w.2.1 w.2.2) [])

/-- ToF_example.cpp 66-75: one round of the inner loop, for the neighbour `jd` of site `i`. -/
noncomputable def pairRates (c : Cuboid) (mar : Marcus) (p : Params) (energies : List ℝ) (i xi : Int) (ei : ℝ)
    (rates : IMap (IMap ℝ)) (jd : Int × ℝ) : Except Fault (IMap (IMap ℝ)) := do
  let xj ← c.getX jd.1
  let dx ← chk (xj - xi)
  let xdiff := fl ((dx : ℝ) * c.spacing)
  let e ← energyAt energies jd.1
  let ej := fl (e - fl (fl (p.field * xdiff) * p.charge))
  let H := fl (p.A * ex (fl (fl (-1 * p.alpha) * jd.2)))
  let rij ← marcusRate fl ex sq mar ei ej H
  let rji ← marcusRate fl ex sq mar ej ei H
  .ok (set2 (set2 rates i jd.1 rij) jd.1 i rji)

/-- ToF_example.cpp 61-76: one round of the outer loop. -/
noncomputable def siteRates (c : Cuboid) (mar : Marcus) (p : Params) (energies : List ℝ)
    (rates : IMap (IMap ℝ)) (ir : Int × List (Int × ℝ)) : Except Fault (IMap (IMap ℝ)) := do
  let xi ← c.getX ir.1
  let ei ← energyAt energies ir.1
  ir.2.foldlM (pairRates fl ex sq c mar p energies ir.1 xi ei) rates

/-- ToF_example.cpp 40-78: `calculateRates`; the constants in `p` and the energies are the `double`s the program holds. -/
noncomputable def calculateRates (c : Cuboid) (p : Params) (energies : List ℝ)
    (visit : IMap (IMap ℝ) → List (Int × List (Int × ℝ))) : Except Fault (IMap (IMap ℝ)) := do
  let mar ← marcus fl rt p.lambda p.temp
  let distances ← getAllNeighborDistances fl rt c p.cutoff
  (visit distances).foldlM (siteRates fl ex sq c mar p energies) []

end Mythical.Rounded
