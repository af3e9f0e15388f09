import Verif.Model.Cuboid

/-!
# Model of the neighbour queries of `Cuboid` in rounded arithmetic

As `Model/Cuboid.lean`, with a rounding `fl` after every operation on `double`s. `rt` is `std::pow(·, 0.5)` of the mathematical
library. Conversions and comparisons are exact.
-/

namespace Mythical.Rounded
open Mythical Cuboid
variable (fl rt : ℝ → ℝ)

/-- cuboid_lattice.cpp 86-99: `getDistance_`. -/
noncomputable def distance (c : Cuboid) (p q : Pos) : Except Fault ℝ := do
  let xd ← chk (p.x - q.x)
  let yd ← chk (p.y - q.y)
  let zd ← chk (p.z - q.z)
  let xx ← chk (xd * xd)
  let yy ← chk (yd * yd)
  let zz ← chk (zd * zd)
  let s ← chk (xx + yy)
  let s ← chk (s + zz)
  .ok (fl (rt (s : ℝ) * c.spacing))

/-- cuboid_lattice.cpp 104: `static_cast<int>(std::floor(cutoff/inter_site_distance_))`; see `Cuboid.numSites`. -/
noncomputable def numSites (c : Cuboid) (cutoff : ℝ) : Except Fault Int :=
  if c.spacing = 0 then .error (.ub .floatToInt)
  else
    let n := ⌊fl (cutoff / c.spacing)⌋
    if FitsInt n then .ok n else .error (.ub .floatToInt)

/-- cuboid_lattice.cpp 101-154: `getNeighborDistances_(pos, cutoff)`. -/
noncomputable def neighborDistances (c : Cuboid) (p : Pos) (cutoff : ℝ) : Except Fault (List (Int × ℝ)) := do
  let n ← numSites fl c cutoff
  let index ← c.rawIndex p
  let xmin ← chk (p.x - n)
  let xmax ← chk (p.x + n)
  let ymin ← chk (p.y - n)
  let ymax ← chk (p.y + n)
  let zmin ← chk (p.z - n)
  let zmax ← chk (p.z + n)
  reserve n
  let xs ← loopRange xmin xmax
  forEach (fun xi => do
    let xl ← lattice c.xb c.length xi
    if xl ≥ 0 ∧ xl < c.length then do
      let ys ← loopRange ymin ymax
      forEach (fun yi => do
        let yl ← lattice c.yb c.width yi
        if yl ≥ 0 ∧ yl < c.width then do
          let zs ← loopRange zmin zmax
          forEach (fun zi => do
            let zl ← lattice c.zb c.height zi
            if zl ≥ 0 ∧ zl < c.height then do
              let dist ← distance fl rt c ⟨xi, yi, zi⟩ p
              if dist ≤ cutoff then do
                let neigh ← c.rawIndex ⟨xl, yl, zl⟩
                if neigh ≠ index then .ok [(neigh, dist)] else .ok []
              else .ok []
            else .ok []) zs
        else .ok []) ys
    else .ok []) xs

/-- cuboid_lattice.cpp 423-428: `getNeighborDistances(index, cutoff)`. -/
noncomputable def getNeighborDistances (c : Cuboid) (index : Int) (cutoff : ℝ) : Except Fault (List (Int × ℝ)) := do
  c.checkIndex index
  let p ← c.getPosition index
  neighborDistances fl rt c p cutoff

/-- cuboid_lattice.cpp 368-421: `getNeighbors(index, cutoff)`. -/
noncomputable def getNeighbors (c : Cuboid) (index : Int) (cutoff : ℝ) : Except Fault (List Int) := do
  c.checkIndex index
  let p ← c.getPosition index
  let n ← numSites fl c cutoff
  let xmin ← chk (p.x - n)
  let xmax ← chk (p.x + n)
  let ymin ← chk (p.y - n)
  let ymax ← chk (p.y + n)
  let zmin ← chk (p.z - n)
  let zmax ← chk (p.z + n)
  reserve n
  let xs ← loopRange xmin xmax
  forEach (fun xi => do
    let xl ← lattice c.xb c.length xi
    if xl ≥ 0 ∧ xl < c.length then do
      let ys ← loopRange ymin ymax
      forEach (fun yi => do
        let yl ← lattice c.yb c.width yi
        if yl ≥ 0 ∧ yl < c.width then do
          let zs ← loopRange zmin zmax
          forEach (fun zi => do
            let zl ← lattice c.zb c.height zi
            if zl ≥ 0 ∧ zl < c.height then do
              let dist ← distance fl rt c ⟨xi, yi, zi⟩ p
              if dist ≤ cutoff then do
                let neigh ← c.rawIndex ⟨xl, yl, zl⟩
                if neigh ≠ index then .ok [neigh] else .ok []
              else .ok []
            else .ok []) zs
        else .ok []) ys
    else .ok []) xs

end Mythical.Rounded
