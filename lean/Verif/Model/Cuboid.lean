import Verif.Model.Basic
import Mathlib.Analysis.Real.Sqrt
import Mathlib.Algebra.Order.Floor.Ring
import Mathlib.Algebra.Order.Archimedean.Real.Basic

/-!
# Model of `charge_transport::Cuboid`
(src/libmythical/charge_transport/cuboid_lattice.cpp, include/mythical/charge_transport/cuboid_lattice.hpp)

`int` arithmetic is checked: an overflow is `Fault.ub .intOverflow`. Distances are real numbers.
The trivial getters (230-248) and the default constructor (hpp 31, which leaves every member
uninitialised) are not modelled.
-/

namespace Mythical
namespace Cuboid

/-- boundarysettings.hpp: `BoundarySetting`. -/
inductive Boundary where
  | fixed
  | periodic
  deriving DecidableEq, Repr

/-- cuboid_lattice.hpp 25-29: `Plane`. -/
inductive Plane where
  | XY
  | YZ
  | XZ
  deriving DecidableEq, Repr

/-- A lattice position `{x, y, z}`. -/
structure Pos where
  x : Int
  y : Int
  z : Int
  deriving DecidableEq, Repr

end Cuboid

/-- cuboid_lattice.hpp 115-128. The three `uniform_int_distribution`s are determined by the dimensions
and the generator is replaced by explicit draws. -/
structure Cuboid where
  length : Int
  width : Int
  height : Int
  total : Int
  spacing : ℝ
  xb : Cuboid.Boundary
  yb : Cuboid.Boundary
  zb : Cuboid.Boundary

namespace Cuboid

/-- One step of a `for` loop nest that collects results: run the body for each element in turn and
concatenate what it pushes; a fault in any iteration is a fault of the loop. -/
def forEach {α β : Type _} (f : α → Except Fault (List β)) : List α → Except Fault (List β)
  | [] => .ok []
  | a :: as => do
    let b ← f a
    let bs ← forEach f as
    .ok (b ++ bs)

/-- The `int` values of `for (int i = lo; i <= hi; ++i)`. The last increment computes `hi + 1`. -/
def loopRange (lo hi : Int) : Except Fault (List Int) :=
  if lo ≤ hi then do
    let _ ← chk (hi + 1)
    .ok ((List.range (hi + 1 - lo).toNat).map fun k : Nat => lo + (k : Int))
  else .ok []

/-- cuboid_lattice.cpp 178-182: `uniform_int_distribution<int>(0, dim-1)`; undefined when `dim-1 < 0`. -/
def mkDistribution (dim : Int) : Except Fault Unit := do
  let hi ← chk (dim - 1)
  if 0 ≤ hi then .ok () else .error (.ub .badDistribution)

/-- cuboid_lattice.cpp 214-228 (the other two constructors, 187-212, call it with Fixed boundaries and,
187-197, spacing 1): `total_` is computed in the initialiser list, before `checkBounds_` (56-69) and
`setDistributions_` (178-182). -/
def construct (length width height : Int) (spacing : ℝ) (xb yb zb : Boundary) :
    Except Fault Cuboid := do
  let lw ← chk (length * width)
  let total ← chk (lw * height)
  if length < 0 then .error .invalidArgument
  else if width < 0 then .error .invalidArgument
  else if height < 0 then .error .invalidArgument
  else do
    mkDistribution length
    mkDistribution width
    mkDistribution height
    .ok ⟨length, width, height, total, spacing, xb, yb, zb⟩

/-- cuboid_lattice.cpp 17-26, 27-36, 37-46: `checkPosX_`, `checkPosY_`, `checkPosZ_`. -/
def checkPos (dim x : Int) : Except Fault Unit :=
  if x < 0 then .error .invalidArgument
  else if x ≥ dim then .error .invalidArgument
  else .ok ()

/-- cuboid_lattice.cpp 71-80: `checkIndex_`. -/
def checkIndex (c : Cuboid) (index : Int) : Except Fault Unit :=
  if index < 0 then .error .invalidArgument
  else if index ≥ c.total then .error .invalidArgument
  else .ok ()

/-- C++ `int / int`. -/
def divI (a b : Int) : Except Fault Int :=
  if b = 0 then .error (.ub .intDivByZero) else chk (a.tdiv b)

/-- C++ `int % int`. -/
def modI (a b : Int) : Except Fault Int :=
  if b = 0 then .error (.ub .intDivByZero) else chk (a.tmod b)

/-- cuboid_lattice.cpp 157-176: `getXPeriodic_`, `getYPeriodic_`, `getZPeriodic_`. -/
def wrap (dim x : Int) : Except Fault Int :=
  if x < 0 then chk (x + dim) else modI x dim

/-- cuboid_lattice.cpp 82-84: `getIndex_`. -/
def rawIndex (c : Cuboid) (p : Pos) : Except Fault Int := do
  let zl ← chk (p.z * c.length)
  let zlw ← chk (zl * c.width)
  let yl ← chk (p.y * c.length)
  let s ← chk (zlw + yl)
  chk (s + p.x)

/-- cuboid_lattice.cpp 48-54: `getPos_`. -/
def rawPos (c : Cuboid) (index : Int) : Except Fault Pos := do
  let lw ← chk (c.length * c.width)
  let z ← divI index lw
  let off ← chk (lw * z)
  let rest ← chk (index - off)
  let y ← divI rest c.length
  let x ← modI rest c.length
  .ok ⟨x, y, z⟩

/-- cuboid_lattice.cpp 255-259 (and 261-265, 267-271): periodic axes are wrapped, fixed axes checked. -/
def axis (b : Boundary) (dim x : Int) : Except Fault Int :=
  match b with
  | .periodic => wrap dim x
  | .fixed => do checkPos dim x; .ok x

/-- cuboid_lattice.cpp 250-274: `getIndex(x,y,z)`. -/
def getIndex (c : Cuboid) (p : Pos) : Except Fault Int := do
  let x ← axis c.xb c.length p.x
  let y ← axis c.yb c.width p.y
  let z ← axis c.zb c.height p.z
  c.rawIndex ⟨x, y, z⟩

/-- cuboid_lattice.cpp 276-283: `getIndex(vector)`. -/
def getIndexV (c : Cuboid) (v : List Int) : Except Fault Int :=
  match v with
  | [x, y, z] => c.getIndex ⟨x, y, z⟩
  | _ => .error .invalidArgument

/-- cuboid_lattice.cpp 321, 332, 345, 358: `if (index >= length_*width_*height_) throw`. -/
def checkUpper (c : Cuboid) (index : Int) : Except Fault Unit := do
  let lw ← chk (c.length * c.width)
  let t ← chk (lw * c.height)
  if index ≥ t then .error .invalidArgument else .ok ()

/-- cuboid_lattice.cpp 320-329: `getPosition`. -/
def getPosition (c : Cuboid) (index : Int) : Except Fault Pos := do
  c.checkUpper index
  c.rawPos index

/-- cuboid_lattice.cpp 331-342: `getX`. -/
def getX (c : Cuboid) (index : Int) : Except Fault Int := do
  c.checkUpper index
  let lw ← chk (c.length * c.width)
  let z ← divI index lw
  let off ← chk (lw * z)
  let rest ← chk (index - off)
  modI rest c.length

/-- cuboid_lattice.cpp 344-355: `getY`. -/
def getY (c : Cuboid) (index : Int) : Except Fault Int := do
  c.checkUpper index
  let lw ← chk (c.length * c.width)
  let z ← divI index lw
  let off ← chk (lw * z)
  let rest ← chk (index - off)
  divI rest c.length

/-- cuboid_lattice.cpp 357-366: `getZ`. -/
def getZ (c : Cuboid) (index : Int) : Except Fault Int := do
  c.checkUpper index
  let lw ← chk (c.length * c.width)
  divI index lw

/-- cuboid_lattice.cpp 285-318: `getRandomSite`. The two random numbers the chosen branch draws are the
arguments `d1 d2`; the ranges they come from are `drawRange`. The bound checks of 290, 299 and 308 are
kept as written (`&&`). -/
def getRandomSite (c : Cuboid) (plane : Plane) (planeIndex d1 d2 : Int) : Except Fault Int :=
  match plane with
  | .YZ =>
    if planeIndex < 0 ∧ planeIndex ≥ c.length then .error .invalidArgument
    else c.getIndex ⟨planeIndex, d1, d2⟩
  | .XZ =>
    if planeIndex < 0 ∧ planeIndex ≥ c.width then .error .invalidArgument
    else c.getIndex ⟨d1, planeIndex, d2⟩
  | .XY =>
    if planeIndex < 0 ∧ planeIndex ≥ c.height then .error .invalidArgument
    else c.getIndex ⟨d1, d2, planeIndex⟩

/-- cuboid_lattice.cpp 296-297, 305-306, 314-315: the distributions drawn from, as the number of values
`0..n-1`. In the XY branch the y coordinate is drawn from `distribution_z_` (315). -/
def drawRange (c : Cuboid) (plane : Plane) : Int × Int :=
  match plane with
  | .YZ => (c.width, c.height)
  | .XZ => (c.length, c.height)
  | .XY => (c.length, c.height)

/-- cuboid_lattice.cpp 86-99: `getDistance_`. -/
noncomputable def distance (c : Cuboid) (p q : Pos) : Except Fault ℝ := do
  let xd ← chk (p.x - q.x)
  let yd ← chk (p.y - q.y)
  let zd ← chk (p.z - q.z)
  let xx ← chk (xd * xd)
  let yy ← chk (yd * yd)
  let zz ← chk (zd * zd)
  let s ← chk (xx + yy)
  let s ← chk (s + zz)
  .ok (Real.sqrt (s : ℝ) * c.spacing)

/-- cuboid_lattice.cpp 104, 372, 445: `static_cast<int>(std::floor(cutoff/inter_site_distance_))`.
Division by zero gives an infinity or NaN, whose conversion is undefined like any other out of range
value. -/
noncomputable def numSites (c : Cuboid) (cutoff : ℝ) : Except Fault Int :=
  if c.spacing = 0 then .error (.ub .floatToInt)
  else
    let n := ⌊cutoff / c.spacing⌋
    if FitsInt n then .ok n else .error (.ub .floatToInt)

/-- cuboid_lattice.cpp 117-119, 384-386: `reserve(2*n*2*n*2*n)`; a negative `int` becomes a huge
`size_t`, for which `reserve` throws `length_error`. -/
def reserve (n : Int) : Except Fault Unit := do
  let a ← chk (2 * n)
  let a ← chk (a * 2)
  let a ← chk (a * n)
  let a ← chk (a * 2)
  let a ← chk (a * n)
  if a < 0 then .error .lengthError else .ok ()

/-- cuboid_lattice.cpp 122-125 (and 128-131, 134-138; 389-392 ...; 467-470 ...): the lattice coordinate
of a scanned coordinate. -/
def lattice (b : Boundary) (dim x : Int) : Except Fault Int :=
  match b with
  | .periodic => wrap dim x
  | .fixed => .ok x

/-- cuboid_lattice.cpp 368-421: `getNeighbors(index, cutoff)`. -/
noncomputable def getNeighbors (c : Cuboid) (index : Int) (cutoff : ℝ) : Except Fault (List Int) := do
  c.checkIndex index
  let p ← c.getPosition index
  let n ← c.numSites cutoff
  let xmin ← chk (p.x - n)
  let xmax ← chk (p.x + n)
  let ymin ← chk (p.y - n)
  let ymax ← chk (p.y + n)
  let zmin ← chk (p.z - n)
  let zmax ← chk (p.z + n)
  reserve n
  let xs ← loopRange xmin xmax
  forEach (fun xi => do
    let xl ← lattice c.xb c.length xi
    if xl ≥ 0 ∧ xl < c.length then do
      let ys ← loopRange ymin ymax
      forEach (fun yi => do
        let yl ← lattice c.yb c.width yi
        if yl ≥ 0 ∧ yl < c.width then do
          let zs ← loopRange zmin zmax
          forEach (fun zi => do
            let zl ← lattice c.zb c.height zi
            if zl ≥ 0 ∧ zl < c.height then do
              let dist ← c.distance ⟨xi, yi, zi⟩ p
              if dist ≤ cutoff then do
                let neigh ← c.rawIndex ⟨xl, yl, zl⟩
                if neigh ≠ index then .ok [neigh] else .ok []
              else .ok []
            else .ok []) zs
        else .ok []) ys
    else .ok []) xs

/-- cuboid_lattice.cpp 101-154: `getNeighborDistances_(pos, cutoff)`. -/
noncomputable def neighborDistances (c : Cuboid) (p : Pos) (cutoff : ℝ) :
    Except Fault (List (Int × ℝ)) := do
  let n ← c.numSites cutoff
  let index ← c.rawIndex p
  let xmin ← chk (p.x - n)
  let xmax ← chk (p.x + n)
  let ymin ← chk (p.y - n)
  let ymax ← chk (p.y + n)
  let zmin ← chk (p.z - n)
  let zmax ← chk (p.z + n)
  reserve n
  let xs ← loopRange xmin xmax
  forEach (fun xi => do
    let xl ← lattice c.xb c.length xi
    if xl ≥ 0 ∧ xl < c.length then do
      let ys ← loopRange ymin ymax
      forEach (fun yi => do
        let yl ← lattice c.yb c.width yi
        if yl ≥ 0 ∧ yl < c.width then do
          let zs ← loopRange zmin zmax
          forEach (fun zi => do
            let zl ← lattice c.zb c.height zi
            if zl ≥ 0 ∧ zl < c.height then do
              let dist ← c.distance ⟨xi, yi, zi⟩ p
              if dist ≤ cutoff then do
                let neigh ← c.rawIndex ⟨xl, yl, zl⟩
                if neigh ≠ index then .ok [(neigh, dist)] else .ok []
              else .ok []
            else .ok []) zs
        else .ok []) ys
    else .ok []) xs

/-- cuboid_lattice.cpp 423-428: `getNeighborDistances(index, cutoff)`. -/
noncomputable def getNeighborDistances (c : Cuboid) (index : Int) (cutoff : ℝ) :
    Except Fault (List (Int × ℝ)) := do
  c.checkIndex index
  let p ← c.getPosition index
  c.neighborDistances p cutoff

/-- cuboid_lattice.cpp 430-440: `getNeighborDistances(pos, cutoff)`. -/
noncomputable def getNeighborDistancesAt (c : Cuboid) (v : List Int) (cutoff : ℝ) :
    Except Fault (List (Int × ℝ)) :=
  match v with
  | [x, y, z] => do
    checkPos c.length x
    checkPos c.width y
    checkPos c.height z
    c.neighborDistances ⟨x, y, z⟩ cutoff
  | _ => .error .invalidArgument

/-- `m[a][b] = d` on a map of maps. -/
def set2 (m : IMap (IMap ℝ)) (a b : Int) (d : ℝ) : IMap (IMap ℝ) :=
  m.set a (IMap.set ((m.get? a).getD []) b d)

/-- `m[a][b]` if present. -/
def get2 (m : IMap (IMap ℝ)) (a b : Int) : Option ℝ := (m.get? a).bind fun r => IMap.get? r b

/-- cuboid_lattice.cpp 454-498: the pairs found for one `index`: neighbour index and distance. -/
noncomputable def latticeWrites (c : Cuboid) (n : Int) (cutoff : ℝ) (index : Int) :
    Except Fault (List (Int × Int × ℝ)) := do
  let p ← c.rawPos index
  let xmin ← chk (p.x - n)
  let ymin ← chk (p.y - n)
  let zmin ← chk (p.z - n)
  let xs ← loopRange xmin p.x
  forEach (fun xi => do
    let xl ← lattice c.xb c.length xi
    if xl ≥ 0 ∧ xl < c.length then do
      let ys ← loopRange ymin p.y
      forEach (fun yi => do
        let yl ← lattice c.yb c.width yi
        if yl ≥ 0 ∧ yl < c.width then do
          let zs ← loopRange zmin p.z
          forEach (fun zi => do
            let zl ← lattice c.zb c.height zi
            if zl ≥ 0 ∧ zl < c.height then do
              let dist ← c.distance ⟨xi, yi, zi⟩ p
              if dist ≤ cutoff then do
                let neigh ← c.rawIndex ⟨xl, yl, zl⟩
                if neigh ≠ index then .ok [(index, neigh, dist)] else .ok []
              else .ok []
            else .ok []) zs
        else .ok []) ys
    else .ok []) xs

/-- cuboid_lattice.cpp 442-501: `getNeighborDistances(cutoff)` for the whole lattice; lines 489-490 write
both directions, later writes overwrite earlier ones. -/
noncomputable def getAllNeighborDistances (c : Cuboid) (cutoff : ℝ) :
    Except Fault (IMap (IMap ℝ)) := do
  let n ← c.numSites cutoff
  let lw ← chk (c.length * c.width)
  let t ← chk (lw * c.height)
  let is ← loopRange 0 (t - 1)
  let ws ← forEach (c.latticeWrites n cutoff) is
  .ok (ws.foldl (fun m w => set2 (set2 m w.2.1 w.1 w.2.2) w.1 w.2.1 w.2.2) [])

/-- cuboid_lattice.cpp 512-517 (and 520-525): on a periodic axis `pos_2.at(k)` is replaced by the smallest
of three absolute *differences* (not by the coordinate of an image). -/
def smallestAxis (b : Boundary) (dim x1 x2 old : Int) : Except Fault Int :=
  match b with
  | .fixed => .ok old
  | .periodic => do
    let d ← chk (x2 - x1)
    let d1 ← chk (d + dim)
    let d2 ← chk (d - dim)
    let a1 ← chk |d1|
    let a2 ← chk |d2|
    let a ← chk |d|
    .ok (min (min a1 a2) a)

/-- cuboid_lattice.cpp 503-535: `getSmallestDistance`. The z axis reads the *y* coordinates
(526-527, `pos_1.at(1)`, `pos_2.at(1)` — the latter possibly already replaced). -/
noncomputable def getSmallestDistance (c : Cuboid) (i j : Int) : Except Fault ℝ := do
  c.checkIndex i
  c.checkIndex j
  let p ← c.rawPos i
  let q ← c.rawPos j
  let qx ← smallestAxis c.xb c.length p.x q.x q.x
  let qy ← smallestAxis c.yb c.width p.y q.y q.y
  let qz ← smallestAxis c.zb c.height p.y qy q.z
  c.distance p ⟨qx, qy, qz⟩

end Cuboid
end Mythical
