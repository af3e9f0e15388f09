import Verif.Model.Box
import Verif.Model.Programs

/-!
# Model of the energies in performance/test_crude_vs_coarsegrain_correlated.cpp
(lines 104-379; the rates and simulations that follow are those of `Model/Box.lean` and `Model/Crude.lean`)

* `double`s are exact numbers; `std::pow(x,2.0)` is the square, `std::pow(x,1.0/2.0)` the square root.
* The energies drawn in 126-141 and the sites drawn in 244-246 are arbitrary inputs. `1.0/0.001` in 108 is 1000.
* Asserts are enabled.
-/

namespace Mythical.Correlated
open Cuboid (Pos divI mkDistribution)

/-! ## Correlating the energies (233-280) -/

/-- 106: `correlation_radius`. -/
noncomputable def radius : ℝ := 3.0
/-- 107: `max_correlation`. -/
noncomputable def reach : ℝ := radius * 1.5

/-- 256-258: the values of `for(double v = a; v < b; v += 1.0)`. -/
noncomputable def loop (a b : ℝ) : List ℝ := (List.range ⌈b - a⌉.toNat).map fun k : Nat => a + k

/-- 266-268: `static_cast<int>` of a `double`. -/
noncomputable def trunc (v : ℝ) : Except Fault Int :=
  let n := if 0 ≤ v then ⌊v⌋ else ⌈v⌉
  if FitsInt n then .ok n else .error (.ub .floatToInt)

/-- 256-258: the values of one loop around a coordinate of the seed. -/
noncomputable def around (x : Int) : List ℝ := loop ((x : ℝ) - reach) ((x : ℝ) + reach)

/-- 259-261: the condition on one coordinate. `-0.0` is zero. -/
def Inside (d : Int) (v : ℝ) : Prop := v < (d : ℝ) ∧ v > 0

open Classical in
/-- 259-276: the body of the loops, for the seed at `p` and the values `v` of the three loops. -/
noncomputable def fade (d seed : Int) (p : Pos) (E : List ℝ) (v : ℝ × ℝ × ℝ) : Except Fault (List ℝ) :=
  if Inside d v.1 ∧ Inside d v.2.1 ∧ Inside d v.2.2 then do
    let r := Real.sqrt (((p.x : ℝ) - v.1) ^ 2 + ((p.y : ℝ) - v.2.1) ^ 2 + ((p.z : ℝ) - v.2.2) ^ 2)
    let x ← trunc v.1
    let y ← trunc v.2.1
    let z ← trunc v.2.2
    let n ← Box.to1D d ⟨x, y, z⟩
    let t ← Box.total d
    if n < t then do
      let es ← ToF.energyAt E seed
      let en ← ToF.energyAt E n
      .ok (E.set n.toNat (en + (es - en) * Real.exp (-r / radius)))
    else .error .assertFail
  else .ok E

/-- 256-258: the values of the three loops in their order. -/
noncomputable def grid (p : Pos) : List (ℝ × ℝ × ℝ) :=
  (around p.x).flatMap fun x => (around p.y).flatMap fun y => (around p.z).map fun z => (x, y, z)

/-- 249-279: one seed. -/
noncomputable def sow (d : Int) (E : List ℝ) (seed : Int) : Except Fault (List ℝ) := do
  let _ ← ToF.energyAt E seed
  let p ← Box.to3D d seed
  (grid p).foldlM (fade d seed p) (E.set seed.toNat 0)

/-- 108-109: `num_seeds`. -/
def numSeeds (d : Int) : Except Fault Int := do
  let t ← Box.total d
  divI t 1000

/-- 109, 233-280: the energies `E` after the correlation. `draws` are the numbers drawn. -/
noncomputable def correlate (d : Int) (draws : List Int) (E : List ℝ) : Except Fault (List ℝ) := do
  let n ← numSeeds d
  let t ← Box.total d
  mkDistribution t
  if (draws.length : Int) < n then .error .outOfFuel
  else (draws.take n.toNat).foldlM (sow d) E

/-! ## The width of the distribution of energies (143-230, and again 282-379) -/

variable {K : Type} [Field K] [LinearOrder K]

/-- 133-139, 284-290: `min_energy` and `max_energy`. -/
def extremes : List K → Except Fault (K × K)
  | [] => .error .outOfRange
  | e :: es => .ok (es.foldl (fun b e => (if e < b.1 then e else b.1, if e > b.2 then e else b.2)) (e, e))

/-- 150-157: the loop over the bins, from bin `i` with lower edge `edge` on, with `n` bins left: the bin the energy is counted in, if any. -/
def binOf (inc e : K) : Nat → Nat → K → Option Nat
  | 0, _, _ => none
  | n + 1, i, edge => if e ≤ edge + inc then some i else binOf inc e n (i + 1) (edge + inc)

/-- 145, 147, 149-158: `bins`, with `int` counts instead of `double`s. -/
def bins (lo inc : K) (E : List K) : List Int :=
  E.foldl (fun b e => match binOf inc e 20 0 lo with
    | none => b
    | some i => b.modify i (· + 1)) (List.replicate 20 0)

/-- 160-163: `max_count_in_bin`. -/
def maxCount (b : List Int) : Int := b.foldl (fun m c => if c > m then c else m) 0

/-- 180-191: the loop over the bins, from the one with lower edge `edge` on: `upper_min_count`, `upper_min_half`, `lower_min_count` and
`lower_min_half`. -/
def scanUp (half inc : K) : List Int → K → K → K × K × K × K
  | [], _, _ => (0, 0, 0, 0)
  | c :: cs, edge, prev =>
    if (c : K) > half then (c, (edge + inc) / 2, prev, (edge + inc) / 2 - inc)
    else scanUp half inc cs (edge + inc) c

/-- 210-222: the loop over the bins from the last one down, here those of a list in that order: `lower_max_count`, `lower_max_half`,
`upper_max_count` and `upper_max_half`. The last one is computed from itself, which is 0. -/
def scanDown (half inc : K) : List Int → K → K → K × K × K × K
  | [], _, _ => (0, 0, 0, 0)
  | c :: cs, edge, prev =>
    if (c : K) > half then (c, (edge - inc) / 2, prev, 0 + inc)
    else scanDown half inc cs (edge - inc) c

/-- 194-196: the intersection of the line through `(lowerHalf, lowerCount)` and `(upperHalf, upperCount)` with `half`. -/
def lowerIntersect (half : K) (s : K × K × K × K) : Except Fault K := do
  let slope ← quot (s.1 - s.2.2.1) (s.2.1 - s.2.2.2)
  let constant := s.2.2.1 - slope * s.2.2.2
  quot (half - constant) slope

/-- 225-227. -/
def upperIntersect (half : K) (s : K × K × K × K) : Except Fault K := do
  let slope ← quot (s.2.2.1 - s.1) (s.2.2.2 - s.2.1)
  let constant := s.1 - slope * s.2.1
  quot (half - constant) slope

/-- 143-230, 282-379: `pre_correlation_fwhm`, `post_correlation_fwhm`. -/
def fwhm (E : List K) : Except Fault K := do
  let b ← extremes E
  let inc ← quot (b.2 - b.1) 20
  let bs := bins b.1 inc E
  let half ← quot (maxCount bs : K) 20
  let lower ← lowerIntersect half (scanUp half inc bs b.1 0)
  let upper ← upperIntersect half (scanDown half inc bs.reverse b.2 0)
  .ok (upper - lower)

end Mythical.Correlated
