import Verif.Model.Rounded
import Verif.Model.Site
import Verif.Model.ToF
import Verif.Spec.Cuboid
import Mathlib.Analysis.SpecialFunctions.Exp

/-! # Specification of the arithmetic of `double` with its range -/

namespace Mythical.RoundSpec
variable {K : Type} [Field K] [LinearOrder K] [IsStrictOrderedRing K] [FloorRing K]

/-- `fl` rounds as `double` does where results are normal numbers. Nothing is said of results that are too small (which are
rounded more coarsely or to zero) or too large (which become infinite). -/
structure Ieee (fl : K → K) : Prop where
  zero : fl 0 = 0
  normal : ∀ x, 2 ^ (-1022 : Int) ≤ |x| → |x| ≤ 2 ^ (1023 : Int) → fl x = Rounded.binary64 x

/-- `x` lies between two powers of two. -/
def Mag (a b : Int) (x : K) : Prop := 2 ^ a ≤ x ∧ x ≤ 2 ^ b

/-- The addresses of the rates that a call names. -/
def addrsOf : Site.Op → List Addr
  | .setRates m => m.map Prod.snd
  | .addNeigh _ a => [a]
  | .resetNeigh _ a => [a]

/-- The functions of the mathematical library have a relative error of at most `ε` where their results are normal numbers. (The
root of a `double` always is.) -/
structure LibmIn (ex sq rt : ℝ → ℝ) (ε : ℝ) : Prop where
  exp : ∀ x, |x| ≤ 700 → |ex x - Real.exp x| ≤ ε * Real.exp x
  sq : ∀ x, x = 0 ∨ Mag (-500) 500 |x| → |sq x - x ^ 2| ≤ ε * x ^ 2
  sqrt : ∀ x, 0 ≤ x → |rt x - Real.sqrt x| ≤ ε * Real.sqrt x

/-- A multiple of `2^-300` of modulus at most `2^100`, such as zero and every `double` between `2^-248` and `2^100`. -/
def Grid (x : ℝ) : Prop := (∃ m : Int, x = m * 2 ^ (-300 : Int)) ∧ |x| ≤ 2 ^ (100 : Int)

/-- The constants and energies of the time-of-flight example are of moderate size: lengths between `2^-20` and `2^20`, the same
for the prefactor of the coupling and the temperature, and so on; the coupling decays by at most `e^-19` within the cutoff. -/
structure Moderate (c : Cuboid) (p : ToF.Params) (E : Int → ℝ) : Prop where
  spacing : Mag (-20) 20 c.spacing
  cutoff : Mag (-20) 20 p.cutoff
  lambda : Mag (-50) 50 p.lambda
  lambdaGrid : Grid p.lambda
  temp : Mag (-20) 20 p.temp
  A : Mag (-20) 20 |p.A|
  alpha : p.alpha = 0 ∨ Mag (-20) 20 |p.alpha|
  field : p.field = 0 ∨ Mag (-40) 20 |p.field|
  charge : p.charge = 0 ∨ Mag (-40) 20 |p.charge|
  decay : |p.alpha| * p.cutoff ≤ 19
  energy : ∀ i, CuboidSpec.ValidIndex c i → (∃ m : Int, E i = m * 2 ^ (-300 : Int)) ∧ |E i| ≤ 2 ^ (50 : Int)

/-- The exponents of the Marcus rates between the pairs in `D` are at most 590. -/
def Reach (c : Cuboid) (p : ToF.Params) (E : Int → ℝ) (D : IMap (IMap ℝ)) : Prop :=
  ∀ i j a b, (Cuboid.get2 D i j).isSome → CuboidSpec.SiteAt c i a → CuboidSpec.SiteAt c j b →
    (|p.lambda| + |E i| + |E j| + |p.field * (((b.x - a.x : Int) : ℝ) * c.spacing) * p.charge|) ^ 2 /
      (4 * p.lambda * 8.617333262145e-5 * p.temp) ≤ 590

end Mythical.RoundSpec
