import Verif.Spec.Cuboid

/-!
# Specification vocabulary for the lattice in rounded arithmetic
-/

namespace Mythical.RoundSpec
open Cuboid (Pos)

/-- The square root of the mathematical library: increasing, and on whole numbers within `ε` of the root. -/
structure Root (rt : ℝ → ℝ) (ε : ℝ) : Prop where
  mono : Monotone rt
  err : ∀ n : Int, 0 ≤ n → |rt n - Real.sqrt n| ≤ ε * Real.sqrt n

/-- Square of the distance between two points of the lattice, in lattice steps. -/
def steps (p q : Pos) : Int := (p.x - q.x) ^ 2 + (p.y - q.y) ^ 2 + (p.z - q.z) ^ 2

end Mythical.RoundSpec
