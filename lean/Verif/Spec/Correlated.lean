import Verif.Model.Correlated
import Verif.Spec.Box

/-! # Specification of the correlated energies (performance/test_crude_vs_coarsegrain_correlated.cpp) -/

namespace Mythical.CorrelatedSpec
open Cuboid (Pos)

/-- The distance of two sites. -/
noncomputable def distance (p q : Pos) : ℝ :=
  Real.sqrt (((q.x : ℝ) - p.x) ^ 2 + ((q.y : ℝ) - p.y) ^ 2 + ((q.z : ℝ) - p.z) ^ 2)

/-- The sites that a seed at `p` acts on: those from 5 below to 3 above it on every axis. -/
def Near (p q : Pos) : Prop :=
  (-5 ≤ q.x - p.x ∧ q.x - p.x ≤ 3) ∧ (-5 ≤ q.y - p.y ∧ q.y - p.y ≤ 3) ∧ -5 ≤ q.z - p.z ∧ q.z - p.z ≤ 3

instance (p q : Pos) : Decidable (Near p q) := by unfold Near; infer_instance

/-- The distance of the seed at `p` from the middle of the cell of which `q` is the lowest corner. -/
noncomputable def offset (p q : Pos) : ℝ :=
  Real.sqrt (((q.x : ℝ) + 1 / 2 - p.x) ^ 2 + ((q.y : ℝ) + 1 / 2 - p.y) ^ 2 + ((q.z : ℝ) + 1 / 2 - p.z) ^ 2)

/-- The part of the energy of `q` that a seed at `p` leaves. -/
noncomputable def kept (p q : Pos) : ℝ :=
  if q = p then 0 else if Near p q then 1 - Real.exp (-offset p q / 3) else 1

/-- The energies of the sites of the box by position. -/
def Given (d : Int) (E : List ℝ) (f : Pos → ℝ) : Prop :=
  (E.length : Int) = d ^ 3 ∧ ∀ i p, BoxSpec.At d i p → E[i.toNat]? = some (f p)

end Mythical.CorrelatedSpec
