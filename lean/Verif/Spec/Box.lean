import Verif.Model.Box

/-! # Specification vocabulary for the box of sites in the programs under src/tests -/

namespace Mythical.BoxSpec
open Cuboid (Pos)

/-- The position is in the box of `d × d × d` sites. -/
def InCube (d : Int) (p : Pos) : Prop := (0 ≤ p.x ∧ p.x < d) ∧ (0 ≤ p.y ∧ p.y < d) ∧ 0 ≤ p.z ∧ p.z < d

instance (d : Int) (p : Pos) : Decidable (InCube d p) := by unfold InCube; infer_instance

/-- Site `i` is the one at position `p`: x runs fastest, then y, then z. -/
def At (d i : Int) (p : Pos) : Prop := InCube d p ∧ i = p.x + d * p.y + d * d * p.z

instance (d i : Int) (p : Pos) : Decidable (At d i p) := by unfold At; infer_instance

/-- The positions are next to each other, along an axis or a diagonal. -/
def Adjacent (p q : Pos) : Prop := p ≠ q ∧ |p.x - q.x| ≤ 1 ∧ |p.y - q.y| ≤ 1 ∧ |p.z - q.z| ≤ 1

/-- The step from `p` to `q` enters one of the three faces through the origin: a coordinate goes from 1 to 0. -/
def EntersFace (p q : Pos) : Prop := (p.x = 1 ∧ q.x = 0) ∨ (p.y = 1 ∧ q.y = 0) ∨ (p.z = 1 ∧ q.z = 0)

/-- The energies of the sites of the box: that of site `i` is `E i`. -/
def Energies (d : Int) (energies : List ℝ) (E : Int → ℝ) : Prop :=
  ∀ i, 0 ≤ i → i < d ^ 3 → energies[i.toNat]? = some (E i)

end Mythical.BoxSpec
