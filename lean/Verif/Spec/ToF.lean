import Verif.Model.ToF
import Verif.Spec.Cuboid

/-! # Specification vocabulary for the rates of the time-of-flight example -/

namespace Mythical.ToFSpec
open Mythical Cuboid CuboidSpec ToF

/-- `visit` goes through all entries of a map of maps, in any order. -/
def Visits (visit : IMap (IMap ℝ) → List (Int × List (Int × ℝ))) : Prop :=
  ∀ m, ∃ m' : IMap (IMap ℝ), m'.Perm m ∧ List.Forall₂ (fun a b => a.1 = b.1 ∧ a.2.Perm b.2) (visit m) m'

/-- The energies are given for every site of the lattice: that of site `i` is `E i`. -/
def Energies (c : Cuboid) (energies : List ℝ) (E : Int → ℝ) : Prop :=
  ∀ i, ValidIndex c i → energies[i.toNat]? = some (E i)

/-- The energy of the charge on a site at position `a` with site energy `e` in the field. -/
noncomputable def energyInField (c : Cuboid) (p : Params) (e : ℝ) (a : Pos) : ℝ := e - p.field * p.charge * (c.spacing * a.x)

end Mythical.ToFSpec
