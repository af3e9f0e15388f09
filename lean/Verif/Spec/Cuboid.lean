import Verif.Model.Cuboid

/-!
# Specification vocabulary for the lattice

Sites, images and distances in plain terms, without the model's helper functions.
-/

namespace Mythical.CuboidSpec
open Cuboid (Pos Boundary)

/-- The lattice came out of the constructor. -/
def Built (c : Cuboid) : Prop :=
  Cuboid.construct c.length c.width c.height c.spacing c.xb c.yb c.zb = .ok c

/-- The position is inside the box. -/
def InBox (c : Cuboid) (p : Pos) : Prop :=
  (0 ≤ p.x ∧ p.x < c.length) ∧ (0 ≤ p.y ∧ p.y < c.width) ∧ (0 ≤ p.z ∧ p.z < c.height)

/-- `i` is a site index of the lattice. -/
def ValidIndex (c : Cuboid) (i : Int) : Prop := 0 ≤ i ∧ i < c.length * c.width * c.height

instance (c : Cuboid) (p : Pos) : Decidable (InBox c p) := by unfold InBox; infer_instance
instance (c : Cuboid) (i : Int) : Decidable (ValidIndex c i) := by unfold ValidIndex; infer_instance

/-- Site `i` sits at position `p`: x runs fastest, then y, then z. -/
def SiteAt (c : Cuboid) (i : Int) (p : Pos) : Prop :=
  InBox c p ∧ i = p.x + c.length * (p.y + c.width * p.z)

/-- `x'` is an image of the coordinate `x` along an axis of `dim` sites. -/
def AxisImage (b : Boundary) (dim x x' : Int) : Prop :=
  match b with
  | .fixed => x' = x
  | .periodic => ∃ k : Int, x' = x + k * dim

/-- `q'` is an image of the position `q`: shifted by whole periods along periodic axes only. -/
def Image (c : Cuboid) (q q' : Pos) : Prop :=
  AxisImage c.xb c.length q.x q'.x ∧ AxisImage c.yb c.width q.y q'.y ∧
    AxisImage c.zb c.height q.z q'.z

/-- Euclidean distance between two points of the (infinite) lattice. -/
noncomputable def euclid (c : Cuboid) (p q : Pos) : ℝ :=
  c.spacing * Real.sqrt (((p.x : ℝ) - q.x) ^ 2 + ((p.y : ℝ) - q.y) ^ 2 + ((p.z : ℝ) - q.z) ^ 2)

/-- Some image of site `j` is within `cutoff` of site `i`. -/
def WithinCutoff (c : Cuboid) (i j : Int) (cutoff : ℝ) : Prop :=
  ∃ p q q', SiteAt c i p ∧ SiteAt c j q ∧ Image c q q' ∧ euclid c p q' ≤ cutoff

end Mythical.CuboidSpec
