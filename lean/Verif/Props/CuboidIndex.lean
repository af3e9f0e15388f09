import Verif.Lemmas.Cuboid
import Mathlib.Tactic.NormNum

/-! # Lattice: indices, positions, construction (C07-C12, C20, C21) -/

namespace Mythical
open Cuboid CuboidSpec

/-- A concrete lattice: 3 x 4 x 5, mixed boundaries, spacing 1. -/
noncomputable def box345 : Cuboid := ⟨3, 4, 5, 60, 1, .periodic, .fixed, .periodic⟩

theorem box345_built : Built box345 := built_of_good ⟨by decide, by decide, by decide, by decide, by decide⟩

/-- A 3 x 3 x 3 fully periodic lattice. -/
noncomputable def box333p : Cuboid := ⟨3, 3, 3, 27, 1, .periodic, .periodic, .periodic⟩

theorem box333p_built : Built box333p := built_of_good ⟨by decide, by decide, by decide, by decide, by decide⟩

/-! ## C07 -/

/-- C07, one direction: an in-bounds position has a valid index, and the index leads back to it. -/
theorem C07_position_roundtrip {c : Cuboid} (hb : Built c) {p : Pos} (hp : InBox c p) :
    ∃ i, c.getIndex p = .ok i ∧ ValidIndex c i ∧ c.getPosition i = .ok p := by
  have g := good_of_built hb
  have hs := siteAt_of_inBox hp
  exact ⟨_, getIndex_of_siteAt g hs, siteAt_bounds g hs, getPosition_of_siteAt g hs⟩

/-- C07, other direction: every valid index has an in-bounds position, and the position leads back to it. -/
theorem C07_index_roundtrip {c : Cuboid} (hb : Built c) {i : Int} (hi : ValidIndex c i) :
    ∃ p, c.getPosition i = .ok p ∧ InBox c p ∧ c.getIndex p = .ok i := by
  have g := good_of_built hb
  obtain ⟨p, hs⟩ := siteAt_exists g hi
  exact ⟨p, getPosition_of_siteAt g hs, hs.1, getIndex_of_siteAt g hs⟩

/-- C07: the layout. Sites are numbered with x fastest, then y, then z. -/
theorem C07_layout {c : Cuboid} (hb : Built c) {p : Pos} (hp : InBox c p) :
    c.getIndex p = .ok (p.x + c.length * (p.y + c.width * p.z)) :=
  getIndex_of_siteAt (good_of_built hb) (siteAt_of_inBox hp)

/-- C07: the vector overload agrees with the three-argument one and rejects every other length. -/
theorem C07_vector_overload (c : Cuboid) (v : List Int) :
    (∃ x y z, v = [x, y, z] ∧ c.getIndexV v = c.getIndex ⟨x, y, z⟩) ∨
      (v.length ≠ 3 ∧ c.getIndexV v = .error .invalidArgument) := by
  match v with
  | [] => exact .inr ⟨by decide, rfl⟩
  | [_] => exact .inr ⟨by simp, rfl⟩
  | [_, _] => exact .inr ⟨by simp, rfl⟩
  | [x, y, z] => exact .inl ⟨x, y, z, rfl, rfl⟩
  | _ :: _ :: _ :: _ :: t => exact .inr ⟨by simp, rfl⟩

example : box345.getIndex ⟨2, 3, 4⟩ = .ok 59 ∧ box345.getPosition 59 = .ok ⟨2, 3, 4⟩ := by
  constructor
  · exact C07_layout box345_built (by decide)
  · exact getPosition_of_siteAt (good_of_built box345_built) ⟨by decide, by decide⟩

/-! ## C08 -/

/-- C08: the coordinate getters are the components of `getPosition`, for every `int` index, valid or not;
they fail exactly when it fails and in the same way. -/
theorem C08_components {c : Cuboid} (hb : Built c) {i : Int} (hi : FitsInt i) :
    c.getX i = (c.getPosition i).map Pos.x ∧ c.getY i = (c.getPosition i).map Pos.y ∧
      c.getZ i = (c.getPosition i).map Pos.z := by
  have g := good_of_built hb
  obtain ⟨h1, h2, h3, h4, h5, h6⟩ := rawPos_total g hi
  unfold getX getY getZ getPosition
  rw [checkUpper_eq g]
  split
  · exact ⟨rfl, rfl, rfl⟩
  · simp only [ok_bind, h1, chk_ok g.lw_fits, divI, modI, if_neg g.lw_pos.ne', if_neg g.l.ne', chk_ok h2,
      chk_ok h3, sub_mul_tdiv, chk_ok h4, chk_ok h5, chk_ok h6, Except.map]
    exact ⟨trivial, trivial, trivial⟩

example : box345.getX 59 = .ok 2 ∧ box345.getX 60 = .error .invalidArgument := by
  have g := good_of_built box345_built
  constructor
  · rw [(C08_components box345_built (by decide)).1,
      getPosition_of_siteAt (p := ⟨2, 3, 4⟩) g ⟨by decide, by decide⟩]
    rfl
  · rw [(C08_components box345_built (by decide)).1, getPosition, checkUpper_eq g]
    rfl

/-! ## C09 -/

theorem checkPos_eq (dim x : Int) :
    checkPos dim x = if 0 ≤ x ∧ x < dim then .ok () else .error .invalidArgument := by
  unfold checkPos; split_ifs <;> first | rfl | omega

/-- C09: with Fixed boundaries `getIndex` throws `invalid_argument` exactly out of bounds and otherwise
returns a valid index. -/
theorem C09_fixed_enforced {c : Cuboid} (hb : Built c) (hx : c.xb = .fixed) (hy : c.yb = .fixed)
    (hz : c.zb = .fixed) (p : Pos) :
    (¬ InBox c p ∧ c.getIndex p = .error .invalidArgument) ∨
      (InBox c p ∧ ∃ i, c.getIndex p = .ok i ∧ ValidIndex c i) := by
  have g := good_of_built hb
  by_cases hp : InBox c p
  · exact .inr ⟨hp, _, getIndex_of_siteAt g (siteAt_of_inBox hp), siteAt_bounds g (siteAt_of_inBox hp)⟩
  · refine .inl ⟨hp, ?_⟩
    unfold getIndex axis
    rw [hx, hy, hz]
    simp only [checkPos_eq]
    by_cases h1 : 0 ≤ p.x ∧ p.x < c.length
    · by_cases h2 : 0 ≤ p.y ∧ p.y < c.width
      · by_cases h3 : 0 ≤ p.z ∧ p.z < c.height
        · exact absurd ⟨h1, h2, h3⟩ hp
        · simp [h1, h2, h3]
      · simp [h1, h2]
    · simp [h1]

example : ∃ c : Cuboid, Built c ∧ c.xb = .fixed ∧ c.yb = .fixed ∧ c.zb = .fixed ∧ InBox c ⟨1, 0, 2⟩ ∧
    ¬ InBox c ⟨2, 0, 2⟩ :=
  ⟨⟨2, 1, 3, 6, 1, .fixed, .fixed, .fixed⟩,
    built_of_good ⟨by decide, by decide, by decide, by decide, by decide⟩, rfl, rfl, rfl, by decide, by decide⟩

/-! ## C10 -/

/-- A coordinate reduced into the box along a periodic axis. -/
def reduce (b : Boundary) (dim x : Int) : Int := match b with | .periodic => x % dim | .fixed => x

/-- C10 (partial: coordinates of periodic axes must be at least `-dim`; below, see
`C10_wrong_below_minus_dim`). `getIndex` is the index of the coordinates reduced modulo the dimensions of
the periodic axes. Mixed boundaries are allowed; the fixed axes must be in bounds. -/
theorem C10_periodic_wrap_partial {c : Cuboid} (hb : Built c) (p : Pos)
    (hx : if c.xb = .periodic then -c.length ≤ p.x else 0 ≤ p.x ∧ p.x < c.length)
    (hy : if c.yb = .periodic then -c.width ≤ p.y else 0 ≤ p.y ∧ p.y < c.width)
    (hz : if c.zb = .periodic then -c.height ≤ p.z else 0 ≤ p.z ∧ p.z < c.height) :
    ∃ i, c.getIndex p = .ok i ∧ ValidIndex c i ∧
      c.getIndex ⟨reduce c.xb c.length p.x, reduce c.yb c.width p.y, reduce c.zb c.height p.z⟩ = .ok i := by
  have g := good_of_built hb
  have key : ∀ (b : Boundary) (dim x : Int), 0 < dim →
      (if b = .periodic then -dim ≤ x else 0 ≤ x ∧ x < dim) →
      (0 ≤ reduce b dim x ∧ reduce b dim x < dim) ∧ AxisImage b dim (reduce b dim x) x ∧
        (b = .periodic → -dim ≤ x) := by
    intro b dim x hd h
    cases b with
    | fixed => exact ⟨by simpa [reduce] using h, rfl, by simp⟩
    | periodic =>
      refine ⟨⟨Int.emod_nonneg _ hd.ne', Int.emod_lt_of_pos _ hd⟩, ⟨x / dim, ?_⟩, fun _ => by simpa using h⟩
      show x = x % dim + x / dim * dim
      have := Int.emod_add_mul_ediv x dim
      linarith [mul_comm dim (x / dim)]
  obtain ⟨bx, ix, kx⟩ := key _ _ _ g.l hx
  obtain ⟨by', iy, ky⟩ := key _ _ _ g.w hy
  obtain ⟨bz, iz, kz⟩ := key _ _ _ g.h hz
  have hs := siteAt_of_inBox (c := c) (p := ⟨_, _, _⟩) ⟨bx, by', bz⟩
  exact ⟨_, getIndex_of_image g hs ⟨ix, iy, iz⟩ kx ky kz, siteAt_bounds g hs, getIndex_of_siteAt g hs⟩

example : box345.getIndex ⟨-2, 1, 7⟩ = box345.getIndex ⟨1, 1, 2⟩ := by
  obtain ⟨i, h1, -, h2⟩ := C10_periodic_wrap_partial box345_built ⟨-2, 1, 7⟩ (by decide) (by decide) (by decide)
  rw [h1, ← h2]; rfl

/-- C10 is false of the code: on every lattice periodic in x, a coordinate below `-length` is *never*
mapped to the right site. -/
theorem C10_wrong_below_minus_dim {c : Cuboid} (hb : Built c) (hxb : c.xb = .periodic) (p : Pos)
    (hx : p.x < -c.length) (hy : 0 ≤ p.y ∧ p.y < c.width) (hz : 0 ≤ p.z ∧ p.z < c.height) (i j : Int)
    (hi : c.getIndex p = .ok i) (hj : c.getIndex ⟨p.x % c.length, p.y, p.z⟩ = .ok j) : i ≠ j := by
  have g := good_of_built hb
  have hl := g.l
  have m0 := Int.emod_nonneg p.x hl.ne'
  have m1 := Int.emod_lt_of_pos p.x hl
  have hj' := getIndex_of_siteAt g (siteAt_of_inBox (c := c) (p := ⟨p.x % c.length, p.y, p.z⟩) ⟨⟨m0, m1⟩, hy, hz⟩)
  rw [hj, ok_inj] at hj'
  unfold getIndex at hi
  rw [axis_inBox hy.1 hy.2 g.w_le, axis_inBox hz.1 hz.2 g.h_le, hxb] at hi
  simp only [axis, wrap, if_pos (show p.x < 0 by omega), ok_bind, bind_eq_ok, chk_eq_ok] at hi
  obtain ⟨x, ⟨rfl, -⟩, hi⟩ := hi
  have := rawIndex_eq_ok hi
  simp only at this hj'
  omega

/-- C10 is false of the code, concretely: on a 3x3x3 periodic lattice `getIndex(-4,0,0)` is `-1`, which is
not a site. -/
theorem C10_counterexample : Built box333p ∧ box333p.getIndex ⟨-4, 0, 0⟩ = .ok (-1) ∧
    ¬ ValidIndex box333p (-1) := ⟨box333p_built, rfl, by decide⟩

/-! ## C11 -/

/-- C11 (partial: `getPosition`, `getX`, `getY`, `getZ` reject only indices that are too large, see
`C11_negative_accepted`): `getNeighbors`, `getNeighborDistances(index)` and `getSmallestDistance` throw
`invalid_argument` for every invalid index, the other four for every index that is too large. -/
theorem C11_rejected_partial {c : Cuboid} (hb : Built c) {i : Int} (hi : ¬ ValidIndex c i) :
    (∀ cutoff, c.getNeighbors i cutoff = .error .invalidArgument) ∧
    (∀ cutoff, c.getNeighborDistances i cutoff = .error .invalidArgument) ∧
    (∀ j, c.getSmallestDistance i j = .error .invalidArgument) ∧
    (∀ j, ValidIndex c j → c.getSmallestDistance j i = .error .invalidArgument) ∧
    (0 ≤ i → c.getPosition i = .error .invalidArgument ∧ c.getX i = .error .invalidArgument ∧
      c.getY i = .error .invalidArgument ∧ c.getZ i = .error .invalidArgument) := by
  have g := good_of_built hb
  have hc := checkIndex_error g hi
  refine ⟨fun _ => ?_, fun _ => ?_, fun _ => ?_, fun j hj => ?_, fun h0 => ?_⟩
  · unfold getNeighbors; rw [hc]; rfl
  · unfold getNeighborDistances; rw [hc]; rfl
  · unfold getSmallestDistance; rw [hc]; rfl
  · unfold getSmallestDistance; rw [(checkIndex_ok g).2 hj, hc]; rfl
  · have : c.checkUpper i = .error .invalidArgument := by
      rw [checkUpper_eq g, if_pos]; unfold ValidIndex at hi; omega
    unfold getPosition getX getY getZ
    rw [this]; exact ⟨rfl, rfl, rfl, rfl⟩

example : ¬ ValidIndex box345 60 ∧ ¬ ValidIndex box345 (-1) := by decide

/-- C11 is false of the code: for *every* lattice and *every* negative index `getPosition` returns a
position, which is out of bounds. -/
theorem C11_negative_accepted {c : Cuboid} (hb : Built c) {i : Int} (h0 : i < 0) (hi : FitsInt i) :
    ∃ p, c.getPosition i = .ok p ∧ ¬ InBox c p := by
  have g := good_of_built hb
  obtain ⟨h1, -⟩ := rawPos_total g hi
  unfold getPosition
  rw [checkUpper_eq g, if_neg (by have := g.lwh_pos; omega), ok_bind, h1]
  refine ⟨_, rfl, ?_⟩
  rintro ⟨⟨x0, -⟩, ⟨y0, -⟩, ⟨z0, -⟩⟩
  simp only at x0 y0 z0
  have e1 := Int.tmod_add_mul_tdiv i (c.length * c.width)
  have e2 := Int.tmod_add_mul_tdiv (i.tmod (c.length * c.width)) c.length
  have := mul_nonneg g.lw_pos.le z0
  have := mul_nonneg g.l.le y0
  omega

theorem C11_counterexample : box333p.getPosition (-1) = .ok ⟨-1, 0, 0⟩ := rfl

/-! ## C12 -/

/-- C12, YZ plane: for draws from the distributions the code uses, the returned site exists and has
`x = plane_index`; and every site of that plane is returned for some draws. -/
theorem C12_YZ {c : Cuboid} (hb : Built c) {k : Int} (hk : 0 ≤ k ∧ k < c.length) :
    (∀ d1 d2, 0 ≤ d1 → d1 < (c.drawRange .YZ).1 → 0 ≤ d2 → d2 < (c.drawRange .YZ).2 →
      ∃ i p, c.getRandomSite .YZ k d1 d2 = .ok i ∧ SiteAt c i p ∧ p.x = k) ∧
    (∀ i p, SiteAt c i p → p.x = k → ∃ d1 d2, (0 ≤ d1 ∧ d1 < (c.drawRange .YZ).1) ∧
      (0 ≤ d2 ∧ d2 < (c.drawRange .YZ).2) ∧ c.getRandomSite .YZ k d1 d2 = .ok i) := by
  have g := good_of_built hb
  constructor
  · intro d1 d2 a1 a2 b1 b2
    have hs := siteAt_of_inBox (c := c) (p := ⟨k, d1, d2⟩) ⟨hk, ⟨a1, a2⟩, ⟨b1, b2⟩⟩
    refine ⟨_, _, ?_, hs, rfl⟩
    unfold getRandomSite
    simp only
    rw [if_neg (by omega)]
    exact getIndex_of_siteAt g hs
  · rintro i p hs rfl
    refine ⟨p.y, p.z, hs.1.2.1, hs.1.2.2, ?_⟩
    unfold getRandomSite
    simp only
    rw [if_neg (by omega)]
    exact getIndex_of_siteAt g hs

/-- C12, XZ plane. -/
theorem C12_XZ {c : Cuboid} (hb : Built c) {k : Int} (hk : 0 ≤ k ∧ k < c.width) :
    (∀ d1 d2, 0 ≤ d1 → d1 < (c.drawRange .XZ).1 → 0 ≤ d2 → d2 < (c.drawRange .XZ).2 →
      ∃ i p, c.getRandomSite .XZ k d1 d2 = .ok i ∧ SiteAt c i p ∧ p.y = k) ∧
    (∀ i p, SiteAt c i p → p.y = k → ∃ d1 d2, (0 ≤ d1 ∧ d1 < (c.drawRange .XZ).1) ∧
      (0 ≤ d2 ∧ d2 < (c.drawRange .XZ).2) ∧ c.getRandomSite .XZ k d1 d2 = .ok i) := by
  have g := good_of_built hb
  constructor
  · intro d1 d2 a1 a2 b1 b2
    have hs := siteAt_of_inBox (c := c) (p := ⟨d1, k, d2⟩) ⟨⟨a1, a2⟩, hk, ⟨b1, b2⟩⟩
    refine ⟨_, _, ?_, hs, rfl⟩
    unfold getRandomSite
    simp only
    rw [if_neg (by omega)]
    exact getIndex_of_siteAt g hs
  · rintro i p hs rfl
    refine ⟨p.x, p.z, hs.1.1, hs.1.2.2, ?_⟩
    unfold getRandomSite
    simp only
    rw [if_neg (by omega)]
    exact getIndex_of_siteAt g hs

/-- C12, XY plane (partial: only lattices with `height = width`, or at least the draw for y must be below
the width; see `C12_XY_throws` and `C12_XY_misses` for what happens otherwise). -/
theorem C12_XY_partial {c : Cuboid} (hb : Built c) {k : Int} (hk : 0 ≤ k ∧ k < c.height) :
    (∀ d1 d2, 0 ≤ d1 → d1 < (c.drawRange .XY).1 → 0 ≤ d2 → d2 < (c.drawRange .XY).2 → d2 < c.width →
      ∃ i p, c.getRandomSite .XY k d1 d2 = .ok i ∧ SiteAt c i p ∧ p.z = k) ∧
    (∀ i p, SiteAt c i p → p.z = k → p.y < c.height → ∃ d1 d2, (0 ≤ d1 ∧ d1 < (c.drawRange .XY).1) ∧
      (0 ≤ d2 ∧ d2 < (c.drawRange .XY).2) ∧ c.getRandomSite .XY k d1 d2 = .ok i) := by
  have g := good_of_built hb
  constructor
  · intro d1 d2 a1 a2 b1 b2 b3
    have hs := siteAt_of_inBox (c := c) (p := ⟨d1, d2, k⟩) ⟨⟨a1, a2⟩, ⟨b1, b3⟩, hk⟩
    refine ⟨_, _, ?_, hs, rfl⟩
    unfold getRandomSite
    simp only
    rw [if_neg (by omega)]
    exact getIndex_of_siteAt g hs
  · rintro i p hs rfl hy
    refine ⟨p.x, p.y, hs.1.1, ⟨hs.1.2.1.1, hy⟩, ?_⟩
    unfold getRandomSite
    simp only
    rw [if_neg (by omega)]
    exact getIndex_of_siteAt g hs

/-- C12 is false of the code: on every lattice that is taller than wide, with a Fixed y boundary,
`getRandomSite(XY, k)` throws for an allowed draw. -/
theorem C12_XY_throws {c : Cuboid} (hb : Built c) (hy : c.yb = .fixed) (hwh : c.width < c.height) {k : Int}
    (hk : 0 ≤ k ∧ k < c.height) : ∃ d1 d2, (0 ≤ d1 ∧ d1 < (c.drawRange .XY).1) ∧
      (0 ≤ d2 ∧ d2 < (c.drawRange .XY).2) ∧ c.getRandomSite .XY k d1 d2 = .error .invalidArgument := by
  have g := good_of_built hb
  have hl := g.l; have hw := g.w
  refine ⟨0, c.width, ⟨le_refl _, hl⟩, ⟨hw.le, hwh⟩, ?_⟩
  unfold getRandomSite getIndex
  simp only
  rw [if_neg (by omega), axis_inBox (le_refl _) hl g.l_le, hy, ok_bind]
  simp [axis, checkPos_eq]

/-- C12 is false of the code: on every lattice that is wider than tall some site of the XY plane is never
returned, whatever the draws. -/
theorem C12_XY_misses {c : Cuboid} (hb : Built c) (hwh : c.height < c.width) {k : Int}
    (hk : 0 ≤ k ∧ k < c.height) : ∃ i p, SiteAt c i p ∧ p.z = k ∧ ∀ d1 d2,
      0 ≤ d1 → d1 < (c.drawRange .XY).1 → 0 ≤ d2 → d2 < (c.drawRange .XY).2 →
        c.getRandomSite .XY k d1 d2 ≠ .ok i := by
  have g := good_of_built hb
  have hl := g.l; have hw := g.w; have hh := g.h
  have hs := siteAt_of_inBox (c := c) (p := ⟨0, c.width - 1, k⟩)
    ⟨⟨le_refl _, hl⟩, ⟨by simp only; omega, by simp only; omega⟩, hk⟩
  refine ⟨_, _, hs, rfl, ?_⟩
  intro d1 d2 a1 a2 b1 b2 h
  simp only [drawRange] at a2 b2
  obtain ⟨i, p, h1, h2, -⟩ := (C12_XY_partial hb hk).1 d1 d2 a1 a2 b1 b2 (by omega)
  have hs' := siteAt_of_inBox (c := c) (p := ⟨d1, d2, k⟩) ⟨⟨a1, a2⟩, ⟨b1, by simp only; omega⟩, hk⟩
  have : c.getRandomSite .XY k d1 d2 = .ok (d1 + c.length * (d2 + c.width * k)) := by
    unfold getRandomSite
    simp only
    rw [if_neg (by omega)]
    exact getIndex_of_siteAt g hs'
  rw [this, ok_inj] at h
  simp only at hs' hs h
  rw [h] at hs'
  have := siteAt_unique g hs hs'
  simp only [Pos.mk.injEq] at this
  omega

/-- C12: an out-of-range plane index on a Fixed axis always throws (through `getIndex`; the function's own
check never fires, and the other draws are in bounds). -/
theorem C12_out_of_range_throws {c : Cuboid} (hb : Built c) {k : Int} (d1 d2 : Int) :
    (c.xb = .fixed → ¬ (0 ≤ k ∧ k < c.length) →
      c.getRandomSite .YZ k d1 d2 = .error .invalidArgument) ∧
    (c.yb = .fixed → ¬ (0 ≤ k ∧ k < c.width) → 0 ≤ d1 → d1 < (c.drawRange .XZ).1 →
      c.getRandomSite .XZ k d1 d2 = .error .invalidArgument) ∧
    (c.zb = .fixed → ¬ (0 ≤ k ∧ k < c.height) → 0 ≤ d1 → d1 < (c.drawRange .XY).1 → 0 ≤ d2 →
      d2 < (c.drawRange .XY).2 → c.getRandomSite .XY k d1 d2 = .error .invalidArgument) := by
  have g := good_of_built hb
  have hl := g.l; have hw := g.w; have hh := g.h
  refine ⟨fun hf hk => ?_, fun hf hk a1 a2 => ?_, fun hf hk a1 a2 b1 b2 => ?_⟩
  · unfold getRandomSite getIndex; simp only; rw [if_neg (by omega), hf]; simp [axis, checkPos_eq, hk]
  · unfold getRandomSite getIndex; simp only
    rw [if_neg (by omega), hf, axis_inBox (dim := c.length) a1 a2 g.l_le]; simp [axis, checkPos_eq, hk]
  · unfold getRandomSite getIndex; simp only
    rw [if_neg (by omega), hf, axis_inBox (dim := c.length) a1 a2 g.l_le, ok_bind]
    have hz : axis .fixed c.height k = .error .invalidArgument := by simp [axis, checkPos_eq, hk]
    rw [hz]
    cases hyb : c.yb with
    | fixed =>
      rw [axis]
      simp only [checkPos_eq]
      split <;> rfl
    | periodic =>
      rw [axis, wrap]
      rw [if_neg (by omega), modI, if_neg hw.ne', Int.tmod_eq_emod_of_nonneg b1, chk_ok]
      · rfl
      · have := Int.emod_nonneg d2 hw.ne'; have := Int.emod_lt_of_pos d2 hw; have := g.w_le
        exact fitsInt_of (by omega) (by omega)

example : ∃ c : Cuboid, Built c ∧ c.yb = .fixed ∧ c.width < c.height ∧ (0 ≤ (0:Int) ∧ 0 < c.height) :=
  ⟨box345, box345_built, rfl, by decide, by decide⟩

example : ∃ c : Cuboid, Built c ∧ c.height < c.width ∧ c.xb = .fixed ∧ ¬ (0 ≤ (5:Int) ∧ 5 < c.length) :=
  ⟨⟨2, 3, 2, 12, 1, .fixed, .fixed, .fixed⟩,
    built_of_good ⟨by decide, by decide, by decide, by decide, by decide⟩, by decide, rfl, by decide⟩

/-! ## C20, index part -/

/-- A result that is not undefined behaviour. -/
def Defined {α : Type _} (r : Except Fault α) : Prop := ∀ w, r ≠ .error (.ub w)

/-- C20: positive dimensions whose product fits in `int` are enough for construction to succeed. -/
theorem C20_construct (l w h : Int) (s : ℝ) (xb yb zb : Boundary) (hl : 0 < l) (hw : 0 < w) (hh : 0 < h)
    (hf : l * w * h ≤ INT_MAX) : ∃ c, construct l w h s xb yb zb = .ok c ∧ Built c ∧
      c = ⟨l, w, h, l * w * h, s, xb, yb, zb⟩ :=
  have hb : Built ⟨l, w, h, l * w * h, s, xb, yb, zb⟩ := built_of_good ⟨hl, hw, hh, rfl, hf⟩
  ⟨_, hb, hb, rfl⟩

/-- C20: `getPosition`, `getX`, `getY`, `getZ` have no undefined behaviour on any `int`. -/
theorem C20_position_defined {c : Cuboid} (hb : Built c) {i : Int} (hi : FitsInt i) :
    Defined (c.getPosition i) ∧ Defined (c.getX i) ∧ Defined (c.getY i) ∧ Defined (c.getZ i) := by
  have g := good_of_built hb
  obtain ⟨h1, -⟩ := rawPos_total g hi
  have hp : c.getPosition i = .error .invalidArgument ∨ ∃ p, c.getPosition i = .ok p := by
    unfold getPosition
    rw [checkUpper_eq g]
    split
    · exact .inl rfl
    · exact .inr ⟨_, by rw [ok_bind, h1]⟩
  obtain ⟨e1, e2, e3⟩ := C08_components hb hi
  rw [e1, e2, e3]
  rcases hp with h | ⟨p, h⟩ <;> rw [h] <;> refine ⟨?_, ?_, ?_, ?_⟩ <;> intro w hw <;> cases hw

/-- C20: `getIndex` has no undefined behaviour on coordinates not below `-dim`. -/
theorem C20_getIndex_defined {c : Cuboid} (hb : Built c) (p : Pos) (hx : -c.length ≤ p.x)
    (hy : -c.width ≤ p.y) (hz : -c.height ≤ p.z) : Defined (c.getIndex p) := by
  have g := good_of_built hb
  have key : ∀ (b : Boundary) (dim x : Int), 0 < dim → dim ≤ 2147483647 → -dim ≤ x →
      (∃ v, axis b dim x = .ok v ∧ 0 ≤ v ∧ v < dim) ∨ axis b dim x = .error .invalidArgument := by
    intro b dim x hd hf hx
    cases b with
    | fixed =>
      simp only [axis, checkPos_eq]
      split
      · next h => exact .inl ⟨x, rfl, h.1, h.2⟩
      · exact .inr rfl
    | periodic =>
      refine .inl ⟨x % dim, wrap_of_image hd (Int.emod_nonneg _ hd.ne') (Int.emod_lt_of_pos _ hd) hf
        ⟨x / dim, ?_⟩ hx, Int.emod_nonneg _ hd.ne', Int.emod_lt_of_pos _ hd⟩
      have := Int.emod_add_mul_ediv x dim
      linarith [mul_comm dim (x / dim)]
  intro w
  unfold getIndex
  rcases key c.xb _ _ g.l g.l_le hx with ⟨x, ex, x0, x1⟩ | e
  · rcases key c.yb _ _ g.w g.w_le hy with ⟨y, ey, y0, y1⟩ | e
    · rcases key c.zb _ _ g.h g.h_le hz with ⟨z, ez, z0, z1⟩ | e
      · rw [ex, ey, ez]
        simp only [ok_bind]
        rw [rawIndex_ok g (siteAt_of_inBox (c := c) (p := ⟨x, y, z⟩) ⟨⟨x0, x1⟩, ⟨y0, y1⟩, ⟨z0, z1⟩⟩)]
        intro h; cases h
      · rw [ex, ey, e]; intro h; cases h
    · rw [ex, e]; intro h; cases h
  · rw [e]; intro h; cases h

example : Defined (box345.getIndex ⟨-3, 100, 2000000000⟩) :=
  C20_getIndex_defined box345_built _ (by decide) (by decide) (by decide)

/-! ## C21 -/

/-- C21 (partial: only when the products that are computed before the checks do not overflow; and zero
dimensions are not rejected, see `C21_zero_dimension`, `C21_overflow_before_check`): construction throws
`invalid_argument` exactly when some dimension is negative. -/
theorem C21_negative_rejected_partial (l w h : Int) (s : ℝ) (xb yb zb : Boundary) (h1 : FitsInt (l * w))
    (h2 : FitsInt (l * w * h)) :
    construct l w h s xb yb zb = .error .invalidArgument ↔ (l < 0 ∨ w < 0 ∨ h < 0) := by
  simp only [construct, chk_ok h1, ok_bind, chk_ok h2]
  constructor
  · intro hc
    by_contra hn
    rw [if_neg (by omega), if_neg (by omega), if_neg (by omega)] at hc
    have hm : ∀ d, mkDistribution d ≠ .error .invalidArgument := by
      intro d hd
      unfold mkDistribution at hd
      rcases bind_eq_error.1 hd with hd | ⟨_, _, hd⟩
      · cases (chk_eq_error.1 hd).2
      · split at hd <;> cases hd
    simp only [bind_eq_error] at hc
    rcases hc with hc | ⟨_, _, hc | ⟨_, _, hc | ⟨_, _, hc⟩⟩⟩
    · exact hm _ hc
    · exact hm _ hc
    · exact hm _ hc
    · cases hc
  · intro hn
    split
    · rfl
    · split
      · rfl
      · split
        · rfl
        · omega

example : FitsInt (3 * 4) ∧ FitsInt (3 * 4 * -5) ∧ ((3:Int) < 0 ∨ (4:Int) < 0 ∨ (-5:Int) < 0) := by decide

/-- C21 is false of the code: dimensions that are not negative but include a zero are not rejected; the
constructor builds `uniform_int_distribution(0,-1)`, which is undefined. -/
theorem C21_zero_dimension (l w h : Int) (s : ℝ) (xb yb zb : Boundary) (hl : 0 ≤ l) (hw : 0 ≤ w) (hh : 0 ≤ h)
    (fl : FitsInt l) (fw : FitsInt w) (fh : FitsInt h) (h1 : FitsInt (l * w)) (hz : l = 0 ∨ w = 0 ∨ h = 0) :
    construct l w h s xb yb zb = .error (.ub .badDistribution) := by
  have h2 : FitsInt (l * w * h) := by
    have : l * w * h = 0 := by rcases hz with rfl | rfl | rfl <;> simp
    rw [this]; decide
  simp only [construct, chk_ok h1, ok_bind, chk_ok h2]
  rw [if_neg (by omega), if_neg (by omega), if_neg (by omega)]
  have hm : ∀ d, 0 ≤ d → FitsInt d → mkDistribution d =
      if d = 0 then .error (.ub .badDistribution) else .ok () := by
    intro d hd hf
    have := hf.2
    simp only [INT_MAX] at this
    unfold mkDistribution
    rw [chk_ok (fitsInt_of (by omega) (by omega)), ok_bind]
    split <;> split <;> first | rfl | omega
  rw [hm l hl fl, hm w hw fw, hm h hh fh]
  by_cases e1 : l = 0
  · simp [e1]
  · by_cases e2 : w = 0
    · simp [e1, e2]
    · simp [e1, e2, show h = 0 by omega]

example : construct 0 4 5 1 .fixed .fixed .fixed = .error (.ub .badDistribution) :=
  C21_zero_dimension 0 4 5 1 _ _ _ (by decide) (by decide) (by decide) (by decide) (by decide) (by decide)
    (by decide) (by decide)

/-- C21 is false of the code: the product is computed before the sign checks, so a negative dimension with
a large one is undefined behaviour instead of an exception. -/
theorem C21_overflow_before_check (l w h : Int) (s : ℝ) (xb yb zb : Boundary) (h1 : ¬ FitsInt (l * w)) :
    construct l w h s xb yb zb = .error (.ub .intOverflow) := by
  unfold construct
  rw [chk_eq_error.2 ⟨h1, rfl⟩]; rfl

example : construct (-2147483648) 2 1 1 .fixed .fixed .fixed = .error (.ub .intOverflow) :=
  C21_overflow_before_check _ _ _ _ _ _ _ (by decide)

end Mythical
