import Verif.Props.CuboidNeighbors
import Mathlib.Analysis.InnerProductSpace.PiL2

/-! # Lattice: getSmallestDistance (C19, C20) -/

namespace Mythical
open Cuboid CuboidSpec

theorem euclid_eq_dist (c : Cuboid) (p q : Pos) : euclid c p q = c.spacing *
    dist (!₂[(p.x : ℝ), p.y, p.z] : EuclideanSpace ℝ (Fin 3)) !₂[(q.x : ℝ), q.y, q.z] := by
  rw [EuclideanSpace.dist_eq]
  simp [Fin.sum_univ_three, Real.dist_eq, euclid]

theorem euclid_triangle {c : Cuboid} (hs : 0 ≤ c.spacing) (p q r : Pos) :
    euclid c p r ≤ euclid c p q + euclid c q r := by
  simp only [euclid_eq_dist, ← mul_add]
  exact mul_le_mul_of_nonneg_left (dist_triangle _ _ _) hs

theorem euclid_eq_zero {c : Cuboid} (hs : 0 < c.spacing) {p q : Pos} : euclid c p q = 0 ↔ p = q := by
  unfold euclid
  rw [mul_eq_zero, or_iff_right hs.ne', Real.sqrt_eq_zero (by positivity)]
  constructor
  · intro h
    have h1 : ((p.x : ℝ) - q.x) ^ 2 = 0 := by nlinarith [sq_nonneg ((p.x : ℝ) - q.x), sq_nonneg ((p.y : ℝ) - q.y), sq_nonneg ((p.z : ℝ) - q.z)]
    have h2 : ((p.y : ℝ) - q.y) ^ 2 = 0 := by nlinarith [sq_nonneg ((p.x : ℝ) - q.x), sq_nonneg ((p.y : ℝ) - q.y), sq_nonneg ((p.z : ℝ) - q.z)]
    have h3 : ((p.z : ℝ) - q.z) ^ 2 = 0 := by nlinarith [sq_nonneg ((p.x : ℝ) - q.x), sq_nonneg ((p.y : ℝ) - q.y), sq_nonneg ((p.z : ℝ) - q.z)]
    rw [sq_eq_zero_iff, sub_eq_zero] at h1 h2 h3
    cases p; cases q
    simp only [Pos.mk.injEq]
    exact ⟨by exact_mod_cast h1, by exact_mod_cast h2, by exact_mod_cast h3⟩
  · rintro rfl; simp

/-- All boundaries Fixed. -/
def AllFixed (c : Cuboid) : Prop := c.xb = .fixed ∧ c.yb = .fixed ∧ c.zb = .fixed

theorem smallest_fixed {c : Cuboid} (hb : Built c) (hf : AllFixed c) {i j : Int} {p q : Pos}
    (hp : SiteAt c i p) (hq : SiteAt c j q) : c.getSmallestDistance i j = c.distance p q := by
  have g := good_of_built hb
  unfold getSmallestDistance
  rw [(checkIndex_ok g).2 (siteAt_bounds g hp), (checkIndex_ok g).2 (siteAt_bounds g hq),
    rawPos_of_siteAt g hp, rawPos_of_siteAt g hq]
  simp only [ok_bind, hf.1, hf.2.1, hf.2.2, smallestAxis]

theorem smallest_valid {c : Cuboid} (hb : Built c) {i j : Int} {d : ℝ}
    (h : c.getSmallestDistance i j = .ok d) : ∃ p q, SiteAt c i p ∧ SiteAt c j q := by
  have g := good_of_built hb
  unfold getSmallestDistance at h
  simp only [bind_eq_ok] at h
  obtain ⟨_, h1, _, h2, -⟩ := h
  obtain ⟨p, hp⟩ := siteAt_exists g ((checkIndex_ok g).1 h1)
  obtain ⟨q, hq⟩ := siteAt_exists g ((checkIndex_ok g).1 h2)
  exact ⟨p, q, hp, hq⟩

/-- C19 (partial: all boundaries Fixed; with a Periodic boundary the result is wrong, see
`C19_self_distance_wrong`): the result is a metric, and equals the distance to every (the only) image. -/
theorem C19_metric_partial {c : Cuboid} (hb : Built c) (hsp : 0 < c.spacing) (hf : AllFixed c) {i j k : Int}
    {dij dji djk dik : ℝ} (hij : c.getSmallestDistance i j = .ok dij)
    (hji : c.getSmallestDistance j i = .ok dji) (hjk : c.getSmallestDistance j k = .ok djk)
    (hik : c.getSmallestDistance i k = .ok dik) :
    0 ≤ dij ∧ (dij = 0 ↔ i = j) ∧ dij = dji ∧ dik ≤ dij + djk ∧
      (∀ p q q', SiteAt c i p → SiteAt c j q → Image c q q' → dij = euclid c p q') := by
  have g := good_of_built hb
  obtain ⟨p, q, hp, hq⟩ := smallest_valid hb hij
  obtain ⟨-, r, -, hr⟩ := smallest_valid hb hjk
  rw [smallest_fixed hb hf hp hq] at hij
  rw [smallest_fixed hb hf hq hp] at hji
  rw [smallest_fixed hb hf hq hr] at hjk
  rw [smallest_fixed hb hf hp hr] at hik
  rw [distance_eq_ok hij, distance_eq_ok hji, distance_eq_ok hjk, distance_eq_ok hik]
  refine ⟨euclid_nonneg hsp.le _ _, ?_, euclid_comm _ _ _, ?_, ?_⟩
  · rw [euclid_eq_zero hsp]
    constructor
    · rintro rfl; rw [hp.2, hq.2]
    · rintro rfl; exact siteAt_unique g hq hp
  · have := euclid_triangle hsp.le r q p
    rw [euclid_comm c q p, add_comm] at this
    simpa [euclid_comm c q p] using this
  · intro p' q' q'' hp' hq' ⟨ix, iy, iz⟩
    have := siteAt_unique g hp hp'; subst this
    have := siteAt_unique g hq hq'; subst this
    rw [hf.1] at ix; rw [hf.2.1] at iy; rw [hf.2.2] at iz
    have ix : q''.x = q.x := ix
    have iy : q''.y = q.y := iy
    have iz : q''.z = q.z := iz
    rw [euclid_comm]; unfold euclid; rw [ix, iy, iz]

/-- The per-axis value on a periodic axis, for coordinates inside the box. -/
theorem smallestAxis_periodic {dim x1 x2 old : Int} (h1 : 0 ≤ x1 ∧ x1 < dim) (h2 : 0 ≤ x2 ∧ x2 < dim)
    (hd : dim ≤ 1073741823) : ∃ v, smallestAxis .periodic dim x1 x2 old = .ok v ∧ 0 ≤ v ∧ 2 * v ≤ dim ∧
      (AxisImage .periodic dim (x2 - x1) v ∨ AxisImage .periodic dim (x2 - x1) (-v)) := by
  unfold smallestAxis
  simp only
  have F : ∀ n : Int, -2147483648 ≤ n → n ≤ 2147483647 → chk n = .ok n := fun n a b => chk_ok (fitsInt_of a b)
  rw [F (x2 - x1) (by omega) (by omega), ok_bind, F (x2 - x1 + dim) (by omega) (by omega), ok_bind,
    F (x2 - x1 - dim) (by omega) (by omega), ok_bind]
  have a1 : |x2 - x1 + dim| = x2 - x1 + dim := abs_of_nonneg (by omega)
  have a2 : |x2 - x1 - dim| = -(x2 - x1 - dim) := abs_of_nonpos (by omega)
  rw [a1, a2, F _ (by omega) (by omega), ok_bind, F _ (by omega) (by omega), ok_bind]
  rcases le_total 0 (x2 - x1) with h | h
  · rw [abs_of_nonneg h, F _ (by omega) (by omega), ok_bind]
    refine ⟨_, rfl, by omega, by omega, ?_⟩
    rcases le_total (2 * (x2 - x1)) dim with h' | h'
    · left; refine ⟨0, ?_⟩; rw [zero_mul, add_zero]; omega
    · right; refine ⟨-1, ?_⟩; omega
  · rw [abs_of_nonpos h, F _ (by omega) (by omega), ok_bind]
    refine ⟨_, rfl, by omega, by omega, ?_⟩
    rcases le_total (-(2 * (x2 - x1))) dim with h' | h'
    · right; refine ⟨0, ?_⟩; omega
    · left; refine ⟨1, ?_⟩; omega

/-- C19 (partial, periodic): on a lattice with Fixed z boundary, distances *from* a site with coordinate 0 on
every periodic axis are the minimum-image distances. (This is the case the library's own tests exercise.) -/
theorem C19_from_origin_partial {c : Cuboid} (hb : Built c) (hsp : 0 < c.spacing) (hz : c.zb = .fixed)
    (hl : c.length ≤ 1073741823) (hw : c.width ≤ 1073741823) {i j : Int} {p q : Pos} (hp : SiteAt c i p)
    (hq : SiteAt c j q) (hpx : c.xb = .periodic → p.x = 0) (hpy : c.yb = .periodic → p.y = 0) {d : ℝ}
    (h : c.getSmallestDistance i j = .ok d) :
    (∀ q', Image c q q' → d ≤ euclid c p q') ∧ (∃ q', Image c q q' ∧ d = euclid c p q') := by
  have g := good_of_built hb
  unfold getSmallestDistance at h
  rw [(checkIndex_ok g).2 (siteAt_bounds g hp), (checkIndex_ok g).2 (siteAt_bounds g hq),
    rawPos_of_siteAt g hp, rawPos_of_siteAt g hq] at h
  simp only [ok_bind, hz] at h
  -- per axis: the code's value has the same squared difference as some image, minimal among images
  have key : ∀ (b : Boundary) (dim x1 x2 v : Int), (0 ≤ x1 ∧ x1 < dim) → (0 ≤ x2 ∧ x2 < dim) → dim ≤ 1073741823 →
      (b = .periodic → x1 = 0) → smallestAxis b dim x1 x2 x2 = .ok v →
      (∃ y, AxisImage b dim x2 y ∧ (x1 - v) ^ 2 = (x1 - y) ^ 2) ∧
        ∀ y, AxisImage b dim x2 y → (x1 - v) ^ 2 ≤ (x1 - y) ^ 2 := by
    intro b dim x1 x2 v h1 h2 hd h0 hv
    cases b with
    | fixed =>
      simp only [smallestAxis, ok_inj] at hv
      subst hv
      exact ⟨⟨x2, rfl, rfl⟩, fun y hy => by rw [show y = x2 from hy]⟩
    | periodic =>
      have hx1 := h0 rfl
      subst hx1
      obtain ⟨v', hv', v0, v1, him⟩ := smallestAxis_periodic (old := x2) h1 h2 hd
      rw [hv, ok_inj] at hv'
      subst hv'
      rw [sub_zero] at him
      constructor
      · rcases him with ⟨k, e⟩ | ⟨k, e⟩
        · exact ⟨v, ⟨k, e⟩, rfl⟩
        · exact ⟨-v, ⟨k, e⟩, by ring⟩
      · rintro y ⟨k, rfl⟩
        have : ∃ k', (x2 + k * dim = v + k' * dim) ∨ (x2 + k * dim = -v + k' * dim) := by
          rcases him with ⟨k2, e⟩ | ⟨k2, e⟩
          · exact ⟨k - k2, .inl (by rw [e]; ring)⟩
          · exact ⟨k - k2, .inr (by rw [e]; ring)⟩
        obtain ⟨k', e | e⟩ := this
        · rw [e]
          rcases lt_trichotomy k' 0 with hk | rfl | hk
          · have : k' * dim ≤ -dim := by nlinarith
            rw [← neg_sq (0 - v)]
            apply sq_le_sq' <;> omega
          · simp
          · have : dim ≤ k' * dim := by nlinarith
            rw [← neg_sq (0 - (v + k' * dim))]
            apply sq_le_sq' <;> omega
        · rw [e]
          rcases lt_trichotomy k' 0 with hk | rfl | hk
          · have : k' * dim ≤ -dim := by nlinarith
            rw [← neg_sq (0 - v)]
            apply sq_le_sq' <;> omega
          · simp
          · have : dim ≤ k' * dim := by nlinarith
            rw [← neg_sq (0 - (-v + k' * dim))]
            apply sq_le_sq' <;> omega
  simp only [bind_eq_ok] at h
  obtain ⟨qx, hqx, qy, hqy, qz, hqz, hd⟩ := h
  simp only [smallestAxis, ok_inj] at hqz
  subst hqz
  obtain ⟨⟨x, ax, ex⟩, mx⟩ := key _ _ _ _ _ hp.1.1 hq.1.1 hl hpx hqx
  obtain ⟨⟨y, ay, ey⟩, my⟩ := key _ _ _ _ _ hp.1.2.1 hq.1.2.1 hw hpy hqy
  have hd := distance_eq_ok hd
  have cast : ∀ a b e : Int, (b - a) ^ 2 ≤ (b - e) ^ 2 → ((b : ℝ) - a) ^ 2 ≤ ((b : ℝ) - e) ^ 2 := by
    intro a b e h; exact_mod_cast h
  constructor
  · rintro q' ⟨jx, jy, jz⟩
    rw [hz] at jz
    have jz : q'.z = q.z := jz
    rw [hd, euclid_comm]
    unfold euclid
    apply mul_le_mul_of_nonneg_left _ hsp.le
    apply Real.sqrt_le_sqrt
    have := cast _ _ _ (mx _ jx)
    have := cast _ _ _ (my _ jy)
    simp only [jz]
    linarith
  · refine ⟨⟨x, y, q.z⟩, ⟨ax, ay, ?_⟩, ?_⟩
    · rw [hz]; rfl
    · rw [hd, euclid_comm]
      unfold euclid
      have e1 : ((p.x : ℝ) - qx) ^ 2 = ((p.x : ℝ) - x) ^ 2 := by exact_mod_cast ex
      have e2 : ((p.y : ℝ) - qy) ^ 2 = ((p.y : ℝ) - y) ^ 2 := by exact_mod_cast ey
      simp only [e1, e2]

/-- C19 is false of the code: on every lattice periodic in x, the reported distance of a site *to itself* is
at least its x coordinate times the spacing — not zero unless x = 0. -/
theorem C19_self_distance_wrong {c : Cuboid} (hb : Built c) (hsp : 0 < c.spacing) (hx : c.xb = .periodic)
    (hl : c.length ≤ 1073741823) {i : Int} {p : Pos} (hp : SiteAt c i p) {d : ℝ}
    (h : c.getSmallestDistance i i = .ok d) : c.spacing * p.x ≤ d := by
  have g := good_of_built hb
  unfold getSmallestDistance at h
  rw [(checkIndex_ok g).2 (siteAt_bounds g hp), rawPos_of_siteAt g hp] at h
  simp only [ok_bind, hx] at h
  simp only [bind_eq_ok] at h
  obtain ⟨qx, hqx, qy, hqy, qz, hqz, hd⟩ := h
  have h0 : qx = 0 := by
    obtain ⟨v, hv, v0, v1, him⟩ := smallestAxis_periodic (old := p.x) hp.1.1 hp.1.1 hl
    rw [hqx, ok_inj] at hv
    subst hv
    have hlp := g.l
    rw [sub_self] at him
    rcases him with ⟨k, e⟩ | ⟨k, e⟩
    · rcases lt_trichotomy k 0 with hk | rfl | hk
      · have : k * c.length ≤ -c.length := by nlinarith
        omega
      · simpa using e
      · have : c.length ≤ k * c.length := by nlinarith
        omega
    · rcases lt_trichotomy k 0 with hk | rfl | hk
      · have : k * c.length ≤ -c.length := by nlinarith
        omega
      · simp only [zero_mul, add_zero] at e; omega
      · have : c.length ≤ k * c.length := by nlinarith
        omega
  rw [distance_eq_ok hd, h0]
  unfold euclid
  apply mul_le_mul_of_nonneg_left _ hsp.le
  apply Real.le_sqrt_of_sq_le
  simp only
  push_cast
  nlinarith [sq_nonneg ((qy : ℝ) - p.y), sq_nonneg ((qz : ℝ) - p.z)]

/-! ## C20 for `getSmallestDistance` -/

/-- C20: with Fixed boundaries the call returns exactly when the squared distance (in lattice steps) fits in
`int`. -/
theorem C20_smallestDistance_fixed_iff {c : Cuboid} (hb : Built c) (hf : AllFixed c) {i j : Int} {p q : Pos}
    (hp : SiteAt c i p) (hq : SiteAt c j q) : (∃ d, c.getSmallestDistance i j = .ok d) ↔
      (p.x - q.x) ^ 2 + (p.y - q.y) ^ 2 + (p.z - q.z) ^ 2 ≤ INT_MAX := by
  have g := good_of_built hb
  rw [smallest_fixed hb hf hp hq]
  obtain ⟨⟨⟨x0, x1⟩, ⟨y0, y1⟩, ⟨z0, z1⟩⟩, -⟩ := hp
  obtain ⟨⟨⟨x0', x1'⟩, ⟨y0', y1'⟩, ⟨z0', z1'⟩⟩, -⟩ := hq
  have bl := g.l_le; have bw := g.w_le; have bh := g.h_le
  unfold distance
  rw [chk_ok (fitsInt_of (by omega) (by omega)), chk_ok (fitsInt_of (by omega) (by omega)),
    chk_ok (fitsInt_of (by omega) (by omega))]
  simp only [ok_bind, INT_MAX]
  have s1 := mul_self_nonneg (p.x - q.x)
  have s2 := mul_self_nonneg (p.y - q.y)
  have s3 := mul_self_nonneg (p.z - q.z)
  rw [sq, sq, sq]
  constructor
  · rintro ⟨d, h⟩
    simp only [bind_eq_ok, chk_eq_ok, ok_inj] at h
    obtain ⟨_, ⟨rfl, _⟩, _, ⟨rfl, _⟩, _, ⟨rfl, _⟩, _, ⟨rfl, _⟩, _, ⟨rfl, hh⟩, rfl⟩ := h
    have := hh.2
    simpa [INT_MAX] using this
  · intro h
    rw [chk_ok (fitsInt_of (by omega) (by omega)), ok_bind, chk_ok (fitsInt_of (by omega) (by omega)), ok_bind,
      chk_ok (fitsInt_of (by omega) (by omega)), ok_bind, chk_ok (fitsInt_of (by omega) (by omega)), ok_bind,
      chk_ok (fitsInt_of (by omega) (by omega)), ok_bind]
    exact ⟨_, rfl⟩

/-- C20: for every boundary setting, dimensions up to 26754 are enough for the call to return. -/
theorem C20_smallestDistance_returns {c : Cuboid} (hb : Built c) (hl : c.length ≤ 26754)
    (hw : c.width ≤ 26754) (hh : c.height ≤ 26754) {i j : Int} (hi : ValidIndex c i) (hj : ValidIndex c j) :
    ∃ d, c.getSmallestDistance i j = .ok d := by
  have g := good_of_built hb
  obtain ⟨p, hp⟩ := siteAt_exists g hi
  obtain ⟨q, hq⟩ := siteAt_exists g hj
  obtain ⟨⟨⟨x0, x1⟩, ⟨y0, y1⟩, ⟨z0, z1⟩⟩, -⟩ := id hp
  obtain ⟨⟨⟨x0', x1'⟩, ⟨y0', y1'⟩, ⟨z0', z1'⟩⟩, -⟩ := id hq
  have key : ∀ (b : Boundary) (dim a1 a2 old : Int), 0 < dim → dim ≤ 26754 → 0 ≤ a1 → a1 < 26754 → 0 ≤ a2 →
      a2 < 26754 → 0 ≤ old → old < 26754 →
      ∃ v, smallestAxis b dim a1 a2 old = .ok v ∧ 0 ≤ v ∧ v < 26754 := by
    intro b dim a1 a2 old d0 d1 h1 h2 h3 h4 h5 h6
    cases b with
    | fixed => exact ⟨old, rfl, h5, h6⟩
    | periodic =>
      unfold smallestAxis
      have F : ∀ n : Int, -2147483648 ≤ n → n ≤ 2147483647 → chk n = .ok n := fun n a b => chk_ok (fitsInt_of a b)
      have A : ∀ n : Int, -1000000 ≤ n → n ≤ 1000000 → chk |n| = .ok |n| := by
        intro n a b
        rcases abs_cases n with ⟨e, _⟩ | ⟨e, _⟩ <;> rw [e] <;> exact F _ (by omega) (by omega)
      simp only
      rw [F _ (by omega) (by omega), ok_bind, F _ (by omega) (by omega), ok_bind, F _ (by omega) (by omega), ok_bind,
        A _ (by omega) (by omega), ok_bind, A _ (by omega) (by omega), ok_bind, A _ (by omega) (by omega), ok_bind]
      refine ⟨_, rfl, ?_, ?_⟩
      · exact le_min (le_min (abs_nonneg _) (abs_nonneg _)) (abs_nonneg _)
      · refine lt_of_le_of_lt (min_le_right _ _) ?_
        rw [abs_lt]; omega
  unfold getSmallestDistance
  rw [(checkIndex_ok g).2 hi, (checkIndex_ok g).2 hj, rawPos_of_siteAt g hp, rawPos_of_siteAt g hq]
  simp only [ok_bind]
  obtain ⟨qx, hqx, a1, a2⟩ := key c.xb c.length p.x q.x q.x g.l hl x0 (by omega) x0' (by omega) x0' (by omega)
  obtain ⟨qy, hqy, b1, b2⟩ := key c.yb c.width p.y q.y q.y g.w hw y0 (by omega) y0' (by omega) y0' (by omega)
  obtain ⟨qz, hqz, c1, c2⟩ := key c.zb c.height p.y qy q.z g.h hh y0 (by omega) b1 b2 z0' (by omega)
  rw [hqx, ok_bind, hqy, ok_bind, hqz, ok_bind]
  exact ⟨_, distance_ok (m := 26754) (by norm_num) (abs_le.2 ⟨by simp only; omega, by simp only; omega⟩)
    (abs_le.2 ⟨by simp only; omega, by simp only; omega⟩) (abs_le.2 ⟨by simp only; omega, by simp only; omega⟩)⟩

/-- Concrete: on the periodic 3x3x3 lattice site 1 = (1,0,0) is reported at non-zero distance from itself. -/
theorem C19_counterexample : ∃ d, box333p.getSmallestDistance 1 1 = .ok d ∧ 1 ≤ d := by
  obtain ⟨d, hd⟩ := C20_smallestDistance_returns box333p_built (i := 1) (j := 1) (by decide) (by decide) (by decide)
    (by decide) (by decide)
  refine ⟨d, hd, ?_⟩
  have := C19_self_distance_wrong box333p_built (by norm_num [box333p]) rfl (by decide)
    (p := ⟨1, 0, 0⟩) ⟨by decide, rfl⟩ hd
  simpa [box333p] using this

/-- The hypotheses of the metric theorem are met by a 2x1x3 Fixed lattice. -/
example : ∃ c : Cuboid, Built c ∧ 0 < c.spacing ∧ AllFixed c ∧
    ∀ i j, ValidIndex c i → ValidIndex c j → ∃ d, c.getSmallestDistance i j = .ok d := by
  have hb : Built ⟨2, 1, 3, 6, 1, .fixed, .fixed, .fixed⟩ :=
    built_of_good ⟨by decide, by decide, by decide, by decide, by decide⟩
  exact ⟨_, hb, by norm_num, ⟨rfl, rfl, rfl⟩, fun i j hi hj =>
    C20_smallestDistance_returns hb (by decide) (by decide) (by decide) hi hj⟩

/-- The hypotheses of `C19_from_origin_partial` are met by a lattice periodic in x. -/
example : ∃ c : Cuboid, Built c ∧ 0 < c.spacing ∧ c.zb = .fixed ∧ c.xb = .periodic ∧
    (∃ d, c.getSmallestDistance 0 3 = .ok d) := by
  have hb : Built ⟨4, 1, 1, 4, 1, .periodic, .fixed, .fixed⟩ :=
    built_of_good ⟨by decide, by decide, by decide, by decide, by decide⟩
  exact ⟨_, hb, by norm_num, rfl, rfl,
    C20_smallestDistance_returns hb (by decide) (by decide) (by decide) (by decide) (by decide)⟩

end Mythical
