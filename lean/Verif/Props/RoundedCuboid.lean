import Verif.Lemmas.RoundedCuboid
import Verif.Lemmas.RoundedSite
import Verif.Props.CuboidNeighbors

/-! # Lattice: neighbour searches in rounded arithmetic (C95) -/

namespace Mythical.Rounded
open Mythical Cuboid CuboidSpec RoundSpec
variable {fl rt : ℝ → ℝ}

/-- C95: without rounding this is the model of C13-C17. -/
theorem C95_exact (c : Cuboid) (i : Int) (cutoff : ℝ) :
    getNeighbors id Real.sqrt c i cutoff = c.getNeighbors i cutoff ∧
    getNeighborDistances id Real.sqrt c i cutoff = c.getNeighborDistances i cutoff := ⟨rfl, rfl⟩

/-- C95: exactly when `getNeighbors` returns: the conditions of C20, on the computed number of steps. -/
theorem C95_returns_iff {ε : ℝ} (R : Rounding fl ε) {c : Cuboid} (hb : Built c) (hsp : 0 < c.spacing) {cutoff : ℝ}
    (hc : 0 ≤ cutoff) {i : Int} {p : Pos} (hp : SiteAt c i p) :
    (∃ l, getNeighbors fl rt c i cutoff = .ok l) ↔
      ⌊fl (cutoff / c.spacing)⌋ ≤ 645 ∧ p.x + ⌊fl (cutoff / c.spacing)⌋ < INT_MAX ∧
        p.y + ⌊fl (cutoff / c.spacing)⌋ < INT_MAX ∧ p.z + ⌊fl (cutoff / c.spacing)⌋ < INT_MAX := by
  have g := good_of_built hb
  have hi := siteAt_bounds g hp
  have n0 : 0 ≤ ⌊fl (cutoff / c.spacing)⌋ := Int.floor_nonneg.2 (R.nonneg (div_nonneg hc hsp.le))
  generalize hn : ⌊fl (cutoff / c.spacing)⌋ = n at n0
  obtain ⟨⟨⟨x0, x1⟩, ⟨y0, y1⟩, ⟨z0, z1⟩⟩, hidx⟩ := id hp
  have bl := g.l_le; have bw := g.w_le; have bh := g.h_le
  simp only [INT_MAX]
  constructor
  · rintro ⟨l, h⟩
    unfold getNeighbors at h
    rw [(checkIndex_ok g).2 hi, ok_bind, getPosition_of_siteAt g hp, ok_bind] at h
    simp only [bind_eq_ok, chk_eq_ok] at h
    obtain ⟨n', hn', _, ⟨rfl, -⟩, _, ⟨rfl, -⟩, _, ⟨rfl, -⟩, _, ⟨rfl, -⟩, _, ⟨rfl, -⟩, _, ⟨rfl, -⟩,
      u, hu, xs, hxs, h⟩ := h
    obtain ⟨-, rfl, -⟩ := numSites_rounded hn'
    rw [hn] at *
    have hx := loopRange_eq_ok hxs
    have hmem : p.x ∈ xs := (hx.1 _).2 ⟨by omega, by omega⟩
    obtain ⟨s, hs⟩ := forEach_isOk h _ hmem
    simp only [bind_eq_ok] at hs
    obtain ⟨xl, hxl, hs⟩ := hs
    obtain ⟨rfl, kx⟩ := (lattice_keep g.l hxl p.x).2 ⟨⟨x0, x1⟩, axisImage_refl _ _ _, fun _ => by omega⟩
    rw [if_pos kx] at hs
    simp only [bind_eq_ok] at hs
    obtain ⟨ys, hys, hs⟩ := hs
    have hy := loopRange_eq_ok hys
    obtain ⟨s', hs'⟩ := forEach_isOk hs p.y ((hy.1 _).2 ⟨by omega, by omega⟩)
    simp only [bind_eq_ok] at hs'
    obtain ⟨yl, hyl, hs'⟩ := hs'
    obtain ⟨rfl, ky⟩ := (lattice_keep g.w hyl p.y).2 ⟨⟨y0, y1⟩, axisImage_refl _ _ _, fun _ => by omega⟩
    rw [if_pos ky] at hs'
    simp only [bind_eq_ok] at hs'
    obtain ⟨zs, hzs, hs'⟩ := hs'
    have hz := loopRange_eq_ok hzs
    refine ⟨(reserve_ok_iff n0).1 ⟨u, hu⟩, ?_, ?_, ?_⟩
    · have := (hx.2.2 (by omega)).2; simp only [INT_MAX] at this; omega
    · have := (hy.2.2 (by omega)).2; simp only [INT_MAX] at this; omega
    · have := (hz.2.2 (by omega)).2; simp only [INT_MAX] at this; omega
  · rintro ⟨h1, h2, h3, h4⟩
    obtain ⟨u, hu⟩ := (reserve_ok_iff n0).2 h1
    have hnum : numSites fl c cutoff = .ok n := by
      unfold numSites
      rw [if_neg hsp.ne', hn]
      simp only
      rw [if_pos (fitsInt_of (by omega) (by omega))]
    unfold getNeighbors
    rw [(checkIndex_ok g).2 hi, ok_bind, getPosition_of_siteAt g hp, ok_bind, hnum, ok_bind,
      chk_ok (fitsInt_of (by omega) (by omega)), ok_bind, chk_ok (fitsInt_of (by omega) (by omega)), ok_bind,
      chk_ok (fitsInt_of (by omega) (by omega)), ok_bind, chk_ok (fitsInt_of (by omega) (by omega)), ok_bind,
      chk_ok (fitsInt_of (by omega) (by omega)), ok_bind, chk_ok (fitsInt_of (by omega) (by omega)), ok_bind,
      hu, ok_bind]
    obtain ⟨xs, hxs⟩ := loopRange_ok (lo := p.x - n) (hi := p.x + n) (fitsInt_of (by omega) (by omega))
    obtain ⟨ys, hys⟩ := loopRange_ok (lo := p.y - n) (hi := p.y + n) (fitsInt_of (by omega) (by omega))
    obtain ⟨zs, hzs⟩ := loopRange_ok (lo := p.z - n) (hi := p.z + n) (fitsInt_of (by omega) (by omega))
    simp only [hxs, hys, hzs, ok_bind]
    apply forEach_ok
    intro xi hxi
    rw [(loopRange_eq_ok hxs).1] at hxi
    obtain ⟨xl, hxl⟩ := lattice_ok (b := c.xb) (x := xi) g.l bl (by omega)
    rw [hxl, ok_bind]
    split
    swap
    · exact ⟨_, rfl⟩
    next kx =>
    apply forEach_ok
    intro yi hyi
    rw [(loopRange_eq_ok hys).1] at hyi
    obtain ⟨yl, hyl⟩ := lattice_ok (b := c.yb) (x := yi) g.w bw (by omega)
    rw [hyl, ok_bind]
    split
    swap
    · exact ⟨_, rfl⟩
    next ky =>
    apply forEach_ok
    intro zi hzi
    rw [(loopRange_eq_ok hzs).1] at hzi
    obtain ⟨zl, hzl⟩ := lattice_ok (b := c.zb) (x := zi) g.h bh (by omega)
    rw [hzl, ok_bind]
    split
    swap
    · exact ⟨_, rfl⟩
    next kz =>
    obtain ⟨d, hd⟩ := distance_rounded_ok (fl := fl) (rt := rt) (c := c) (p := ⟨xi, yi, zi⟩) (q := p) (m := n)
      (by nlinarith) (abs_le.2 ⟨by simp only; omega, by simp only; omega⟩)
      (abs_le.2 ⟨by simp only; omega, by simp only; omega⟩)
      (abs_le.2 ⟨by simp only; omega, by simp only; omega⟩)
    rw [hd, ok_bind]
    split
    swap
    · exact ⟨_, rfl⟩
    rw [rawIndex_ok g (siteAt_of_inBox (c := c) (p := ⟨xl, yl, zl⟩) ⟨kx, ky, kz⟩), ok_bind]
    split <;> exact ⟨_, rfl⟩


/-- C95: the sites listed for `i`, exactly: those with an image that is not more than the computed number of steps away along
any axis and whose computed distance is not above the cutoff. -/
theorem C95_listed {ε : ℝ} (R : Rounding fl ε) (T : Root rt ε) {c : Cuboid} (hb : Built c) (hsp : 0 ≤ c.spacing) {i : Int}
    {cutoff : ℝ} {l : List Int} (h : getNeighbors fl rt c i cutoff = .ok l) (j : Int) :
    j ∈ l ↔ j ≠ i ∧ ∃ p q q', SiteAt c i p ∧ SiteAt c j q ∧ Image c q q' ∧
      |q'.x - p.x| ≤ ⌊fl (cutoff / c.spacing)⌋ ∧ |q'.y - p.y| ≤ ⌊fl (cutoff / c.spacing)⌋ ∧
      |q'.z - p.z| ≤ ⌊fl (cutoff / c.spacing)⌋ ∧ fl (rt (steps q' p) * c.spacing) ≤ cutoff := by
  have g := good_of_built hb
  obtain ⟨p, r, hp, h1, -, rfl⟩ := getNeighbors_rounded hb h
  rw [ids_rounded R.mono T.mono g hsp hp h1]
  constructor
  · rintro ⟨a, q, q', b⟩
    exact ⟨a, p, q, q', hp, b⟩
  · rintro ⟨a, p', q, q', hp', b⟩
    have := siteAt_unique g hp hp'
    subst this
    exact ⟨a, q, q', b⟩

/-- C95: a listed site is within the cutoff up to two roundings, and so is the distance listed with it. -/
theorem C95_sound {ε : ℝ} (R : Rounding fl ε) (T : Root rt ε) (h0 : 0 ≤ ε) (h1 : ε ≤ 1 / 4) {c : Cuboid} (hb : Built c)
    (hsp : 0 ≤ c.spacing) {i : Int} {cutoff : ℝ} {r : List (Int × ℝ)} (h : getNeighborDistances fl rt c i cutoff = .ok r)
    {j : Int} {d : ℝ} (hm : (j, d) ∈ r) :
    j ≠ i ∧ d ≤ cutoff ∧ WithinCutoff c i j (cutoff / (1 - 2 * ε)) ∧
      ∃ p q q', SiteAt c i p ∧ SiteAt c j q ∧ Image c q q' ∧ (1 - 2 * ε) * euclid c p q' ≤ d ∧
        d ≤ (1 + 4 * ε) * euclid c p q' := by
  obtain ⟨p, hp, h2⟩ := getNeighborDistances_rounded hb h
  obtain ⟨hji, q, q', hq, himg, -, -, -, -, rfl, hle⟩ := (neighborDistances_rounded (good_of_built hb) hp h2 j d).1 hm
  obtain ⟨a, b⟩ := dist_rounded R T h0 h1 hsp p q'
  refine ⟨hji, hle, ⟨p, q, q', hp, hq, himg, ?_⟩, p, q, q', hp, hq, himg, a, b⟩
  rw [le_div_iff₀ (by linarith)]
  linarith

/-- C95: a site that is inside the cutoff by two roundings is listed. -/
theorem C95_complete {ε : ℝ} (R : Rounding fl ε) (T : Root rt ε) (h0 : 0 ≤ ε) (h1 : ε ≤ 1 / 4) {c : Cuboid} (hb : Built c)
    (hsp : 0 < c.spacing) {i : Int} {cutoff : ℝ} {r : List (Int × ℝ)} (h : getNeighborDistances fl rt c i cutoff = .ok r)
    {j : Int} (hji : j ≠ i) (hw : WithinCutoff c i j (cutoff / (1 + 4 * ε))) : ∃ d, (j, d) ∈ r := by
  have g := good_of_built hb
  obtain ⟨p, hp, h2⟩ := getNeighborDistances_rounded hb h
  obtain ⟨p', q, q', hp', hq, himg, hd⟩ := hw
  have := siteAt_unique g hp hp'
  subst this
  have hc : 0 ≤ cutoff / (1 + 4 * ε) := (euclid_nonneg hsp.le _ _).trans hd
  have hc' : 0 ≤ cutoff := by
    have := mul_nonneg hc (by linarith : 0 ≤ 1 + 4 * ε)
    rwa [div_mul_cancel₀ _ (by linarith)] at this
  obtain ⟨a1, a2, a3⟩ := floor_rounded R h0 h1 hsp hc' hd
  obtain ⟨-, b⟩ := dist_rounded R T h0 h1 hsp.le p q'
  rw [le_div_iff₀ (by linarith)] at hd
  have : j ∈ r.map Prod.fst := by
    rw [ids_rounded R.mono T.mono g hsp.le hp h2]
    exact ⟨hji, q, q', hq, himg, a1, a2, a3, by linarith⟩
  simpa using this

/-- C95: at a whole number `k` of steps (as along the axes) nothing is lost: if the root of `k²`, the number `k` and the cutoff
are themselves free of rounding, then a site `k` steps away with `k` times the spacing in the cutoff is listed. -/
theorem C95_whole {ε : ℝ} (R : Rounding fl ε) (T : Root rt ε) {c : Cuboid} (hb : Built c)
    (hsp : 0 < c.spacing) {i : Int} {cutoff : ℝ} {l : List Int} (h : getNeighbors fl rt c i cutoff = .ok l)
    {j k : Int} (hji : j ≠ i) {p q q' : Pos} (hp : SiteAt c i p) (hq : SiteAt c j q) (himg : Image c q q')
    (hk : 0 ≤ k) (hs : steps q' p = k ^ 2) (hrt : rt ((k ^ 2 : Int) : ℝ) = k) (hfk : fl (k : ℝ) = k)
    (hfc : fl cutoff = cutoff) (hin : k * c.spacing ≤ cutoff) : j ∈ l := by
  rw [C95_listed R T hb hsp.le h]
  have hkn : k ≤ ⌊fl (cutoff / c.spacing)⌋ := by
    rw [Int.le_floor, ← hfk]
    exact R.mono ((le_div_iff₀ hsp).2 hin)
  have key : ∀ a : Int, a ^ 2 ≤ k ^ 2 → |a| ≤ ⌊fl (cutoff / c.spacing)⌋ := fun a ha =>
    (abs_le_of_sq_le_sq ha hk).trans hkn
  unfold steps at hs
  refine ⟨hji, p, q, q', hp, hq, himg, key _ ?_, key _ ?_, key _ ?_, ?_⟩
  · nlinarith [sq_nonneg (q'.x - p.x), sq_nonneg (q'.y - p.y), sq_nonneg (q'.z - p.z)]
  · nlinarith [sq_nonneg (q'.x - p.x), sq_nonneg (q'.y - p.y), sq_nonneg (q'.z - p.z)]
  · nlinarith [sq_nonneg (q'.x - p.x), sq_nonneg (q'.y - p.y), sq_nonneg (q'.z - p.z)]
  · rw [show steps q' p = k ^ 2 from hs, hrt]
    exact (R.mono hin).trans hfc.le

/-- C95: the relation is symmetric in spite of the rounding. -/
theorem C95_symmetric {ε : ℝ} (R : Rounding fl ε) (T : Root rt ε) {c : Cuboid} (hb : Built c) (hsp : 0 ≤ c.spacing)
    {i j : Int} {cutoff : ℝ} {li lj : List Int} (hi : getNeighbors fl rt c i cutoff = .ok li)
    (hj : getNeighbors fl rt c j cutoff = .ok lj) : j ∈ li ↔ i ∈ lj := by
  have key : ∀ {i j : Int} {li lj : List Int}, getNeighbors fl rt c i cutoff = .ok li →
      getNeighbors fl rt c j cutoff = .ok lj → j ∈ li → i ∈ lj := by
    intro i j li lj hi hj h
    rw [C95_listed R T hb hsp hi] at h
    rw [C95_listed R T hb hsp hj]
    obtain ⟨hji, p, q, q', hp, hq, ⟨ix, iy, iz⟩, hx, hy, hz, hd⟩ := h
    have key : ∀ (b : Boundary) (dim a x x' : Int), AxisImage b dim x x' → AxisImage b dim a (a + (x - x')) := by
      intro b dim a x x' h
      cases b with
      | fixed => have h : x' = x := h; subst h; show a + (x' - x') = a; ring
      | periodic => obtain ⟨k, rfl⟩ := h; exact ⟨-k, by ring⟩
    refine ⟨hji.symm, q, p, ⟨p.x + (q.x - q'.x), p.y + (q.y - q'.y), p.z + (q.z - q'.z)⟩, hq, hp,
      ⟨key _ _ _ _ _ ix, key _ _ _ _ _ iy, key _ _ _ _ _ iz⟩, ?_, ?_, ?_, ?_⟩
    · rw [← abs_neg]; convert hx using 2; ring
    · rw [← abs_neg]; convert hy using 2; ring
    · rw [← abs_neg]; convert hz using 2; ring
    · refine le_of_eq_of_le ?_ hd
      congr 4
      unfold steps
      ring
  exact ⟨key hi hj, key hj hi⟩

/-! ## The hypotheses are met, and what rounding loses -/

/-- Square root rounded as IEEE 754 asks for. -/
noncomputable def root64 (x : ℝ) : ℝ := binary64 (Real.sqrt x)

theorem root64_root : Root root64 (1 / 2 ^ 53) where
  mono := fun _ _ h => binary64_mono (Real.sqrt_le_sqrt h)
  err := fun n _ => by
    have := binary64_err (Real.sqrt n)
    rwa [abs_of_nonneg (Real.sqrt_nonneg _)] at this

theorem binary64_int (m : Int) (h : |m| ≤ 2 ^ 53) : binary64 (m : ℝ) = m := by
  have := binary64_fixed (K := ℝ) m 0 h
  simpa using this

/-- C95: in `double` arithmetic with a correctly rounded root nothing is lost at a whole number of steps. -/
theorem C95_whole_double {c : Cuboid} (hb : Built c) (hsp : 0 < c.spacing) {i : Int} {cutoff : ℝ} {l : List Int}
    (h : getNeighbors binary64 root64 c i cutoff = .ok l) {j k : Int} (hji : j ≠ i) {p q q' : Pos} (hp : SiteAt c i p)
    (hq : SiteAt c j q) (himg : Image c q q') (hk : 0 ≤ k) (hk' : k ≤ 2 ^ 53) (hs : steps q' p = k ^ 2)
    (hfc : binary64 cutoff = cutoff) (hin : k * c.spacing ≤ cutoff) : j ∈ l := by
  have hfk := binary64_int k (by rwa [abs_of_nonneg hk])
  refine C95_whole binary64_rounding root64_root hb hsp h hji hp hq himg hk hs ?_ hfk hfc hin
  unfold root64
  rw [Int.cast_pow, Real.sqrt_sq (by exact_mod_cast hk), hfk]

/-- On the 3x4x5 lattice a search with cutoff 2 returns in `double` arithmetic, and finds site 2 through the boundary. -/
example : ∃ l, getNeighbors binary64 root64 box345 0 2 = .ok l ∧ 2 ∈ l ∧ (2 : Int) ≠ 0 := by
  have hf : ⌊binary64 ((2 : ℝ) / 1)⌋ = 2 := by
    rw [show (2 : ℝ) / 1 = ((2 : Int) : ℝ) by norm_num, binary64_int 2 (by norm_num), Int.floor_intCast]
  have hret : ∃ l, getNeighbors binary64 root64 box345 0 2 = .ok l := by
    rw [C95_returns_iff binary64_rounding box345_built (by norm_num [box345]) (by norm_num) (site0 box345_built)]
    show ⌊binary64 ((2 : ℝ) / 1)⌋ ≤ 645 ∧ 0 + ⌊binary64 ((2 : ℝ) / 1)⌋ < INT_MAX ∧
      0 + ⌊binary64 ((2 : ℝ) / 1)⌋ < INT_MAX ∧ 0 + ⌊binary64 ((2 : ℝ) / 1)⌋ < INT_MAX
    rw [hf]; decide
  obtain ⟨l, hl⟩ := hret
  refine ⟨l, hl, ?_, by norm_num⟩
  refine C95_whole_double (k := 1) box345_built (by norm_num [box345]) hl (by norm_num)
    (q := ⟨2, 0, 0⟩) (q' := ⟨-1, 0, 0⟩) (site0 box345_built) ⟨by decide, rfl⟩ ⟨⟨-1, rfl⟩, rfl, ⟨0, rfl⟩⟩ (by norm_num)
    (by norm_num) rfl ?_ (by norm_num [box345])
  have := binary64_int 2 (by norm_num)
  simpa using this

/-- Sites 0 and 1 of it are inside a cutoff of 2 by more than two roundings; the search lists one for the other. -/
example : ∃ r d, getNeighborDistances binary64 root64 box345 0 2 = .ok r ∧ (1, d) ∈ r ∧
    WithinCutoff box345 0 1 (2 / (1 + 4 * (1 / 2 ^ 53))) := by
  have hf : ⌊binary64 ((2 : ℝ) / 1)⌋ = 2 := by
    rw [show (2 : ℝ) / 1 = ((2 : Int) : ℝ) by norm_num, binary64_int 2 (by norm_num), Int.floor_intCast]
  have hret : ∃ l, getNeighbors binary64 root64 box345 0 2 = .ok l := by
    rw [C95_returns_iff binary64_rounding box345_built (by norm_num [box345]) (by norm_num) (site0 box345_built)]
    show ⌊binary64 ((2 : ℝ) / 1)⌋ ≤ 645 ∧ 0 + ⌊binary64 ((2 : ℝ) / 1)⌋ < INT_MAX ∧
      0 + ⌊binary64 ((2 : ℝ) / 1)⌋ < INT_MAX ∧ 0 + ⌊binary64 ((2 : ℝ) / 1)⌋ < INT_MAX
    rw [hf]; decide
  obtain ⟨l, hl⟩ := hret
  obtain ⟨p, r, hp, -, hr, rfl⟩ := getNeighbors_rounded box345_built hl
  have hw : WithinCutoff box345 0 1 (2 / (1 + 4 * (1 / 2 ^ 53))) :=
    ⟨⟨0, 0, 0⟩, ⟨1, 0, 0⟩, ⟨1, 0, 0⟩, site0 box345_built, ⟨by decide, rfl⟩, ⟨⟨0, rfl⟩, rfl, ⟨0, rfl⟩⟩, by
      norm_num [euclid, box345]⟩
  obtain ⟨d, hd⟩ := C95_complete binary64_rounding root64_root (by norm_num) (by norm_num) box345_built
    (by norm_num [box345]) hr (by norm_num) hw
  exact ⟨r, d, hr, hd, hw⟩

/-- Evaluate a rounding from the binade and the nearest multiple of the last place. -/
theorem binary64_eq {x : ℝ} (e m : Int) (h1 : (2 : ℝ) ^ e ≤ x) (h2 : x < 2 ^ (e + 1))
    (h3 : |x / 2 ^ (e - 52) - m| < 1 / 2) : binary64 x = m * 2 ^ (e - 52) := by
  have hx : 0 < x := lt_of_lt_of_le (zpow_pos (by norm_num) _) h1
  obtain ⟨a1, a2⟩ := log_bounds hx
  have l1 : Int.log 2 x < e + 1 := (zpow_lt_zpow_iff_right₀ (by norm_num : (1 : ℝ) < 2)).1 (lt_of_le_of_lt a1 h2)
  have l2 : e < Int.log 2 x + 1 := (zpow_lt_zpow_iff_right₀ (by norm_num : (1 : ℝ) < 2)).1 (lt_of_le_of_lt h1 a2)
  have hl : Int.log 2 x = e := by omega
  rw [binary64_pos_def hx, hl]
  have h4 := nearest_err (x / 2 ^ (e - 52))
  have h5 : |((nearest (x / 2 ^ (e - 52)) - m : Int) : ℝ)| < 1 := by
    push_cast
    rw [abs_lt] at *
    rw [abs_le] at h4
    constructor <;> linarith
  have h6 : nearest (x / (2 : ℝ) ^ (e - 52)) - m = 0 := by
    rw [← Int.abs_lt_one_iff]; exact_mod_cast h5
  rw [show nearest (x / (2 : ℝ) ^ (e - 52)) = m by omega]

/-- A 2x2x1 lattice with spacing 657. -/
noncomputable def square657 : Cuboid := ⟨2, 2, 1, 4, 657, .fixed, .fixed, .fixed⟩

theorem square657_built : Built square657 := built_of_good ⟨by decide, by decide, by decide, by decide, by decide⟩

theorem root64_two : root64 ((2 : Int) : ℝ) = ((6369051672525773 : Int) : ℝ) * 2 ^ ((0 : Int) - 52) := by
  unfold root64
  have h1 : (6369051672525772.55 / 2 ^ 52 : ℝ) < Real.sqrt ((2 : Int) : ℝ) := by
    apply Real.lt_sqrt_of_sq_lt; norm_num
  have h2 : Real.sqrt ((2 : Int) : ℝ) < (6369051672525773.4 / 2 ^ 52 : ℝ) := by
    rw [Real.sqrt_lt' (by norm_num)]; norm_num
  have e : ((2 : ℝ) ^ ((0 : Int) - 52)) = 1 / 2 ^ 52 := by norm_num [zpow_neg]
  apply binary64_eq
  · norm_num
  · norm_num
  · rw [e, abs_lt]
    norm_num at h1 h2 ⊢
    constructor <;> linarith

theorem diagonal657 : binary64 (root64 ((2 : Int) : ℝ) * 657) = ((8172787009471549 : Int) : ℝ) * 2 ^ ((9 : Int) - 52) := by
  rw [root64_two]
  have e : ((2 : ℝ) ^ ((0 : Int) - 52)) = 1 / 2 ^ 52 := by norm_num [zpow_neg]
  have e' : ((2 : ℝ) ^ ((9 : Int) - 52)) = 1 / 2 ^ 43 := by norm_num [zpow_neg]
  apply binary64_eq
  · rw [e]; norm_num
  · rw [e]; norm_num
  · rw [e, e', abs_lt]; norm_num

/-- C95: the margin cannot be dropped. On a 2x2 lattice with spacing 657 there is a cutoff, itself a `double`, not below the
length of the diagonal, with which the search returns but does not list the site across the diagonal. -/
theorem C95_counterexample : ∃ cutoff l, binary64 cutoff = cutoff ∧ getNeighbors binary64 root64 square657 0 cutoff = .ok l ∧
    WithinCutoff square657 0 3 cutoff ∧ 3 ∉ l := by
  have hfl : ⌊binary64 ((2043196752367887 / 2 ^ 41 : ℝ) / 657)⌋ = 1 := by
    rw [Int.floor_eq_iff]
    have R := binary64_rounding (K := ℝ)
    have a := R.mono (show ((1 : Int) : ℝ) ≤ 2043196752367887 / 2 ^ 41 / 657 by norm_num)
    rw [binary64_int 1 (by norm_num)] at a
    have b := (abs_le.1 (R.err (2043196752367887 / 2 ^ 41 / 657))).2
    rw [abs_of_nonneg (by norm_num)] at b
    refine ⟨a, ?_⟩
    norm_num at b ⊢
    linarith
  have hret : ∃ l, getNeighbors binary64 root64 square657 0 (2043196752367887 / 2 ^ 41) = .ok l := by
    rw [C95_returns_iff binary64_rounding square657_built (by norm_num [square657]) (by norm_num) (site0 square657_built)]
    show ⌊binary64 ((2043196752367887 / 2 ^ 41 : ℝ) / 657)⌋ ≤ 645 ∧
      0 + ⌊binary64 ((2043196752367887 / 2 ^ 41 : ℝ) / 657)⌋ < INT_MAX ∧
      0 + ⌊binary64 ((2043196752367887 / 2 ^ 41 : ℝ) / 657)⌋ < INT_MAX ∧
      0 + ⌊binary64 ((2043196752367887 / 2 ^ 41 : ℝ) / 657)⌋ < INT_MAX
    rw [hfl]; decide
  obtain ⟨l, hl⟩ := hret
  have s3 : SiteAt square657 3 ⟨1, 1, 0⟩ := ⟨by decide, rfl⟩
  refine ⟨2043196752367887 / 2 ^ 41, l, ?_, hl, ⟨⟨0, 0, 0⟩, ⟨1, 1, 0⟩, ⟨1, 1, 0⟩, site0 square657_built, s3,
    ⟨rfl, rfl, rfl⟩, ?_⟩, ?_⟩
  · have := binary64_fixed (K := ℝ) 2043196752367887 (-41) (by norm_num)
    convert this using 2 <;> norm_num [zpow_neg]
  · rw [euclid_steps]
    show Real.sqrt ((2 : Int) : ℝ) * 657 ≤ _
    rw [← le_div_iff₀ (by norm_num)]
    rw [Real.sqrt_le_left (by norm_num)]
    norm_num
  · rw [C95_listed binary64_rounding root64_root square657_built (by norm_num [square657]) hl]
    rintro ⟨-, p, q, q', hp, hq, ⟨ix, iy, iz⟩, -, -, -, hd⟩
    have g := good_of_built square657_built
    have e1 := siteAt_unique g hp (site0 square657_built)
    have e2 := siteAt_unique g hq s3
    subst e1 e2
    have hs : steps q' ⟨0, 0, 0⟩ = 2 := by
      unfold steps
      rw [show q'.x = 1 from ix, show q'.y = 1 from iy, show q'.z = 0 from iz]; norm_num
    rw [hs] at hd
    have hd : binary64 (root64 ((2 : Int) : ℝ) * 657) ≤ 2043196752367887 / 2 ^ 41 := hd
    rw [diagonal657, show ((2 : ℝ) ^ ((9 : Int) - 52)) = 1 / 2 ^ 43 by norm_num [zpow_neg]] at hd
    norm_num at hd

/-- A row of four sites, 0.1 apart. -/
noncomputable def row01 : Cuboid := ⟨4, 1, 1, 4, binary64 (1 / 10), .fixed, .fixed, .fixed⟩

theorem row01_built : Built row01 := built_of_good ⟨by decide, by decide, by decide, by decide, by decide⟩

theorem tenth : (binary64 (1 / 10) : ℝ) = 7205759403792794 / 2 ^ 56 := by
  rw [binary64_eq (-4) 7205759403792794 (by norm_num) (by norm_num) (by rw [abs_lt]; norm_num [zpow_neg])]
  norm_num [zpow_neg]

theorem three_tenths : (binary64 (3 / 10) : ℝ) = 5404319552844595 / 2 ^ 54 := by
  rw [binary64_eq (-2) 5404319552844595 (by norm_num) (by norm_num) (by rw [abs_lt]; norm_num [zpow_neg])]
  norm_num [zpow_neg]

/-- C95: with a spacing of 0.1 and a cutoff of 0.3 the search lists the second neighbours but not the third: the scan itself
stops after two steps, because the quotient of the two constants is rounded below 3. -/
theorem C95_decimal : ∃ l, getNeighbors binary64 root64 row01 0 (binary64 (3 / 10)) = .ok l ∧ 2 ∈ l ∧ 3 ∉ l := by
  have hfl : ⌊binary64 ((binary64 (3 / 10) : ℝ) / row01.spacing)⌋ = 2 := by
    show ⌊binary64 ((binary64 (3 / 10) : ℝ) / binary64 (1 / 10))⌋ = 2
    rw [tenth, three_tenths, binary64_eq 1 (3 * 2 ^ 51 - 1) (by norm_num) (by norm_num)
      (by rw [abs_lt]; norm_num [zpow_neg]), Int.floor_eq_iff]
    norm_num [zpow_neg]
  have hsp : 0 < row01.spacing := by
    show (0 : ℝ) < binary64 (1 / 10)
    rw [tenth]; norm_num
  have hret : ∃ l, getNeighbors binary64 root64 row01 0 (binary64 (3 / 10)) = .ok l := by
    rw [C95_returns_iff binary64_rounding row01_built hsp (by rw [three_tenths]; norm_num) (site0 row01_built), hfl]
    decide
  obtain ⟨l, hl⟩ := hret
  refine ⟨l, hl, ?_, ?_⟩
  · refine C95_whole_double (k := 2) row01_built hsp hl (by norm_num)
      (q := ⟨2, 0, 0⟩) (q' := ⟨2, 0, 0⟩) (site0 row01_built) ⟨by decide, rfl⟩ ⟨rfl, rfl, rfl⟩ (by norm_num) (by norm_num) rfl
      (binary64_idem _) ?_
    show ((2 : Int) : ℝ) * binary64 (1 / 10) ≤ _
    rw [tenth, three_tenths]; norm_num
  · rw [C95_listed binary64_rounding root64_root row01_built hsp.le hl, hfl]
    rintro ⟨-, p, q, q', hp, hq, ⟨ix, -, -⟩, hx, -⟩
    have g := good_of_built row01_built
    have e1 := siteAt_unique g hp (site0 row01_built)
    have e2 := siteAt_unique g hq (show SiteAt row01 3 ⟨3, 0, 0⟩ from ⟨by decide, rfl⟩)
    subst e1 e2
    rw [show q'.x = 3 from ix] at hx
    norm_num at hx

end Mythical.Rounded
