import Verif.Lemmas.CuboidAll
import Verif.Props.CuboidNeighbors

/-! # Lattice: the whole-lattice search (C18) -/

namespace Mythical
open Cuboid CuboidSpec

/-- Some image of site `j` lies within `cutoff` of site `i` and has no coordinate larger than `i`'s. -/
def OctantWithin (c : Cuboid) (i j : Int) (cutoff : ℝ) : Prop :=
  ∃ p q q', SiteAt c i p ∧ SiteAt c j q ∧ Image c q q' ∧ (q'.x ≤ p.x ∧ q'.y ≤ p.y ∧ q'.z ≤ p.z) ∧
    euclid c p q' ≤ cutoff

/-- C20: the whole-lattice search returns whenever the cutoff is at most 26754 lattice steps. -/
theorem C20_getAll_returns {c : Cuboid} (hb : Built c) (hsp : 0 < c.spacing) {cutoff : ℝ} (hc : 0 ≤ cutoff)
    (hn : ⌊cutoff / c.spacing⌋ ≤ 26754) : ∃ m, c.getAllNeighborDistances cutoff = .ok m := by
  have g := good_of_built hb
  have n0 : 0 ≤ ⌊cutoff / c.spacing⌋ := Int.floor_nonneg.2 (div_nonneg hc hsp.le)
  have hnum : c.numSites cutoff = .ok ⌊cutoff / c.spacing⌋ := by
    unfold numSites
    rw [if_neg hsp.ne']
    simp only
    rw [if_pos (fitsInt_of (by omega) (by omega))]
  unfold getAllNeighborDistances
  rw [hnum]
  generalize ⌊cutoff / c.spacing⌋ = n at *
  have ht := g.lwh_fits
  obtain ⟨is, his⟩ := loopRange_ok (lo := 0) (hi := c.length * c.width * c.height - 1) (by simpa using ht)
  rw [ok_bind, chk_ok g.lw_fits, ok_bind, chk_ok ht, ok_bind, his, ok_bind]
  suffices h : ∃ ws, forEach (c.latticeWrites n cutoff) is = .ok ws by
    obtain ⟨ws, hws⟩ := h
    rw [hws]; exact ⟨_, rfl⟩
  apply forEach_ok
  intro i hi
  rw [(loopRange_eq_ok his).1] at hi
  obtain ⟨p, hp⟩ := siteAt_exists g (i := i) ⟨by omega, by omega⟩
  obtain ⟨⟨⟨x0, x1⟩, ⟨y0, y1⟩, ⟨z0, z1⟩⟩, hidx⟩ := id hp
  have bl := g.l_le; have bw := g.w_le; have bh := g.h_le
  unfold latticeWrites
  obtain ⟨xs, hxs⟩ := loopRange_ok (lo := p.x - n) (hi := p.x) (fitsInt_of (by omega) (by omega))
  obtain ⟨ys, hys⟩ := loopRange_ok (lo := p.y - n) (hi := p.y) (fitsInt_of (by omega) (by omega))
  obtain ⟨zs, hzs⟩ := loopRange_ok (lo := p.z - n) (hi := p.z) (fitsInt_of (by omega) (by omega))
  rw [rawPos_of_siteAt g hp, ok_bind, chk_ok (fitsInt_of (by omega) (by omega)), ok_bind,
    chk_ok (fitsInt_of (by omega) (by omega)), ok_bind, chk_ok (fitsInt_of (by omega) (by omega)), ok_bind]
  simp only [hxs, hys, hzs, ok_bind]
  apply forEach_ok
  intro xi hxi
  rw [(loopRange_eq_ok hxs).1] at hxi
  obtain ⟨xl, hxl⟩ := lattice_ok (b := c.xb) (x := xi) g.l bl (by omega)
  rw [hxl, ok_bind]
  split
  swap
  · exact ⟨_, rfl⟩
  next kx =>
  apply forEach_ok
  intro yi hyi
  rw [(loopRange_eq_ok hys).1] at hyi
  obtain ⟨yl, hyl⟩ := lattice_ok (b := c.yb) (x := yi) g.w bw (by omega)
  rw [hyl, ok_bind]
  split
  swap
  · exact ⟨_, rfl⟩
  next ky =>
  apply forEach_ok
  intro zi hzi
  rw [(loopRange_eq_ok hzs).1] at hzi
  obtain ⟨zl, hzl⟩ := lattice_ok (b := c.zb) (x := zi) g.h bh (by omega)
  rw [hzl, ok_bind]
  split
  swap
  · exact ⟨_, rfl⟩
  next kz =>
  rw [distance_ok (m := n) (by nlinarith) (abs_le.2 ⟨by simp only; omega, by simp only; omega⟩)
    (abs_le.2 ⟨by simp only; omega, by simp only; omega⟩)
    (abs_le.2 ⟨by simp only; omega, by simp only; omega⟩), ok_bind]
  split
  swap
  · exact ⟨_, rfl⟩
  rw [rawIndex_ok g (siteAt_of_inBox (c := c) (p := ⟨xl, yl, zl⟩) ⟨kx, ky, kz⟩), ok_bind]
  split <;> exact ⟨_, rfl⟩

/-- C18 (partial: pairs whose difference has mixed signs are missed, see `C18_counterexample`). The result is
symmetric; an entry exists exactly when an image of one of the two sites lies within the cutoff of the other
with no coordinate larger; and every value is the distance between the sites (between images) and at most
the cutoff. -/
theorem C18_octants_partial {c : Cuboid} (hb : Built c) (hsp : 0 < c.spacing) {cutoff : ℝ}
    {m : IMap (IMap ℝ)} (h : c.getAllNeighborDistances cutoff = .ok m) (i j : Int) :
    get2 m i j = get2 m j i ∧
    ((get2 m i j).isSome ↔ i ≠ j ∧ (OctantWithin c i j cutoff ∨ OctantWithin c j i cutoff)) ∧
    (∀ d, get2 m i j = some d → ∃ p q q', SiteAt c i p ∧ SiteAt c j q ∧ Image c q q' ∧ d = euclid c p q' ∧
      d ≤ cutoff) := by
  have g := good_of_built hb
  obtain ⟨ws, is, rfl, his, hws⟩ := getAll_ok h
  have hmem := getAll_mem g hsp his hws
  have hsym := fill_symm ws [] (fun a b => rfl)
  have hempty : ∀ a b, get2 [] a b = none := fun _ _ => rfl
  refine ⟨hsym i j, ⟨fun hs => ?_, ?_⟩, ?_⟩
  · obtain ⟨d, hd⟩ := Option.isSome_iff_exists.1 hs
    rcases fill_sound _ _ _ _ _ hd with h | h | h
    · rw [hempty] at h; cases h
    · obtain ⟨hne, p, q, q', h1, h2, h3, h4, h5, rfl, h7⟩ := (hmem _ _ _).1 h
      exact ⟨hne.symm, .inl ⟨p, q, q', h1, h2, h3, h5, h7⟩⟩
    · obtain ⟨hne, p, q, q', h1, h2, h3, h4, h5, rfl, h7⟩ := (hmem _ _ _).1 h
      exact ⟨hne, .inr ⟨p, q, q', h1, h2, h3, h5, h7⟩⟩
  · rintro ⟨hne, ⟨p, q, q', h1, h2, h3, h4, h5⟩ | ⟨p, q, q', h1, h2, h3, h4, h5⟩⟩
    · obtain ⟨q'', i1, i2, i3, i4⟩ := below_low g hsp.le h1.1 h3 h4
      exact (fill_complete ws [] i j _ ((hmem _ _ _).2 ⟨hne.symm, p, q, q'', h1, h2, i1, i2, i3, rfl, i4.trans h5⟩)).1
    · obtain ⟨q'', i1, i2, i3, i4⟩ := below_low g hsp.le h1.1 h3 h4
      exact (fill_complete ws [] j i _ ((hmem _ _ _).2 ⟨hne, p, q, q'', h1, h2, i1, i2, i3, rfl, i4.trans h5⟩)).2
  · have conv : ∀ {a b d}, (a, b, d) ∈ ws → ∃ p q q', SiteAt c a p ∧ SiteAt c b q ∧ Image c q q' ∧
        d = euclid c p q' ∧ d ≤ cutoff := by
      intro a b d hm
      obtain ⟨hne, p, q, q', h1, h2, h3, h4, h5, h6, h7⟩ := (hmem _ _ _).1 hm
      exact ⟨p, q, q', h1, h2, h3, h6, h7⟩
    intro d hd
    rcases fill_sound _ _ _ _ _ hd with h | h | h
    · rw [hempty] at h; cases h
    · exact conv h
    · obtain ⟨p, q, q', h1, h2, ⟨ix, iy, iz⟩, h6, h7⟩ := conv h
      have key : ∀ (b : Boundary) (dim a x x' : Int), AxisImage b dim x x' →
          AxisImage b dim a (a + (x - x')) := by
        intro b dim a x x' h
        cases b with
        | fixed => have h : x' = x := h; subst h; show a + (x' - x') = a; ring
        | periodic => obtain ⟨k, rfl⟩ := h; exact ⟨-k, by ring⟩
      refine ⟨q, p, ⟨p.x + (q.x - q'.x), p.y + (q.y - q'.y), p.z + (q.z - q'.z)⟩, h2, h1,
        ⟨key _ _ _ _ _ ix, key _ _ _ _ _ iy, key _ _ _ _ _ iz⟩, ?_, h7⟩
      rw [h6]
      unfold euclid
      congr 2
      push_cast
      ring

/-- C18 for nearest-neighbour searches: when the cutoff is below `√2` times the spacing the whole-lattice
search lists exactly the pairs the per-site search lists. -/
theorem C18_small_cutoff {c : Cuboid} (hb : Built c) (hsp : 0 < c.spacing) {cutoff : ℝ}
    (hcut : cutoff < Real.sqrt 2 * c.spacing) {m : IMap (IMap ℝ)}
    (h : c.getAllNeighborDistances cutoff = .ok m) {i : Int} {l : List Int}
    (hl : c.getNeighbors i cutoff = .ok l) (j : Int) : (get2 m i j).isSome ↔ j ∈ l := by
  rw [(C18_octants_partial hb hsp h i j).2.1, C13_exact_ball hb hsp hl]
  constructor
  · rintro ⟨hne, ⟨p, q, q', h1, h2, h3, h4, h5⟩ | ⟨p, q, q', h1, h2, h3, h4, h5⟩⟩
    · exact ⟨hne.symm, p, q, q', h1, h2, h3, h5⟩
    · exact ⟨hne.symm, within_symm ⟨p, q, q', h1, h2, h3, h5⟩⟩
  · rintro ⟨hne, p, q, q', h1, h2, h3, h5⟩
    refine ⟨hne.symm, ?_⟩
    have hlt : euclid c p q' < Real.sqrt 2 * c.spacing := lt_of_le_of_lt h5 hcut
    unfold euclid at hlt
    rw [mul_comm] at hlt
    have hlt := lt_of_mul_lt_mul_right hlt hsp.le
    rw [Real.sqrt_lt_sqrt_iff (by positivity)] at hlt
    have hint : (p.x - q'.x) ^ 2 + (p.y - q'.y) ^ 2 + (p.z - q'.z) ^ 2 < 2 := by
      have : (((p.x - q'.x) ^ 2 + (p.y - q'.y) ^ 2 + (p.z - q'.z) ^ 2 : Int) : ℝ) < ((2 : Int) : ℝ) := by
        push_cast; exact hlt
      exact_mod_cast this
    have small : ∀ a : Int, a ^ 2 < 2 → a = -1 ∨ a = 0 ∨ a = 1 := by
      intro a ha
      have : a < 2 := by nlinarith
      have : -2 < a := by nlinarith
      omega
    have s1 := sq_nonneg (p.x - q'.x)
    have s2 := sq_nonneg (p.y - q'.y)
    have s3 := sq_nonneg (p.z - q'.z)
    have hcase : (q'.x ≤ p.x ∧ q'.y ≤ p.y ∧ q'.z ≤ p.z) ∨ (p.x ≤ q'.x ∧ p.y ≤ q'.y ∧ p.z ≤ q'.z) := by
      rcases small (p.x - q'.x) (by linarith) with ex | ex | ex <;> rcases small (p.y - q'.y) (by linarith) with ey | ey | ey <;>
        rcases small (p.z - q'.z) (by linarith) with ez | ez | ez <;> rw [ex, ey, ez] at hint <;>
        first | (left; omega) | (right; omega)
    rcases hcase with hc | hc
    · exact .inl ⟨p, q, q', h1, h2, h3, hc, h5⟩
    · right
      obtain ⟨ix, iy, iz⟩ := h3
      have key : ∀ (b : Boundary) (dim a x x' : Int), AxisImage b dim x x' →
          AxisImage b dim a (a + (x - x')) := by
        intro b dim a x x' h
        cases b with
        | fixed => have h : x' = x := h; subst h; show a + (x' - x') = a; ring
        | periodic => obtain ⟨k, rfl⟩ := h; exact ⟨-k, by ring⟩
      refine ⟨q, p, ⟨p.x + (q.x - q'.x), p.y + (q.y - q'.y), p.z + (q.z - q'.z)⟩, h2, h1,
        ⟨key _ _ _ _ _ ix, key _ _ _ _ _ iy, key _ _ _ _ _ iz⟩, ⟨?_, ?_, ?_⟩, ?_⟩
      · simp only; omega
      · simp only; omega
      · simp only; omega
      · refine le_trans (le_of_eq ?_) h5
        unfold euclid
        congr 2
        push_cast
        ring

/-- The hypotheses are met by the 3x4x5 lattice and cutoff 1. -/
example : (1 : ℝ) < Real.sqrt 2 * box345.spacing ∧ (∃ m, box345.getAllNeighborDistances 1 = .ok m) := by
  constructor
  · show (1 : ℝ) < Real.sqrt 2 * 1
    rw [mul_one]
    exact Real.lt_sqrt_of_sq_lt (by norm_num)
  · apply C20_getAll_returns box345_built (by norm_num [box345]) (by norm_num)
    have : ⌊(1 : ℝ) / box345.spacing⌋ = 1 := by norm_num [box345]
    rw [this]; decide

/-- A 2 x 2 x 1 lattice with Fixed boundaries. -/
noncomputable def square2 : Cuboid := ⟨2, 2, 1, 4, 1, .fixed, .fixed, .fixed⟩

theorem square2_built : Built square2 := built_of_good ⟨by decide, by decide, by decide, by decide, by decide⟩

/-- C18 is false of the code: on a 2x2x1 lattice with cutoff 1.5 the per-site search lists site 2 = (0,1,0)
as neighbour of site 1 = (1,0,0), the whole-lattice search has no entry for the pair. -/
theorem C18_counterexample : Built square2 ∧
    ∃ l m, square2.getNeighbors 1 (3 / 2) = .ok l ∧ square2.getAllNeighborDistances (3 / 2) = .ok m ∧
      2 ∈ l ∧ get2 m 1 2 = none ∧ get2 m 2 1 = none := by
  have hb := square2_built
  have g := good_of_built hb
  have hsp : 0 < square2.spacing := by norm_num [square2]
  have hf : ⌊(3 / 2 : ℝ) / square2.spacing⌋ = 1 := by
    rw [Int.floor_eq_iff]; norm_num [square2]
  have s1 : SiteAt square2 1 ⟨1, 0, 0⟩ := ⟨by decide, rfl⟩
  have s2 : SiteAt square2 2 ⟨0, 1, 0⟩ := ⟨by decide, rfl⟩
  obtain ⟨l, hl⟩ := (C20_getNeighbors_returns_iff hb hsp (cutoff := 3 / 2) (by norm_num) s1).2
    (by rw [hf]; decide)
  obtain ⟨m, hm⟩ := C20_getAll_returns hb hsp (cutoff := 3 / 2) (by norm_num) (by rw [hf]; decide)
  have hno : ∀ a b p q, SiteAt square2 a p → SiteAt square2 b q → ¬ (q.x ≤ p.x ∧ q.y ≤ p.y ∧ q.z ≤ p.z) →
      ¬ OctantWithin square2 a b (3 / 2) := by
    rintro a b p q hp hq hn ⟨p', q', q'', h1, h2, ⟨ix, iy, iz⟩, h4, -⟩
    have := siteAt_unique g hp h1; subst this
    have := siteAt_unique g hq h2; subst this
    have ix : q''.x = q.x := ix
    have iy : q''.y = q.y := iy
    have iz : q''.z = q.z := iz
    rw [ix, iy, iz] at h4
    exact hn h4
  have hnone : get2 m 1 2 = none := by
    rw [← Option.not_isSome_iff_eq_none, (C18_octants_partial hb hsp hm 1 2).2.1]
    rintro ⟨-, h | h⟩
    · exact hno _ _ _ _ s1 s2 (by decide) h
    · exact hno _ _ _ _ s2 s1 (by decide) h
  refine ⟨hb, l, m, hl, hm, ?_, hnone, ?_⟩
  · rw [C13_exact_ball hb hsp hl]
    refine ⟨by decide, _, _, ⟨0, 1, 0⟩, s1, s2, ⟨rfl, rfl, rfl⟩, ?_⟩
    have : Real.sqrt 2 ≤ 3 / 2 := Real.sqrt_le_iff.2 (by norm_num)
    norm_num [euclid, square2]
    exact this
  · rw [(C18_octants_partial hb hsp hm 2 1).1]; exact hnone

end Mythical
