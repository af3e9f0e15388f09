import Verif.Lemmas.CuboidNeighbors
import Verif.Props.CuboidIndex

/-! # Lattice: neighbour searches (C13-C17, C20) -/

namespace Mythical
open Cuboid CuboidSpec

/-! ## C20, limits of the search -/

theorem reserve_ok_iff {n : Int} (hn : 0 ≤ n) : (∃ u, reserve n = .ok u) ↔ n ≤ 645 := by
  unfold reserve
  constructor
  · rintro ⟨u, h⟩
    simp only [bind_eq_ok, chk_eq_ok] at h
    obtain ⟨_, ⟨rfl, _⟩, _, ⟨rfl, _⟩, _, ⟨rfl, _⟩, _, ⟨rfl, _⟩, _, ⟨rfl, h5⟩, _⟩ := h
    by_contra hlt
    have h646 : 646 ≤ n := by omega
    have h2 : 646 * 646 ≤ n * n := by nlinarith
    have h3 : 646 * 646 * 646 ≤ n * n * n := by nlinarith
    have := h5.2
    simp only [INT_MAX] at this
    nlinarith
  · intro h
    have h2 : n * n ≤ 645 * 645 := by nlinarith
    have h2' : 0 ≤ n * n := by nlinarith
    have h3 : n * n * n ≤ 645 * 645 * 645 := by nlinarith
    have h3' : 0 ≤ n * n * n := by nlinarith
    have e1 : 2 * n * 2 * n = 4 * (n * n) := by ring
    have e2 : 2 * n * 2 * n * 2 = 8 * (n * n) := by ring
    have e3 : 2 * n * 2 * n * 2 * n = 8 * (n * n * n) := by ring
    rw [chk_ok (fitsInt_of (by omega) (by omega)), ok_bind, chk_ok (fitsInt_of (by omega) (by omega)), ok_bind,
      chk_ok (fitsInt_of (by omega) (by omega)), ok_bind, chk_ok (fitsInt_of (by omega) (by omega)), ok_bind,
      chk_ok (fitsInt_of (by omega) (by omega)), ok_bind, if_neg (by omega)]
    exact ⟨_, rfl⟩

theorem lattice_ok {b : Boundary} {dim x : Int} (hd : 0 < dim) (hf : dim ≤ 2147483647)
    (hx : -2147483648 ≤ x) : ∃ v, lattice b dim x = .ok v := by
  cases b with
  | fixed => exact ⟨x, rfl⟩
  | periodic =>
    unfold lattice wrap
    simp only
    split
    · exact ⟨_, chk_ok (fitsInt_of (by omega) (by omega))⟩
    · rw [modI, if_neg hd.ne', Int.tmod_eq_emod_of_nonneg (by omega)]
      have := Int.emod_nonneg x hd.ne'; have := Int.emod_lt_of_pos x hd
      exact ⟨_, chk_ok (fitsInt_of (by omega) (by omega))⟩

/-- C20: exactly when `getNeighbors` returns. `n` is the number of lattice steps in the cutoff; at `n = 646`
the `reserve` argument overflows. -/
theorem C20_getNeighbors_returns_iff {c : Cuboid} (hb : Built c) (hsp : 0 < c.spacing) {cutoff : ℝ}
    (hc : 0 ≤ cutoff) {i : Int} {p : Pos} (hp : SiteAt c i p) :
    (∃ l, c.getNeighbors i cutoff = .ok l) ↔
      ⌊cutoff / c.spacing⌋ ≤ 645 ∧ p.x + ⌊cutoff / c.spacing⌋ < INT_MAX ∧
        p.y + ⌊cutoff / c.spacing⌋ < INT_MAX ∧ p.z + ⌊cutoff / c.spacing⌋ < INT_MAX := by
  have g := good_of_built hb
  have hi := siteAt_bounds g hp
  have n0 : 0 ≤ ⌊cutoff / c.spacing⌋ := Int.floor_nonneg.2 (div_nonneg hc hsp.le)
  generalize hn : ⌊cutoff / c.spacing⌋ = n at n0
  obtain ⟨⟨⟨x0, x1⟩, ⟨y0, y1⟩, ⟨z0, z1⟩⟩, hidx⟩ := id hp
  have bl := g.l_le; have bw := g.w_le; have bh := g.h_le
  simp only [INT_MAX]
  constructor
  · rintro ⟨l, h⟩
    unfold getNeighbors at h
    rw [(checkIndex_ok g).2 hi, ok_bind, getPosition_of_siteAt g hp, ok_bind] at h
    simp only [bind_eq_ok, chk_eq_ok] at h
    obtain ⟨n', hn', _, ⟨rfl, -⟩, _, ⟨rfl, -⟩, _, ⟨rfl, -⟩, _, ⟨rfl, -⟩, _, ⟨rfl, -⟩, _, ⟨rfl, -⟩,
      u, hu, xs, hxs, h⟩ := h
    obtain ⟨-, rfl, -⟩ := numSites_eq_ok hn'
    rw [hn] at *
    have hx := loopRange_eq_ok hxs
    have hmem : p.x ∈ xs := (hx.1 _).2 ⟨by omega, by omega⟩
    obtain ⟨s, hs⟩ := forEach_isOk h _ hmem
    simp only [bind_eq_ok] at hs
    obtain ⟨xl, hxl, hs⟩ := hs
    obtain ⟨rfl, kx⟩ := (lattice_keep g.l hxl p.x).2 ⟨⟨x0, x1⟩, axisImage_refl _ _ _, fun _ => by omega⟩
    rw [if_pos kx] at hs
    simp only [bind_eq_ok] at hs
    obtain ⟨ys, hys, hs⟩ := hs
    have hy := loopRange_eq_ok hys
    obtain ⟨s', hs'⟩ := forEach_isOk hs p.y ((hy.1 _).2 ⟨by omega, by omega⟩)
    simp only [bind_eq_ok] at hs'
    obtain ⟨yl, hyl, hs'⟩ := hs'
    obtain ⟨rfl, ky⟩ := (lattice_keep g.w hyl p.y).2 ⟨⟨y0, y1⟩, axisImage_refl _ _ _, fun _ => by omega⟩
    rw [if_pos ky] at hs'
    simp only [bind_eq_ok] at hs'
    obtain ⟨zs, hzs, hs'⟩ := hs'
    have hz := loopRange_eq_ok hzs
    refine ⟨(reserve_ok_iff n0).1 ⟨u, hu⟩, ?_, ?_, ?_⟩
    · have := (hx.2.2 (by omega)).2; simp only [INT_MAX] at this; omega
    · have := (hy.2.2 (by omega)).2; simp only [INT_MAX] at this; omega
    · have := (hz.2.2 (by omega)).2; simp only [INT_MAX] at this; omega
  · rintro ⟨h1, h2, h3, h4⟩
    obtain ⟨u, hu⟩ := (reserve_ok_iff n0).2 h1
    have hnum : c.numSites cutoff = .ok n := by
      unfold numSites
      rw [if_neg hsp.ne', hn]
      simp only
      rw [if_pos (fitsInt_of (by omega) (by omega))]
    unfold getNeighbors
    rw [(checkIndex_ok g).2 hi, ok_bind, getPosition_of_siteAt g hp, ok_bind, hnum, ok_bind,
      chk_ok (fitsInt_of (by omega) (by omega)), ok_bind, chk_ok (fitsInt_of (by omega) (by omega)), ok_bind,
      chk_ok (fitsInt_of (by omega) (by omega)), ok_bind, chk_ok (fitsInt_of (by omega) (by omega)), ok_bind,
      chk_ok (fitsInt_of (by omega) (by omega)), ok_bind, chk_ok (fitsInt_of (by omega) (by omega)), ok_bind,
      hu, ok_bind]
    obtain ⟨xs, hxs⟩ := loopRange_ok (lo := p.x - n) (hi := p.x + n) (fitsInt_of (by omega) (by omega))
    obtain ⟨ys, hys⟩ := loopRange_ok (lo := p.y - n) (hi := p.y + n) (fitsInt_of (by omega) (by omega))
    obtain ⟨zs, hzs⟩ := loopRange_ok (lo := p.z - n) (hi := p.z + n) (fitsInt_of (by omega) (by omega))
    simp only [hxs, hys, hzs, ok_bind]
    apply forEach_ok
    intro xi hxi
    rw [(loopRange_eq_ok hxs).1] at hxi
    obtain ⟨xl, hxl⟩ := lattice_ok (b := c.xb) (x := xi) g.l bl (by omega)
    rw [hxl, ok_bind]
    split
    swap
    · exact ⟨_, rfl⟩
    next kx =>
    apply forEach_ok
    intro yi hyi
    rw [(loopRange_eq_ok hys).1] at hyi
    obtain ⟨yl, hyl⟩ := lattice_ok (b := c.yb) (x := yi) g.w bw (by omega)
    rw [hyl, ok_bind]
    split
    swap
    · exact ⟨_, rfl⟩
    next ky =>
    apply forEach_ok
    intro zi hzi
    rw [(loopRange_eq_ok hzs).1] at hzi
    obtain ⟨zl, hzl⟩ := lattice_ok (b := c.zb) (x := zi) g.h bh (by omega)
    rw [hzl, ok_bind]
    split
    swap
    · exact ⟨_, rfl⟩
    next kz =>
    rw [distance_ok (m := n) (by nlinarith) (abs_le.2 ⟨by simp only; omega, by simp only; omega⟩)
      (abs_le.2 ⟨by simp only; omega, by simp only; omega⟩)
      (abs_le.2 ⟨by simp only; omega, by simp only; omega⟩), ok_bind]
    split
    swap
    · exact ⟨_, rfl⟩
    rw [rawIndex_ok g (siteAt_of_inBox (c := c) (p := ⟨xl, yl, zl⟩) ⟨kx, ky, kz⟩), ok_bind]
    split <;> exact ⟨_, rfl⟩

theorem site0 {c : Cuboid} (hb : Built c) : SiteAt c 0 ⟨0, 0, 0⟩ := by
  have g := good_of_built hb
  exact ⟨⟨⟨le_refl _, g.l⟩, ⟨le_refl _, g.w⟩, ⟨le_refl _, g.h⟩⟩, by simp⟩

/-- The hypotheses are met: on the 3x4x5 lattice a search with cutoff 2 returns. -/
theorem box345_returns : ∃ l, box345.getNeighbors 0 2 = .ok l := by
  have hf : ⌊(2 : ℝ) / 1⌋ = 2 := by norm_num
  rw [C20_getNeighbors_returns_iff box345_built (by norm_num [box345]) (by norm_num) (site0 box345_built)]
  show ⌊(2 : ℝ) / 1⌋ ≤ 645 ∧ 0 + ⌊(2 : ℝ) / 1⌋ < INT_MAX ∧ 0 + ⌊(2 : ℝ) / 1⌋ < INT_MAX ∧ 0 + ⌊(2 : ℝ) / 1⌋ < INT_MAX
  rw [hf]; decide

/-! ## C13 -/

/-- C13: whenever `getNeighbors` returns, it lists exactly the other sites that have an image within the
cutoff. -/
theorem C13_exact_ball {c : Cuboid} (hb : Built c) (hsp : 0 < c.spacing) {i : Int} {cutoff : ℝ}
    {l : List Int} (h : c.getNeighbors i cutoff = .ok l) (j : Int) :
    j ∈ l ↔ j ≠ i ∧ WithinCutoff c i j cutoff := by
  obtain ⟨p, r, hp, h1, -, rfl⟩ := getNeighbors_ok hb h
  exact neighborDistances_ids (good_of_built hb) hsp hp h1 j

/-- Sites 0 and 2 are neighbours through the periodic x boundary. -/
example : ∃ l, box345.getNeighbors 0 2 = .ok l ∧ 2 ∈ l := by
  obtain ⟨l, hl⟩ := box345_returns
  refine ⟨l, hl, ?_⟩
  rw [C13_exact_ball box345_built (by norm_num [box345]) hl]
  refine ⟨by norm_num, ⟨0, 0, 0⟩, ⟨2, 0, 0⟩, ⟨-1, 0, 0⟩, site0 box345_built, ⟨by decide, rfl⟩,
    ⟨⟨-1, rfl⟩, rfl, ⟨0, rfl⟩⟩, ?_⟩
  norm_num [euclid, box345]

/-! ## C14 -/

/-- C14: whatever the three searches return are sites of the lattice other than the queried one. -/
theorem C14_well_formed {c : Cuboid} (hb : Built c) (cutoff : ℝ) :
    (∀ i l, c.getNeighbors i cutoff = .ok l → ∀ j ∈ l, ValidIndex c j ∧ j ≠ i) ∧
    (∀ i r, c.getNeighborDistances i cutoff = .ok r → ∀ e ∈ r, ValidIndex c e.1 ∧ e.1 ≠ i) ∧
    (∀ v r, c.getNeighborDistancesAt v cutoff = .ok r → ∃ i, c.getIndexV v = .ok i ∧
      ∀ e ∈ r, ValidIndex c e.1 ∧ e.1 ≠ i) := by
  have g := good_of_built hb
  have key : ∀ {i p r}, SiteAt c i p → c.neighborDistances p cutoff = .ok r →
      ∀ e ∈ r, ValidIndex c e.1 ∧ e.1 ≠ i := by
    intro i p r hp h e he
    obtain ⟨hji, q, q', hq, -⟩ := neighborDistances_sub g hp h (j := e.1) (d := e.2) he
    exact ⟨siteAt_bounds g hq, hji⟩
  refine ⟨?_, ?_, ?_⟩
  · intro i l h j hj
    obtain ⟨p, r, hp, h1, -, rfl⟩ := getNeighbors_ok hb h
    obtain ⟨e, he, rfl⟩ := List.mem_map.1 hj
    exact key hp h1 e he
  · intro i r h
    obtain ⟨p, hp, h1⟩ := getNeighborDistances_ok hb h
    exact key hp h1
  · intro v r h
    match v, h with
    | [x, y, z], h =>
      simp only [getNeighborDistancesAt, bind_eq_ok, checkPos_eq] at h
      obtain ⟨_, hx, _, hy, _, hz, h⟩ := h
      split at hx <;> [skip; cases hx]
      split at hy <;> [skip; cases hy]
      split at hz <;> [skip; cases hz]
      have hp := siteAt_of_inBox (c := c) (p := ⟨x, y, z⟩) ⟨by assumption, by assumption, by assumption⟩
      exact ⟨_, getIndex_of_siteAt g hp, key hp h⟩
    | [], h => cases h
    | [_], h => cases h
    | [_, _], h => cases h
    | _ :: _ :: _ :: _ :: _, h => cases h

/-! ## C15 -/

/-- C15: being a neighbour is symmetric. -/
theorem C15_symmetric {c : Cuboid} (hb : Built c) (hsp : 0 < c.spacing) {i j : Int} {cutoff : ℝ}
    {li lj : List Int} (hi : c.getNeighbors i cutoff = .ok li) (hj : c.getNeighbors j cutoff = .ok lj) :
    j ∈ li ↔ i ∈ lj := by
  rw [C13_exact_ball hb hsp hi, C13_exact_ball hb hsp hj]
  exact ⟨fun h => ⟨h.1.symm, within_symm h.2⟩, fun h => ⟨h.1.symm, within_symm h.2⟩⟩

example : ∃ l, box345.getNeighbors 2 2 = .ok l := by
  have hf : ⌊(2 : ℝ) / 1⌋ = 2 := by norm_num
  rw [C20_getNeighbors_returns_iff box345_built (by norm_num [box345]) (by norm_num)
    (show SiteAt box345 2 ⟨2, 0, 0⟩ from ⟨by decide, rfl⟩)]
  show ⌊(2 : ℝ) / 1⌋ ≤ 645 ∧ 2 + ⌊(2 : ℝ) / 1⌋ < INT_MAX ∧ 0 + ⌊(2 : ℝ) / 1⌋ < INT_MAX ∧ 0 + ⌊(2 : ℝ) / 1⌋ < INT_MAX
  rw [hf]; decide

/-! ## C17 -/

/-- C17: `getNeighborDistances` is `getNeighbors` with distances attached — same sites, same order, same
failures — and asking by position is asking by index. -/
theorem C17_same_sites {c : Cuboid} (hb : Built c) (i : Int) (cutoff : ℝ) :
    c.getNeighbors i cutoff = (c.getNeighborDistances i cutoff).map (List.map Prod.fst) ∧
    (∀ p, SiteAt c i p →
      c.getNeighborDistancesAt [p.x, p.y, p.z] cutoff = c.getNeighborDistances i cutoff) := by
  have g := good_of_built hb
  refine ⟨getNeighbors_eq_map hb i cutoff, fun p hp => ?_⟩
  unfold getNeighborDistancesAt getNeighborDistances
  obtain ⟨hx, hy, hz⟩ := hp.1
  simp only [checkPos_eq, if_pos hx, if_pos hy, if_pos hz, ok_bind, (checkIndex_ok g).2 (siteAt_bounds g hp),
    getPosition_of_siteAt g hp]

/-- C17: each reported distance is the distance to an image of that neighbour, at most the cutoff; with
Fixed boundaries it is the Euclidean distance of the two sites. -/
theorem C17_distances {c : Cuboid} (hb : Built c) {i : Int} {cutoff : ℝ} {r : List (Int × ℝ)}
    (h : c.getNeighborDistances i cutoff = .ok r) {j : Int} {d : ℝ} (hm : (j, d) ∈ r) :
    ∃ p q q', SiteAt c i p ∧ SiteAt c j q ∧ Image c q q' ∧ d = euclid c p q' ∧ d ≤ cutoff ∧
      (c.xb = .fixed → c.yb = .fixed → c.zb = .fixed → d = euclid c p q) := by
  obtain ⟨p, hp, h1⟩ := getNeighborDistances_ok hb h
  obtain ⟨-, q, q', hq, himg, hd, hle⟩ := neighborDistances_sub (good_of_built hb) hp h1 hm
  refine ⟨p, q, q', hp, hq, himg, hd, hle, fun hx hy hz => ?_⟩
  obtain ⟨ix, iy, iz⟩ := himg
  rw [hx] at ix; rw [hy] at iy; rw [hz] at iz
  have ix : q'.x = q.x := ix
  have iy : q'.y = q.y := iy
  have iz : q'.z = q.z := iz
  rw [hd]; unfold euclid; rw [ix, iy, iz]

/-- C17: among the distances reported for a neighbour is the smallest distance to any of its images. -/
theorem C17_minimum_reported {c : Cuboid} (hb : Built c) (hsp : 0 < c.spacing) {i : Int} {cutoff : ℝ}
    {r : List (Int × ℝ)} (h : c.getNeighborDistances i cutoff = .ok r) {j : Int}
    (hm : j ∈ r.map Prod.fst) : ∃ d, (j, d) ∈ r ∧ ∀ p q q', SiteAt c i p → SiteAt c j q → Image c q q' →
      d ≤ euclid c p q' := by
  have g := good_of_built hb
  obtain ⟨p, hp, h1⟩ := getNeighborDistances_ok hb h
  obtain ⟨hji, p', q, q', hp', hq, himg, hd⟩ := (neighborDistances_ids g hsp hp h1 j).1 hm
  have := siteAt_unique g hp hp'; subst this
  have key : ∀ (b : Boundary) (dim x v : Int), 0 ≤ x → x < dim → 0 ≤ v → v < dim →
      ∃ y, AxisImage b dim v y ∧ (b = .periodic → -dim ≤ y) ∧
        ∀ x', AxisImage b dim v x' → (y - x) ^ 2 ≤ (x' - x) ^ 2 := by
    intro b dim x v h0 h1 v0 v1
    cases b with
    | fixed => exact ⟨v, rfl, by simp, fun x' hx' => by rw [show x' = v from hx']⟩
    | periodic =>
      -- take the best of the three candidates
      have best : ∃ y ∈ [v - dim, v, v + dim], ∀ z ∈ [v - dim, v, v + dim], (y - x) ^ 2 ≤ (z - x) ^ 2 := by
        rcases le_total ((v - dim - x) ^ 2) ((v - x) ^ 2) with a | a <;>
          rcases le_total ((v - dim - x) ^ 2) ((v + dim - x) ^ 2) with b | b <;>
          rcases le_total ((v - x) ^ 2) ((v + dim - x) ^ 2) with d | d
        all_goals first
          | exact ⟨v - dim, by simp, by simp; exact ⟨by linarith, by linarith⟩⟩
          | exact ⟨v, by simp, by simp; exact ⟨by linarith, by linarith⟩⟩
          | exact ⟨v + dim, by simp, by simp; exact ⟨by linarith, by linarith⟩⟩
      obtain ⟨y, hy, hbest⟩ := best
      refine ⟨y, ?_, fun _ => ?_, ?_⟩
      · simp only [List.mem_cons, List.not_mem_nil, or_false] at hy
        rcases hy with rfl | rfl | rfl
        · exact ⟨-1, by ring⟩
        · exact ⟨0, by ring⟩
        · exact ⟨1, by ring⟩
      · simp only [List.mem_cons, List.not_mem_nil, or_false] at hy
        rcases hy with rfl | rfl | rfl <;> omega
      · rintro x' ⟨k, rfl⟩
        rcases lt_trichotomy k 0 with hk | rfl | hk
        · refine (hbest (v - dim) (by simp)).trans ?_
          have : k * dim ≤ -dim := by nlinarith
          rw [← neg_sq (v - dim - x), ← neg_sq (v + k * dim - x)]
          apply sq_le_sq' <;> omega
        · simpa using hbest v (by simp)
        · refine (hbest (v + dim) (by simp)).trans ?_
          have : dim ≤ k * dim := by nlinarith
          apply sq_le_sq' <;> omega
  obtain ⟨x, ax, lx, mx⟩ := key c.xb _ _ _ hp.1.1.1 hp.1.1.2 hq.1.1.1 hq.1.1.2
  obtain ⟨y, ay, ly, my⟩ := key c.yb _ _ _ hp.1.2.1.1 hp.1.2.1.2 hq.1.2.1.1 hq.1.2.1.2
  obtain ⟨z, az, lz, mz⟩ := key c.zb _ _ _ hp.1.2.2.1 hp.1.2.2.2 hq.1.2.2.1 hq.1.2.2.2
  have hmin : ∀ q', Image c q q' → euclid c p ⟨x, y, z⟩ ≤ euclid c p q' := by
    rintro q' ⟨jx, jy, jz⟩
    unfold euclid
    apply mul_le_mul_of_nonneg_left _ hsp.le
    apply Real.sqrt_le_sqrt
    have cast : ∀ a b e : Int, (a - b) ^ 2 ≤ (e - b) ^ 2 → ((b : ℝ) - a) ^ 2 ≤ ((b : ℝ) - e) ^ 2 := by
      intro a b e h
      have : ((a : ℝ) - b) ^ 2 ≤ ((e : ℝ) - b) ^ 2 := by exact_mod_cast h
      linarith [sub_sq_comm (a : ℝ) b, sub_sq_comm (e : ℝ) b]
    have := cast _ _ _ (mx _ jx)
    have := cast _ _ _ (my _ jy)
    have := cast _ _ _ (mz _ jz)
    simp only
    linarith
  refine ⟨euclid c p ⟨x, y, z⟩, (neighborDistances_mem g hsp hp h1 j _).2
    ⟨hji, q, ⟨x, y, z⟩, hq, ⟨ax, ay, az⟩, ⟨lx, ly, lz⟩, rfl, (hmin q' himg).trans hd⟩, ?_⟩
  intro p2 q2 q2' hp2 hq2 him2
  have := siteAt_unique g hp hp2; subst this
  have := siteAt_unique g hq hq2; subst this
  exact hmin _ him2

end Mythical
