import Verif.Props.CuboidNeighbors

/-! # Lattice: duplicate neighbours (C16) -/

namespace Mythical
open Cuboid CuboidSpec

theorem axis_injective {b : Boundary} {dim v x x' n : Int} (hx : AxisImage b dim v x)
    (hx' : AxisImage b dim v x') {m : Int} (h1 : m - n ≤ x ∧ x ≤ m + n) (h2 : m - n ≤ x' ∧ x' ≤ m + n)
    (hn : b = .periodic → 2 * n < dim) : x = x' := by
  cases b with
  | fixed => exact Eq.trans hx (Eq.symm hx')
  | periodic =>
    obtain ⟨k, rfl⟩ := hx
    obtain ⟨k', rfl⟩ := hx'
    have hd := hn rfl
    rcases lt_trichotomy k k' with hk | rfl | hk
    · have : (k' - k) * dim ≥ dim := by nlinarith
      have : k' * dim - k * dim = (k' - k) * dim := by ring
      omega
    · rfl
    · have : (k - k') * dim ≥ dim := by nlinarith
      have : k * dim - k' * dim = (k - k') * dim := by ring
      omega

/-- C16 (partial: along a Periodic axis the searched width `2n+1` must not exceed the dimension; see
`C16_counterexample`): no site is listed twice. -/
theorem C16_no_duplicates_partial {c : Cuboid} (hb : Built c) {i : Int} {cutoff : ℝ}
    {l : List Int} (h : c.getNeighbors i cutoff = .ok l)
    (hx : c.xb = .periodic → 2 * ⌊cutoff / c.spacing⌋ < c.length)
    (hy : c.yb = .periodic → 2 * ⌊cutoff / c.spacing⌋ < c.width)
    (hz : c.zb = .periodic → 2 * ⌊cutoff / c.spacing⌋ < c.height) : l.Nodup := by
  have g := good_of_built hb
  obtain ⟨p, r, hp, -, -, -⟩ := getNeighbors_ok hb h
  unfold getNeighbors at h
  rw [(checkIndex_ok g).2 (siteAt_bounds g hp), ok_bind, getPosition_of_siteAt g hp, ok_bind] at h
  simp only [bind_eq_ok, chk_eq_ok] at h
  obtain ⟨n, hn, _, ⟨rfl, -⟩, _, ⟨rfl, -⟩, _, ⟨rfl, -⟩, _, ⟨rfl, -⟩, _, ⟨rfl, -⟩, _, ⟨rfl, -⟩,
    u, -, xs, hxs, h⟩ := h
  obtain ⟨-, rfl, -⟩ := numSites_eq_ok hn
  -- innermost pieces
  have memZ : ∀ {xi yi xl yl zi s b}, (do
      let zl ← lattice c.zb c.height zi
      if zl ≥ 0 ∧ zl < c.height then do
        let dist ← c.distance ⟨xi, yi, zi⟩ p
        if dist ≤ cutoff then do
          let neigh ← c.rawIndex ⟨xl, yl, zl⟩
          if neigh ≠ i then .ok [neigh] else .ok []
        else .ok []
      else .ok []) = .ok s → s.Nodup ∧ (b ∈ s → ∃ zl, (0 ≤ zl ∧ zl < c.height) ∧
        AxisImage c.zb c.height zl zi ∧ b = xl + c.length * (yl + c.width * zl)) := by
    intro xi yi xl yl zi s b hs
    simp only [bind_eq_ok] at hs
    obtain ⟨zl, hzl, hs⟩ := hs
    split at hs
    swap
    · cases hs; exact ⟨by simp, by simp⟩
    next kz =>
    simp only [bind_eq_ok] at hs
    obtain ⟨dist, hdist, hs⟩ := hs
    split at hs
    swap
    · cases hs; exact ⟨by simp, by simp⟩
    simp only [bind_eq_ok] at hs
    obtain ⟨neigh, hneigh, hs⟩ := hs
    split at hs
    swap
    · cases hs; exact ⟨by simp, by simp⟩
    cases hs
    refine ⟨by simp, fun hb => ?_⟩
    simp only [List.mem_singleton] at hb
    subst hb
    exact ⟨zl, kz, lattice_image g.h hzl, rawIndex_eq_ok hneigh⟩
  -- two positions with the same index agree
  have uniq : ∀ {x y z x' y' z' : Int}, (0 ≤ x ∧ x < c.length) → (0 ≤ y ∧ y < c.width) →
      (0 ≤ z ∧ z < c.height) → (0 ≤ x' ∧ x' < c.length) → (0 ≤ y' ∧ y' < c.width) → (0 ≤ z' ∧ z' < c.height) →
      x + c.length * (y + c.width * z) = x' + c.length * (y' + c.width * z') → x = x' ∧ y = y' ∧ z = z' := by
    intro x y z x' y' z' h1 h2 h3 h4 h5 h6 e
    have := siteAt_unique (i := x + c.length * (y + c.width * z)) g (p := ⟨x, y, z⟩) (q := ⟨x', y', z'⟩)
      ⟨⟨h1, h2, h3⟩, rfl⟩ ⟨⟨h4, h5, h6⟩, e⟩
    simpa using this
  refine nodup_forEach h (loopRange_eq_ok hxs).2.1 ?_ ?_
  · -- a slice at fixed x
    intro xi hxi s hs
    simp only [bind_eq_ok] at hs
    obtain ⟨xl, hxl, hs⟩ := hs
    split at hs
    swap
    · cases hs; simp
    next kx =>
    simp only [bind_eq_ok] at hs
    obtain ⟨ys, hys, hs⟩ := hs
    refine nodup_forEach hs (loopRange_eq_ok hys).2.1 ?_ ?_
    · intro yi hyi s hs
      simp only [bind_eq_ok] at hs
      obtain ⟨yl, hyl, hs⟩ := hs
      split at hs
      swap
      · cases hs; simp
      next ky =>
      simp only [bind_eq_ok] at hs
      obtain ⟨zs, hzs, hs⟩ := hs
      refine nodup_forEach hs (loopRange_eq_ok hzs).2.1 (fun zi _ s hs => (memZ (b := 0) hs).1) ?_
      intro zi hzi zi' hzi' s s' hs hs' b hb hb'
      obtain ⟨zl, kz, iz, e⟩ := (memZ hs).2 hb
      obtain ⟨zl', kz', iz', e'⟩ := (memZ hs').2 hb'
      obtain ⟨-, -, rfl⟩ := uniq kx ky kz kx ky kz' (e.symm.trans e')
      exact axis_injective iz iz' (((loopRange_eq_ok hzs).1 _).1 hzi) (((loopRange_eq_ok hzs).1 _).1 hzi') hz
    · intro yi hyi yi' hyi' s s' hs hs' b hb hb'
      have memY : ∀ {yi s}, (do
          let yl ← lattice c.yb c.width yi
          if yl ≥ 0 ∧ yl < c.width then do
            let zs ← loopRange (p.z - ⌊cutoff / c.spacing⌋) (p.z + ⌊cutoff / c.spacing⌋)
            forEach (fun zi => do
              let zl ← lattice c.zb c.height zi
              if zl ≥ 0 ∧ zl < c.height then do
                let dist ← c.distance ⟨xi, yi, zi⟩ p
                if dist ≤ cutoff then do
                  let neigh ← c.rawIndex ⟨xl, yl, zl⟩
                  if neigh ≠ i then .ok [neigh] else .ok []
                else .ok []
              else .ok []) zs
          else .ok []) = .ok s → b ∈ s → ∃ yl zl, (0 ≤ yl ∧ yl < c.width) ∧ (0 ≤ zl ∧ zl < c.height) ∧
            AxisImage c.yb c.width yl yi ∧ b = xl + c.length * (yl + c.width * zl) := by
        intro yi s hs hb
        simp only [bind_eq_ok] at hs
        obtain ⟨yl, hyl, hs⟩ := hs
        split at hs
        swap
        · cases hs; cases hb
        next ky =>
        simp only [bind_eq_ok] at hs
        obtain ⟨zs, hzs, hs⟩ := hs
        obtain ⟨zi, _, s', hs', hb⟩ := (mem_forEach hs).1 hb
        obtain ⟨zl, kz, iz, e⟩ := (memZ hs').2 hb
        exact ⟨yl, zl, ky, kz, lattice_image g.w hyl, e⟩
      obtain ⟨yl, zl, ky, kz, iy, e⟩ := memY hs hb
      obtain ⟨yl', zl', ky', kz', iy', e'⟩ := memY hs' hb'
      obtain ⟨-, rfl, -⟩ := uniq kx ky kz kx ky' kz' (e.symm.trans e')
      exact axis_injective iy iy' (((loopRange_eq_ok hys).1 _).1 hyi) (((loopRange_eq_ok hys).1 _).1 hyi') hy
  · -- slices at different x
    intro xi hxi xi' hxi' s s' hs hs' b hb hb'
    have memX : ∀ {xi s}, (do
        let xl ← lattice c.xb c.length xi
        if xl ≥ 0 ∧ xl < c.length then do
          let ys ← loopRange (p.y - ⌊cutoff / c.spacing⌋) (p.y + ⌊cutoff / c.spacing⌋)
          forEach (fun yi => do
            let yl ← lattice c.yb c.width yi
            if yl ≥ 0 ∧ yl < c.width then do
              let zs ← loopRange (p.z - ⌊cutoff / c.spacing⌋) (p.z + ⌊cutoff / c.spacing⌋)
              forEach (fun zi => do
                let zl ← lattice c.zb c.height zi
                if zl ≥ 0 ∧ zl < c.height then do
                  let dist ← c.distance ⟨xi, yi, zi⟩ p
                  if dist ≤ cutoff then do
                    let neigh ← c.rawIndex ⟨xl, yl, zl⟩
                    if neigh ≠ i then .ok [neigh] else .ok []
                  else .ok []
                else .ok []) zs
            else .ok []) ys
        else .ok []) = .ok s → b ∈ s → ∃ xl yl zl, (0 ≤ xl ∧ xl < c.length) ∧ (0 ≤ yl ∧ yl < c.width) ∧
          (0 ≤ zl ∧ zl < c.height) ∧ AxisImage c.xb c.length xl xi ∧
          b = xl + c.length * (yl + c.width * zl) := by
      intro xi s hs hb
      simp only [bind_eq_ok] at hs
      obtain ⟨xl, hxl, hs⟩ := hs
      split at hs
      swap
      · cases hs; cases hb
      next kx =>
      simp only [bind_eq_ok] at hs
      obtain ⟨ys, hys, hs⟩ := hs
      obtain ⟨yi, _, s', hs', hb⟩ := (mem_forEach hs).1 hb
      simp only [bind_eq_ok] at hs'
      obtain ⟨yl, hyl, hs'⟩ := hs'
      split at hs'
      swap
      · cases hs'; cases hb
      next ky =>
      simp only [bind_eq_ok] at hs'
      obtain ⟨zs, hzs, hs'⟩ := hs'
      obtain ⟨zi, _, s'', hs'', hb⟩ := (mem_forEach hs').1 hb
      obtain ⟨zl, kz, iz, e⟩ := (memZ hs'').2 hb
      exact ⟨xl, yl, zl, kx, ky, kz, lattice_image g.l hxl, e⟩
    obtain ⟨xl, yl, zl, kx, ky, kz, ix, e⟩ := memX hs hb
    obtain ⟨xl', yl', zl', kx', ky', kz', ix', e'⟩ := memX hs' hb'
    obtain ⟨rfl, -, -⟩ := uniq kx ky kz kx' ky' kz' (e.symm.trans e')
    exact axis_injective ix ix' (((loopRange_eq_ok hxs).1 _).1 hxi) (((loopRange_eq_ok hxs).1 _).1 hxi') hx

/-- The hypotheses are met: on the 3x3x3 periodic lattice with cutoff 1, `2·1 < 3`. -/
example : (box333p.xb = .periodic → 2 * ⌊(1 : ℝ) / box333p.spacing⌋ < box333p.length) ∧
    ∃ l, box333p.getNeighbors 0 1 = .ok l := by
  have hf : ⌊(1 : ℝ) / 1⌋ = 1 := by norm_num
  constructor
  · intro _; show 2 * ⌊(1 : ℝ) / 1⌋ < 3; rw [hf]; decide
  · rw [C20_getNeighbors_returns_iff box333p_built (by norm_num [box333p]) (by norm_num) (site0 box333p_built)]
    show ⌊(1 : ℝ) / 1⌋ ≤ 645 ∧ 0 + ⌊(1 : ℝ) / 1⌋ < INT_MAX ∧ 0 + ⌊(1 : ℝ) / 1⌋ < INT_MAX ∧ 0 + ⌊(1 : ℝ) / 1⌋ < INT_MAX
    rw [hf]; decide

/-- A ring of two sites. -/
noncomputable def ring2 : Cuboid := ⟨2, 1, 1, 2, 1, .periodic, .fixed, .fixed⟩

/-- C16 is false of the code: on a periodic axis of two sites the only neighbour is listed twice. -/
theorem C16_counterexample : Built ring2 ∧ ring2.getNeighbors 0 1 = .ok [1, 1] := by
  refine ⟨built_of_good ⟨by decide, by decide, by decide, by decide, by decide⟩, ?_⟩
  have hn : ring2.numSites 1 = .ok 1 := by
    unfold numSites
    rw [if_neg (by norm_num [ring2])]
    have : ⌊(1 : ℝ) / ring2.spacing⌋ = 1 := by norm_num [ring2]
    rw [this]; rfl
  have hd : ∀ x, ring2.distance ⟨x, 0, 0⟩ ⟨0, 0, 0⟩ =
      (do let xd ← chk (x - 0); let xx ← chk (xd * xd); let s ← chk (xx + 0); let s ← chk (s + 0)
          .ok (Real.sqrt (s : ℝ) * ring2.spacing)) := fun _ => rfl
  have hd1 : ring2.distance ⟨1, 0, 0⟩ ⟨0, 0, 0⟩ = .ok 1 := by
    rw [hd]; show Except.ok (Real.sqrt ((1 : Int) : ℝ) * 1) = _; norm_num
  have hd2 : ring2.distance ⟨-1, 0, 0⟩ ⟨0, 0, 0⟩ = .ok 1 := by
    rw [hd]; show Except.ok (Real.sqrt ((1 : Int) : ℝ) * 1) = _; norm_num
  have hd0 : ring2.distance ⟨0, 0, 0⟩ ⟨0, 0, 0⟩ = .ok 0 := by
    rw [hd]; show Except.ok (Real.sqrt ((0 : Int) : ℝ) * 1) = _; norm_num
  have hp : ring2.getPosition 0 = .ok ⟨0, 0, 0⟩ := rfl
  have hc : ring2.checkIndex 0 = .ok () := rfl
  have hr : loopRange (-1) 1 = .ok [-1, 0, 1] := rfl
  have hres : reserve 1 = .ok () := rfl
  have h1 : chk (-1) = .ok (-1) := rfl
  have h2 : chk 1 = .ok 1 := rfl
  have hx1 : lattice ring2.xb ring2.length (-1) = .ok 1 := rfl
  have hx2 : lattice ring2.xb ring2.length 0 = .ok 0 := rfl
  have hx3 : lattice ring2.xb ring2.length 1 = .ok 1 := rfl
  have hy : ∀ y, lattice ring2.yb ring2.width y = .ok y := fun _ => rfl
  have hz : ∀ y, lattice ring2.zb ring2.height y = .ok y := fun _ => rfl
  have hl : ring2.length = 2 := rfl
  have hw : ring2.width = 1 := rfl
  have hh : ring2.height = 1 := rfl
  have hi0 : ring2.rawIndex ⟨0, 0, 0⟩ = .ok 0 := rfl
  have hi1 : ring2.rawIndex ⟨1, 0, 0⟩ = .ok 1 := rfl
  unfold getNeighbors
  rw [hl] at hx1 hx2 hx3
  rw [hw] at hy
  rw [hh] at hz
  simp [hn, hp, hc, hr, hres, h1, h2, forEach, hx1, hx2, hx3, hy, hz, hl, hw, hh, hd0, hd1, hd2, hi0, hi1]

end Mythical
