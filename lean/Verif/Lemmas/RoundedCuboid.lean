import Verif.Model.RoundedCuboid
import Verif.Spec.RoundedCuboid
import Verif.Spec.Rounded
import Verif.Lemmas.CuboidNeighbors
import Verif.Lemmas.Rounding

/-! # Helper lemmas for the neighbour searches in rounded arithmetic -/

namespace Mythical.Rounded
open Mythical Cuboid CuboidSpec RoundSpec
variable {fl rt : ℝ → ℝ}

theorem distance_rounded {c : Cuboid} {p q : Pos} {d : ℝ} (h : distance fl rt c p q = .ok d) :
    d = fl (rt (steps p q) * c.spacing) := by
  simp only [distance, bind_eq_ok, chk_eq_ok, ok_inj] at h
  obtain ⟨_, ⟨rfl, _⟩, _, ⟨rfl, _⟩, _, ⟨rfl, _⟩, _, ⟨rfl, _⟩, _, ⟨rfl, _⟩, _, ⟨rfl, _⟩, _, ⟨rfl, _⟩,
    _, ⟨rfl, _⟩, rfl⟩ := h
  rw [show steps p q = (p.x - q.x) * (p.x - q.x) + (p.y - q.y) * (p.y - q.y) + (p.z - q.z) * (p.z - q.z) by
    unfold steps; ring]

theorem distance_rounded_ok {c : Cuboid} {p q : Pos} {m : Int} (hm : 3 * m ^ 2 ≤ 2147483647) (hx : |p.x - q.x| ≤ m)
    (hy : |p.y - q.y| ≤ m) (hz : |p.z - q.z| ≤ m) : ∃ d, distance fl rt c p q = .ok d := by
  have m0 : 0 ≤ m := (abs_nonneg _).trans hx
  have m1 : m ≤ 2147483647 := by nlinarith
  have key : ∀ a : Int, |a| ≤ m → FitsInt a ∧ 0 ≤ a * a ∧ a * a ≤ m ^ 2 := by
    intro a ha
    obtain ⟨h1, h2⟩ := abs_le.1 ha
    refine ⟨fitsInt_of (by omega) (by omega), mul_self_nonneg a, by nlinarith⟩
  obtain ⟨x1, x2, x3⟩ := key _ hx
  obtain ⟨y1, y2, y3⟩ := key _ hy
  obtain ⟨z1, z2, z3⟩ := key _ hz
  unfold distance
  rw [chk_ok x1, ok_bind, chk_ok y1, ok_bind, chk_ok z1, ok_bind,
    chk_ok (fitsInt_of (by omega) (by omega)), ok_bind, chk_ok (fitsInt_of (by omega) (by omega)), ok_bind,
    chk_ok (fitsInt_of (by omega) (by omega)), ok_bind, chk_ok (fitsInt_of (by omega) (by omega)), ok_bind,
    chk_ok (fitsInt_of (by omega) (by omega)), ok_bind]
  exact ⟨_, rfl⟩

theorem numSites_rounded {c : Cuboid} {cutoff : ℝ} {n : Int} (h : numSites fl c cutoff = .ok n) :
    c.spacing ≠ 0 ∧ n = ⌊fl (cutoff / c.spacing)⌋ ∧ FitsInt n := by
  unfold numSites at h
  split at h
  · cases h
  · next h0 =>
    simp only at h
    split at h
    · next h1 => cases h; exact ⟨h0, rfl, h1⟩
    · cases h

/-- The body of the innermost loop, as a function of the three scanned coordinates. -/
theorem mem_scan_rounded {c : Cuboid} (g : Good c) {i : Int} {p : Pos} {cutoff : ℝ}
    {xs : List Int} {ylo yhi zlo zhi : Int} {α : Type _} (mk : Int → ℝ → α) {r : List α}
    (h : forEach (fun xi => do
      let xl ← lattice c.xb c.length xi
      if xl ≥ 0 ∧ xl < c.length then do
        let ys ← loopRange ylo yhi
        forEach (fun yi => do
          let yl ← lattice c.yb c.width yi
          if yl ≥ 0 ∧ yl < c.width then do
            let zs ← loopRange zlo zhi
            forEach (fun zi => do
              let zl ← lattice c.zb c.height zi
              if zl ≥ 0 ∧ zl < c.height then do
                let dist ← distance fl rt c ⟨xi, yi, zi⟩ p
                if dist ≤ cutoff then do
                  let neigh ← c.rawIndex ⟨xl, yl, zl⟩
                  if neigh ≠ i then .ok [mk neigh dist] else .ok []
                else .ok []
              else .ok []) zs
          else .ok []) ys
      else .ok []) xs = .ok r) (w : α) :
    w ∈ r ↔ ∃ j d, w = mk j d ∧ j ≠ i ∧ ∃ q q', SiteAt c j q ∧ Image c q q' ∧ Low c q' ∧
      q'.x ∈ xs ∧ (ylo ≤ q'.y ∧ q'.y ≤ yhi) ∧ (zlo ≤ q'.z ∧ q'.z ≤ zhi) ∧
      d = fl (rt (steps q' p) * c.spacing) ∧ d ≤ cutoff := by
  rw [mem_forEach h]
  constructor
  · rintro ⟨xi, hxi, s, hs, hm⟩
    simp only [bind_eq_ok] at hs
    obtain ⟨xl, hxl, hs⟩ := hs
    split at hs
    swap
    · cases hs; cases hm
    next kx =>
    simp only [bind_eq_ok] at hs
    obtain ⟨ys, hys, hs⟩ := hs
    rw [mem_forEach hs] at hm
    obtain ⟨yi, hyi, s, hs, hm⟩ := hm
    simp only [bind_eq_ok] at hs
    obtain ⟨yl, hyl, hs⟩ := hs
    split at hs
    swap
    · cases hs; cases hm
    next ky =>
    simp only [bind_eq_ok] at hs
    obtain ⟨zs, hzs, hs⟩ := hs
    rw [mem_forEach hs] at hm
    obtain ⟨zi, hzi, s, hs, hm⟩ := hm
    simp only [bind_eq_ok] at hs
    obtain ⟨zl, hzl, hs⟩ := hs
    split at hs
    swap
    · cases hs; cases hm
    next kz =>
    simp only [bind_eq_ok] at hs
    obtain ⟨dist, hdist, hs⟩ := hs
    split at hs
    swap
    · cases hs; cases hm
    next kd =>
    simp only [bind_eq_ok] at hs
    obtain ⟨neigh, hneigh, hs⟩ := hs
    split at hs
    swap
    · cases hs; cases hm
    next kn =>
    rw [ok_inj] at hs
    subst hs
    simp only [List.mem_singleton] at hm
    obtain ⟨bx, ix, lx⟩ := (lattice_keep g.l hxl xl).1 ⟨rfl, kx⟩
    obtain ⟨by', iy, ly⟩ := (lattice_keep g.w hyl yl).1 ⟨rfl, ky⟩
    obtain ⟨bz, iz, lz⟩ := (lattice_keep g.h hzl zl).1 ⟨rfl, kz⟩
    exact ⟨neigh, dist, hm, kn, ⟨xl, yl, zl⟩, ⟨xi, yi, zi⟩, siteAt_of_rawIndex ⟨bx, by', bz⟩ hneigh, ⟨ix, iy, iz⟩,
      ⟨lx, ly, lz⟩, hxi, (loopRange_eq_ok hys).1 _ |>.1 hyi, (loopRange_eq_ok hzs).1 _ |>.1 hzi,
      distance_rounded hdist, kd⟩
  · rintro ⟨j, d, rfl, hji, q, q', hsite, ⟨ix, iy, iz⟩, ⟨lx, ly, lz⟩, hx, hy, hz, rfl, hd⟩
    obtain ⟨⟨bx, by', bz⟩, hj⟩ := id hsite
    obtain ⟨s, hs⟩ := forEach_isOk h _ hx
    refine ⟨q'.x, hx, s, hs, ?_⟩
    simp only [bind_eq_ok] at hs
    obtain ⟨xl, hxl, hs⟩ := hs
    obtain ⟨rfl, kx⟩ := (lattice_keep g.l hxl q.x).2 ⟨bx, ix, lx⟩
    rw [if_pos kx] at hs
    simp only [bind_eq_ok] at hs
    obtain ⟨ys, hys, hs⟩ := hs
    rw [mem_forEach hs]
    have hy' := ((loopRange_eq_ok hys).1 _).2 hy
    obtain ⟨s', hs'⟩ := forEach_isOk hs _ hy'
    refine ⟨q'.y, hy', s', hs', ?_⟩
    simp only [bind_eq_ok] at hs'
    obtain ⟨yl, hyl, hs'⟩ := hs'
    obtain ⟨rfl, ky⟩ := (lattice_keep g.w hyl q.y).2 ⟨by', iy, ly⟩
    rw [if_pos ky] at hs'
    simp only [bind_eq_ok] at hs'
    obtain ⟨zs, hzs, hs'⟩ := hs'
    rw [mem_forEach hs']
    have hz' := ((loopRange_eq_ok hzs).1 _).2 hz
    obtain ⟨s'', hs''⟩ := forEach_isOk hs' _ hz'
    refine ⟨q'.z, hz', s'', hs'', ?_⟩
    simp only [bind_eq_ok] at hs''
    obtain ⟨zl, hzl, hs''⟩ := hs''
    obtain ⟨rfl, kz⟩ := (lattice_keep g.h hzl q.z).2 ⟨bz, iz, lz⟩
    rw [if_pos kz] at hs''
    simp only [bind_eq_ok] at hs''
    obtain ⟨dist, hdist, hs''⟩ := hs''
    have hd' := distance_rounded hdist
    subst hd'
    rw [if_pos hd] at hs''
    simp only [bind_eq_ok] at hs''
    obtain ⟨neigh, hneigh, hs''⟩ := hs''
    have := rawIndex_eq_ok hneigh
    rw [← hj] at this
    subst this
    rw [if_pos hji] at hs''
    cases hs''
    simp


/-- The exact content of the distances search. -/
theorem neighborDistances_rounded {c : Cuboid} (g : Good c) {i : Int} {p : Pos} (hp : SiteAt c i p) {cutoff : ℝ}
    {r : List (Int × ℝ)} (h : neighborDistances fl rt c p cutoff = .ok r) (j : Int) (d : ℝ) :
    (j, d) ∈ r ↔ j ≠ i ∧ ∃ q q', SiteAt c j q ∧ Image c q q' ∧ Low c q' ∧
      |q'.x - p.x| ≤ ⌊fl (cutoff / c.spacing)⌋ ∧ |q'.y - p.y| ≤ ⌊fl (cutoff / c.spacing)⌋ ∧
      |q'.z - p.z| ≤ ⌊fl (cutoff / c.spacing)⌋ ∧ d = fl (rt (steps q' p) * c.spacing) ∧ d ≤ cutoff := by
  simp only [neighborDistances, bind_eq_ok, chk_eq_ok] at h
  obtain ⟨n, hn, i', hi', _, ⟨rfl, -⟩, _, ⟨rfl, -⟩, _, ⟨rfl, -⟩, _, ⟨rfl, -⟩, _, ⟨rfl, -⟩, _, ⟨rfl, -⟩,
    _, -, xs, hxs, h⟩ := h
  rw [rawIndex_ok g hp, ok_inj] at hi'
  subst hi'
  rw [mem_scan_rounded g (fun a b => (a, b)) h]
  obtain ⟨-, rfl, -⟩ := numSites_rounded hn
  simp only [abs_le]
  constructor
  · rintro ⟨j', d', e, hji, q, q', h1, h2, h3, h4, h5, h6, h7, h8⟩
    obtain ⟨rfl, rfl⟩ := Prod.mk.inj e
    have h4 := ((loopRange_eq_ok hxs).1 _).1 h4
    exact ⟨hji, q, q', h1, h2, h3, by omega, by omega, by omega, h7, h8⟩
  · rintro ⟨hji, q, q', h1, h2, h3, h4, h5, h6, h7, h8⟩
    exact ⟨j, d, rfl, hji, q, q', h1, h2, h3, ((loopRange_eq_ok hxs).1 _).2 ⟨by omega, by omega⟩,
      ⟨by omega, by omega⟩, ⟨by omega, by omega⟩, h7, h8⟩

/-- The two searches: same list, with and without distances. -/
theorem getNeighbors_map_rounded {c : Cuboid} (hb : Built c) (i : Int) (cutoff : ℝ) :
    getNeighbors fl rt c i cutoff = (getNeighborDistances fl rt c i cutoff).map (List.map Prod.fst) := by
  have g := good_of_built hb
  by_cases hi : ValidIndex c i
  swap
  · unfold getNeighbors getNeighborDistances; rw [checkIndex_error g hi]; rfl
  obtain ⟨p, hp⟩ := siteAt_exists g hi
  unfold getNeighbors getNeighborDistances neighborDistances
  rw [(checkIndex_ok g).2 hi, ok_bind, ok_bind, getPosition_of_siteAt g hp, ok_bind, ok_bind,
    rawIndex_ok g hp]
  cases hn : numSites fl c cutoff with
  | error e => rfl
  | ok n =>
    simp only [ok_bind]
    cases chk (p.x - n) with
    | error e => rfl
    | ok xmin =>
    cases chk (p.x + n) with
    | error e => rfl
    | ok xmax =>
    cases chk (p.y - n) with
    | error e => rfl
    | ok ymin =>
    cases chk (p.y + n) with
    | error e => rfl
    | ok ymax =>
    cases chk (p.z - n) with
    | error e => rfl
    | ok zmin =>
    cases chk (p.z + n) with
    | error e => rfl
    | ok zmax =>
    cases reserve n with
    | error e => rfl
    | ok _ =>
    simp only [ok_bind]
    cases loopRange xmin xmax with
    | error e => rfl
    | ok xs =>
    simp only [ok_bind]
    apply forEach_map
    intro xi _
    cases lattice c.xb c.length xi with
    | error e => rfl
    | ok xl =>
    simp only [ok_bind]
    split
    swap
    · rfl
    cases loopRange ymin ymax with
    | error e => rfl
    | ok ys =>
    simp only [ok_bind]
    apply forEach_map
    intro yi _
    cases lattice c.yb c.width yi with
    | error e => rfl
    | ok yl =>
    simp only [ok_bind]
    split
    swap
    · rfl
    cases loopRange zmin zmax with
    | error e => rfl
    | ok zs =>
    simp only [ok_bind]
    apply forEach_map
    intro zi _
    cases lattice c.zb c.height zi with
    | error e => rfl
    | ok zl =>
    simp only [ok_bind]
    split
    swap
    · rfl
    cases distance fl rt c ⟨xi, yi, zi⟩ p with
    | error e => rfl
    | ok d =>
    simp only [ok_bind]
    split
    swap
    · rfl
    cases c.rawIndex ⟨xl, yl, zl⟩ with
    | error e => rfl
    | ok neigh =>
    simp only [ok_bind]
    split <;> rfl


theorem getNeighborDistances_rounded {c : Cuboid} (hb : Built c) {i : Int} {cutoff : ℝ} {r : List (Int × ℝ)}
    (h : getNeighborDistances fl rt c i cutoff = .ok r) :
    ∃ p, SiteAt c i p ∧ neighborDistances fl rt c p cutoff = .ok r := by
  have g := good_of_built hb
  have hi : ValidIndex c i := by
    by_contra hi
    unfold getNeighborDistances at h; rw [checkIndex_error g hi] at h; cases h
  obtain ⟨p, hp⟩ := siteAt_exists g hi
  unfold getNeighborDistances at h
  rw [(checkIndex_ok g).2 hi, ok_bind, getPosition_of_siteAt g hp, ok_bind] at h
  exact ⟨p, hp, h⟩

theorem getNeighbors_rounded {c : Cuboid} (hb : Built c) {i : Int} {cutoff : ℝ} {l : List Int}
    (h : getNeighbors fl rt c i cutoff = .ok l) :
    ∃ p r, SiteAt c i p ∧ neighborDistances fl rt c p cutoff = .ok r ∧ getNeighborDistances fl rt c i cutoff = .ok r ∧
      l = r.map Prod.fst := by
  rw [getNeighbors_map_rounded hb] at h
  cases hr : getNeighborDistances fl rt c i cutoff with
  | error e => rw [hr] at h; cases h
  | ok r =>
    rw [hr] at h
    obtain ⟨p, hp, h'⟩ := getNeighborDistances_rounded hb hr
    exact ⟨p, r, hp, h', rfl, by cases h; rfl⟩

theorem steps_nonneg (p q : Pos) : 0 ≤ steps p q := by
  unfold steps; positivity

theorem steps_comm (p q : Pos) : steps p q = steps q p := by unfold steps; ring

theorem euclid_steps (c : Cuboid) (p q : Pos) : euclid c p q = Real.sqrt (steps q p) * c.spacing := by
  unfold euclid steps
  rw [mul_comm]
  congr 2
  push_cast
  ring

/-- An image in reach can be replaced by one the scan visits: no farther along any axis. -/
theorem low_image {c : Cuboid} {p q q' : Pos} (hp : InBox c p) (hq : InBox c q) (h : Image c q q') :
    ∃ q'', Image c q q'' ∧ Low c q'' ∧ |q''.x - p.x| ≤ |q'.x - p.x| ∧ |q''.y - p.y| ≤ |q'.y - p.y| ∧
      |q''.z - p.z| ≤ |q'.z - p.z| ∧ steps q'' p ≤ steps q' p := by
  obtain ⟨ix, iy, iz⟩ := h
  obtain ⟨x, ax, bx, lx⟩ := nearest_image hp.1.1 hp.1.2 hq.1.1 hq.1.2 ix
  obtain ⟨y, ay, by', ly⟩ := nearest_image hp.2.1.1 hp.2.1.2 hq.2.1.1 hq.2.1.2 iy
  obtain ⟨z, az, bz, lz⟩ := nearest_image hp.2.2.1 hp.2.2.2 hq.2.2.1 hq.2.2.2 iz
  refine ⟨⟨x, y, z⟩, ⟨ax, ay, az⟩, ⟨lx, ly, lz⟩, sq_le_sq.1 bx, sq_le_sq.1 by', sq_le_sq.1 bz, ?_⟩
  unfold steps
  linarith

/-- The sites found by the search. -/
theorem ids_rounded (hfl : Monotone fl) (hrt : Monotone rt) {c : Cuboid} (g : Good c) (hsp : 0 ≤ c.spacing) {i : Int}
    {p : Pos} (hp : SiteAt c i p) {cutoff : ℝ} {r : List (Int × ℝ)} (h : neighborDistances fl rt c p cutoff = .ok r)
    (j : Int) : j ∈ r.map Prod.fst ↔ j ≠ i ∧ ∃ q q', SiteAt c j q ∧ Image c q q' ∧
      |q'.x - p.x| ≤ ⌊fl (cutoff / c.spacing)⌋ ∧ |q'.y - p.y| ≤ ⌊fl (cutoff / c.spacing)⌋ ∧
      |q'.z - p.z| ≤ ⌊fl (cutoff / c.spacing)⌋ ∧ fl (rt (steps q' p) * c.spacing) ≤ cutoff := by
  simp only [List.mem_map, Prod.exists, exists_and_right, exists_eq_right]
  constructor
  · rintro ⟨d, hd⟩
    obtain ⟨hji, q, q', h1, h2, -, h4, h5, h6, rfl, h8⟩ := (neighborDistances_rounded g hp h j d).1 hd
    exact ⟨hji, q, q', h1, h2, h4, h5, h6, h8⟩
  · rintro ⟨hji, q, q', hq, himg, h4, h5, h6, hd⟩
    obtain ⟨q'', i1, i2, i3, i4, i5, i6⟩ := low_image hp.1 hq.1 himg
    exact ⟨_, (neighborDistances_rounded g hp h j _).2 ⟨hji, q, q'', hq, i1, i2, i3.trans h4, i4.trans h5, i5.trans h6,
      rfl, (hfl (mul_le_mul_of_nonneg_right (hrt (by exact_mod_cast i6)) hsp)).trans hd⟩⟩

/-- The range of the scan is wide enough. -/
theorem floor_rounded {ε : ℝ} (R : Rounding fl ε) (h0 : 0 ≤ ε) (h1 : ε ≤ 1 / 4) {c : Cuboid} (hsp : 0 < c.spacing)
    {cutoff : ℝ} (hc : 0 ≤ cutoff) {p q : Pos} (h : euclid c p q ≤ cutoff / (1 + 4 * ε)) :
    |q.x - p.x| ≤ ⌊fl (cutoff / c.spacing)⌋ ∧ |q.y - p.y| ≤ ⌊fl (cutoff / c.spacing)⌋ ∧
      |q.z - p.z| ≤ ⌊fl (cutoff / c.spacing)⌋ := by
  have hx : 0 ≤ cutoff / c.spacing := div_nonneg hc hsp.le
  have hfloor : ⌊cutoff / (1 + 4 * ε) / c.spacing⌋ ≤ ⌊fl (cutoff / c.spacing)⌋ := by
    apply Int.floor_le_floor
    have e := (abs_le.1 (R.err (cutoff / c.spacing))).1
    rw [abs_of_nonneg hx] at e
    rw [div_right_comm, div_le_iff₀ (by linarith)]
    have : cutoff / c.spacing * 1 ≤ cutoff / c.spacing * ((1 - ε) * (1 + 4 * ε)) :=
      mul_le_mul_of_nonneg_left (by nlinarith) hx
    nlinarith
  obtain ⟨a, b, d⟩ := component_le hsp h
  exact ⟨a.trans hfloor, b.trans hfloor, d.trans hfloor⟩

/-- The error of a computed distance. -/
theorem dist_rounded {ε : ℝ} (R : Rounding fl ε) (T : Root rt ε) (h0 : 0 ≤ ε) (h1 : ε ≤ 1 / 4) {c : Cuboid}
    (hsp : 0 ≤ c.spacing) (p q : Pos) :
    (1 - 2 * ε) * euclid c p q ≤ fl (rt (steps q p) * c.spacing) ∧
      fl (rt (steps q p) * c.spacing) ≤ (1 + 4 * ε) * euclid c p q := by
  rw [euclid_steps]
  obtain ⟨a1, a2⟩ := abs_le.1 (T.err _ (steps_nonneg q p))
  have hs := Real.sqrt_nonneg (steps q p : ℝ)
  generalize Real.sqrt (steps q p : ℝ) = s at *
  generalize rt (steps q p) = t at *
  have ht : 0 ≤ t := by nlinarith
  obtain ⟨b1, b2⟩ := abs_le.1 (R.err (t * c.spacing))
  rw [abs_of_nonneg (mul_nonneg ht hsp)] at b1 b2
  have c1 : (1 - ε) * (s * c.spacing) ≤ t * c.spacing := by nlinarith
  have c2 : t * c.spacing ≤ (1 + ε) * (s * c.spacing) := by nlinarith
  have hk : 0 ≤ s * c.spacing := mul_nonneg hs hsp
  generalize s * c.spacing = k at *
  generalize t * c.spacing = m at *
  constructor
  · have : (1 - ε) * ((1 - ε) * k) ≤ (1 - ε) * m := mul_le_mul_of_nonneg_left c1 (by linarith)
    nlinarith [mul_nonneg (mul_nonneg h0 h0) hk]
  · have : (1 + ε) * m ≤ (1 + ε) * ((1 + ε) * k) := mul_le_mul_of_nonneg_left c2 (by linarith)
    nlinarith [mul_nonneg (mul_nonneg h0 (by linarith : 0 ≤ 1 / 4 - ε)) hk, mul_nonneg h0 hk]

end Mythical.Rounded
