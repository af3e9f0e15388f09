import Verif.Lemmas.Cuboid
import Mathlib.Tactic.NormNum
import Mathlib.Algebra.Order.Floor.Ring

/-! # Helper lemmas for the neighbour searches -/

namespace Mythical
namespace Cuboid
open CuboidSpec

theorem distance_eq_ok {c : Cuboid} {p q : Pos} {d : ℝ} (h : c.distance p q = .ok d) :
    d = euclid c q p := by
  simp only [distance, bind_eq_ok, chk_eq_ok, ok_inj] at h
  obtain ⟨_, ⟨rfl, _⟩, _, ⟨rfl, _⟩, _, ⟨rfl, _⟩, _, ⟨rfl, _⟩, _, ⟨rfl, _⟩, _, ⟨rfl, _⟩, _, ⟨rfl, _⟩,
    _, ⟨rfl, _⟩, rfl⟩ := h
  unfold euclid
  rw [mul_comm]
  congr 2
  push_cast
  ring

theorem distance_ok {c : Cuboid} {p q : Pos} {m : Int} (hm : 3 * m ^ 2 ≤ 2147483647) (hx : |p.x - q.x| ≤ m)
    (hy : |p.y - q.y| ≤ m) (hz : |p.z - q.z| ≤ m) : c.distance p q = .ok (euclid c q p) := by
  have m0 : 0 ≤ m := (abs_nonneg _).trans hx
  have m1 : m ≤ 2147483647 := by nlinarith
  have key : ∀ a : Int, |a| ≤ m → FitsInt a ∧ 0 ≤ a * a ∧ a * a ≤ m ^ 2 := by
    intro a ha
    obtain ⟨h1, h2⟩ := abs_le.1 ha
    refine ⟨fitsInt_of (by omega) (by omega), mul_self_nonneg a, by nlinarith⟩
  obtain ⟨x1, x2, x3⟩ := key _ hx
  obtain ⟨y1, y2, y3⟩ := key _ hy
  obtain ⟨z1, z2, z3⟩ := key _ hz
  have : ∃ d, c.distance p q = .ok d := by
    unfold distance
    rw [chk_ok x1, ok_bind, chk_ok y1, ok_bind, chk_ok z1, ok_bind,
      chk_ok (fitsInt_of (by omega) (by omega)), ok_bind, chk_ok (fitsInt_of (by omega) (by omega)), ok_bind,
      chk_ok (fitsInt_of (by omega) (by omega)), ok_bind, chk_ok (fitsInt_of (by omega) (by omega)), ok_bind,
      chk_ok (fitsInt_of (by omega) (by omega)), ok_bind]
    exact ⟨_, rfl⟩
  obtain ⟨d, hd⟩ := this
  rw [hd, distance_eq_ok hd]

theorem euclid_comm (c : Cuboid) (p q : Pos) : euclid c p q = euclid c q p := by
  unfold euclid; congr 2; ring

theorem euclid_nonneg {c : Cuboid} (hs : 0 ≤ c.spacing) (p q : Pos) : 0 ≤ euclid c p q :=
  mul_nonneg hs (Real.sqrt_nonneg _)

theorem numSites_eq_ok {c : Cuboid} {cutoff : ℝ} {n : Int} (h : c.numSites cutoff = .ok n) :
    c.spacing ≠ 0 ∧ n = ⌊cutoff / c.spacing⌋ ∧ FitsInt n := by
  unfold numSites at h
  split at h
  · cases h
  · next h0 =>
    simp only at h
    split at h
    · next h1 => cases h; exact ⟨h0, rfl, h1⟩
    · cases h

/-- A component of the difference is at most the number of scanned sites. -/
theorem component_le {c : Cuboid} (hs : 0 < c.spacing) {cutoff : ℝ} {p q : Pos}
    (h : euclid c p q ≤ cutoff) :
    |q.x - p.x| ≤ ⌊cutoff / c.spacing⌋ ∧ |q.y - p.y| ≤ ⌊cutoff / c.spacing⌋ ∧
      |q.z - p.z| ≤ ⌊cutoff / c.spacing⌋ := by
  unfold euclid at h
  rw [mul_comm, ← le_div_iff₀ hs] at h
  have key : ∀ a : Int, (a : ℝ) ^ 2 ≤ ((p.x : ℝ) - q.x) ^ 2 + ((p.y : ℝ) - q.y) ^ 2 + ((p.z : ℝ) - q.z) ^ 2 →
      |a| ≤ ⌊cutoff / c.spacing⌋ := by
    intro a ha
    rw [Int.le_floor]
    push_cast
    exact (Real.abs_le_sqrt ha).trans h
  refine ⟨key _ ?_, key _ ?_, key _ ?_⟩ <;> push_cast <;>
    nlinarith [sq_nonneg ((p.x : ℝ) - q.x), sq_nonneg ((p.y : ℝ) - q.y), sq_nonneg ((p.z : ℝ) - q.z)]

/-- The image is not more than one period below zero on periodic axes. -/
def Low (c : Cuboid) (q : Pos) : Prop :=
  (c.xb = .periodic → -c.length ≤ q.x) ∧ (c.yb = .periodic → -c.width ≤ q.y) ∧
    (c.zb = .periodic → -c.height ≤ q.z)

theorem lattice_low {b : Boundary} {dim x v : Int} (h : lattice b dim x = .ok v) (h0 : 0 ≤ v) :
    b = .periodic → -dim ≤ x ∨ 0 ≤ x := by
  rintro rfl
  simp only [lattice, wrap] at h
  split at h
  · obtain ⟨rfl, -⟩ := chk_eq_ok.1 h; left; omega
  · right; omega

/-- One axis of the scan: the coordinate `x` is kept with lattice coordinate `v` exactly when `x` is an image
of `v` not more than one period below zero. -/
theorem lattice_keep {b : Boundary} {dim x r : Int} (hd : 0 < dim) (h : lattice b dim x = .ok r) (v : Int) :
    (r = v ∧ r ≥ 0 ∧ r < dim) ↔
      ((0 ≤ v ∧ v < dim) ∧ AxisImage b dim v x ∧ (b = .periodic → -dim ≤ x)) := by
  constructor
  · rintro ⟨rfl, h0, h1⟩
    refine ⟨⟨h0, h1⟩, lattice_image hd h, fun hb => ?_⟩
    rcases lattice_low h h0 hb with h | h <;> omega
  · rintro ⟨⟨h0, h1⟩, hi, hl⟩
    have := lattice_of_image hd h0 h1 hi hl h
    subst this
    exact ⟨rfl, h0, h1⟩

/-- The body of the innermost loop, as a function of the three scanned coordinates. -/
theorem mem_scan' {c : Cuboid} (g : Good c) {i : Int} {p : Pos} {cutoff : ℝ}
    {xs : List Int} {ylo yhi zlo zhi : Int} {α : Type _} (mk : Int → ℝ → α) {r : List α}
    (h : forEach (fun xi => do
      let xl ← lattice c.xb c.length xi
      if xl ≥ 0 ∧ xl < c.length then do
        let ys ← loopRange ylo yhi
        forEach (fun yi => do
          let yl ← lattice c.yb c.width yi
          if yl ≥ 0 ∧ yl < c.width then do
            let zs ← loopRange zlo zhi
            forEach (fun zi => do
              let zl ← lattice c.zb c.height zi
              if zl ≥ 0 ∧ zl < c.height then do
                let dist ← c.distance ⟨xi, yi, zi⟩ p
                if dist ≤ cutoff then do
                  let neigh ← c.rawIndex ⟨xl, yl, zl⟩
                  if neigh ≠ i then .ok [mk neigh dist] else .ok []
                else .ok []
              else .ok []) zs
          else .ok []) ys
      else .ok []) xs = .ok r) (w : α) :
    w ∈ r ↔ ∃ j d, w = mk j d ∧ j ≠ i ∧ ∃ q q', SiteAt c j q ∧ Image c q q' ∧ Low c q' ∧
      q'.x ∈ xs ∧ (ylo ≤ q'.y ∧ q'.y ≤ yhi) ∧ (zlo ≤ q'.z ∧ q'.z ≤ zhi) ∧
      d = euclid c p q' ∧ d ≤ cutoff := by
  rw [mem_forEach h]
  constructor
  · rintro ⟨xi, hxi, s, hs, hm⟩
    simp only [bind_eq_ok] at hs
    obtain ⟨xl, hxl, hs⟩ := hs
    split at hs
    swap
    · cases hs; cases hm
    next kx =>
    simp only [bind_eq_ok] at hs
    obtain ⟨ys, hys, hs⟩ := hs
    rw [mem_forEach hs] at hm
    obtain ⟨yi, hyi, s, hs, hm⟩ := hm
    simp only [bind_eq_ok] at hs
    obtain ⟨yl, hyl, hs⟩ := hs
    split at hs
    swap
    · cases hs; cases hm
    next ky =>
    simp only [bind_eq_ok] at hs
    obtain ⟨zs, hzs, hs⟩ := hs
    rw [mem_forEach hs] at hm
    obtain ⟨zi, hzi, s, hs, hm⟩ := hm
    simp only [bind_eq_ok] at hs
    obtain ⟨zl, hzl, hs⟩ := hs
    split at hs
    swap
    · cases hs; cases hm
    next kz =>
    simp only [bind_eq_ok] at hs
    obtain ⟨dist, hdist, hs⟩ := hs
    split at hs
    swap
    · cases hs; cases hm
    next kd =>
    simp only [bind_eq_ok] at hs
    obtain ⟨neigh, hneigh, hs⟩ := hs
    split at hs
    swap
    · cases hs; cases hm
    next kn =>
    rw [ok_inj] at hs
    subst hs
    simp only [List.mem_singleton] at hm
    obtain ⟨bx, ix, lx⟩ := (lattice_keep g.l hxl xl).1 ⟨rfl, kx⟩
    obtain ⟨by', iy, ly⟩ := (lattice_keep g.w hyl yl).1 ⟨rfl, ky⟩
    obtain ⟨bz, iz, lz⟩ := (lattice_keep g.h hzl zl).1 ⟨rfl, kz⟩
    exact ⟨neigh, dist, hm, kn, ⟨xl, yl, zl⟩, ⟨xi, yi, zi⟩, siteAt_of_rawIndex ⟨bx, by', bz⟩ hneigh, ⟨ix, iy, iz⟩,
      ⟨lx, ly, lz⟩, hxi, (loopRange_eq_ok hys).1 _ |>.1 hyi, (loopRange_eq_ok hzs).1 _ |>.1 hzi,
      distance_eq_ok hdist, kd⟩
  · rintro ⟨j, d, rfl, hji, q, q', hsite, ⟨ix, iy, iz⟩, ⟨lx, ly, lz⟩, hx, hy, hz, rfl, hd⟩
    obtain ⟨⟨bx, by', bz⟩, hj⟩ := id hsite
    obtain ⟨s, hs⟩ := forEach_isOk h _ hx
    refine ⟨q'.x, hx, s, hs, ?_⟩
    simp only [bind_eq_ok] at hs
    obtain ⟨xl, hxl, hs⟩ := hs
    obtain ⟨rfl, kx⟩ := (lattice_keep g.l hxl q.x).2 ⟨bx, ix, lx⟩
    rw [if_pos kx] at hs
    simp only [bind_eq_ok] at hs
    obtain ⟨ys, hys, hs⟩ := hs
    rw [mem_forEach hs]
    have hy' := ((loopRange_eq_ok hys).1 _).2 hy
    obtain ⟨s', hs'⟩ := forEach_isOk hs _ hy'
    refine ⟨q'.y, hy', s', hs', ?_⟩
    simp only [bind_eq_ok] at hs'
    obtain ⟨yl, hyl, hs'⟩ := hs'
    obtain ⟨rfl, ky⟩ := (lattice_keep g.w hyl q.y).2 ⟨by', iy, ly⟩
    rw [if_pos ky] at hs'
    simp only [bind_eq_ok] at hs'
    obtain ⟨zs, hzs, hs'⟩ := hs'
    rw [mem_forEach hs']
    have hz' := ((loopRange_eq_ok hzs).1 _).2 hz
    obtain ⟨s'', hs''⟩ := forEach_isOk hs' _ hz'
    refine ⟨q'.z, hz', s'', hs'', ?_⟩
    simp only [bind_eq_ok] at hs''
    obtain ⟨zl, hzl, hs''⟩ := hs''
    obtain ⟨rfl, kz⟩ := (lattice_keep g.h hzl q.z).2 ⟨bz, iz, lz⟩
    rw [if_pos kz] at hs''
    simp only [bind_eq_ok] at hs''
    obtain ⟨dist, hdist, hs''⟩ := hs''
    have hd' := distance_eq_ok hdist
    subst hd'
    rw [if_pos hd] at hs''
    simp only [bind_eq_ok] at hs''
    obtain ⟨neigh, hneigh, hs''⟩ := hs''
    have := rawIndex_eq_ok hneigh
    rw [← hj] at this
    subst this
    rw [if_pos hji] at hs''
    cases hs''
    simp

theorem mem_scan {c : Cuboid} (g : Good c) {i : Int} {p : Pos} {cutoff : ℝ}
    {xs : List Int} {ylo yhi zlo zhi : Int} {α : Type _} (mk : Int → ℝ → α)
    (hmk : ∀ a b a' b', mk a b = mk a' b' → a = a' ∧ b = b') {r : List α}
    (h : forEach (fun xi => do
      let xl ← lattice c.xb c.length xi
      if xl ≥ 0 ∧ xl < c.length then do
        let ys ← loopRange ylo yhi
        forEach (fun yi => do
          let yl ← lattice c.yb c.width yi
          if yl ≥ 0 ∧ yl < c.width then do
            let zs ← loopRange zlo zhi
            forEach (fun zi => do
              let zl ← lattice c.zb c.height zi
              if zl ≥ 0 ∧ zl < c.height then do
                let dist ← c.distance ⟨xi, yi, zi⟩ p
                if dist ≤ cutoff then do
                  let neigh ← c.rawIndex ⟨xl, yl, zl⟩
                  if neigh ≠ i then .ok [mk neigh dist] else .ok []
                else .ok []
              else .ok []) zs
          else .ok []) ys
      else .ok []) xs = .ok r) (j : Int) (d : ℝ) :
    mk j d ∈ r ↔ j ≠ i ∧ ∃ q q', SiteAt c j q ∧ Image c q q' ∧ Low c q' ∧
      q'.x ∈ xs ∧ (ylo ≤ q'.y ∧ q'.y ≤ yhi) ∧ (zlo ≤ q'.z ∧ q'.z ≤ zhi) ∧
      d = euclid c p q' ∧ d ≤ cutoff := by
  rw [mem_scan' g mk h]
  constructor
  · rintro ⟨j', d', e, hr⟩
    obtain ⟨rfl, rfl⟩ := hmk _ _ _ _ e
    exact hr
  · intro hr; exact ⟨j, d, rfl, hr⟩

theorem neighborDistances_mem {c : Cuboid} (g : Good c) (hsp : 0 < c.spacing) {i : Int} {p : Pos}
    (hp : SiteAt c i p) {cutoff : ℝ} {r : List (Int × ℝ)} (h : c.neighborDistances p cutoff = .ok r)
    (j : Int) (d : ℝ) : (j, d) ∈ r ↔ j ≠ i ∧ ∃ q q', SiteAt c j q ∧ Image c q q' ∧ Low c q' ∧
      d = euclid c p q' ∧ d ≤ cutoff := by
  simp only [neighborDistances, bind_eq_ok, chk_eq_ok] at h
  obtain ⟨n, hn, i', hi', _, ⟨rfl, -⟩, _, ⟨rfl, -⟩, _, ⟨rfl, -⟩, _, ⟨rfl, -⟩, _, ⟨rfl, -⟩, _, ⟨rfl, -⟩,
    _, -, xs, hxs, h⟩ := h
  rw [rawIndex_ok g hp, ok_inj] at hi'
  subst hi'
  rw [mem_scan g (fun a b => (a, b)) (fun a b a' b' e => by simpa using e) h]
  obtain ⟨-, rfl, -⟩ := numSites_eq_ok hn
  constructor
  · rintro ⟨hji, q, q', h1, h2, h3, h4, h5, h6, h7, h8⟩
    exact ⟨hji, q, q', h1, h2, h3, h7, h8⟩
  · rintro ⟨hji, q, q', h1, h2, h3, h7, h8⟩
    obtain ⟨e1, e2, e3⟩ := component_le hsp (h7 ▸ h8)
    rw [abs_le] at e1 e2 e3
    exact ⟨hji, q, q', h1, h2, h3, ((loopRange_eq_ok hxs).1 _).2 ⟨by omega, by omega⟩,
      ⟨by omega, by omega⟩, ⟨by omega, by omega⟩, h7, h8⟩

/-- What the scan reports, for any spacing. -/
theorem neighborDistances_sub {c : Cuboid} (g : Good c) {i : Int} {p : Pos}
    (hp : SiteAt c i p) {cutoff : ℝ} {r : List (Int × ℝ)} (h : c.neighborDistances p cutoff = .ok r)
    {j : Int} {d : ℝ} (hm : (j, d) ∈ r) : j ≠ i ∧ ∃ q q', SiteAt c j q ∧ Image c q q' ∧
      d = euclid c p q' ∧ d ≤ cutoff := by
  simp only [neighborDistances, bind_eq_ok, chk_eq_ok] at h
  obtain ⟨n, hn, i', hi', _, ⟨rfl, -⟩, _, ⟨rfl, -⟩, _, ⟨rfl, -⟩, _, ⟨rfl, -⟩, _, ⟨rfl, -⟩, _, ⟨rfl, -⟩,
    _, -, xs, hxs, h⟩ := h
  rw [rawIndex_ok g hp, ok_inj] at hi'
  subst hi'
  rw [mem_scan g (fun a b => (a, b)) (fun a b a' b' e => by simpa using e) h] at hm
  obtain ⟨hji, q, q', h1, h2, h3, h4, h5, h6, h7, h8⟩ := hm
  exact ⟨hji, q, q', h1, h2, h7, h8⟩

/-- The two searches: same list, with and without distances. -/
theorem getNeighbors_eq_map {c : Cuboid} (hb : Built c) (i : Int) (cutoff : ℝ) :
    c.getNeighbors i cutoff = (c.getNeighborDistances i cutoff).map (List.map Prod.fst) := by
  have g := good_of_built hb
  by_cases hi : ValidIndex c i
  swap
  · unfold getNeighbors getNeighborDistances; rw [checkIndex_error g hi]; rfl
  obtain ⟨p, hp⟩ := siteAt_exists g hi
  unfold getNeighbors getNeighborDistances neighborDistances
  rw [(checkIndex_ok g).2 hi, ok_bind, ok_bind, getPosition_of_siteAt g hp, ok_bind, ok_bind,
    rawIndex_ok g hp]
  cases hn : c.numSites cutoff with
  | error e => rfl
  | ok n =>
    simp only [ok_bind]
    cases chk (p.x - n) with
    | error e => rfl
    | ok xmin =>
    cases chk (p.x + n) with
    | error e => rfl
    | ok xmax =>
    cases chk (p.y - n) with
    | error e => rfl
    | ok ymin =>
    cases chk (p.y + n) with
    | error e => rfl
    | ok ymax =>
    cases chk (p.z - n) with
    | error e => rfl
    | ok zmin =>
    cases chk (p.z + n) with
    | error e => rfl
    | ok zmax =>
    cases reserve n with
    | error e => rfl
    | ok _ =>
    simp only [ok_bind]
    cases loopRange xmin xmax with
    | error e => rfl
    | ok xs =>
    simp only [ok_bind]
    apply forEach_map
    intro xi _
    cases lattice c.xb c.length xi with
    | error e => rfl
    | ok xl =>
    simp only [ok_bind]
    split
    swap
    · rfl
    cases loopRange ymin ymax with
    | error e => rfl
    | ok ys =>
    simp only [ok_bind]
    apply forEach_map
    intro yi _
    cases lattice c.yb c.width yi with
    | error e => rfl
    | ok yl =>
    simp only [ok_bind]
    split
    swap
    · rfl
    cases loopRange zmin zmax with
    | error e => rfl
    | ok zs =>
    simp only [ok_bind]
    apply forEach_map
    intro zi _
    cases lattice c.zb c.height zi with
    | error e => rfl
    | ok zl =>
    simp only [ok_bind]
    split
    swap
    · rfl
    cases c.distance ⟨xi, yi, zi⟩ p with
    | error e => rfl
    | ok d =>
    simp only [ok_bind]
    split
    swap
    · rfl
    cases c.rawIndex ⟨xl, yl, zl⟩ with
    | error e => rfl
    | ok neigh =>
    simp only [ok_bind]
    split <;> rfl

theorem getNeighborDistances_ok {c : Cuboid} (hb : Built c) {i : Int} {cutoff : ℝ} {r : List (Int × ℝ)}
    (h : c.getNeighborDistances i cutoff = .ok r) :
    ∃ p, SiteAt c i p ∧ c.neighborDistances p cutoff = .ok r := by
  have g := good_of_built hb
  have hi : ValidIndex c i := by
    by_contra hi
    unfold getNeighborDistances at h; rw [checkIndex_error g hi] at h; cases h
  obtain ⟨p, hp⟩ := siteAt_exists g hi
  unfold getNeighborDistances at h
  rw [(checkIndex_ok g).2 hi, ok_bind, getPosition_of_siteAt g hp, ok_bind] at h
  exact ⟨p, hp, h⟩

theorem getNeighbors_ok {c : Cuboid} (hb : Built c) {i : Int} {cutoff : ℝ} {l : List Int}
    (h : c.getNeighbors i cutoff = .ok l) :
    ∃ p r, SiteAt c i p ∧ c.neighborDistances p cutoff = .ok r ∧ c.getNeighborDistances i cutoff = .ok r ∧
      l = r.map Prod.fst := by
  rw [getNeighbors_eq_map hb] at h
  cases hr : c.getNeighborDistances i cutoff with
  | error e => rw [hr] at h; cases h
  | ok r =>
    rw [hr] at h
    obtain ⟨p, hp, h'⟩ := getNeighborDistances_ok hb hr
    exact ⟨p, r, hp, h', rfl, by cases h; rfl⟩

/-- Image of site `j` within the cutoff, with or without the restriction on how far below zero. -/
theorem within_low {c : Cuboid} (hsp : 0 ≤ c.spacing) {p q q' : Pos} (hp : InBox c p) (hq : InBox c q)
    (h : Image c q q') : ∃ q'', Image c q q'' ∧ Low c q'' ∧ euclid c p q'' ≤ euclid c p q' := by
  obtain ⟨ix, iy, iz⟩ := h
  obtain ⟨x, ax, bx, lx⟩ := nearest_image hp.1.1 hp.1.2 hq.1.1 hq.1.2 ix
  obtain ⟨y, ay, by', ly⟩ := nearest_image hp.2.1.1 hp.2.1.2 hq.2.1.1 hq.2.1.2 iy
  obtain ⟨z, az, bz, lz⟩ := nearest_image hp.2.2.1 hp.2.2.2 hq.2.2.1 hq.2.2.2 iz
  refine ⟨⟨x, y, z⟩, ⟨ax, ay, az⟩, ⟨lx, ly, lz⟩, ?_⟩
  unfold euclid
  apply mul_le_mul_of_nonneg_left _ hsp
  apply Real.sqrt_le_sqrt
  have cast : ∀ a b e : Int, (a - b) ^ 2 ≤ (e - b) ^ 2 → ((b : ℝ) - a) ^ 2 ≤ ((b : ℝ) - e) ^ 2 := by
    intro a b e h
    have : ((a : ℝ) - b) ^ 2 ≤ ((e : ℝ) - b) ^ 2 := by exact_mod_cast h
    linarith [sub_sq_comm (a : ℝ) b, sub_sq_comm (e : ℝ) b]
  have := cast _ _ _ bx
  have := cast _ _ _ by'
  have := cast _ _ _ bz
  simp only
  linarith

theorem neighborDistances_ids {c : Cuboid} (g : Good c) (hsp : 0 < c.spacing) {i : Int} {p : Pos}
    (hp : SiteAt c i p) {cutoff : ℝ} {r : List (Int × ℝ)} (h : c.neighborDistances p cutoff = .ok r)
    (j : Int) : j ∈ r.map Prod.fst ↔ j ≠ i ∧ WithinCutoff c i j cutoff := by
  simp only [List.mem_map, Prod.exists, exists_and_right, exists_eq_right]
  constructor
  · rintro ⟨d, hd⟩
    obtain ⟨hji, q, q', h1, h2, -, rfl, h4⟩ := (neighborDistances_mem g hsp hp h j d).1 hd
    exact ⟨hji, p, q, q', hp, h1, h2, h4⟩
  · rintro ⟨hji, p', q, q', hp', hq, himg, hd⟩
    have := siteAt_unique g hp hp'
    subst this
    obtain ⟨q'', i1, i2, i3⟩ := within_low hsp.le hp.1 hq.1 himg
    exact ⟨euclid c p q'', (neighborDistances_mem g hsp hp h j _).2 ⟨hji, q, q'', hq, i1, i2, rfl, i3.trans hd⟩⟩

theorem within_symm {c : Cuboid} {i j : Int} {cutoff : ℝ} (h : WithinCutoff c i j cutoff) :
    WithinCutoff c j i cutoff := by
  obtain ⟨p, q, q', hp, hq, ⟨ix, iy, iz⟩, hd⟩ := h
  have key : ∀ (b : Boundary) (dim a x x' : Int), AxisImage b dim x x' →
      AxisImage b dim a (a + (x - x')) := by
    intro b dim a x x' h
    cases b with
    | fixed => have h : x' = x := h; subst h; show a + (x' - x') = a; ring
    | periodic => obtain ⟨k, rfl⟩ := h; exact ⟨-k, by ring⟩
  refine ⟨q, p, ⟨p.x + (q.x - q'.x), p.y + (q.y - q'.y), p.z + (q.z - q'.z)⟩, hq, hp,
    ⟨key _ _ _ _ _ ix, key _ _ _ _ _ iy, key _ _ _ _ _ iz⟩, ?_⟩
  refine le_trans (le_of_eq ?_) hd
  unfold euclid
  congr 2
  push_cast
  ring

end Cuboid
end Mythical
