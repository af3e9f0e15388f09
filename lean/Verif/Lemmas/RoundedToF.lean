import Verif.Model.RoundedToF
import Verif.Spec.RoundedToF
import Verif.Props.RoundedMarcus
import Verif.Props.RoundedCuboid
import Verif.Lemmas.ToF

/-! # Helper lemmas for the rates of the time-of-flight example in rounded arithmetic -/

set_option linter.unusedSectionVars false

namespace Mythical.Rounded
open Mythical Cuboid CuboidSpec RoundSpec ToF ToFSpec
variable {fl ex sq rt : ℝ → ℝ} {ε : ℝ}

/-! ## The search of the whole lattice -/

theorem latticeWrites_rounded {c : Cuboid} (g : Good c) {i : Int} {p : Pos} (hp : SiteAt c i p) {cutoff : ℝ} {n : Int}
    {s : List (Int × Int × ℝ)} (h : latticeWrites fl rt c n cutoff i = .ok s) (w : Int × Int × ℝ) :
    w ∈ s ↔ w.1 = i ∧ w.2.1 ≠ i ∧ ∃ q q', SiteAt c w.2.1 q ∧ Image c q q' ∧ Low c q' ∧ Below p q' ∧
      (p.x - n ≤ q'.x ∧ p.y - n ≤ q'.y ∧ p.z - n ≤ q'.z) ∧ w.2.2 = fl (rt (steps q' p) * c.spacing) ∧ w.2.2 ≤ cutoff := by
  unfold latticeWrites at h
  rw [rawPos_of_siteAt g hp, ok_bind] at h
  simp only [bind_eq_ok, chk_eq_ok] at h
  obtain ⟨_, ⟨rfl, -⟩, _, ⟨rfl, -⟩, _, ⟨rfl, -⟩, xs, hxs, h⟩ := h
  rw [mem_scan_rounded g (fun a b => (i, a, b)) h]
  constructor
  · rintro ⟨j, d, rfl, hji, q, q', h1, h2, h3, h4, h5, h6, h7, h8⟩
    have h4 := ((loopRange_eq_ok hxs).1 _).1 h4
    exact ⟨rfl, hji, q, q', h1, h2, h3, ⟨h4.2, h5.2, h6.2⟩, ⟨h4.1, h5.1, h6.1⟩, h7, h8⟩
  · rintro ⟨rfl, hji, q, q', h1, h2, h3, ⟨b1, b2, b3⟩, ⟨c1, c2, c3⟩, h7, h8⟩
    exact ⟨w.2.1, w.2.2, rfl, hji, q, q', h1, h2, h3, ((loopRange_eq_ok hxs).1 _).2 ⟨c1, b1⟩, ⟨c2, b2⟩, ⟨c3, b3⟩, h7, h8⟩

theorem getAll_rounded {c : Cuboid} {cutoff : ℝ} {m : IMap (IMap ℝ)} (h : getAllNeighborDistances fl rt c cutoff = .ok m) :
    ∃ ws is, m = fill ws [] ∧ (∀ i, i ∈ is ↔ ValidIndex c i) ∧
      forEach (latticeWrites fl rt c ⌊fl (cutoff / c.spacing)⌋ cutoff) is = .ok ws := by
  unfold getAllNeighborDistances at h
  simp only [bind_eq_ok, chk_eq_ok, ok_inj] at h
  obtain ⟨n, hn, _, ⟨rfl, -⟩, _, ⟨rfl, -⟩, is, his, ws, hws, rfl⟩ := h
  obtain ⟨-, rfl, -⟩ := numSites_rounded hn
  refine ⟨ws, is, rfl, fun i => ?_, hws⟩
  rw [(loopRange_eq_ok his).1]
  unfold ValidIndex; omega

theorem getAll_rounded_mem {c : Cuboid} (g : Good c) {cutoff : ℝ} {n : Int} {ws is} (his : ∀ i, i ∈ is ↔ ValidIndex c i)
    (h : forEach (latticeWrites fl rt c n cutoff) is = .ok ws) (i j : Int) (d : ℝ) :
    (i, j, d) ∈ ws ↔ j ≠ i ∧ ∃ p q q', SiteAt c i p ∧ SiteAt c j q ∧ Image c q q' ∧ Low c q' ∧ Below p q' ∧
      (p.x - n ≤ q'.x ∧ p.y - n ≤ q'.y ∧ p.z - n ≤ q'.z) ∧ d = fl (rt (steps q' p) * c.spacing) ∧ d ≤ cutoff := by
  rw [mem_forEach h]
  constructor
  · rintro ⟨i', hi', s, hs, hm⟩
    obtain ⟨p, hp⟩ := siteAt_exists g ((his _).1 hi')
    obtain ⟨rfl, h2, q, q', h3⟩ := (latticeWrites_rounded g hp hs _).1 hm
    exact ⟨h2, p, q, q', hp, h3⟩
  · rintro ⟨hji, p, q, q', hp, h3⟩
    have hi := (his _).2 (siteAt_bounds g hp)
    obtain ⟨s, hs⟩ := forEach_isOk h _ hi
    exact ⟨i, hi, s, hs, (latticeWrites_rounded g hp hs _).2 ⟨rfl, hji, q, q', h3⟩⟩

theorem neat_getAll_rounded {c : Cuboid} {cutoff : ℝ} {m : IMap (IMap ℝ)} (h : getAllNeighborDistances fl rt c cutoff = .ok m) :
    Neat m := by
  obtain ⟨ws, is, rfl, -, -⟩ := getAll_rounded h
  exact neat_fill ws ⟨IMap.wf_nil, by simp⟩

/-- Going from `p` to the image `q'` of `q` is going back from `q` to an image of `p`. -/
theorem image_back {c : Cuboid} {p q q' : Pos} (h : Image c q q') :
    Image c p ⟨p.x + (q.x - q'.x), p.y + (q.y - q'.y), p.z + (q.z - q'.z)⟩ ∧
      steps q' p = steps ⟨p.x + (q.x - q'.x), p.y + (q.y - q'.y), p.z + (q.z - q'.z)⟩ q ∧
      euclid c p q' = euclid c q ⟨p.x + (q.x - q'.x), p.y + (q.y - q'.y), p.z + (q.z - q'.z)⟩ := by
  have key : ∀ (b : Boundary) (dim a x x' : Int), AxisImage b dim x x' → AxisImage b dim a (a + (x - x')) := by
    intro b dim a x x' h
    cases b with
    | fixed => have h : x' = x := h; subst h; show a + (x' - x') = a; ring
    | periodic => obtain ⟨k, rfl⟩ := h; exact ⟨-k, by ring⟩
  refine ⟨⟨key _ _ _ _ _ h.1, key _ _ _ _ _ h.2.1, key _ _ _ _ _ h.2.2⟩, by unfold steps; ring, ?_⟩
  unfold euclid
  congr 2
  push_cast
  ring

/-! ## One rate -/

/-- The energy in the field, as computed. -/
theorem energy_rounded (R : Rounding fl ε) (h0 : 0 ≤ ε) (h1 : 100 * ε ≤ 1) (E F d s q : ℝ) :
    |fl (E - fl (fl (F * fl (d * s)) * q)) - (E - F * (d * s) * q)| ≤ 5 * ε * (|E| + |F * (d * s) * q|) := by
  set P := F * (d * s) * q with hP
  set x := fl (d * s) with hx
  have a1 : |F * x * q - P| ≤ ε * |P| := by
    have e : F * x * q - P = F * q * (x - d * s) := by rw [hP]; ring
    rw [e, abs_mul, show |P| = |F * q| * |d * s| by rw [← abs_mul, hP]; congr 1; ring]
    have := mul_le_mul_of_nonneg_left (R.err (d * s)) (abs_nonneg (F * q))
    linarith
  have a2 : |fl (F * x) * q - F * x * q| ≤ ε * |F * x * q| := by
    rw [← sub_mul, abs_mul]
    have := mul_le_mul_of_nonneg_right (R.err (F * x)) (abs_nonneg q)
    rw [mul_assoc ε, ← abs_mul (F * x) q] at this
    exact this
  have a3 := R.err (fl (F * x) * q)
  set y := fl (F * x) * q
  set z := fl y
  have p0 := abs_nonneg P
  have b1 : |F * x * q| ≤ (1 + ε) * |P| := by
    have : F * x * q = (F * x * q - P) + P := by ring
    rw [this]; exact (abs_add_le _ _).trans (by linarith)
  have b2 : |y| ≤ (1 + ε) * |F * x * q| := by
    have : y = (y - F * x * q) + F * x * q := by ring
    rw [this]; exact (abs_add_le _ _).trans (by linarith)
  have c1 : |F * x * q| ≤ 101 / 100 * |P| := by nlinarith
  have c2 : |y| ≤ 103 / 100 * |P| := by nlinarith [abs_nonneg (F * x * q)]
  have d1 : |z - P| ≤ 31 / 10 * ε * |P| := by
    have e : z - P = (z - y) + ((y - F * x * q) + (F * x * q - P)) := by ring
    rw [e]
    refine (abs_add_le _ _).trans (le_trans (add_le_add a3 ((abs_add_le _ _).trans (add_le_add a2 a1))) ?_)
    nlinarith [mul_le_mul_of_nonneg_left c1 h0, mul_le_mul_of_nonneg_left c2 h0]
  have d2 : |z| ≤ 104 / 100 * |P| := by
    have e : z = (z - P) + P := by ring
    rw [e]; refine (abs_add_le _ _).trans ?_; nlinarith
  have d3 := R.err (E - z)
  have d4 : |E - z| ≤ |E| + |z| := abs_sub _ _
  have e : fl (E - z) - (E - P) = (fl (E - z) - (E - z)) + (P - z) := by ring
  rw [e]
  refine (abs_add_le _ _).trans ?_
  rw [abs_sub_comm P z]
  have := mul_le_mul_of_nonneg_left d4 h0
  have := mul_le_mul_of_nonneg_left d2 h0
  have := abs_nonneg E
  nlinarith

/-- The exponent of the rate for an energy `e` that is `Ej - P` up to rounding, in either direction. -/
theorem exponent_rounded (R : Rounding fl ε) (L : Libm ex sq rt ε) (h0 : 0 ≤ ε) (h1 : 100 * ε ≤ 1) {lam T D Ei Ej P e : ℝ}
    (hl : 0 < lam) (hT : 0 < T) (hD : Rel ε 4 (4 * lam * kB * T) D) (he : |e - (Ej - P)| ≤ 5 * ε * (|Ej| + |P|)) :
    |fl (fl (-1 * sq (fl (fl (lam + e) - Ei))) / D) - -1 * (lam + (Ej - P) - Ei) ^ 2 / (4 * lam * kB * T)| ≤
      34 * (|lam| + |Ei| + |Ej| + |P|) ^ 2 / (4 * lam * kB * T) * ε ∧
    |fl (fl (-1 * sq (fl (fl (lam + Ei) - e))) / D) - -1 * (lam + Ei - (Ej - P)) ^ 2 / (4 * lam * kB * T)| ≤
      34 * (|lam| + |Ei| + |Ej| + |P|) ^ 2 / (4 * lam * kB * T) * ε := by
  have k1 := kB_pos
  have X := marcus_exponent R L h0 h1 (Ei := Ei) (Ej := e) hl hT hD
  have Y := marcus_exponent R L h0 h1 (Ei := e) (Ej := Ei) hl hT hD
  set D0 := 4 * lam * kB * T with hD0
  have hD0p : 0 < D0 := by rw [hD0]; positivity
  rw [show |lam| + |e| + |Ei| = |lam| + |Ei| + |e| by ring] at Y
  set M := |lam| + |Ei| + |Ej| + |P| with hM
  have n1 := abs_nonneg lam; have n2 := abs_nonneg Ei; have n3 := abs_nonneg Ej; have n4 := abs_nonneg P; have n5 := abs_nonneg e
  have hM0 : 0 ≤ M := by rw [hM]; positivity
  have hδ : |e - (Ej - P)| ≤ 5 * ε * M := he.trans (mul_le_mul_of_nonneg_left (by rw [hM]; linarith) (by linarith))
  have heM : |lam| + |Ei| + |e| ≤ 105 / 100 * M := by
    have : |e| ≤ |e - (Ej - P)| + (|Ej| + |P|) := by
      have q : e = (e - (Ej - P)) + (Ej - P) := by ring
      have := abs_sub Ej P
      calc |e| = |(e - (Ej - P)) + (Ej - P)| := by rw [← q]
        _ ≤ _ := (abs_add_le _ _).trans (by linarith)
    have : |e - (Ej - P)| ≤ 5 / 100 * M := hδ.trans (by nlinarith)
    rw [hM] at this ⊢; linarith
  have hsq : (|lam| + |Ei| + |e|) ^ 2 ≤ 111 / 100 * M ^ 2 := by
    have : 0 ≤ |lam| + |Ei| + |e| := by positivity
    nlinarith
  have main : ∀ G G' : ℝ, |G - G'| = |e - (Ej - P)| → |G'| ≤ M → |-1 * G ^ 2 / D0 - -1 * G' ^ 2 / D0| ≤ 103 / 10 * ε * (M ^ 2 / D0) := by
    intro G G' q hG'
    rw [← q] at hδ
    have e1 : -1 * G ^ 2 / D0 - -1 * G' ^ 2 / D0 = (G' - G) * (G' + G) / D0 := by ring
    rw [e1, abs_div, abs_of_pos hD0p, div_le_iff₀ hD0p, mul_assoc, div_mul_cancel₀ _ hD0p.ne', abs_mul, abs_sub_comm]
    have h2 : |G' + G| ≤ 205 / 100 * M := by
      have e2 : G' + G = (G - G') + (G' + G') := by ring
      rw [e2]
      refine (abs_add_le _ _).trans ?_
      have := abs_add_le G' G'
      nlinarith
    calc |G - G'| * |G' + G| ≤ (5 * ε * M) * (205 / 100 * M) := mul_le_mul hδ h2 (abs_nonneg _) (by positivity)
      _ ≤ 103 / 10 * ε * M ^ 2 := by nlinarith [mul_nonneg h0 (sq_nonneg M)]
  have hEP : |Ej - P| ≤ |Ej| + |P| := abs_sub _ _
  have hx : 21 * (|lam| + |Ei| + |e|) ^ 2 / D0 * ε ≤ 237 / 10 * ε * (M ^ 2 / D0) := by
    have q : 21 * (|lam| + |Ei| + |e|) ^ 2 / D0 ≤ 237 / 10 * (M ^ 2 / D0) := by
      rw [div_le_iff₀ hD0p, mul_assoc, div_mul_cancel₀ _ hD0p.ne']
      nlinarith [sq_nonneg M]
    have := mul_le_mul_of_nonneg_right q h0
    linarith
  have e34 : 34 * M ^ 2 / D0 * ε = 34 * ε * (M ^ 2 / D0) := by ring
  rw [e34]
  constructor
  · have m := main (lam + e - Ei) (lam + (Ej - P) - Ei) (by congr 1; ring) (by
      have := abs_sub (lam + (Ej - P)) Ei
      have := abs_add_le lam (Ej - P)
      rw [hM]; linarith)
    have := abs_sub_le (fl (fl (-1 * sq (fl (fl (lam + e) - Ei))) / D)) (-1 * (lam + e - Ei) ^ 2 / D0) (-1 * (lam + (Ej - P) - Ei) ^ 2 / D0)
    linarith
  · have m := main (lam + Ei - e) (lam + Ei - (Ej - P)) (by rw [abs_sub_comm]; congr 1; ring) (by
      have := abs_sub (lam + Ei) (Ej - P)
      have := abs_add_le lam Ei
      rw [hM]; linarith)
    have := abs_sub_le (fl (fl (-1 * sq (fl (fl (lam + Ei) - e))) / D)) (-1 * (lam + Ei - e) ^ 2 / D0) (-1 * (lam + Ei - (Ej - P)) ^ 2 / D0)
    linarith

/-- The coupling. -/
theorem coupling_rounded (R : Rounding fl ε) (L : Libm ex sq rt ε) (h0 : 0 ≤ ε) (h1 : 100 * ε ≤ 1) (A al : ℝ) {d : ℝ} (hd : 0 ≤ d) :
    ∃ u, |u - -1 * al * d| ≤ 21 / 10 * ε * (|al| * d) ∧
      Rel ε 4 (A * A * Real.exp (2 * u)) (fl (A * ex (fl (fl (-1 * al) * d))) * fl (A * ex (fl (fl (-1 * al) * d)))) := by
  have hlt : ε < 1 := by linarith
  refine ⟨fl (fl (-1 * al) * d), ?_, ?_⟩
  · have a1 : |fl (-1 * al) * d - -1 * al * d| ≤ ε * (|al| * d) := by
      rw [← sub_mul, abs_mul, abs_of_nonneg hd]
      have := mul_le_mul_of_nonneg_right (R.err (-1 * al)) hd
      rw [show |-1 * al| = |al| by rw [neg_one_mul, abs_neg]] at this
      linarith
    have a2 := R.err (fl (-1 * al) * d)
    have a3 : |-1 * al * d| = |al| * d := by rw [neg_one_mul, abs_mul, abs_neg, abs_of_nonneg hd]
    have a4 : |fl (-1 * al) * d| ≤ (1 + ε) * (|al| * d) := by
      have e : fl (-1 * al) * d = (fl (-1 * al) * d - -1 * al * d) + -1 * al * d := by ring
      rw [e]; refine (abs_add_le _ _).trans ?_; rw [a3]; linarith
    have := abs_sub_le (fl (fl (-1 * al) * d)) (fl (-1 * al) * d) (-1 * al * d)
    have q : 0 ≤ |al| * d := mul_nonneg (abs_nonneg _) hd
    have := mul_le_mul_of_nonneg_left a4 h0
    nlinarith [mul_nonneg h0 q]
  · set u := fl (fl (-1 * al) * d)
    have r1 : Rel ε 1 (Real.exp u) (ex u) := Rel.of_abs (Real.exp_pos u).le hlt.le (L.exp u)
    have r2 : Rel ε 1 (|A| * Real.exp u) (|A| * ex u) := by
      have := (Rel.refl h0 hlt.le (abs_nonneg A)).mul h0 hlt.le r1
      exact this.mono h0 hlt.le (by norm_num)
    have r3 : Rel ε 1 (|A| * ex u) |fl (A * ex u)| := by
      refine Rel.of_abs r2.right hlt.le ?_
      have := R.err (A * ex u)
      rw [abs_mul, abs_of_nonneg r1.right] at this
      refine le_trans ?_ this
      have e : |A| * ex u = |A * ex u| := by rw [abs_mul, abs_of_nonneg r1.right]
      rw [e]
      exact abs_abs_sub_abs_le _ _
    have r4 := r2.trans h0 hlt.le r3
    have r5 := r4.mul h0 hlt.le r4
    rw [abs_mul_abs_self] at r5
    have e : |A| * Real.exp u * (|A| * Real.exp u) = A * A * Real.exp (2 * u) := by
      rw [two_mul, Real.exp_add, ← abs_mul_abs_self A]; ring
    rw [e] at r5
    exact r5.mono h0 hlt.le (by norm_num)

/-- A number within `1 - η` both ways. -/
theorem factor_of_rel {x y a b η c : ℝ} {m : Nat} (h0 : 0 ≤ ε) (h1 : ε < 1) (hc : 0 ≤ c) (r : Rel ε m (c * Real.exp a) y)
    (hx : x = c * Real.exp b) {z : ℝ} (hz : 0 ≤ z) (hab : |a - b| ≤ z) (hη : m * ε + z ≤ η) :
    (1 - η) * x ≤ y ∧ (1 - η) * y ≤ x := by
  have f1 : 1 - m * ε ≤ (1 - ε) ^ m := one_sub_pow h0 h1.le m
  have f2 : 1 - z ≤ Real.exp (-z) := by have := Real.add_one_le_exp (-z); linarith
  obtain ⟨x1, x2⟩ := abs_le.1 hab
  have g1 : Real.exp (-z) * Real.exp b ≤ Real.exp a := by rw [← Real.exp_add]; exact Real.exp_le_exp.2 (by linarith)
  have g2 : Real.exp (-z) * Real.exp a ≤ Real.exp b := by rw [← Real.exp_add]; exact Real.exp_le_exp.2 (by linarith)
  have hf0 : 0 ≤ (1 - ε) ^ m := pow_nonneg (by linarith) _
  have hez := (Real.exp_pos (-z)).le
  have hm : 0 ≤ (m : ℝ) * ε := by positivity
  have hF : 1 - η ≤ (1 - ε) ^ m * Real.exp (-z) := by
    by_cases q : m * ε ≤ 1 ∧ z ≤ 1
    · calc 1 - η ≤ (1 - m * ε) * (1 - z) := by nlinarith
        _ ≤ (1 - ε) ^ m * Real.exp (-z) := mul_le_mul f1 f2 (by linarith) hf0
    · have : 0 ≤ (1 - ε) ^ m * Real.exp (-z) := mul_nonneg hf0 hez
      have : 1 < η ∨ 1 < η := by
        by_cases q1 : m * ε ≤ 1
        · have : ¬ z ≤ 1 := fun q2 => q ⟨q1, q2⟩
          push Not at this
          left; linarith
        · push Not at q1
          left; linarith
      rcases this with t | t <;> linarith
  have hx0 : 0 ≤ x := by rw [hx]; exact mul_nonneg hc (Real.exp_pos _).le
  constructor
  · refine le_trans (mul_le_mul_of_nonneg_right hF hx0) (le_trans ?_ r.low)
    rw [mul_assoc]
    refine mul_le_mul_of_nonneg_left ?_ hf0
    rw [hx]
    calc Real.exp (-z) * (c * Real.exp b) = c * (Real.exp (-z) * Real.exp b) := by ring
      _ ≤ _ := mul_le_mul_of_nonneg_left g1 hc
  · refine le_trans (mul_le_mul_of_nonneg_right hF r.right) ?_
    rw [mul_comm ((1 - ε) ^ m), mul_assoc]
    refine le_trans (mul_le_mul_of_nonneg_left r.high hez) ?_
    rw [hx]
    calc Real.exp (-z) * (c * Real.exp a) = c * (Real.exp (-z) * Real.exp a) := by ring
      _ ≤ _ := mul_le_mul_of_nonneg_left g2 hc

/-- Two such steps. -/
theorem factor_compose {z w k θ y η : ℝ} (hz : 0 ≤ z) (hk : 0 ≤ k) (hθ : 0 ≤ θ) (hy : 0 ≤ y) (hsum : θ + y ≤ η) (hη : 2 * η ≤ 1)
    (f1 : (1 - y) * z ≤ w) (f2 : (1 - y) * w ≤ z) (g1 : (1 - θ) * w ≤ k) (g2 : (1 - θ) * k ≤ w) : |k - z| ≤ 2 * η * z := by
  have hp : (1 - η) ≤ (1 - θ) * (1 - y) := by nlinarith [mul_nonneg hθ hy]
  have u1 : (1 - η) * z ≤ k := by
    calc (1 - η) * z ≤ (1 - θ) * (1 - y) * z := mul_le_mul_of_nonneg_right hp hz
      _ = (1 - θ) * ((1 - y) * z) := by ring
      _ ≤ (1 - θ) * w := mul_le_mul_of_nonneg_left f1 (by linarith)
      _ ≤ k := g1
  have u2 : (1 - η) * k ≤ z := by
    calc (1 - η) * k ≤ (1 - θ) * (1 - y) * k := mul_le_mul_of_nonneg_right hp hk
      _ = (1 - y) * ((1 - θ) * k) := by ring
      _ ≤ (1 - y) * w := mul_le_mul_of_nonneg_left g2 (by linarith)
      _ ≤ z := f2
  have h0 : 0 ≤ η := by linarith
  clear f1 f2 g1 g2 hp hsum
  rw [abs_le]
  have hk2 : k ≤ 2 * z := by nlinarith
  constructor
  · nlinarith
  · have := mul_le_mul_of_nonneg_left hk2 h0
    linarith

/-- Two numbers close to the same. -/
theorem factor_between {z k k' η : ℝ} (hz : 0 ≤ z) (hη : 4 * η ≤ 1) (h0 : 0 ≤ η)
    (f1 : (1 - η) * z ≤ k) (f2 : (1 - η) * k ≤ z) (g1 : (1 - η) * z ≤ k') (g2 : (1 - η) * k' ≤ z) : |k - k'| ≤ 4 * η * k' := by
  have key : ∀ {k k' : ℝ}, (1 - η) * z ≤ k → (1 - η) * k' ≤ z → (1 - 2 * η) * k' ≤ k ∧ 0 ≤ k := by
    intro k k' a b
    have hk : 0 ≤ k := le_trans (mul_nonneg (by linarith) hz) a
    refine ⟨?_, hk⟩
    by_cases q : 0 ≤ k'
    · calc (1 - 2 * η) * k' ≤ (1 - η) * (1 - η) * k' := mul_le_mul_of_nonneg_right (by nlinarith) q
        _ = (1 - η) * ((1 - η) * k') := by ring
        _ ≤ (1 - η) * z := mul_le_mul_of_nonneg_left b (by linarith)
        _ ≤ k := a
    · push Not at q
      exact (mul_nonpos_of_nonneg_of_nonpos (by linarith) q.le).trans hk
  obtain ⟨a, a0⟩ := key f1 g2
  obtain ⟨b, b0⟩ := key g1 f2
  have h2 : k ≤ 2 * k' := by nlinarith
  have := mul_le_mul_of_nonneg_left h2 h0
  rw [abs_le]
  constructor <;> nlinarith

/-- The ratio of two such numbers. -/
theorem factor_ratio {x y k k' B η : ℝ} (hB : 0 < B) (hxB : x = B * y) (hk : 0 < k) (hk' : 0 < k') (hη0 : 0 ≤ η) (hη : 4 * η ≤ 1)
    (x1 : (1 - η) * x ≤ k) (x2 : (1 - η) * k ≤ x) (y1 : (1 - η) * y ≤ k') (y2 : (1 - η) * k' ≤ y) :
    |k / k' - B| ≤ 4 * η * B := by
  have q1 : k / k' ≤ (1 + 4 * η) * B := by
    rw [div_le_iff₀ hk']
    have a1 : (1 - η) ^ 2 * k ≤ B * k' := by
      calc (1 - η) ^ 2 * k = (1 - η) * ((1 - η) * k) := by ring
        _ ≤ (1 - η) * x := mul_le_mul_of_nonneg_left x2 (by linarith)
        _ = B * ((1 - η) * y) := by rw [hxB]; ring
        _ ≤ B * k' := mul_le_mul_of_nonneg_left y1 hB.le
    have a2 : 1 ≤ (1 + 4 * η) * (1 - η) ^ 2 := by nlinarith [mul_nonneg hη0 hη0, mul_nonneg hη0 (mul_nonneg hη0 hη0)]
    calc k = 1 * k := by ring
      _ ≤ (1 + 4 * η) * (1 - η) ^ 2 * k := mul_le_mul_of_nonneg_right a2 hk.le
      _ = (1 + 4 * η) * ((1 - η) ^ 2 * k) := by ring
      _ ≤ (1 + 4 * η) * (B * k') := mul_le_mul_of_nonneg_left a1 (by linarith)
      _ = (1 + 4 * η) * B * k' := by ring
  have q2 : (1 - 4 * η) * B ≤ k / k' := by
    rw [le_div_iff₀ hk']
    have a1 : (1 - η) ^ 2 * (B * k') ≤ k := by
      calc (1 - η) ^ 2 * (B * k') = (1 - η) * (B * ((1 - η) * k')) := by ring
        _ ≤ (1 - η) * (B * y) := mul_le_mul_of_nonneg_left (mul_le_mul_of_nonneg_left y2 hB.le) (by linarith)
        _ = (1 - η) * x := by rw [hxB]
        _ ≤ k := x1
    have a2 : 1 - 4 * η ≤ (1 - η) ^ 2 := by nlinarith
    calc (1 - 4 * η) * B * k' = (1 - 4 * η) * (B * k') := by ring
      _ ≤ (1 - η) ^ 2 * (B * k') := mul_le_mul_of_nonneg_right a2 (mul_pos hB hk').le
      _ ≤ k := a1
  rw [abs_le]
  constructor <;> linarith

/-- What `getRate` computes. -/
noncomputable def rateOf (fl ex sq : ℝ → ℝ) (lam D A Ei Ej H : ℝ) : ℝ :=
  fl (fl (fl (A * H) * H) * ex (fl (fl (-1 * sq (fl (fl (lam + Ej) - Ei))) / D)))

/-- The energy of a charge on `j` in the field, as seen from `i`, as computed. -/
noncomputable def energyOf (fl : ℝ → ℝ) (c : Cuboid) (p : Params) (E : Int → ℝ) (x : Int → Int) (i j : Int) : ℝ :=
  fl (E j - fl (fl (p.field * fl (((x j - x i : Int) : ℝ) * c.spacing)) * p.charge))

/-- The coupling at distance `d`, as computed. -/
noncomputable def couplingOf (fl ex : ℝ → ℝ) (p : Params) (d : ℝ) : ℝ := fl (p.A * ex (fl (fl (-1 * p.alpha) * d)))

/-- `k` is the rate from `i` to `j` as computed when the loop is at `i`, or when it is at `j`. -/
def Written (fl ex sq : ℝ → ℝ) (D A : ℝ) (c : Cuboid) (p : Params) (E : Int → ℝ) (x : Int → Int) (i j : Int) (d k : ℝ) : Prop :=
  k = rateOf fl ex sq p.lambda D A (E i) (energyOf fl c p E x i j) (couplingOf fl ex p d) ∨
  k = rateOf fl ex sq p.lambda D A (energyOf fl c p E x j i) (E j) (couplingOf fl ex p d)

/-- Either way the rate is right up to rounding. -/
theorem written_factor (R : Rounding fl ε) (L : Libm ex sq rt ε) (h0 : 0 ≤ ε) (h1 : 100 * ε ≤ 1) {c : Cuboid} {p : Params}
    (hl : 0 < p.lambda) (hT : 0 < p.temp) {D A : ℝ} (hD : Rel ε 4 (4 * p.lambda * kB * p.temp) D)
    (hA : Rel ε 12 (marcusA p.temp) A) {E : Int → ℝ} {x : Int → Int} {i j : Int} {d k η : ℝ} (hd : 0 ≤ d)
    (hη : (20 + 42 / 10 * (|p.alpha| * d) + 34 * (|p.lambda| + |E i| + |E j| +
      |p.field * (((x j - x i : Int) : ℝ) * c.spacing) * p.charge|) ^ 2 / (4 * p.lambda * kB * p.temp)) * ε ≤ η)
    (hk : Written fl ex sq D A c p E x i j d k) :
    (1 - η) * closed c p E x i j d ≤ k ∧ (1 - η) * k ≤ closed c p E x i j d ∧ 0 ≤ k ∧ 0 ≤ closed c p E x i j d ∧
      (k = 0 ↔ p.A = 0) ∧ (closed c p E x i j d = 0 ↔ p.A = 0) := by
  have hlt : ε < 1 := by linarith
  have hA0 := marcusA_pos hT
  have k1 := kB_pos
  obtain ⟨u, hu, rH⟩ := coupling_rounded R L h0 h1 p.A p.alpha hd
  set H := fl (p.A * ex (fl (fl (-1 * p.alpha) * d))) with hH
  set P := p.field * (((x j - x i : Int) : ℝ) * c.spacing) * p.charge with hP
  set b := -1 * (p.lambda + (E j - P) - E i) ^ 2 / (4 * p.lambda * kB * p.temp) with hb
  set X := 34 * (|p.lambda| + |E i| + |E j| + |P|) ^ 2 / (4 * p.lambda * kB * p.temp) * ε with hX
  have hX0 : 0 ≤ X := by rw [hX]; positivity
  -- the computed exponent
  obtain ⟨a, ha, hka⟩ : ∃ a, |a - b| ≤ X ∧ k = fl (fl (fl (A * H) * H) * ex a) := by
    rcases hk with hk | hk
    · have he := energy_rounded R h0 h1 (E j) p.field ((x j - x i : Int) : ℝ) c.spacing p.charge
      obtain ⟨q, -⟩ := exponent_rounded R L h0 h1 (Ei := E i) (Ej := E j) (P := P) hl hT hD he
      exact ⟨_, q, hk⟩
    · have he := energy_rounded R h0 h1 (E i) p.field ((x i - x j : Int) : ℝ) c.spacing p.charge
      have hneg : p.field * (((x i - x j : Int) : ℝ) * c.spacing) * p.charge = -P := by rw [hP]; push_cast; ring
      rw [hneg] at he
      obtain ⟨-, q⟩ := exponent_rounded R L h0 h1 (Ei := E j) (Ej := E i) (P := -P) hl hT hD he
      refine ⟨_, ?_, hk⟩
      rw [abs_neg, show |p.lambda| + |E j| + |E i| + |P| = |p.lambda| + |E i| + |E j| + |P| by ring,
        show p.lambda + E j - (E i - -P) = p.lambda + (E j - P) - E i by ring] at q
      exact q
  have r1 := marcus_rel R L h0 hlt hA H a
  rw [← hka] at r1
  have r2 : Rel ε 4 (marcusA p.temp * (p.A * p.A * Real.exp (2 * u)) * Real.exp a) (marcusA p.temp * (H * H) * Real.exp a) := by
    have := ((Rel.refl h0 hlt.le hA0.le).mul h0 hlt.le rH).mul h0 hlt.le (Rel.refl h0 hlt.le (Real.exp_pos a).le)
    exact this.mono h0 hlt.le (by norm_num)
  rw [mul_assoc (marcusA p.temp) H H] at r1
  have r3 := r2.trans h0 hlt.le r1
  have e1 : marcusA p.temp * (p.A * p.A * Real.exp (2 * u)) * Real.exp a = marcusA p.temp * (p.A * p.A) * Real.exp (2 * u + a) := by
    rw [Real.exp_add]; ring
  rw [e1] at r3
  have hcl : closed c p E x i j d = marcusA p.temp * (p.A * p.A) * Real.exp (2 * (-1 * p.alpha * d) + b) := by
    unfold closed
    rw [Real.exp_add, two_mul, Real.exp_add]
    ring
  have hc0 : 0 ≤ marcusA p.temp * (p.A * p.A) := mul_nonneg hA0.le (mul_self_nonneg _)
  have hz : |2 * u + a - (2 * (-1 * p.alpha * d) + b)| ≤ 42 / 10 * ε * (|p.alpha| * d) + X := by
    have e : 2 * u + a - (2 * (-1 * p.alpha * d) + b) = 2 * (u - -1 * p.alpha * d) + (a - b) := by ring
    rw [e]
    refine (abs_add_le _ _).trans ?_
    rw [abs_mul, abs_two]
    linarith
  have hz0 : 0 ≤ 42 / 10 * ε * (|p.alpha| * d) + X := by positivity
  obtain ⟨f1, f2⟩ := factor_of_rel h0 hlt hc0 r3 hcl hz0 hz (η := η) (by
    push_cast
    refine le_trans (le_of_eq ?_) hη
    rw [hX]; ring)
  have hzero : marcusA p.temp * (p.A * p.A) * Real.exp (2 * u + a) = 0 ↔ p.A = 0 := by
    simp [hA0.ne', (Real.exp_pos _).ne']
  refine ⟨f1, f2, r3.right, ?_, ?_, ?_⟩
  · rw [hcl]; exact mul_nonneg hc0 (Real.exp_pos _).le
  · rw [← hzero]
    constructor
    · intro q
      have := r3.low
      rw [q] at this
      have hp : 0 < (1 - ε) ^ (4 + 16) := pow_pos (by linarith) _
      exact le_antisymm (nonpos_of_mul_nonpos_right (by linarith) hp) r3.left
    · intro q
      have := r3.high
      rw [q] at this
      have hp : 0 < (1 - ε) ^ (4 + 16) := pow_pos (by linarith) _
      exact le_antisymm (nonpos_of_mul_nonpos_right (by linarith) hp) r3.right
  · rw [hcl]; simp [hA0.ne', (Real.exp_pos _).ne']

/-! ## The loops -/

/-- What is kept in the loops: the entries are rates of pairs listed in `D`. -/
structure KeptR (fl ex sq : ℝ → ℝ) (den A : ℝ) (c : Cuboid) (p : Params) (E : Int → ℝ) (x : Int → Int) (D R : IMap (IMap ℝ)) : Prop where
  neat : Neat R
  value : ∀ i j k, get2 R i j = some k → ∃ d, get2 D i j = some d ∧ Written fl ex sq den A c p E x i j d k

section
variable {c : Cuboid} {p : Params} {energies : List ℝ} {E : Int → ℝ} {x : Int → Int} {D : IMap (IMap ℝ)} {den A : ℝ}

theorem pairRates_rounded (hb : Built c) (hE : Energies c energies E)
    (hx : ∀ i, ValidIndex c i → c.getX i = .ok (x i) ∧ 0 ≤ x i ∧ x i < c.length)
    (hsym : ∀ i j, get2 D i j = get2 D j i)
    (hval : ∀ i j d, get2 D i j = some d → ValidIndex c i ∧ ValidIndex c j) (hden : den ≠ 0)
    {i : Int} {jd : Int × ℝ} (hd : get2 D i jd.1 = some jd.2) {R : IMap (IMap ℝ)} (hR : KeptR fl ex sq den A c p E x D R) :
    ∃ R', pairRates fl ex sq c ⟨p.lambda, den, A⟩ p energies i (x i) (E i) R jd = .ok R' ∧ KeptR fl ex sq den A c p E x D R' ∧
      Grows R R' ∧ (get2 R' i jd.1).isSome := by
  obtain ⟨j, d⟩ := jd
  obtain ⟨vi, vj⟩ := hval _ _ _ hd
  obtain ⟨-, i0, i1⟩ := hx _ vi
  obtain ⟨hj, j0, j1⟩ := hx _ vj
  simp only at hj j0 j1 vj hd
  have g := good_of_built hb
  have hlen : c.length ≤ 2147483647 := by have := g.l_le; omega
  have hrate : ∀ Ei Ej H, marcusRate fl ex sq ⟨p.lambda, den, A⟩ Ei Ej H = .ok (rateOf fl ex sq p.lambda den A Ei Ej H) := by
    intro Ei Ej H
    unfold marcusRate
    rw [if_neg hden]; rfl
  unfold pairRates
  simp only [hj, ok_bind, chk_ok (fitsInt_of (n := x j - x i) (by omega) (by omega)), energyAt_ok hE vj, hrate]
  refine ⟨_, rfl, ⟨neat_set2 (neat_set2 hR.neat _ _ _) _ _ _, ?_⟩, ?_, ?_⟩
  · intro a b k h
    rw [get2_set2] at h
    split at h
    · next e =>
      obtain ⟨rfl, rfl⟩ := e
      exact ⟨d, hsym _ _ ▸ hd, .inr (Option.some.inj h).symm⟩
    · rw [get2_set2] at h
      split at h
      · next e =>
        obtain ⟨rfl, rfl⟩ := e
        exact ⟨d, hd, .inl (Option.some.inj h).symm⟩
      · exact hR.value _ _ _ h
  · intro a b h
    rw [get2_set2]
    split
    · rfl
    · rw [get2_set2]
      split
      · rfl
      · exact h
  · rw [get2_set2]
    split
    · rfl
    · rw [get2_set2, if_pos ⟨rfl, rfl⟩]; rfl

theorem row_rounded (hb : Built c) (hE : Energies c energies E)
    (hx : ∀ i, ValidIndex c i → c.getX i = .ok (x i) ∧ 0 ≤ x i ∧ x i < c.length)
    (hsym : ∀ i j, get2 D i j = get2 D j i)
    (hval : ∀ i j d, get2 D i j = some d → ValidIndex c i ∧ ValidIndex c j) (hden : den ≠ 0)
    {i : Int} (l : List (Int × ℝ)) : ∀ {R : IMap (IMap ℝ)}, (∀ jd ∈ l, get2 D i jd.1 = some jd.2) → KeptR fl ex sq den A c p E x D R →
    ∃ R', l.foldlM (pairRates fl ex sq c ⟨p.lambda, den, A⟩ p energies i (x i) (E i)) R = .ok R' ∧
      KeptR fl ex sq den A c p E x D R' ∧ Grows R R' ∧ ∀ jd ∈ l, (get2 R' i jd.1).isSome := by
  induction l with
  | nil => intro R _ hR; exact ⟨R, rfl, hR, fun _ _ h => h, by simp⟩
  | cons jd l ih =>
    intro R hl' hR
    obtain ⟨R1, h1, h2, h3, h4⟩ := pairRates_rounded hb hE hx hsym hval hden (hl' jd (by simp)) hR
    obtain ⟨R2, k1, k2, k3, k4⟩ := ih (fun jd h => hl' jd (by simp [h])) h2
    refine ⟨R2, ?_, k2, fun a b h => k3 _ _ (h3 _ _ h), ?_⟩
    · rw [List.foldlM_cons, h1, ok_bind, k1]
    · intro a ha
      rcases List.mem_cons.1 ha with rfl | ha
      · exact k3 _ _ h4
      · exact k4 _ ha

theorem rows_rounded (hb : Built c) (hE : Energies c energies E)
    (hx : ∀ i, ValidIndex c i → c.getX i = .ok (x i) ∧ 0 ≤ x i ∧ x i < c.length)
    (hsym : ∀ i j, get2 D i j = get2 D j i)
    (hval : ∀ i j d, get2 D i j = some d → ValidIndex c i ∧ ValidIndex c j) (hden : den ≠ 0)
    (l : List (Int × List (Int × ℝ))) : ∀ {R : IMap (IMap ℝ)},
    (∀ ir ∈ l, ValidIndex c ir.1 ∧ ∀ jd ∈ ir.2, get2 D ir.1 jd.1 = some jd.2) → KeptR fl ex sq den A c p E x D R →
    ∃ R', l.foldlM (siteRates fl ex sq c ⟨p.lambda, den, A⟩ p energies) R = .ok R' ∧ KeptR fl ex sq den A c p E x D R' ∧ Grows R R' ∧
      ∀ ir ∈ l, ∀ jd ∈ ir.2, (get2 R' ir.1 jd.1).isSome := by
  induction l with
  | nil => intro R _ hR; exact ⟨R, rfl, hR, fun _ _ h => h, by simp⟩
  | cons ir l ih =>
    intro R hl' hR
    obtain ⟨v, hv⟩ := hl' ir (by simp)
    obtain ⟨R1, h1, h2, h3, h4⟩ := row_rounded hb hE hx hsym hval hden ir.2 hv hR
    obtain ⟨R2, k1, k2, k3, k4⟩ := ih (fun jd h => hl' jd (by simp [h])) h2
    refine ⟨R2, ?_, k2, fun a b h => k3 _ _ (h3 _ _ h), ?_⟩
    · have hs : siteRates fl ex sq c ⟨p.lambda, den, A⟩ p energies R ir = .ok R1 := by
        unfold siteRates
        rw [(hx _ v).1, ok_bind, energyAt_ok hE v, ok_bind, h1]
      rw [List.foldlM_cons, hs, ok_bind, k1]
    · intro a ha jd hjd
      rcases List.mem_cons.1 ha with rfl | ha
      · exact k3 _ _ (h4 _ hjd)
      · exact k4 _ ha _ hjd

end

/-- The pairs that the search lists, and their distances. -/
theorem getAll_rounded_value {c : Cuboid} (hb : Built c) {cutoff : ℝ} {m : IMap (IMap ℝ)}
    (h : getAllNeighborDistances fl rt c cutoff = .ok m) :
    (∀ i j, get2 m i j = get2 m j i) ∧
    ∀ i j d, get2 m i j = some d → i ≠ j ∧ d ≤ cutoff ∧
      ∃ p q q', SiteAt c i p ∧ SiteAt c j q ∧ Image c q q' ∧ d = fl (rt (steps q' p) * c.spacing) := by
  have g := good_of_built hb
  obtain ⟨ws, is, rfl, his, hws⟩ := getAll_rounded h
  have hmem := getAll_rounded_mem g his hws
  refine ⟨fill_symm ws [] (fun a b => rfl), fun i j d hd => ?_⟩
  rcases fill_sound _ _ _ _ _ hd with h | h | h
  · cases h
  · obtain ⟨hne, p, q, q', h1, h2, h3, h4, h5, h6, h7, h8⟩ := (hmem _ _ _).1 h
    exact ⟨hne.symm, h8, p, q, q', h1, h2, h3, h7⟩
  · obtain ⟨hne, p, q, q', h1, h2, h3, h4, h5, h6, h7, h8⟩ := (hmem _ _ _).1 h
    obtain ⟨b1, b2, -⟩ := image_back (p := p) h3
    exact ⟨hne, h8, q, p, _, h2, h1, b1, by rw [h7, b2]⟩

/-- What `calculateRates` returns. -/
theorem calculateRates_rounded {c : Cuboid} (hb : Built c) {p : Params} {energies : List ℝ} {E : Int → ℝ}
    (hE : Energies c energies E) {den A : ℝ} (hmar : marcus fl rt p.lambda p.temp = .ok ⟨p.lambda, den, A⟩) (hden : den ≠ 0)
    {D : IMap (IMap ℝ)} (hD : getAllNeighborDistances fl rt c p.cutoff = .ok D)
    {x : Int → Int} (hx : ∀ i, ValidIndex c i → c.getX i = .ok (x i) ∧ 0 ≤ x i ∧ x i < c.length)
    {visit : IMap (IMap ℝ) → List (Int × List (Int × ℝ))} (hv : Visits visit) :
    ∃ R, calculateRates fl ex sq rt c p energies visit = .ok R ∧ KeptR fl ex sq den A c p E x D R ∧
      ∀ i j, (get2 R i j).isSome ↔ (get2 D i j).isSome := by
  have g := good_of_built hb
  obtain ⟨hsym, hsnd⟩ := getAll_rounded_value hb hD
  have hval : ∀ i j d, get2 D i j = some d → ValidIndex c i ∧ ValidIndex c j := by
    intro i j d h
    obtain ⟨-, -, a, b, -, h1, h2, -⟩ := hsnd i j d h
    exact ⟨siteAt_bounds g h1, siteAt_bounds g h2⟩
  obtain ⟨v1, v2⟩ := visit_mem hv (neat_getAll_rounded hD)
  obtain ⟨R, h1, h2, h3, h4⟩ := rows_rounded (ex := ex) (sq := sq) (A := A) hb hE hx hsym hval hden (visit D) (R := [])
    (fun ir hir => by
      obtain ⟨⟨jd, hjd⟩, ha⟩ := v1 ir hir
      exact ⟨(hval _ _ _ (ha jd hjd)).1, ha⟩) ⟨⟨IMap.wf_nil, by simp⟩, fun i j k h => by cases h⟩
  refine ⟨R, ?_, h2, fun i j => ⟨fun h => ?_, fun h => ?_⟩⟩
  · unfold calculateRates
    rw [hmar, ok_bind, hD, ok_bind, h1]
  · obtain ⟨k, hk⟩ := Option.isSome_iff_exists.1 h
    obtain ⟨d, hd, -⟩ := h2.value _ _ _ hk
    rw [hd]; rfl
  · obtain ⟨d, hd⟩ := Option.isSome_iff_exists.1 h
    obtain ⟨ir, hir, rfl, hj⟩ := v2 _ _ _ hd
    exact h4 ir hir _ hj

end Mythical.Rounded
