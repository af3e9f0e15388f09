import Verif.Lemmas.RoundedToF
import Verif.Props.ToF
import Verif.Props.RoundedCuboid
import Verif.Props.RoundedMarcus

/-! # Property C99: the rates of the time-of-flight example in rounded arithmetic -/

set_option linter.unusedSectionVars false

namespace Mythical
open Rounded Cuboid CuboidSpec RoundSpec ToF ToFSpec
variable {fl ex sq rt : ℝ → ℝ} {ε : ℝ}

/-- **C99 (no rounding).** Without rounding the rounded functions are those of the exact model. -/
theorem C99_exact (c : Cuboid) (p : Params) (hT : 0 < p.temp) (energies : List ℝ)
    (visit : IMap (IMap ℝ) → List (Int × List (Int × ℝ))) :
    Rounded.calculateRates id Real.exp (fun x => x ^ 2) Real.sqrt c p energies visit = ToF.calculateRates c p energies visit := by
  have hm : Rounded.marcus id Real.sqrt p.lambda p.temp = Marcus.construct p.lambda p.temp := by
    have hs := Real.sqrt_pos.2 hT
    have k2 := SRkB_pos; have k5 := SRPI_pos
    unfold Rounded.marcus Marcus.construct
    simp only [id_eq]
    rw [if_neg (not_le.2 hT), if_neg]
    rintro (q | q)
    · linarith
    · have : 0 < SRPI * 2 * SRkB * Real.sqrt p.temp := by positivity
      exact this.ne' q
  unfold Rounded.calculateRates ToF.calculateRates
  rw [hm]
  rfl

/-- **C99 (search).** The search of the whole lattice returns whenever the computed number of steps is at most 26754. -/
theorem C99_search_returns (R : Rounding fl ε) {c : Cuboid} (hb : Built c) (hsp : 0 < c.spacing) {cutoff : ℝ} (hc : 0 ≤ cutoff)
    (hn : ⌊fl (cutoff / c.spacing)⌋ ≤ 26754) : ∃ m, Rounded.getAllNeighborDistances fl rt c cutoff = .ok m := by
  have g := good_of_built hb
  have n0 : 0 ≤ ⌊fl (cutoff / c.spacing)⌋ := by
    apply Int.floor_nonneg.2
    rw [← R.zero]
    exact R.mono (div_nonneg hc hsp.le)
  have hnum : Rounded.numSites fl c cutoff = .ok ⌊fl (cutoff / c.spacing)⌋ := by
    unfold Rounded.numSites
    rw [if_neg hsp.ne']
    simp only
    rw [if_pos (fitsInt_of (by omega) (by omega))]
  unfold Rounded.getAllNeighborDistances
  rw [hnum]
  generalize ⌊fl (cutoff / c.spacing)⌋ = n at *
  have ht := g.lwh_fits
  obtain ⟨is, his⟩ := loopRange_ok (lo := 0) (hi := c.length * c.width * c.height - 1) (by simpa using ht)
  rw [ok_bind, chk_ok g.lw_fits, ok_bind, chk_ok ht, ok_bind, his, ok_bind]
  suffices h : ∃ ws, forEach (Rounded.latticeWrites fl rt c n cutoff) is = .ok ws by
    obtain ⟨ws, hws⟩ := h
    rw [hws]; exact ⟨_, rfl⟩
  apply forEach_ok
  intro i hi
  rw [(loopRange_eq_ok his).1] at hi
  obtain ⟨p, hp⟩ := siteAt_exists g (i := i) ⟨by omega, by omega⟩
  obtain ⟨⟨⟨x0, x1⟩, ⟨y0, y1⟩, ⟨z0, z1⟩⟩, hidx⟩ := id hp
  have bl := g.l_le; have bw := g.w_le; have bh := g.h_le
  unfold Rounded.latticeWrites
  obtain ⟨xs, hxs⟩ := loopRange_ok (lo := p.x - n) (hi := p.x) (fitsInt_of (by omega) (by omega))
  obtain ⟨ys, hys⟩ := loopRange_ok (lo := p.y - n) (hi := p.y) (fitsInt_of (by omega) (by omega))
  obtain ⟨zs, hzs⟩ := loopRange_ok (lo := p.z - n) (hi := p.z) (fitsInt_of (by omega) (by omega))
  rw [rawPos_of_siteAt g hp, ok_bind, chk_ok (fitsInt_of (by omega) (by omega)), ok_bind,
    chk_ok (fitsInt_of (by omega) (by omega)), ok_bind, chk_ok (fitsInt_of (by omega) (by omega)), ok_bind]
  simp only [hxs, hys, hzs, ok_bind]
  apply forEach_ok
  intro xi hxi
  rw [(loopRange_eq_ok hxs).1] at hxi
  obtain ⟨xl, hxl⟩ := lattice_ok (b := c.xb) (x := xi) g.l bl (by omega)
  rw [hxl, ok_bind]
  split
  swap
  · exact ⟨_, rfl⟩
  next kx =>
  apply forEach_ok
  intro yi hyi
  rw [(loopRange_eq_ok hys).1] at hyi
  obtain ⟨yl, hyl⟩ := lattice_ok (b := c.yb) (x := yi) g.w bw (by omega)
  rw [hyl, ok_bind]
  split
  swap
  · exact ⟨_, rfl⟩
  next ky =>
  apply forEach_ok
  intro zi hzi
  rw [(loopRange_eq_ok hzs).1] at hzi
  obtain ⟨zl, hzl⟩ := lattice_ok (b := c.zb) (x := zi) g.h bh (by omega)
  rw [hzl, ok_bind]
  split
  swap
  · exact ⟨_, rfl⟩
  next kz =>
  obtain ⟨d, hd⟩ := distance_rounded_ok (fl := fl) (rt := rt) (c := c) (p := ⟨xi, yi, zi⟩) (q := p) (m := n)
    (by nlinarith) (abs_le.2 ⟨by simp only; omega, by simp only; omega⟩)
    (abs_le.2 ⟨by simp only; omega, by simp only; omega⟩)
    (abs_le.2 ⟨by simp only; omega, by simp only; omega⟩)
  rw [hd, ok_bind]
  split
  swap
  · exact ⟨_, rfl⟩
  rw [rawIndex_ok g (siteAt_of_inBox (c := c) (p := ⟨xl, yl, zl⟩) ⟨kx, ky, kz⟩), ok_bind]
  split <;> exact ⟨_, rfl⟩

/-- **C99 (pairs).** The result of the search is symmetric and has no pair of a site with itself. A pair with an entry has an
image within the cutoff up to two roundings with no coordinate larger, as in C18, one way or the other, and the distance is
right up to the part `4ε`; a pair with such an image that is inside the cutoff by two roundings has an entry. -/
theorem C99_pairs (R : Rounding fl ε) (T : Root rt ε) (h0 : 0 ≤ ε) (h1 : ε ≤ 1 / 4) {c : Cuboid} (hb : Built c) (hsp : 0 < c.spacing)
    {cutoff : ℝ} {m : IMap (IMap ℝ)} (h : Rounded.getAllNeighborDistances fl rt c cutoff = .ok m) (i j : Int) :
    get2 m i j = get2 m j i ∧
    ((get2 m i j).isSome → i ≠ j ∧ (OctantWithin c i j (cutoff / (1 - 2 * ε)) ∨ OctantWithin c j i (cutoff / (1 - 2 * ε)))) ∧
    (i ≠ j → OctantWithin c i j (cutoff / (1 + 4 * ε)) ∨ OctantWithin c j i (cutoff / (1 + 4 * ε)) → (get2 m i j).isSome) ∧
    ∀ d, get2 m i j = some d → d ≤ cutoff ∧ ∃ p q q', SiteAt c i p ∧ SiteAt c j q ∧ Image c q q' ∧
      (1 - 2 * ε) * euclid c p q' ≤ d ∧ d ≤ (1 + 4 * ε) * euclid c p q' := by
  have g := good_of_built hb
  obtain ⟨hsym, hval⟩ := getAll_rounded_value hb h
  obtain ⟨ws, is, rfl, his, hws⟩ := getAll_rounded h
  have hmem := getAll_rounded_mem g his hws
  have low : ∀ {a b : Int}, a ≠ b → OctantWithin c a b (cutoff / (1 + 4 * ε)) → ∃ d, (a, b, d) ∈ ws := by
    rintro a b hab ⟨p, q, q', k1, k2, k3, k4, k5⟩
    obtain ⟨q'', i1, i2, i3, i4⟩ := below_low g hsp.le k1.1 k3 k4
    have hd := i4.trans k5
    have hc : 0 ≤ cutoff := by
      have := mul_nonneg ((euclid_nonneg hsp.le _ _).trans hd) (by linarith : 0 ≤ 1 + 4 * ε)
      rwa [div_mul_cancel₀ _ (by linarith)] at this
    obtain ⟨a1, a2, a3⟩ := floor_rounded R h0 h1 hsp hc hd
    obtain ⟨-, b2⟩ := dist_rounded R T h0 h1 hsp.le p q''
    rw [le_div_iff₀ (by linarith)] at hd
    rw [abs_le] at a1 a2 a3
    exact ⟨_, (hmem _ _ _).2 ⟨hab.symm, p, q, q'', k1, k2, i1, i2, i3, ⟨by omega, by omega, by omega⟩, rfl, by linarith⟩⟩
  refine ⟨hsym i j, fun hs => ?_, fun hne hw => ?_, fun d hd => ?_⟩
  · obtain ⟨d, hd⟩ := Option.isSome_iff_exists.1 hs
    have up : ∀ {a b : Int} {d : ℝ}, (a, b, d) ∈ ws → b ≠ a ∧ OctantWithin c a b (cutoff / (1 - 2 * ε)) := by
      intro a b d hm
      obtain ⟨hne, p, q, q', k1, k2, k3, k4, k5, k6, rfl, k8⟩ := (hmem _ _ _).1 hm
      obtain ⟨b1, -⟩ := dist_rounded R T h0 h1 hsp.le p q'
      exact ⟨hne, p, q, q', k1, k2, k3, k5, by rw [le_div_iff₀ (by linarith)]; linarith⟩
    rcases fill_sound _ _ _ _ _ hd with k | k | k
    · cases k
    · exact ⟨(up k).1.symm, .inl (up k).2⟩
    · exact ⟨(up k).1, .inr (up k).2⟩
  · rcases hw with hw | hw
    · obtain ⟨d, hd⟩ := low hne hw
      exact (fill_complete ws [] _ _ _ hd).1
    · obtain ⟨d, hd⟩ := low hne.symm hw
      exact (fill_complete ws [] _ _ _ hd).2
  · obtain ⟨-, hle, p, q, q', k1, k2, k3, rfl⟩ := hval i j d hd
    obtain ⟨b1, b2⟩ := dist_rounded R T h0 h1 hsp.le p q'
    exact ⟨hle, p, q, q', k1, k2, k3, b1, b2⟩

/-- **C99 (rates).** `calculateRates` returns if the search does, in whatever order the maps are gone through. There is a rate
exactly for the pairs that the search lists. Each is positive and differs from the Marcus rate for the distance of the two
sites (or of an image of the second, within the cutoff up to two roundings) and the change of the energy of the charge in the field by at most the part `2 tofErr` of
it, if that is at most one. -/
theorem C99_rates_partial (R : Rounding fl ε) (T : Root rt ε) (L : Libm ex sq rt ε) (h0 : 0 ≤ ε) (h1 : 100 * ε ≤ 1) {c : Cuboid} (hb : Built c)
    (hsp : 0 < c.spacing) {p : Params} (hl : 0 < p.lambda) (hT : 0 < p.temp) (hA : p.A ≠ 0) {energies : List ℝ} {E : Int → ℝ}
    (hE : Energies c energies E) {D : IMap (IMap ℝ)} (hD : Rounded.getAllNeighborDistances fl rt c p.cutoff = .ok D)
    {visit : IMap (IMap ℝ) → List (Int × List (Int × ℝ))} (hv : Visits visit) :
    ∃ Q, Rounded.calculateRates fl ex sq rt c p energies visit = .ok Q ∧
      (∀ i j, (get2 Q i j).isSome ↔ (get2 D i j).isSome) ∧
      ∀ i j k, get2 Q i j = some k → 0 < k ∧ ∃ a b b' k₀, SiteAt c i a ∧ SiteAt c j b ∧ Image c b b' ∧
        (1 - 2 * ε) * euclid c a b' ≤ p.cutoff ∧
        MarcusRate p.lambda p.temp (energyInField c p (E i) a) (energyInField c p (E j) b) (p.A * Real.exp (-p.alpha * euclid c a b')) k₀ ∧
        (2 * tofErr ε p c.spacing (E i) (E j) (b.x - a.x) (euclid c a b') ≤ 1 →
          |k - k₀| ≤ 2 * tofErr ε p c.spacing (E i) (E j) (b.x - a.x) (euclid c a b') * k₀) := by
  obtain ⟨x, hx1, hx2⟩ := xOf hb
  obtain ⟨den, A, hmar, rD, rA, hden, -⟩ := marcus_parts R L h0 (by linarith) hl hT
  obtain ⟨Q, q1, q2, q3⟩ := calculateRates_rounded (ex := ex) (sq := sq) hb hE hmar hden.ne' hD hx2 hv
  refine ⟨Q, q1, q3, fun i j k hk => ?_⟩
  obtain ⟨d, hd, hw⟩ := q2.value _ _ _ hk
  obtain ⟨hle, a, b, b', i1, i2, i3, i4, i5⟩ := (C99_pairs R T h0 (by linarith) hb hsp hD i j).2.2.2 d hd
  have hr0 := euclid_nonneg (c := c) hsp.le a b'
  have hd0 : 0 ≤ d := le_trans (mul_nonneg (by linarith) hr0) i4
  have W := written_factor R L h0 h1 hl hT rD rA hd0 (le_refl _) hw
  constructor
  · exact lt_of_le_of_ne W.2.2.1 fun q => hA (W.2.2.2.2.1.1 q.symm)
  · refine ⟨a, b, b', closed c p E x i j (euclid c a b'), i1, i2, i3, i4.trans hle, (marcusRate_iff hl hT).2 ?_, fun hs => ?_⟩
    · unfold closed energyInField
      rw [hx1 i a i1, hx1 j b i2]
      have e : -1 * p.alpha * euclid c a b' = -p.alpha * euclid c a b' := by ring
      rw [e]
      congr 3
      push_cast
      ring
    · rw [hx1 i a i1, hx1 j b i2] at W
      set r := euclid c a b' with hr
      set S := 34 * (|p.lambda| + |E i| + |E j| + |p.field * (((b.x - a.x : Int) : ℝ) * c.spacing) * p.charge|) ^ 2 /
        (4 * p.lambda * kB * p.temp) with hS
      have k1 := kB_pos
      have hS0 : 0 ≤ S := by rw [hS]; positivity
      have hη : tofErr ε p c.spacing (E i) (E j) (b.x - a.x) r = (20 + 14 * |p.alpha| * r + S) * ε := by rw [hS]; rfl
      rw [hη] at hs ⊢
      have al := abs_nonneg p.alpha
      -- the distance
      have hdr : |2 * (-1 * p.alpha * d) - 2 * (-1 * p.alpha * r)| ≤ 8 * ε * (|p.alpha| * r) := by
        have e : 2 * (-1 * p.alpha * d) - 2 * (-1 * p.alpha * r) = -2 * p.alpha * (d - r) := by ring
        rw [e, abs_mul, abs_mul, abs_neg, abs_two]
        have : |d - r| ≤ 4 * ε * r := abs_le.2 ⟨by nlinarith [mul_nonneg h0 hr0], by linarith⟩
        have := mul_le_mul_of_nonneg_left this (by positivity : 0 ≤ 2 * |p.alpha|)
        linarith
      have hcd : ∀ t, closed c p E x i j t = marcusA p.temp * (p.A * p.A) * Real.exp (-1 * (p.lambda + (E j - p.field *
          (((x j - x i : Int) : ℝ) * c.spacing) * p.charge) - E i) ^ 2 / (4 * p.lambda * kB * p.temp)) *
          Real.exp (2 * (-1 * p.alpha * t)) := by
        intro t
        unfold closed
        rw [two_mul, Real.exp_add]; ring
      have hc0 : 0 ≤ marcusA p.temp * (p.A * p.A) * Real.exp (-1 * (p.lambda + (E j - p.field *
          (((x j - x i : Int) : ℝ) * c.spacing) * p.charge) - E i) ^ 2 / (4 * p.lambda * kB * p.temp)) :=
        mul_nonneg (mul_nonneg (marcusA_pos hT).le (mul_self_nonneg _)) (Real.exp_pos _).le
      have hrel : Rel ε 0 (marcusA p.temp * (p.A * p.A) * Real.exp (-1 * (p.lambda + (E j - p.field *
          (((x j - x i : Int) : ℝ) * c.spacing) * p.charge) - E i) ^ 2 / (4 * p.lambda * kB * p.temp)) *
          Real.exp (2 * (-1 * p.alpha * d))) (closed c p E x i j d) := by
        rw [← hcd d]
        exact Rel.refl h0 (by linarith) W.2.2.2.1
      have hpr : 0 ≤ |p.alpha| * r := mul_nonneg al hr0
      obtain ⟨f1, f2⟩ := factor_of_rel h0 (by linarith) hc0 hrel (hcd r) (by positivity) hdr
        (η := 8 * ε * (|p.alpha| * r)) (by push_cast; linarith)
      obtain ⟨g1, g2, g3, g4, -, -⟩ := W
      -- put together
      have hdle : |p.alpha| * d ≤ 104 / 100 * (|p.alpha| * r) := by
        have := mul_le_mul_of_nonneg_left i5 al
        nlinarith [mul_nonneg h0 hpr]
      have hcr : 0 ≤ closed c p E x i j r := by rw [hcd r]; exact mul_nonneg hc0 (Real.exp_pos _).le
      have hda : 0 ≤ |p.alpha| * d := mul_nonneg al hd0
      have hsum : (20 + 42 / 10 * (|p.alpha| * d) + S) * ε + 8 * ε * (|p.alpha| * r) ≤ (20 + 14 * |p.alpha| * r + S) * ε := by
        have a1 := mul_le_mul_of_nonneg_right hdle h0
        have a2 := mul_nonneg hpr h0
        linarith
      exact factor_compose hcr g3 (by positivity) (by positivity) hsum hs f1 f2 g1 g2

/-- The computed rates of a pair, in whatever order, against one exact rate. -/
theorem tof_factor (R : Rounding fl ε) (T : Root rt ε) (L : Libm ex sq rt ε) (h0 : 0 ≤ ε) (h1 : 100 * ε ≤ 1) {c : Cuboid} (hb : Built c)
    (hsp : 0 < c.spacing) {p : Params} (hl : 0 < p.lambda) (hT : 0 < p.temp) {energies : List ℝ} {E : Int → ℝ}
    (hE : Energies c energies E) {visit : IMap (IMap ℝ) → List (Int × List (Int × ℝ))} (hv : Visits visit) {Q : IMap (IMap ℝ)}
    (hQ : Rounded.calculateRates fl ex sq rt c p energies visit = .ok Q) {x : Int → Int}
    (hx : ∀ i a, SiteAt c i a → x i = a.x) (hx2 : ∀ i, ValidIndex c i → c.getX i = .ok (x i) ∧ 0 ≤ x i ∧ x i < c.length)
    {i j : Int} {a b : Pos} (ha : SiteAt c i a) (hb' : SiteAt c j b) {D : IMap (IMap ℝ)}
    (hD : Rounded.getAllNeighborDistances fl rt c p.cutoff = .ok D) {k : ℝ} (hk : get2 Q i j = some k) :
    ∃ d, get2 D i j = some d ∧
      (1 - tofErr ε p c.spacing (E i) (E j) (b.x - a.x) p.cutoff) * closed c p E x i j d ≤ k ∧
      (1 - tofErr ε p c.spacing (E i) (E j) (b.x - a.x) p.cutoff) * k ≤ closed c p E x i j d ∧ 0 ≤ k ∧
      0 ≤ closed c p E x i j d ∧ (k = 0 ↔ p.A = 0) ∧ 0 ≤ tofErr ε p c.spacing (E i) (E j) (b.x - a.x) p.cutoff := by
  obtain ⟨den, A, hmar, rD, rA, hden, -⟩ := marcus_parts R L h0 (by linarith) hl hT
  obtain ⟨Q', q1, q2, q3⟩ := calculateRates_rounded (ex := ex) (sq := sq) hb hE hmar hden.ne' hD hx2 hv
  rw [hQ] at q1
  obtain rfl := ok_inj.1 q1
  obtain ⟨d, hd, hw⟩ := q2.value _ _ _ hk
  obtain ⟨hle, a', b'', c', i1, i2, i3, i4, i5⟩ := (C99_pairs R T h0 (by linarith) hb hsp hD i j).2.2.2 d hd
  have hd0 : 0 ≤ d := le_trans (mul_nonneg (by linarith) (euclid_nonneg (c := c) hsp.le _ _)) i4
  have k1 := kB_pos
  have hη : (20 + 42 / 10 * (|p.alpha| * d) + 34 * (|p.lambda| + |E i| + |E j| +
      |p.field * (((x j - x i : Int) : ℝ) * c.spacing) * p.charge|) ^ 2 / (4 * p.lambda * kB * p.temp)) * ε ≤
      tofErr ε p c.spacing (E i) (E j) (b.x - a.x) p.cutoff := by
    rw [hx i a ha, hx j b hb']
    unfold tofErr
    refine mul_le_mul_of_nonneg_right ?_ h0
    have : (8.617333262145e-5 : ℝ) = kB := rfl
    rw [this]
    have al := abs_nonneg p.alpha
    have := mul_le_mul_of_nonneg_left hle al
    have := mul_nonneg al hd0
    linarith
  obtain ⟨f1, f2, f3, f4, f5, -⟩ := written_factor R L h0 h1 hl hT rD rA hd0 hη hw
  refine ⟨d, hd, f1, f2, f3, f4, f5, ?_⟩
  refine le_trans ?_ hη
  have := mul_nonneg (abs_nonneg p.alpha) hd0
  positivity

theorem search_of_rates {c : Cuboid} {p : Params} {energies : List ℝ} {visit : IMap (IMap ℝ) → List (Int × List (Int × ℝ))}
    {Q : IMap (IMap ℝ)} (hQ : Rounded.calculateRates fl ex sq rt c p energies visit = .ok Q) :
    ∃ D, Rounded.getAllNeighborDistances fl rt c p.cutoff = .ok D := by
  unfold Rounded.calculateRates at hQ
  obtain ⟨_, -, hQ⟩ := bind_eq_ok.1 hQ
  obtain ⟨D, hD, -⟩ := bind_eq_ok.1 hQ
  exact ⟨D, hD⟩

/-- **C99 (detailed balance).** The ratio of the rates of the two directions between any two sites differs from the Boltzmann
factor of the energies in the field by at most the part `4 tofErr` of it, taken at the cutoff. -/
theorem C99_balance_partial (R : Rounding fl ε) (T : Root rt ε) (L : Libm ex sq rt ε) (h0 : 0 ≤ ε) (h1 : 100 * ε ≤ 1) {c : Cuboid} (hb : Built c)
    (hsp : 0 < c.spacing) {p : Params} (hl : 0 < p.lambda) (hT : 0 < p.temp) (hA : p.A ≠ 0) {energies : List ℝ} {E : Int → ℝ}
    (hE : Energies c energies E) {visit : IMap (IMap ℝ) → List (Int × List (Int × ℝ))} (hv : Visits visit) {Q : IMap (IMap ℝ)}
    (hQ : Rounded.calculateRates fl ex sq rt c p energies visit = .ok Q) {i j : Int} {a b : Pos} (ha : SiteAt c i a)
    (hb' : SiteAt c j b) {k k' : ℝ} (hk : get2 Q i j = some k) (hk' : get2 Q j i = some k')
    (hs : 4 * tofErr ε p c.spacing (E i) (E j) (b.x - a.x) p.cutoff ≤ 1) :
    |k / k' - Real.exp (-(energyInField c p (E j) b - energyInField c p (E i) a) / (8.617333262145e-5 * p.temp))| ≤
      4 * tofErr ε p c.spacing (E i) (E j) (b.x - a.x) p.cutoff *
        Real.exp (-(energyInField c p (E j) b - energyInField c p (E i) a) / (8.617333262145e-5 * p.temp)) := by
  obtain ⟨x, hx1, hx2⟩ := xOf hb
  obtain ⟨D, hD⟩ := search_of_rates hQ
  obtain ⟨d, hd, f1, f2, f3, f4, f5, f6⟩ := tof_factor R T L h0 h1 hb hsp hl hT hE hv hQ hx1 hx2 ha hb' hD hk
  obtain ⟨d', hd', g1, g2, g3, g4, g5, g6⟩ := tof_factor R T L h0 h1 hb hsp hl hT hE hv hQ hx1 hx2 hb' ha hD hk'
  rw [← (C99_pairs R T h0 (by linarith) hb hsp hD i j).1, hd] at hd'
  obtain rfl := Option.some.inj hd'
  have hsym : tofErr ε p c.spacing (E j) (E i) (a.x - b.x) p.cutoff = tofErr ε p c.spacing (E i) (E j) (b.x - a.x) p.cutoff := by
    unfold tofErr
    have e : p.field * (((a.x - b.x : Int) : ℝ) * c.spacing) * p.charge = -(p.field * (((b.x - a.x : Int) : ℝ) * c.spacing) * p.charge) := by
      push_cast; ring
    rw [e, abs_neg, show |p.lambda| + |E j| + |E i| = |p.lambda| + |E i| + |E j| by ring]
  rw [hsym] at g1 g2
  have kp : 0 < k := lt_of_le_of_ne f3 fun q => hA (f5.1 q.symm)
  have kp' : 0 < k' := lt_of_le_of_ne g3 fun q => hA (g5.1 q.symm)
  refine factor_ratio (Real.exp_pos _) ?_ kp kp' f6 hs f1 f2 g1 g2
  have hkB := kB_pos
  have : (8.617333262145e-5 : ℝ) = kB := rfl
  rw [this]
  unfold closed energyInField
  rw [hx1 i a ha, hx1 j b hb']
  have swap : ∀ A B C : ℝ, B = C * A → ∀ M : ℝ, M * B = C * (M * A) := by
    intro A B C h M
    rw [h]; ring
  apply swap
  rw [← Real.exp_add]
  congr 1
  push_cast
  field_simp
  ring

/-- **C99 (order).** Two runs that go through the maps in different orders agree on which rates there are, and the rates differ
by at most the part `4 tofErr`, taken at the cutoff. -/
theorem C99_order_partial (R : Rounding fl ε) (T : Root rt ε) (L : Libm ex sq rt ε) (h0 : 0 ≤ ε) (h1 : 100 * ε ≤ 1) {c : Cuboid} (hb : Built c)
    (hsp : 0 < c.spacing) {p : Params} (hl : 0 < p.lambda) (hT : 0 < p.temp) {energies : List ℝ} {E : Int → ℝ}
    (hE : Energies c energies E) {visit visit' : IMap (IMap ℝ) → List (Int × List (Int × ℝ))} (hv : Visits visit)
    (hv' : Visits visit') {Q Q' : IMap (IMap ℝ)}
    (hQ : Rounded.calculateRates fl ex sq rt c p energies visit = .ok Q)
    (hQ' : Rounded.calculateRates fl ex sq rt c p energies visit' = .ok Q') (i j : Int) :
    ((get2 Q i j).isSome ↔ (get2 Q' i j).isSome) ∧
    ∀ k k' a b, get2 Q i j = some k → get2 Q' i j = some k' → SiteAt c i a → SiteAt c j b →
      4 * tofErr ε p c.spacing (E i) (E j) (b.x - a.x) p.cutoff ≤ 1 →
      |k - k'| ≤ 4 * tofErr ε p c.spacing (E i) (E j) (b.x - a.x) p.cutoff * k' := by
  obtain ⟨x, hx1, hx2⟩ := xOf hb
  obtain ⟨D, hD⟩ := search_of_rates hQ
  obtain ⟨den, A, hmar, rD, rA, hden, -⟩ := marcus_parts R L h0 (by linarith) hl hT
  obtain ⟨Q1, q1, -, q3⟩ := calculateRates_rounded (ex := ex) (sq := sq) hb hE hmar hden.ne' hD hx2 hv
  obtain ⟨Q2, q1', -, q3'⟩ := calculateRates_rounded (ex := ex) (sq := sq) hb hE hmar hden.ne' hD hx2 hv'
  rw [hQ] at q1
  rw [hQ'] at q1'
  obtain rfl := ok_inj.1 q1
  obtain rfl := ok_inj.1 q1'
  refine ⟨by rw [q3, q3'], fun k k' a b hk hk' ha hb' hs => ?_⟩
  obtain ⟨d, hd, f1, f2, f3, f4, f5, f6⟩ := tof_factor R T L h0 h1 hb hsp hl hT hE hv hQ hx1 hx2 ha hb' hD hk
  obtain ⟨d', hd', g1, g2, g3, g4, g5, g6⟩ := tof_factor R T L h0 h1 hb hsp hl hT hE hv' hQ' hx1 hx2 ha hb' hD hk'
  rw [hd] at hd'
  obtain rfl := Option.some.inj hd'
  exact factor_between f4 hs f6 f1 f2 g1 g2

/-! ## The order does change the last digits -/

/-- Two sites in a row. -/
noncomputable def pair211 : Cuboid := ⟨2, 1, 1, 2, 1, .fixed, .fixed, .fixed⟩

theorem pair211_built : Built pair211 := built_of_good ⟨by decide, by decide, by decide, by decide, by decide⟩

/-- Reorganisation energy 1/64 eV, 300 K, a step of the potential of 1/16 eV and 3 units in the last place. -/
noncomputable def tilted : Params := ⟨3 / 2, 1 / 64, 300, 1, 1, (((2 ^ 49 + 3 : Int)) : ℝ) * 2 ^ (-53 : Int), 1⟩

theorem pair211_search (T : Root rt (1 / 2 ^ 53)) : ∃ d, Rounded.getAllNeighborDistances binary64 rt pair211 (3 / 2) =
    .ok [(0, [(1, d)]), (1, [(0, d)])] := by
  have hf : ⌊binary64 ((3 / 2 : ℝ) / 1)⌋ = 1 := by
    have h := binary64_fixed (K := ℝ) 3 (-1) (by norm_num)
    have e : ((3 : Int) : ℝ) * 2 ^ (-1 : Int) = 3 / 2 := by norm_num
    rw [e] at h
    rw [div_one, h]; norm_num
  have hd : binary64 (rt ((1 : Int) : ℝ) * 1) ≤ 3 / 2 := by
    have h1 := T.err 1 (by norm_num)
    have h2 := binary64_err (K := ℝ) (rt ((1 : Int) : ℝ) * 1)
    rw [Int.cast_one, Real.sqrt_one] at h1
    rw [mul_one] at h2 ⊢
    rw [Int.cast_one] at h2 ⊢
    rw [abs_le] at h1
    have : |rt 1| ≤ 11 / 10 := abs_le.2 ⟨by norm_num at h1; linarith [h1.1], by norm_num at h1; linarith [h1.2]⟩
    rw [abs_le] at h2 this
    norm_num at h1 h2
    have := abs_le.2 this
    linarith [h2.2]
  refine ⟨binary64 (rt ((1 : Int) : ℝ) * 1), ?_⟩
  have w0 : Rounded.latticeWrites binary64 rt pair211 1 (3 / 2) 0 = .ok [] := by
    have e0 : pair211.rawPos 0 = .ok ⟨0, 0, 0⟩ := rfl
    have e1 : loopRange (-1) 0 = .ok [-1, 0] := rfl
    have e2 : pair211.rawIndex ⟨0, 0, 0⟩ = .ok 0 := rfl
    have e3 : Rounded.distance binary64 rt pair211 ⟨0, 0, 0⟩ ⟨0, 0, 0⟩ = .ok (binary64 (rt ((0 : Int) : ℝ) * 1)) := rfl
    unfold Rounded.latticeWrites
    rw [e0]
    simp only [ok_bind]
    rw [show chk ((0 : Int) - 1) = .ok (-1) from rfl]
    simp only [ok_bind, e1, pair211, lattice, forEach]
    simp only [pair211] at e2 e3
    norm_num [e2, e3, ok_bind]
  have w1 : Rounded.latticeWrites binary64 rt pair211 1 (3 / 2) 1 = .ok [(1, 0, binary64 (rt ((1 : Int) : ℝ) * 1))] := by
    have e0 : pair211.rawPos 1 = .ok ⟨1, 0, 0⟩ := rfl
    have e1 : loopRange (-1) 0 = .ok [-1, 0] := rfl
    have e1' : loopRange 0 1 = .ok [0, 1] := rfl
    have e2 : pair211.rawIndex ⟨0, 0, 0⟩ = .ok 0 := rfl
    have e2' : pair211.rawIndex ⟨1, 0, 0⟩ = .ok 1 := rfl
    have e3 : Rounded.distance binary64 rt pair211 ⟨0, 0, 0⟩ ⟨1, 0, 0⟩ = .ok (binary64 (rt ((1 : Int) : ℝ) * 1)) := rfl
    have e3' : Rounded.distance binary64 rt pair211 ⟨1, 0, 0⟩ ⟨1, 0, 0⟩ = .ok (binary64 (rt ((0 : Int) : ℝ) * 1)) := rfl
    unfold Rounded.latticeWrites
    rw [e0]
    simp only [ok_bind]
    rw [show chk ((1 : Int) - 1) = .ok 0 from rfl, show chk ((0 : Int) - 1) = .ok (-1) from rfl]
    simp only [ok_bind, e1, e1', pair211, lattice, forEach]
    simp only [pair211] at e2 e3 e2' e3'
    simp only [e3, e3', e2, e2', ok_bind]
    norm_num [ok_bind] at hd ⊢
    rw [if_pos hd]
    rfl
  unfold Rounded.getAllNeighborDistances Rounded.numSites
  have hs : pair211.spacing = 1 := rfl
  rw [hs, if_neg one_ne_zero, hf]
  simp only
  rw [if_pos (by decide), ok_bind, show chk (pair211.length * pair211.width) = .ok 2 from rfl, ok_bind,
    show chk (2 * pair211.height) = .ok 2 from rfl, ok_bind, show loopRange 0 (2 - 1) = .ok [0, 1] from rfl, ok_bind]
  simp only [forEach, w0, w1, ok_bind]
  rfl

theorem fl_pos (R : Rounding fl ε) (h1 : ε < 1) {x : ℝ} (hx : 0 < x) : 0 < fl x := by
  have := R.err x
  rw [abs_of_pos hx, abs_le] at this
  nlinarith [this.1]

/-- Two rates with the same couplings whose exponents are far enough apart. -/
theorem rates_apart {X y1 y2 : ℝ} (R : Rounding fl (1 / 2 ^ 53)) (L : Libm ex sq rt (1 / 2 ^ 53)) (hX : 0 < X)
    (hy : y1 + 10 / 2 ^ 53 ≤ y2) : fl (X * ex y1) < fl (X * ex y2) := by
  have a1 := L.exp y1
  have a2 := L.exp y2
  have p1 := Real.exp_pos y1
  have p2 : Real.exp y1 * (1 + 10 / 2 ^ 53) ≤ Real.exp y2 := by
    calc Real.exp y1 * (1 + 10 / 2 ^ 53) ≤ Real.exp y1 * Real.exp (10 / 2 ^ 53) :=
          mul_le_mul_of_nonneg_left (by rw [add_comm]; exact Real.add_one_le_exp _) p1.le
      _ = Real.exp (y1 + 10 / 2 ^ 53) := (Real.exp_add _ _).symm
      _ ≤ Real.exp y2 := Real.exp_le_exp.2 hy
  rw [abs_le] at a1 a2
  generalize Real.exp y1 = E1 at *
  generalize Real.exp y2 = E2 at *
  have q1 : 0 < ex y1 := by norm_num at a1; linarith [a1.1]
  have q2 : ex y1 * (1 + 7 / 2 ^ 53) ≤ ex y2 := by norm_num at a1 a2 p2 ⊢; linarith [a1.2, a2.1]
  have r1 := R.err (X * ex y1)
  have r2 := R.err (X * ex y2)
  have h2 : X * ex y1 * (1 + 7 / 2 ^ 53) ≤ X * ex y2 := by
    rw [mul_assoc]; exact mul_le_mul_of_nonneg_left q2 hX.le
  have h1 : 0 < X * ex y1 := mul_pos hX q1
  generalize X * ex y1 = u at *
  generalize X * ex y2 = v at *
  have hv : 0 < v := by norm_num at h2; linarith
  rw [abs_of_pos h1, abs_le] at r1
  rw [abs_of_pos hv, abs_le] at r2
  norm_num at r1 r2 h2
  linarith [r1.2, r2.1]

theorem exponents_apart (R : Rounding fl (1 / 2 ^ 53)) (L : Libm ex sq rt (1 / 2 ^ 53)) {D : ℝ} (h0 : 0 < D) (h1 : D ≤ 1 / 500) :
    fl (fl (-1 * sq (-(3 / 64) - 1 / 2 ^ 51)) / D) + 10 / 2 ^ 53 ≤ fl (fl (-1 * sq (-(3 / 64))) / D) := by
  have a1 := L.sq (-(3 / 64) - 1 / 2 ^ 51)
  have a2 := L.sq (-(3 / 64))
  have b1 := R.err (-1 * sq (-(3 / 64) - 1 / 2 ^ 51))
  have b2 := R.err (-1 * sq (-(3 / 64)))
  generalize sq (-(3 / 64) - 1 / 2 ^ 51) = s1 at *
  generalize sq (-(3 / 64)) = s2 at *
  rw [abs_le] at a1 a2
  have p1 : 0 < s1 := by norm_num at a1; linarith [a1.1]
  have p2 : 0 < s2 := by norm_num at a2; linarith [a2.1]
  rw [abs_mul, abs_neg, abs_one, one_mul, abs_of_pos p1, abs_le] at b1
  rw [abs_mul, abs_neg, abs_one, one_mul, abs_of_pos p2, abs_le] at b2
  generalize fl (-1 * s1) = t1 at *
  generalize fl (-1 * s2) = t2 at *
  have c1 : t1 ≤ -(9 / 4096) * (1 + 160 / 2 ^ 53) := by norm_num at a1 b1 ⊢; linarith [a1.1, b1.2]
  have c2 : -(9 / 4096) * (1 + 3 / 2 ^ 53) ≤ t2 := by norm_num at a2 b2 ⊢; linarith [a2.2, b2.1]
  have c2' : t2 < 0 := by norm_num at a2 b2 ⊢; linarith [a2.1, b2.2]
  have c1' : t1 < 0 := by norm_num at c1; linarith
  have d1 := R.err (t1 / D)
  have d2 := R.err (t2 / D)
  have g1 : t1 / D ≤ (1 + 150 / 2 ^ 53) * (t2 / D) := by
    rw [← mul_div_assoc]
    apply div_le_div_of_nonneg_right _ h0.le
    norm_num at c1 c2 ⊢
    linarith
  have g2 : t2 / D ≤ -1 := by
    rw [div_le_iff₀ h0]
    norm_num at a2 b2
    linarith [a2.1, b2.2]
  have g3 : t1 / D < 0 := div_neg_of_neg_of_pos c1' h0
  rw [abs_of_neg g3, abs_le] at d1
  have g4 : t2 / D < 0 := by linarith
  rw [abs_of_neg g4, abs_le] at d2
  generalize t1 / D = v1 at *
  generalize t2 / D = v2 at *
  norm_num at d1 d2 g1 ⊢
  linarith [d1.2, d2.1]

/-- **C99 (counterexample).** The rates do depend on the order in the last digits. Two sites of 4 eV in a row, with the
potential falling by 1/16 eV and three units in the last place from one to the other: the rate from site 0 to site 1 is another
if site 0 is the last gone through than if site 1 is, whatever the mathematical library. -/
theorem C99_counterexample (T : Root rt (1 / 2 ^ 53)) (L : Libm ex sq rt (1 / 2 ^ 53)) :
    ∃ Q Q' k k', Rounded.calculateRates binary64 ex sq rt pair211 tilted [4, 4] (fun m => m) = .ok Q ∧
      Rounded.calculateRates binary64 ex sq rt pair211 tilted [4, 4] (fun m => m.reverse.map fun ir => (ir.1, ir.2.reverse)) = .ok Q' ∧
      get2 Q 0 1 = some k ∧ get2 Q' 0 1 = some k' ∧ k' < k := by
  have R := binary64_rounding (K := ℝ)
  obtain ⟨D, A, hmar, rD, rA, hD, hA⟩ := marcus_parts R L (by norm_num) (by norm_num) (show (0 : ℝ) < 1 / 64 by norm_num) (show (0 : ℝ) < 300 by norm_num)
  obtain ⟨d, hd⟩ := pair211_search T
  have hD2 : D ≤ 1 / 500 := by
    have h := rD.high
    norm_num [kB] at h
    linarith
  have hmar' : Rounded.marcus binary64 rt tilted.lambda tilted.temp = .ok ⟨1 / 64, D, A⟩ := hmar
  have hd' : Rounded.getAllNeighborDistances binary64 rt pair211 tilted.cutoff = .ok [(0, [(1, d)]), (1, [(0, d)])] := hd
  have f1 : binary64 (1 : ℝ) = 1 := by simpa using binary64_int 1 (by norm_num)
  have fm : ∀ (m : Int) (k : Int) (x : ℝ), |m| ≤ 2 ^ 53 → x = (m : ℝ) * 2 ^ k → binary64 x = x := by
    rintro m k x h rfl; exact binary64_fixed m k h
  set F : ℝ := (((2 ^ 49 + 3 : Int)) : ℝ) * 2 ^ (-53 : Int) with hF
  have hFv : F = 1 / 16 + 3 / 2 ^ 53 := by rw [hF]; norm_num [zpow_neg]
  have fF : binary64 F = F := binary64_fixed _ _ (by norm_num)
  have e0 : binary64 (4 - F) = 4 - 1 / 16 - 1 / 2 ^ 51 := by
    have : (4 - F) = 4 - 1 / 16 - 3 / 2 ^ 53 := by rw [hFv]; ring
    rw [this, binary64_eq 1 (8866461766385663 : Int)]
    · norm_num [zpow_neg]
    · norm_num
    · norm_num
    · norm_num [zpow_neg, abs_lt]
  have e1 : binary64 (4 - -F) = 4 + 1 / 16 := by
    have : (4 - -F) = 4 + 1 / 16 + 3 / 2 ^ 53 := by rw [hFv]; ring
    rw [this, binary64_eq 2 (4573968371548160 : Int)]
    · norm_num [zpow_neg]
    · norm_num
    · norm_num
    · norm_num [zpow_neg, abs_lt]
  have g0 : binary64 (binary64 (1 / 64 + (4 - 1 / 16 - 1 / 2 ^ 51)) - 4) = (-(3 / 64) - 1 / 2 ^ 51 : ℝ) := by
    rw [fm 8901646138474495 (-51) (1 / 64 + (4 - 1 / 16 - 1 / 2 ^ 51)) (by norm_num) (by norm_num [zpow_neg]),
      fm (-105553116266497) (-51) (1 / 64 + (4 - 1 / 16 - 1 / 2 ^ 51) - 4) (by norm_num) (by norm_num [zpow_neg])]
    norm_num
  have g1 : binary64 (binary64 (1 / 64 + 4) - (4 + 1 / 16)) = -(3 / 64 : ℝ) := by
    rw [fm 257 (-6) (1 / 64 + 4) (by norm_num) (by norm_num [zpow_neg]),
      fm (-3) (-6) (1 / 64 + 4 - (4 + 1 / 16)) (by norm_num) (by norm_num [zpow_neg])]
    norm_num
  set H := binary64 (1 * ex (binary64 (binary64 (-1 * 1) * d))) with hH
  have hHp : 0 < H := by
    apply fl_pos R (by norm_num)
    have h := L.exp (binary64 (binary64 (-1 * 1) * d))
    have p := Real.exp_pos (binary64 (binary64 (-1 * 1) * d))
    rw [abs_le] at h
    norm_num at h p ⊢
    linarith [h.1]
  have hX : 0 < binary64 (binary64 (A * H) * H) :=
    fl_pos R (by norm_num) (mul_pos (fl_pos R (by norm_num) (mul_pos hA hHp)) hHp)
  set rate : ℝ → ℝ → ℝ := fun Ei Ej => binary64 (binary64 (binary64 (A * H) * H) *
    ex (binary64 (binary64 (-1 * sq (binary64 (binary64 (1 / 64 + Ej) - Ei))) / D))) with hrate
  have hr : ∀ Ei Ej, marcusRate binary64 ex sq ⟨1 / 64, D, A⟩ Ei Ej H = .ok (rate Ei Ej) := by
    intro Ei Ej
    unfold marcusRate
    rw [if_neg hD.ne']
  have p0 : ∀ rates, pairRates binary64 ex sq pair211 ⟨1 / 64, D, A⟩ tilted [4, 4] 0 0 4 rates (1, d) =
      .ok (set2 (set2 rates 0 1 (rate 4 (4 - 1 / 16 - 1 / 2 ^ 51))) 1 0 (rate (4 - 1 / 16 - 1 / 2 ^ 51) 4)) := by
    intro rates
    have x1 : binary64 (((1 : Int) : ℝ) * pair211.spacing) = 1 := by rw [show pair211.spacing = 1 from rfl]; simpa using f1
    have x2 : binary64 (4 - binary64 (binary64 (tilted.field * 1) * tilted.charge)) = 4 - 1 / 16 - 1 / 2 ^ 51 := by
      rw [show tilted.field = F from rfl, show tilted.charge = 1 from rfl, mul_one, mul_one, fF, fF, e0]
    unfold Rounded.pairRates
    rw [show pair211.getX 1 = .ok 1 from rfl, ok_bind, show chk ((1 : Int) - 0) = .ok 1 from rfl, ok_bind,
      show energyAt [4, 4] 1 = .ok 4 from rfl, ok_bind]
    simp only [x1, x2]
    rw [show binary64 (tilted.A * ex (binary64 (binary64 (-1 * tilted.alpha) * d))) = H from rfl, hr, ok_bind, hr, ok_bind]
  have p1 : ∀ rates, pairRates binary64 ex sq pair211 ⟨1 / 64, D, A⟩ tilted [4, 4] 1 1 4 rates (0, d) =
      .ok (set2 (set2 rates 1 0 (rate 4 (4 + 1 / 16))) 0 1 (rate (4 + 1 / 16) 4)) := by
    intro rates
    have x1 : binary64 (((-1 : Int) : ℝ) * pair211.spacing) = -1 := by
      rw [show pair211.spacing = 1 from rfl, mul_one]
      exact_mod_cast binary64_int (-1) (by norm_num)
    have x2 : binary64 (4 - binary64 (binary64 (tilted.field * -1) * tilted.charge)) = 4 + 1 / 16 := by
      rw [show tilted.field = F from rfl, show tilted.charge = 1 from rfl, mul_one, mul_neg, mul_one,
        binary64_neg, fF, binary64_neg, fF, e1]
    unfold Rounded.pairRates
    rw [show pair211.getX 0 = .ok 0 from rfl, ok_bind, show chk ((0 : Int) - 1) = .ok (-1) from rfl, ok_bind,
      show energyAt [4, 4] 0 = .ok 4 from rfl, ok_bind]
    simp only [x1, x2]
    rw [show binary64 (tilted.A * ex (binary64 (binary64 (-1 * tilted.alpha) * d))) = H from rfl, hr, ok_bind, hr, ok_bind]
  have s0 : ∀ rates, siteRates binary64 ex sq pair211 ⟨1 / 64, D, A⟩ tilted [4, 4] rates (0, [(1, d)]) =
      .ok (set2 (set2 rates 0 1 (rate 4 (4 - 1 / 16 - 1 / 2 ^ 51))) 1 0 (rate (4 - 1 / 16 - 1 / 2 ^ 51) 4)) := by
    intro rates
    unfold Rounded.siteRates
    rw [show pair211.getX 0 = .ok 0 from rfl, ok_bind, show energyAt [4, 4] 0 = .ok 4 from rfl, ok_bind]
    simp only [List.foldlM_cons, List.foldlM_nil, p0, ok_bind]
    rfl
  have s1 : ∀ rates, siteRates binary64 ex sq pair211 ⟨1 / 64, D, A⟩ tilted [4, 4] rates (1, [(0, d)]) =
      .ok (set2 (set2 rates 1 0 (rate 4 (4 + 1 / 16))) 0 1 (rate (4 + 1 / 16) 4)) := by
    intro rates
    unfold Rounded.siteRates
    rw [show pair211.getX 1 = .ok 1 from rfl, ok_bind, show energyAt [4, 4] 1 = .ok 4 from rfl, ok_bind]
    simp only [List.foldlM_cons, List.foldlM_nil, p1, ok_bind]
    rfl
  have q0 : Rounded.calculateRates binary64 ex sq rt pair211 tilted [4, 4] (fun m => m) = .ok (set2 (set2 (set2 (set2 [] 0 1
      (rate 4 (4 - 1 / 16 - 1 / 2 ^ 51))) 1 0 (rate (4 - 1 / 16 - 1 / 2 ^ 51) 4)) 1 0 (rate 4 (4 + 1 / 16))) 0 1
      (rate (4 + 1 / 16) 4)) := by
    unfold Rounded.calculateRates
    rw [hmar', ok_bind, hd', ok_bind]
    simp only [List.foldlM_cons, List.foldlM_nil, s0, s1, ok_bind]
    rfl
  have q1 : Rounded.calculateRates binary64 ex sq rt pair211 tilted [4, 4]
      (fun m => m.reverse.map fun ir => (ir.1, ir.2.reverse)) = .ok (set2 (set2 (set2 (set2 [] 1 0 (rate 4 (4 + 1 / 16))) 0 1
      (rate (4 + 1 / 16) 4)) 0 1 (rate 4 (4 - 1 / 16 - 1 / 2 ^ 51))) 1 0 (rate (4 - 1 / 16 - 1 / 2 ^ 51) 4)) := by
    unfold Rounded.calculateRates
    rw [hmar', ok_bind, hd', ok_bind]
    simp only [List.reverse_cons, List.reverse_nil, List.nil_append, List.cons_append, List.map_cons, List.map_nil,
      List.foldlM_cons, List.foldlM_nil, s0, s1, ok_bind]
    rfl
  refine ⟨_, _, rate (4 + 1 / 16) 4, rate 4 (4 - 1 / 16 - 1 / 2 ^ 51), q0, q1, rfl, rfl, ?_⟩
  simp only [hrate]
  rw [g0, g1]
  exact rates_apart R L hX (exponents_apart R L hD hD2)

example : Root root64 (1 / 2 ^ 53) ∧ Libm (fun x => binary64 (Real.exp x)) (fun x => binary64 (x ^ 2)) root64 (1 / 2 ^ 53) :=
  ⟨root64_root, libm64⟩

/-! ## The example's constants on a lattice of 3 x 4 x 5 sites in `double` arithmetic -/

theorem ToF.box_search_double : ∃ D, Rounded.getAllNeighborDistances binary64 root64 box345 params.cutoff = .ok D ∧
    (get2 D 0 1).isSome := by
  have hf : ⌊binary64 (params.cutoff / box345.spacing)⌋ = 2 := by
    show ⌊binary64 ((2 : ℝ) / 1)⌋ = 2
    rw [show (2 : ℝ) / 1 = ((2 : Int) : ℝ) by norm_num, binary64_int 2 (by norm_num), Int.floor_intCast]
  obtain ⟨D, hD⟩ := C99_search_returns (rt := root64) binary64_rounding box345_built (cutoff := params.cutoff)
    (by norm_num [box345]) (by norm_num [params]) (by rw [hf]; decide)
  refine ⟨D, hD, (C99_pairs binary64_rounding root64_root (by norm_num) (by norm_num) box345_built (by norm_num [box345]) hD 0 1).2.2.1
    (by decide) (.inr ⟨⟨1, 0, 0⟩, ⟨0, 0, 0⟩, ⟨0, 0, 0⟩, ⟨by decide, by decide⟩, ⟨by decide, by decide⟩, ?_,
      ⟨by decide, by decide, by decide⟩, ?_⟩)⟩
  · unfold Image AxisImage
    refine ⟨?_, ?_, ?_⟩ <;> (split <;> first | rfl | exact ⟨0, by simp⟩)
  · norm_num [euclid, box345, params]

theorem ToF.box_small : tofErr (1 / 2 ^ 53) params box345.spacing 1 1 (1 - 0) params.cutoff ≤ 1 / 10 ^ 10 := by
  norm_num [tofErr, params, box345]

/-- All of C99 holds of sites 0 and 1: the rates differ between two orders by at most a part of `10⁻⁹`, and their ratio from the
Boltzmann factor by as much. -/
example : ∃ Q Q' k k' k₁, Rounded.calculateRates binary64 (fun x => binary64 (Real.exp x)) (fun x => binary64 (x ^ 2)) root64 box345
      params (List.replicate 60 1) (fun m => m) = .ok Q ∧
    Rounded.calculateRates binary64 (fun x => binary64 (Real.exp x)) (fun x => binary64 (x ^ 2)) root64 box345
      params (List.replicate 60 1) (fun m => m.reverse.map fun ir => (ir.1, ir.2.reverse)) = .ok Q' ∧
    get2 Q 0 1 = some k ∧ get2 Q' 0 1 = some k' ∧ get2 Q 1 0 = some k₁ ∧ 0 < k ∧ |k - k'| ≤ 1 / 10 ^ 9 * k' ∧
    |k / k₁ - Real.exp (-(energyInField box345 params 1 ⟨1, 0, 0⟩ - energyInField box345 params 1 ⟨0, 0, 0⟩) /
        (8.617333262145e-5 * 300))| ≤
      1 / 10 ^ 9 * Real.exp (-(energyInField box345 params 1 ⟨1, 0, 0⟩ - energyInField box345 params 1 ⟨0, 0, 0⟩) /
        (8.617333262145e-5 * 300)) := by
  obtain ⟨D, hD, h01⟩ := ToF.box_search_double
  have hp : 0 < box345.spacing := by norm_num [box345]
  have hl : 0 < params.lambda := by norm_num [params]
  have hT : 0 < params.temp := by norm_num [params]
  have hA : params.A ≠ 0 := by norm_num [params]
  have L := libm64
  have B := ToF.box_small
  have s0 : SiteAt box345 0 ⟨0, 0, 0⟩ := ⟨by decide, by decide⟩
  have s1 : SiteAt box345 1 ⟨1, 0, 0⟩ := ⟨by decide, by decide⟩
  obtain ⟨Q, q1, q2, q3⟩ := C99_rates_partial binary64_rounding root64_root L (by norm_num) (by norm_num) box345_built hp hl hT hA
    ToF.box_energies hD visits_id
  obtain ⟨Q', q1', q2', q3'⟩ := C99_rates_partial binary64_rounding root64_root L (by norm_num) (by norm_num) box345_built hp hl hT hA
    ToF.box_energies hD visits_reverse
  obtain ⟨k, hk⟩ := Option.isSome_iff_exists.1 ((q2 0 1).2 h01)
  obtain ⟨k', hk'⟩ := Option.isSome_iff_exists.1 ((q2' 0 1).2 h01)
  have h10 : (get2 D 1 0).isSome := by
    rw [(C99_pairs binary64_rounding root64_root (by norm_num) (by norm_num) box345_built hp hD 1 0).1]; exact h01
  obtain ⟨k₁, hk₁⟩ := Option.isSome_iff_exists.1 ((q2 1 0).2 h10)
  have hle : 4 * tofErr (1 / 2 ^ 53) params box345.spacing 1 1 (1 - 0) params.cutoff ≤ 1 / 10 ^ 9 := by
    norm_num at B ⊢; linarith
  have h1 : 4 * tofErr (1 / 2 ^ 53) params box345.spacing 1 1 (1 - 0) params.cutoff ≤ 1 := hle.trans (by norm_num)
  refine ⟨Q, Q', k, k', k₁, q1, q1', hk, hk', hk₁, (q3 _ _ _ hk).1, ?_, ?_⟩
  · exact ((C99_order_partial binary64_rounding root64_root L (by norm_num) (by norm_num) box345_built hp hl hT ToF.box_energies
      visits_id visits_reverse q1 q1' 0 1).2 k k' _ _ hk hk' s0 s1 h1).trans
        (mul_le_mul_of_nonneg_right hle (q3' _ _ _ hk').1.le)
  · exact (C99_balance_partial binary64_rounding root64_root L (by norm_num) (by norm_num) box345_built hp hl hT hA ToF.box_energies
      visits_id q1 s0 s1 hk hk₁ h1).trans (mul_le_mul_of_nonneg_right hle (Real.exp_pos _).le)

end Mythical
