import Verif.Lemmas.ToF

/-! # The rates of the time-of-flight example (C71) -/

namespace Mythical
open Cuboid CuboidSpec ToF ToFSpec

theorem ToF.xOf {c : Cuboid} (hb : Built c) : ∃ x : Int → Int,
    (∀ i a, SiteAt c i a → x i = a.x) ∧ ∀ i, ValidIndex c i → c.getX i = .ok (x i) ∧ 0 ≤ x i ∧ x i < c.length := by
  classical
  have g := good_of_built hb
  refine ⟨fun i => if h : ∃ a, SiteAt c i a then h.choose.x else 0, fun i a h => ?_, fun i hi => ?_⟩
  · have he : ∃ a, SiteAt c i a := ⟨a, h⟩
    simp only [dif_pos he]
    rw [siteAt_unique g he.choose_spec h]
  · have he := siteAt_exists g hi
    simp only [dif_pos he]
    exact ⟨getX_ok hb he.choose_spec, he.choose_spec.1.1⟩

/-- **C71.** For every lattice, site energies for all its sites, positive reorganisation energy and temperature and a
coupling that does not vanish, `calculateRates` returns if the neighbour search does, in whatever order the maps are gone
through. There is a rate between two sites exactly if the neighbour search lists the pair, so never from a site to itself, and
always in both directions. Each rate is positive and is the Marcus rate for the distance of the two sites (or of an image of
the second) and the change of the energy of the charge in the field. -/
theorem C71_rates {c : Cuboid} (hb : Built c) (hsp : 0 < c.spacing) {p : Params} (hl : 0 < p.lambda) (hT : 0 < p.temp)
    (hA : p.A ≠ 0) {energies : List ℝ} {E : Int → ℝ} (hE : Energies c energies E) {D : IMap (IMap ℝ)}
    (hD : c.getAllNeighborDistances p.cutoff = .ok D)
    {visit : IMap (IMap ℝ) → List (Int × List (Int × ℝ))} (hv : Visits visit) :
    ∃ R, calculateRates c p energies visit = .ok R ∧
      (∀ i j, (get2 R i j).isSome ↔ i ≠ j ∧ (OctantWithin c i j p.cutoff ∨ OctantWithin c j i p.cutoff)) ∧
      (∀ i j, (get2 R i j).isSome → (get2 R j i).isSome) ∧
      ∀ i j k, get2 R i j = some k → 0 < k ∧ ∃ a b b', SiteAt c i a ∧ SiteAt c j b ∧ Image c b b' ∧ euclid c a b' ≤ p.cutoff ∧
        MarcusRate p.lambda p.temp (energyInField c p (E i) a) (energyInField c p (E j) b) (p.A * Real.exp (-p.alpha * euclid c a b')) k := by
  obtain ⟨x, hx1, hx2⟩ := xOf hb
  obtain ⟨R, h1, -, h2⟩ := calculateRates_ok hb hsp hl hT hE hD hx2 hv
  have hs := fun i j => C18_octants_partial hb hsp hD i j
  refine ⟨R, h1, fun i j => ?_, fun i j => ?_, fun i j k hk => ?_⟩
  · rw [h2, Option.isSome_map, (hs i j).2.1]
  · rw [h2, h2, Option.isSome_map, Option.isSome_map, (hs i j).1]; exact id
  · rw [h2] at hk
    obtain ⟨d, hd, rfl⟩ := Option.map_eq_some_iff.1 hk
    obtain ⟨a, b, b', i1, i2, i3, rfl, i5⟩ := (hs i j).2.2 d hd
    constructor
    · have h1 := marcusA_pos hT
      unfold closed
      have : 0 < p.A * Real.exp (-1 * p.alpha * euclid c a b') * (p.A * Real.exp (-1 * p.alpha * euclid c a b')) :=
        mul_self_pos.2 (mul_ne_zero hA (Real.exp_pos _).ne')
      rw [mul_assoc (marcusA p.temp)]
      positivity
    · refine ⟨a, b, b', i1, i2, i3, i5, (marcusRate_iff hl hT).2 ?_⟩
      unfold closed energyInField
      rw [hx1 i a i1, hx1 j b i2]
      have e : -1 * p.alpha * euclid c a b' = -p.alpha * euclid c a b' := by ring
      rw [e]
      congr 3
      push_cast
      ring

/-- **C71** (detailed balance). The rates of the two directions between any two sites balance for occupations with the Boltzmann
weights of the energies in the field, with the library's `k_B`. -/
theorem C71_balance {c : Cuboid} (hb : Built c) (hsp : 0 < c.spacing) {p : Params} (hl : 0 < p.lambda) (hT : 0 < p.temp)
    {energies : List ℝ} {E : Int → ℝ} (hE : Energies c energies E)
    {visit : IMap (IMap ℝ) → List (Int × List (Int × ℝ))} (hv : Visits visit)
    {R : IMap (IMap ℝ)} (hR : calculateRates c p energies visit = .ok R) {i j : Int} {a b : Pos} (ha : SiteAt c i a)
    (hb' : SiteAt c j b) {k k' : ℝ} (hk : get2 R i j = some k) (hk' : get2 R j i = some k') :
    Real.exp (-energyInField c p (E i) a / (8.617333262145e-5 * p.temp)) * k =
      Real.exp (-energyInField c p (E j) b / (8.617333262145e-5 * p.temp)) * k' := by
  obtain ⟨x, hx1, hx2⟩ := xOf hb
  obtain ⟨D, hD⟩ : ∃ D, c.getAllNeighborDistances p.cutoff = .ok D := by
    unfold calculateRates at hR
    obtain ⟨_, -, hR⟩ := bind_eq_ok.1 hR
    obtain ⟨D, hD, -⟩ := bind_eq_ok.1 hR
    exact ⟨D, hD⟩
  obtain ⟨R', h1, -, h2⟩ := calculateRates_ok hb hsp hl hT hE hD hx2 hv
  rw [hR] at h1
  obtain rfl := ok_inj.1 h1
  rw [h2] at hk hk'
  obtain ⟨d, hd, rfl⟩ := Option.map_eq_some_iff.1 hk
  rw [← (C18_octants_partial hb hsp hD i j).1, hd] at hk'
  obtain rfl := Option.some.inj hk'
  have hkB := kB_pos
  have : (8.617333262145e-5 : ℝ) = kB := rfl
  rw [this]
  unfold closed energyInField
  rw [hx1 i a ha, hx1 j b hb']
  have swap : ∀ A B C D' : ℝ, C * D' = A * B → ∀ M : ℝ, C * (M * D') = A * (M * B) := by
    intro A B C D' h M
    calc C * (M * D') = M * (C * D') := by ring
      _ = A * (M * B) := by rw [h]; ring
  apply swap
  rw [← Real.exp_add, ← Real.exp_add]
  congr 1
  push_cast
  field_simp
  ring

/-- **C71** (order). The rates do not depend on the order in which the maps are gone through, although each rate is written
twice. -/
theorem C71_order {c : Cuboid} (hb : Built c) (hsp : 0 < c.spacing) {p : Params} (hl : 0 < p.lambda) (hT : 0 < p.temp)
    {energies : List ℝ} {E : Int → ℝ} (hE : Energies c energies E)
    {visit visit' : IMap (IMap ℝ) → List (Int × List (Int × ℝ))} (hv : Visits visit) (hv' : Visits visit')
    {R R' : IMap (IMap ℝ)} (hR : calculateRates c p energies visit = .ok R) (hR' : calculateRates c p energies visit' = .ok R')
    (i j : Int) : get2 R i j = get2 R' i j := by
  obtain ⟨x, hx1, hx2⟩ := xOf hb
  obtain ⟨D, hD⟩ : ∃ D, c.getAllNeighborDistances p.cutoff = .ok D := by
    unfold calculateRates at hR
    obtain ⟨_, -, hR⟩ := bind_eq_ok.1 hR
    obtain ⟨D, hD, -⟩ := bind_eq_ok.1 hR
    exact ⟨D, hD⟩
  obtain ⟨R1, h1, -, h2⟩ := calculateRates_ok hb hsp hl hT hE hD hx2 hv
  obtain ⟨R2, h3, -, h4⟩ := calculateRates_ok hb hsp hl hT hE hD hx2 hv'
  rw [hR] at h1
  rw [hR'] at h3
  obtain rfl := ok_inj.1 h1
  obtain rfl := ok_inj.1 h3
  rw [h2, h4]

/-! ## The example's constants on a lattice of 3 x 4 x 5 sites -/

theorem ToF.visits_id : Visits fun m => m := fun m =>
  ⟨m, List.Perm.refl _, List.forall₂_same.2 fun _ _ => ⟨rfl, List.Perm.refl _⟩⟩

theorem ToF.visits_reverse : Visits fun m => m.reverse.map fun ir => (ir.1, ir.2.reverse) := fun m =>
  ⟨m.reverse, List.reverse_perm _, by
    rw [List.forall₂_map_left_iff]
    exact List.forall₂_same.2 fun _ _ => ⟨rfl, List.reverse_perm _⟩⟩

theorem ToF.box_energies : Energies box345 (List.replicate 60 1) fun _ => 1 := by
  intro i hi
  rw [List.getElem?_replicate, if_pos]
  have h1 := hi.1; have h2 := hi.2
  simp only [box345] at h2
  omega

theorem ToF.box_search : ∃ D, box345.getAllNeighborDistances params.cutoff = .ok D := by
  apply C20_getAll_returns box345_built (by norm_num [box345]) (by norm_num [params])
  have : ⌊params.cutoff / box345.spacing⌋ = 2 := by norm_num [box345, params]
  rw [this]; decide

theorem ToF.box_rates : ∃ R, calculateRates box345 params (List.replicate 60 1) (fun m => m) = .ok R ∧
    (get2 R 0 1).isSome ∧ (get2 R 1 0).isSome := by
  obtain ⟨D, hD⟩ := ToF.box_search
  obtain ⟨R, h1, h2, h3, -⟩ := C71_rates box345_built (by norm_num [box345]) (by norm_num [params]) (by norm_num [params])
    (by norm_num [params]) box_energies hD visits_id
  have h : (get2 R 1 0).isSome := by
    refine (h2 1 0).2 ⟨by decide, .inl ⟨⟨1, 0, 0⟩, ⟨0, 0, 0⟩, ⟨0, 0, 0⟩, ⟨by decide, by decide⟩, ⟨by decide, by decide⟩, ?_,
      ⟨by decide, by decide, by decide⟩, ?_⟩⟩
    · unfold Image AxisImage
      refine ⟨?_, ?_, ?_⟩ <;> (split <;> first | rfl | exact ⟨0, by simp⟩)
    · norm_num [euclid, box345, params]
  exact ⟨R, h1, h3 _ _ h, h⟩

example : ∃ R k k', calculateRates box345 params (List.replicate 60 1) (fun m => m) = .ok R ∧ get2 R 0 1 = some k ∧
    get2 R 1 0 = some k' ∧ 0 < k ∧ 0 < k' ∧
    Real.exp (-energyInField box345 params 1 ⟨0, 0, 0⟩ / (8.617333262145e-5 * 300)) * k =
      Real.exp (-energyInField box345 params 1 ⟨1, 0, 0⟩ / (8.617333262145e-5 * 300)) * k' := by
  obtain ⟨R, h1, h2, h3⟩ := ToF.box_rates
  obtain ⟨D, hD⟩ := ToF.box_search
  obtain ⟨k, hk⟩ := Option.isSome_iff_exists.1 h2
  obtain ⟨k', hk'⟩ := Option.isSome_iff_exists.1 h3
  obtain ⟨R', i1, -, -, i2⟩ := C71_rates box345_built (by norm_num [box345]) (by norm_num [params]) (by norm_num [params])
    (by norm_num [params]) box_energies hD visits_id
  obtain rfl := ok_inj.1 (h1.symm.trans i1)
  exact ⟨R, k, k', h1, hk, hk', (i2 _ _ _ hk).1, (i2 _ _ _ hk').1,
    C71_balance box345_built (by norm_num [box345]) (by norm_num [params]) (by norm_num [params]) box_energies visits_id h1
      ⟨by decide, by decide⟩ ⟨by decide, by decide⟩ hk hk'⟩

example : ∃ R R', calculateRates box345 params (List.replicate 60 1) (fun m => m) = .ok R ∧
    calculateRates box345 params (List.replicate 60 1) (fun m => m.reverse.map fun ir => (ir.1, ir.2.reverse)) = .ok R' ∧
    get2 R 0 1 = get2 R' 0 1 := by
  obtain ⟨D, hD⟩ := ToF.box_search
  obtain ⟨R, h1, -⟩ := ToF.box_rates
  obtain ⟨R', h2, -⟩ := C71_rates box345_built (by norm_num [box345]) (by norm_num [params]) (by norm_num [params])
    (by norm_num [params]) box_energies hD visits_reverse
  exact ⟨R, R', h1, h2, C71_order box345_built (by norm_num [box345]) (by norm_num [params]) (by norm_num [params])
    box_energies visits_id visits_reverse h1 h2 0 1⟩

/-- The pairs that the neighbour search misses (C18) get no rates: with the example's constants on a lattice of 2 x 2 x 1 sites
there is no rate between sites 1 and 2, whose distance is `√2`, below the cutoff 2. -/
theorem C71_missing : Built square2 ∧ WithinCutoff square2 1 2 params.cutoff ∧
    ∃ R, calculateRates square2 params (List.replicate 4 0) (fun m => m) = .ok R ∧ get2 R 1 2 = none ∧ get2 R 2 1 = none := by
  have hb := square2_built
  have g := good_of_built hb
  have s1 : SiteAt square2 1 ⟨1, 0, 0⟩ := ⟨by decide, rfl⟩
  have s2 : SiteAt square2 2 ⟨0, 1, 0⟩ := ⟨by decide, rfl⟩
  refine ⟨hb, ⟨_, _, ⟨0, 1, 0⟩, s1, s2, ⟨rfl, rfl, rfl⟩, ?_⟩, ?_⟩
  · norm_num [euclid, square2, params]
  · obtain ⟨D, hD⟩ : ∃ D, square2.getAllNeighborDistances params.cutoff = .ok D := by
      apply C20_getAll_returns hb (by norm_num [square2]) (by norm_num [params])
      have : ⌊params.cutoff / square2.spacing⌋ = 2 := by norm_num [square2, params]
      rw [this]; decide
    obtain ⟨R, h1, h2, h3, -⟩ := C71_rates (E := fun _ => 0) hb (by norm_num [square2]) (by norm_num [params])
      (by norm_num [params]) (by norm_num [params]) (energies := List.replicate 4 0) (by
        intro i hi
        rw [List.getElem?_replicate, if_pos]
        have h1 := hi.1; have h2 := hi.2
        simp only [square2] at h2
        omega) hD visits_id
    have hno : ∀ a b p q, SiteAt square2 a p → SiteAt square2 b q → ¬ (q.x ≤ p.x ∧ q.y ≤ p.y ∧ q.z ≤ p.z) →
        ¬ OctantWithin square2 a b params.cutoff := by
      rintro a b p q hp hq hn ⟨p', q', q'', h1, h2, ⟨ix, iy, iz⟩, h4, -⟩
      have := siteAt_unique g hp h1; subst this
      have := siteAt_unique g hq h2; subst this
      have ix : q''.x = q.x := ix
      have iy : q''.y = q.y := iy
      have iz : q''.z = q.z := iz
      rw [ix, iy, iz] at h4
      exact hn h4
    have n12 : get2 R 1 2 = none := by
      rw [← Option.not_isSome_iff_eq_none, h2]
      rintro ⟨-, h | h⟩
      · exact hno _ _ _ _ s1 s2 (by decide) h
      · exact hno _ _ _ _ s2 s1 (by decide) h
    refine ⟨R, h1, n12, ?_⟩
    rw [← Option.not_isSome_iff_eq_none]
    intro h
    have := h3 _ _ h
    rw [n12] at this
    cases this

end Mythical
