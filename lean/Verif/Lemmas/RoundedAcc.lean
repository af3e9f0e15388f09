import Verif.Lemmas.RoundedRounds
import Verif.Lemmas.ClusterRounds

/-! # The iteration of a cluster in rounded arithmetic: distance from the iteration without rounding -/

set_option linter.unusedSectionVars false
set_option linter.unusedVariables false

namespace Mythical.Rounded
open Mythical RoundSpec ClusterSpec
variable {K : Type} [Field K] [LinearOrder K] [IsStrictOrderedRing K] [FloorRing K]
variable {fl : K → K} {ε η : K} {c : Cluster K} {d : Nat} {δ φ : K}

/-! ## Calculus -/

theorem Rel.of_abs {x y g : K} (hx : 0 ≤ x) (h1 : g ≤ 1) (h : |y - x| ≤ g * x) : Rel g 1 x y := by
  obtain ⟨a, b⟩ := abs_le.1 h
  have hy : 0 ≤ y := by nlinarith
  refine ⟨hx, hy, by rw [pow_one]; linarith, ?_⟩
  rw [pow_one]
  have : y ≤ (1 + g) * x := by linarith
  have h2 : (1 - g) * y ≤ (1 - g) * ((1 + g) * x) := mul_le_mul_of_nonneg_left this (by linarith)
  nlinarith [mul_nonneg (mul_self_nonneg g) hx]

theorem Rel.join {x y z η1 η2 : K} {m1 m2 : Nat} (h1 : 0 ≤ η1) (h1' : η1 ≤ 1) (h2 : 0 ≤ η2) (h2' : η2 ≤ 1)
    (hη : m1 * η1 + m2 * η2 ≤ η) (hη1 : η ≤ 1) (a : Rel η1 m1 x y) (b : Rel η2 m2 y z) : Rel η 1 x z := by
  have p1 : 0 ≤ (1 - η1) ^ m1 := pow_nonneg (by linarith) _
  have p2 : 0 ≤ (1 - η2) ^ m2 := pow_nonneg (by linarith) _
  have q1 := one_sub_pow h1 h1' m1
  have q2 := one_sub_pow h2 h2' m2
  have z1 : (0 : K) ≤ m1 * η1 := by positivity
  have z2 : (0 : K) ≤ m2 * η2 := by positivity
  have key : 1 - η ≤ (1 - η1) ^ m1 * (1 - η2) ^ m2 := by
    calc 1 - η ≤ (1 - m1 * η1) * (1 - m2 * η2) := by nlinarith
      _ ≤ (1 - η1) ^ m1 * (1 - η2) ^ m2 := mul_le_mul q1 q2 (by linarith) p1
  refine ⟨a.left, b.right, ?_, ?_⟩
  · rw [pow_one]
    calc (1 - η) * x ≤ (1 - η1) ^ m1 * (1 - η2) ^ m2 * x := mul_le_mul_of_nonneg_right key a.left
      _ = (1 - η2) ^ m2 * ((1 - η1) ^ m1 * x) := by ring
      _ ≤ (1 - η2) ^ m2 * y := mul_le_mul_of_nonneg_left a.low p2
      _ ≤ z := b.low
  · rw [pow_one]
    calc (1 - η) * z ≤ (1 - η1) ^ m1 * (1 - η2) ^ m2 * z := mul_le_mul_of_nonneg_right key b.right
      _ = (1 - η1) ^ m1 * ((1 - η2) ^ m2 * z) := by ring
      _ ≤ (1 - η1) ^ m1 * y := mul_le_mul_of_nonneg_left b.high p1
      _ ≤ x := a.high

theorem Rel.weaken {x y : K} {m : Nat} (h0 : 0 ≤ ε) (h1 : ε ≤ 1) (hη : m * ε ≤ η) (hη1 : η ≤ 1) (a : Rel ε m x y) : Rel η 1 x y :=
  Rel.join (m2 := 0) h0 h1 h0 h1 (by simpa using hη) hη1 a (Rel.refl h0 h1 a.right)

theorem Rel.symm {x y : K} {m : Nat} (a : Rel ε m x y) : Rel ε m y x := ⟨a.right, a.left, a.high, a.low⟩

theorem Rel.fsum {ι : Type} (h0 : 0 ≤ ε) (h1 : ε ≤ 1) {m : Nat} (s : Finset ι) {f g : ι → K} (h : ∀ i ∈ s, Rel ε m (f i) (g i)) :
    Rel ε m (∑ i ∈ s, f i) (∑ i ∈ s, g i) := by
  classical
  induction s using Finset.induction_on with
  | empty => exact (Rel.refl h0 h1 (le_refl _)).mono h0 h1 (Nat.zero_le _)
  | insert a s ha ih =>
    rw [Finset.sum_insert ha, Finset.sum_insert ha]
    exact (h a (Finset.mem_insert_self ..)).add h0 h1 (ih fun i hi => h i (Finset.mem_insert_of_mem hi))

/-- The normalised temporary probability of a site. -/
theorem near_ratio {A Ai p t T S G w φ : K} (hφ : 0 < φ) (hφ1 : 63 * φ ≤ 64) (hw0 : 0 ≤ w) (hw : 64 * w ≤ 1) (hS : 1 ≤ 2 * S)
    (hAS : φ * S ≤ A) (hAi : 0 ≤ Ai) (hp : 0 ≤ p) (hG : G ≤ 6 * (w * φ)) (ht : |t - Ai| ≤ G * (p + Ai))
    (hT : |T - A| ≤ 9 * (w * φ) * (S + A)) : |t / T - Ai / A| ≤ 38 * w * (p + Ai / A) := by
  have hA : φ ≤ 2 * A := by nlinarith
  have hA0 : 0 < A := by linarith
  have hT1 : |T - A| ≤ 19 * (w * A) := by
    refine hT.trans ?_
    have : φ * (S + A) ≤ 127 / 63 * A := by nlinarith
    calc 9 * (w * φ) * (S + A) = 9 * (w * (φ * (S + A))) := by ring
      _ ≤ 9 * (w * (127 / 63 * A)) := by
        have := mul_le_mul_of_nonneg_left this hw0
        linarith
      _ ≤ _ := by nlinarith [mul_nonneg hw0 hA0.le]
  have hwA : 64 * (w * A) ≤ A := by nlinarith
  obtain ⟨T1, T2⟩ := abs_le.1 hT1
  have hT45 : 45 * A ≤ 64 * T := by linarith
  have hT0 : 0 < T := by linarith
  set a := Ai / A with ha
  have ha0 : 0 ≤ a := div_nonneg hAi hA0.le
  have eA : Ai = a * A := by rw [ha, div_mul_cancel₀ _ hA0.ne']
  have key : |t - a * T| ≤ 38 * w * (p + a) * T := by
    have e : t - a * T = (t - Ai) + a * (A - T) := by rw [eA]; ring
    have b1 : |t - Ai| ≤ w * A * (12 * p + 128 / 21 * a) := by
      refine ht.trans ?_
      calc G * (p + Ai) ≤ 6 * (w * φ) * (p + Ai) := mul_le_mul_of_nonneg_right hG (by linarith)
        _ = 6 * w * (φ * p) + 6 * w * (φ * (a * A)) := by rw [eA]; ring
        _ ≤ 6 * w * (2 * A * p) + 6 * w * (64 / 63 * (a * A)) := by
          have x1 : φ * p ≤ 2 * A * p := mul_le_mul_of_nonneg_right hA hp
          have x2 : φ * (a * A) ≤ 64 / 63 * (a * A) := mul_le_mul_of_nonneg_right (by linarith) (mul_nonneg ha0 hA0.le)
          have y1 := mul_le_mul_of_nonneg_left x1 (by linarith : 0 ≤ 6 * w)
          have y2 := mul_le_mul_of_nonneg_left x2 (by linarith : 0 ≤ 6 * w)
          linarith
        _ = _ := by ring
    have b2 : |a * (A - T)| ≤ w * A * (19 * a) := by
      rw [abs_mul, abs_of_nonneg ha0, abs_sub_comm]
      calc a * |T - A| ≤ a * (19 * (w * A)) := mul_le_mul_of_nonneg_left hT1 ha0
        _ = _ := by ring
    have hwA0 : 0 ≤ w * A := mul_nonneg hw0 hA0.le
    rw [e]
    calc |(t - Ai) + a * (A - T)| ≤ |t - Ai| + |a * (A - T)| := abs_add_le _ _
      _ ≤ w * A * (12 * p + 128 / 21 * a) + w * A * (19 * a) := add_le_add b1 b2
      _ ≤ w * A * (26 * (p + a)) := by
        rw [← mul_add]
        exact mul_le_mul_of_nonneg_left (by linarith) hwA0
      _ ≤ w * (64 / 45 * T) * (26 * (p + a)) := by
        refine mul_le_mul_of_nonneg_right (mul_le_mul_of_nonneg_left (by linarith) hw0) (by linarith)
      _ ≤ 38 * w * (p + a) * T := by
        have : 0 ≤ w * (p + a) * T := mul_nonneg (mul_nonneg hw0 (by linarith)) hT0.le
        nlinarith
  have e2 : t / T - a = (t - a * T) / T := by field_simp
  rw [e2, abs_div, abs_of_pos hT0, div_le_iff₀ hT0]
  exact key

/-- The mean with the old probability. -/
theorem mix_near (h0 : 0 ≤ ε) (h1 : 64 * ε ≤ 1) (R : Rounding fl ε) {t T a p g : K} (ha : 0 ≤ a) (hp : 0 ≤ p) (hg0 : 0 ≤ g)
    (hg : g ≤ 38 / 64) (h : |t / T - a| ≤ g * (p + a)) : |mix fl T t p - (p + a) / 2| ≤ (g + 11 * ε) * ((p + a) / 2) := by
  unfold mix
  set u := p + a with hu
  have hu0 : 0 ≤ u := by linarith
  have hau : a ≤ u := by linarith
  have x0 : |t / T| ≤ 2 * u := by
    calc |t / T| = |(t / T - a) + a| := by rw [sub_add_cancel]
      _ ≤ |t / T - a| + |a| := abs_add_le _ _
      _ ≤ g * u + a := by rw [abs_of_nonneg ha]; linarith
      _ ≤ _ := by nlinarith
  have εu : 0 ≤ ε * u := mul_nonneg h0 hu0
  have εεu : 64 * (ε * (ε * u)) ≤ ε * u := by nlinarith
  have x1 : |t * fl (1 / T) - t / T| ≤ 2 * (ε * u) := by
    have e : t * fl (1 / T) - t / T = t * (fl (1 / T) - 1 / T) := by ring
    rw [e, abs_mul]
    calc |t| * |fl (1 / T) - 1 / T| ≤ |t| * (ε * |1 / T|) := mul_le_mul_of_nonneg_left (R.err _) (abs_nonneg _)
      _ = ε * |t / T| := by rw [div_eq_mul_one_div t T, abs_mul]; ring
      _ ≤ ε * (2 * u) := mul_le_mul_of_nonneg_left x0 h0
      _ = _ := by ring
  have x2 : |t * fl (1 / T)| ≤ 2 * u + 2 * (ε * u) := by
    calc |t * fl (1 / T)| = |(t * fl (1 / T) - t / T) + t / T| := by rw [sub_add_cancel]
      _ ≤ _ := abs_add_le _ _
      _ ≤ _ := by linarith
  have x3 : |fl (t * fl (1 / T)) - a| ≤ g * u + 5 * (ε * u) := by
    have e : fl (t * fl (1 / T)) - a = (fl (t * fl (1 / T)) - t * fl (1 / T)) + (t * fl (1 / T) - t / T) + (t / T - a) := by ring
    rw [e]
    have r := R.err (t * fl (1 / T))
    have r2 : ε * |t * fl (1 / T)| ≤ 2 * (ε * u) + 2 * (ε * (ε * u)) := by
      have := mul_le_mul_of_nonneg_left x2 h0
      linarith
    have t1 := abs_add_le ((fl (t * fl (1 / T)) - t * fl (1 / T)) + (t * fl (1 / T) - t / T)) (t / T - a)
    have t2 := abs_add_le (fl (t * fl (1 / T)) - t * fl (1 / T)) (t * fl (1 / T) - t / T)
    linarith
  set y := fl (t * fl (1 / T)) with hy
  have gu : g * u ≤ 38 / 64 * u := mul_le_mul_of_nonneg_right hg hu0
  have ε5 : 64 * (ε * u) ≤ u := by nlinarith
  have x4 : |fl (y + p) - u| ≤ g * u + 7 * (ε * u) := by
    have r := R.err (y + p)
    have e1 : |y + p - u| ≤ g * u + 5 * (ε * u) := by
      have : y + p - u = y - a := by rw [hu]; ring
      rw [this]; exact x3
    have e2 : |y + p| ≤ 2 * u := by
      calc |y + p| = |(y + p - u) + u| := by rw [sub_add_cancel]
        _ ≤ |y + p - u| + |u| := abs_add_le _ _
        _ ≤ _ := by rw [abs_of_nonneg hu0]; linarith
    have e3 : ε * |y + p| ≤ 2 * (ε * u) := by
      have := mul_le_mul_of_nonneg_left e2 h0
      linarith
    calc |fl (y + p) - u| = |(fl (y + p) - (y + p)) + (y + p - u)| := by rw [sub_add_sub_cancel]
      _ ≤ _ := abs_add_le _ _
      _ ≤ _ := by linarith
  set v := fl (y + p) with hv
  have r := R.err (v * (1 / 2))
  have e1 : |v * (1 / 2) - u / 2| ≤ (g * u + 7 * (ε * u)) / 2 := by
    have : v * (1 / 2) - u / 2 = (v - u) / 2 := by ring
    rw [this, abs_div, abs_of_pos (by norm_num : (0 : K) < 2)]
    linarith
  have e2 : |v * (1 / 2)| ≤ u := by
    calc |v * (1 / 2)| = |(v * (1 / 2) - u / 2) + u / 2| := by rw [sub_add_cancel]
      _ ≤ |v * (1 / 2) - u / 2| + |u / 2| := abs_add_le _ _
      _ ≤ _ := by rw [abs_of_nonneg (by linarith : 0 ≤ u / 2)]; linarith
  have e3 := mul_le_mul_of_nonneg_left e2 h0
  calc |fl (v * (1 / 2)) - u / 2| = |(fl (v * (1 / 2)) - v * (1 / 2)) + (v * (1 / 2) - u / 2)| := by rw [sub_add_sub_cancel]
    _ ≤ _ := abs_add_le _ _
    _ ≤ _ := by linarith

/-! ## One round -/

theorem iterate_near (h0 : 0 ≤ ε) (R : Rounding fl ε) (B : Basin c d δ φ) {m : Nat} (O : Occ ε m c) (hne : c.sites ≠ [])
    {w : K} (hwz : (2 * d + 1 + c.sites.length : Nat) * ε + δ ≤ w * φ) (hw : 90 * w ≤ 1) (hφ : 0 < φ) (hm : 2 * (m * ε) ≤ 1) :
    ∃ c', iterate fl c = .ok c' ∧ c' = { c with probOn := c'.probOn } ∧ Occ ε (c.sites.length + 2) c' ∧ 0 < flow c ∧
      ∀ is ∈ c.sites, Rel (90 * w) 1 ((c.probOn.at0 is.1 + inflow c is.1 is.2.neigh.keys / flow c) / (mass c + 1)) (c'.probOn.at0 is.1) := by
  obtain ⟨is0, his0⟩ := List.exists_mem_of_ne_nil _ hne
  have hP : ∀ i ∈ c.sites.keys, 0 ≤ c.probOn.at0 i := fun i hi => (O.pos i hi).le
  have hin : ∀ is ∈ c.sites, is.1 ∈ c.sites.keys := fun is his => List.mem_map.2 ⟨is, his, rfl⟩
  have hδ0 : 0 ≤ δ := (abs_nonneg _).trans (B.one is0 his0)
  have hd0 : (0 : K) ≤ d := Nat.cast_nonneg _
  have hk1 : (1 : K) ≤ c.sites.length := by exact_mod_cast List.length_pos_of_ne_nil hne
  have hwφ : 0 ≤ w * φ := le_trans (by positivity) hwz
  have hw0 : 0 ≤ w := nonneg_of_mul_nonneg_left hwφ hφ
  have hwφ2 : 90 * (w * φ) ≤ φ := by nlinarith
  have hz : 64 * ((2 * d + 1 + c.sites.length : Nat) * ε + δ) ≤ φ := by linarith
  obtain ⟨c', e1, e2, O', t, T, ht, hT, hTp, hAS, hS, hmp, hr⟩ := iterate_full h0 R B O hne hz hφ hm
  have hde : 0 ≤ (d : K) * ε := mul_nonneg hd0 h0
  have hke : ε ≤ (c.sites.length : K) * ε := by nlinarith
  have hsplit : ((2 * d + 1 + c.sites.length : Nat) : K) * ε = 2 * (d * ε) + ε + c.sites.length * ε := by push_cast; ring
  have hsplit2 : ((2 * d + 1 : Nat) : K) * ε = 2 * (d * ε) + ε := by push_cast; ring
  rw [hsplit] at hwz
  have hφ1 : 63 * φ ≤ 64 := by
    have := basin_phi B his0
    linarith
  have h64 : 64 * ε ≤ 1 := by linarith
  have hwle : w * φ ≤ 64 / 63 * w := by nlinarith
  set G := 6 * (((2 * d + 1 : Nat) : K) * ε) + δ with hG
  have hG6 : G ≤ 6 * (w * φ) := by rw [hG, hsplit2]; linarith
  have hG0 : 0 ≤ G := by positivity
  have hG2 : G ≤ 1 / 2 := by linarith
  have hA : φ ≤ 2 * flow c := by nlinarith
  have hA0 : 0 < flow c := by linarith
  have hinf : ∀ is ∈ c.sites, 0 ≤ inflow c is.1 is.2.neigh.keys := fun is his => inflow_nonneg B hP (i := is.1) (s := is.2) his
  -- the total
  have hsumG : (c.sites.map fun is => G * (c.probOn.at0 is.1 + inflow c is.1 is.2.neigh.keys)).sum = G * (mass c + flow c) := by
    rw [List.sum_map_mul_left, List.sum_map_add]; rfl
  have hsumt : |(c.sites.map t).sum - flow c| ≤ G * (mass c + flow c) := by
    rw [← hsumG, abs_le]
    unfold flow
    constructor
    · rw [neg_le_sub_iff_le_add, ← List.sum_map_add]
      exact List.sum_le_sum fun is his => by have := (abs_le.1 (ht is his)).1; linarith
    · rw [sub_le_iff_le_add, ← List.sum_map_add]
      exact List.sum_le_sum fun is his => by have := (abs_le.1 (ht is his)).2; linarith
  have hT9 : |T - flow c| ≤ 9 * (w * φ) * (mass c + flow c) := by
    have hSA : 0 ≤ mass c + flow c := by linarith
    have b1 : G * (mass c + flow c) ≤ 6 * (w * φ) * (mass c + flow c) := mul_le_mul_of_nonneg_right hG6 hSA
    have b2 : flow c + G * (mass c + flow c) ≤ 3 / 2 * (mass c + flow c) := by
      have := mul_le_mul_of_nonneg_right hG2 hSA
      linarith
    have b3 : 2 * (c.sites.length * ε) * (flow c + G * (mass c + flow c)) ≤ 2 * (w * φ) * (3 / 2 * (mass c + flow c)) := by
      refine mul_le_mul (by linarith) b2 ?_ (by linarith)
      have := mul_nonneg hG0 hSA
      linarith
    calc |T - flow c| = |(T - (c.sites.map t).sum) + ((c.sites.map t).sum - flow c)| := by rw [sub_add_sub_cancel]
      _ ≤ _ := abs_add_le _ _
      _ ≤ _ := by linarith
  -- the means
  have hnear : ∀ is ∈ c.sites, Rel (44 * w) 1 ((c.probOn.at0 is.1 + inflow c is.1 is.2.neigh.keys / flow c) / 2)
      (mix fl T (t is) (c.probOn.at0 is.1)) := by
    intro is his
    have p0 := hP _ (hin is his)
    have a0 := div_nonneg (hinf is his) hA0.le
    have n1 := near_ratio hφ hφ1 hw0 (by linarith) hS hAS (hinf is his) p0 hG6 (ht is his) hT9
    have n2 := mix_near h0 h64 R a0 p0 (by linarith) (by linarith) n1
    refine Rel.of_abs (by linarith) (by linarith) (n2.trans (mul_le_mul_of_nonneg_right ?_ (by linarith)))
    linarith
  have h44 : (0 : K) ≤ 44 * w := by linarith
  have h44' : 44 * w < 1 := by linarith
  refine ⟨c', e1, e2, O', hA0, fun is his => ?_⟩
  have hsum := rel_sum h44 h44'.le c.sites hnear
  have hu : (c.sites.map fun is => (c.probOn.at0 is.1 + inflow c is.1 is.2.neigh.keys / flow c) / 2).sum = (mass c + 1) / 2 := by
    simp only [div_eq_mul_inv]
    rw [List.sum_map_mul_right, List.sum_map_add, List.sum_map_mul_right]
    have : (c.sites.map fun is => inflow c is.1 is.2.neigh.keys).sum * (flow c)⁻¹ = 1 := mul_inv_cancel₀ hA0.ne'
    rw [this]; rfl
  rw [hu] at hsum
  have r1 := (hnear is his).div h44 h44' hsum (by linarith)
  have e : (c.probOn.at0 is.1 + inflow c is.1 is.2.neigh.keys / flow c) / 2 / ((mass c + 1) / 2) =
      (c.probOn.at0 is.1 + inflow c is.1 is.2.neigh.keys / flow c) / (mass c + 1) := by
    rw [div_div_div_cancel_right₀ (by norm_num)]
  rw [e, div_eq_mul_one_div (mix _ _ _ _)] at r1
  refine Rel.join h44 h44'.le h0 (by linarith) ?_ hw r1 (hr is his)
  push_cast
  have : (c.sites.length + 2 : K) * ε = c.sites.length * ε + 2 * ε := by ring
  rw [this]
  linarith

/-! ## Against the iteration of the specification -/

/-- The tables of the sites are those of the rates up to `η`, and links inside the cluster go both ways. -/
structure Tabled (η : K) (mem : Addr → K) (c : Cluster K) : Prop where
  near : ∀ is ∈ c.sites, ∀ j ∈ is.2.neigh.keys, Rel η 1 (hopProb mem c is.1 j) (stored is.2 j)

theorem hopProb_none {mem : Addr → K} {i j : Int} {s : Site K} (h : c.sites.get? i = some s) (hj : j ∉ s.neigh.keys) :
    hopProb mem c i j = 0 := by
  unfold hopProb
  rw [Cluster.rate_of_site h, IMap.get?_eq_none_iff.2 hj]
  simp

theorem mass_eq (hw : c.sites.WF) : mass c = ∑ i ∈ ids c, c.probOn.at0 i := by
  have hk : c.sites.keys.Nodup := hw
  unfold mass ids
  rw [List.sum_toFinset _ hk]
  unfold IMap.keys
  rw [List.map_map]; rfl

theorem flow_eq (hw : c.sites.WF) : flow c = ∑ i ∈ ids c, inflow c i (c.siteAt i).neigh.keys := by
  have hk : c.sites.keys.Nodup := hw
  unfold flow ids
  rw [List.sum_toFinset _ hk]
  unfold IMap.keys
  rw [List.map_map]
  refine congrArg List.sum (List.map_congr_left fun is his => ?_)
  have : c.siteAt is.1 = is.2 := by
    unfold Cluster.siteAt; rw [IMap.get?_of_mem hw (k := is.1) (v := is.2) his]; rfl
  simp only [Function.comp, this]

theorem inflow_near (h0 : 0 ≤ η) (h1 : η ≤ 1) {mem : Addr → K} (B : Basin c d δ φ) (Tb : Tabled η mem c) {q : Int → K} {m : Nat}
    (hq : ∀ i ∈ ids c, Rel η m (q i) (c.probOn.at0 i)) {i : Int} {s : Site K} (h : (i, s) ∈ c.sites) :
    Rel η (m + 1) (∑ n ∈ ids c, q n * hopProb mem c n i) (inflow c i s.neigh.keys) := by
  have hnd : (s.neigh.keys.filter fun n => n ∈ c.sites.keys).Nodup := List.Nodup.filter _ (B.neighWF _ h)
  have e : inflow c i s.neigh.keys = ∑ n ∈ ids c, if n ∈ s.neigh.keys then stored (c.siteAt n) i * c.probOn.at0 n else 0 := by
    unfold inflow
    rw [← List.sum_toFinset _ hnd, ← Finset.sum_filter]
    refine Finset.sum_congr ?_ fun _ _ => rfl
    ext n
    simp [ids, and_comm]
  rw [e]
  refine Rel.fsum h0 h1 _ fun n hn => ?_
  obtain ⟨sn, hsn⟩ := Cluster.mem_ids.1 hn
  have hmem := IMap.mem_of_get? hsn
  have hsite : c.siteAt n = sn := by unfold Cluster.siteAt; rw [hsn]; rfl
  split
  · next hk =>
    have := (hq n hn).mul h0 h1 (Tb.near (n, sn) hmem i (B.both (i, s) h (n, sn) hmem hk))
    rw [hsite, mul_comm (stored sn i)]
    exact this
  · next hk =>
    have hback : i ∉ sn.neigh.keys := fun q => hk (B.both (n, sn) hmem (i, s) h q)
    rw [hopProb_none hsn hback, mul_zero]
    exact (Rel.refl h0 h1 (le_refl _)).mono h0 h1 (Nat.zero_le _)

/-- One round with and without rounding. -/
theorem iterate_acc (h0 : 0 ≤ ε) (R : Rounding fl ε) {mem : Addr → K} (B : Basin c d δ φ) {w : K} (Tb : Tabled (90 * w) mem c) {m : Nat} (O : Occ ε m c)
    (hne : c.sites ≠ []) (hwz : (2 * d + 1 + c.sites.length : Nat) * ε + δ ≤ w * φ) (hw : 90 * w < 1) (hφ : 0 < φ)
    (hm : m ≤ c.sites.length + 2) {q : Int → K} {k : Nat} (hq : ∀ i ∈ ids c, Rel (90 * w) k (q i) (c.probOn.at0 i)) :
    ∃ c', iterate fl c = .ok c' ∧ c' = { c with probOn := c'.probOn } ∧ Occ ε (c.sites.length + 2) c' ∧
      ∀ i ∈ ids c, Rel (90 * w) (2 * k + 4) ((q i + afterHop mem c q i) / 2) (c'.probOn.at0 i) := by
  obtain ⟨is0, his0⟩ := List.exists_mem_of_ne_nil _ hne
  have hδ0 : 0 ≤ δ := (abs_nonneg _).trans (B.one is0 his0)
  have hd0 : (0 : K) ≤ d := Nat.cast_nonneg _
  have hk1 : (1 : K) ≤ c.sites.length := by exact_mod_cast List.length_pos_of_ne_nil hne
  have hwφ : 0 ≤ w * φ := le_trans (by positivity) hwz
  have hw0 : 0 ≤ w := nonneg_of_mul_nonneg_left hwφ hφ
  have hη0 : 0 ≤ 90 * w := by linarith
  have hφ1 := basin_phi B his0
  have hwφ2 : 90 * (w * φ) ≤ φ := by nlinarith
  have hz : ((2 * d + 1 + c.sites.length : Nat) : K) * ε + δ = 2 * (d * ε) + ε + c.sites.length * ε + δ := by push_cast; ring
  have hde : 0 ≤ (d : K) * ε := mul_nonneg hd0 h0
  have hke : ε ≤ (c.sites.length : K) * ε := by nlinarith
  have hφ2 : φ ≤ 2 := by linarith
  have hwle : w * φ ≤ 2 * w := by nlinarith
  have hNε : ((c.sites.length + 2 : Nat) : K) * ε ≤ 90 * w := by
    have : ((c.sites.length + 2 : Nat) : K) * ε = c.sites.length * ε + 2 * ε := by push_cast; ring
    rw [this]; linarith
  have he1 : ε ≤ 1 := by linarith
  have hm2 : 2 * ((m : K) * ε) ≤ 1 := by
    have : (m : K) * ε ≤ (c.sites.length + 2 : Nat) * ε := mul_le_mul_of_nonneg_right (by exact_mod_cast hm) h0
    have h3 : ((c.sites.length + 2 : Nat) : K) * ε = c.sites.length * ε + 2 * ε := by push_cast; ring
    linarith
  obtain ⟨c', e1, e2, O', hA0, hr⟩ := iterate_near h0 R B O hne hwz hw.le hφ hm2
  refine ⟨c', e1, e2, O', fun i hi => ?_⟩
  obtain ⟨s, hs⟩ := Cluster.mem_ids.1 hi
  have his := IMap.mem_of_get? hs
  have a1 := inflow_near hη0 hw.le B Tb hq his
  have a2 : Rel (90 * w) (k + 1) (∑ j ∈ ids c, ∑ n ∈ ids c, q n * hopProb mem c n j) (flow c) := by
    rw [flow_eq B.wf]
    refine Rel.fsum hη0 hw.le _ fun j hj => ?_
    obtain ⟨sj, hsj⟩ := Cluster.mem_ids.1 hj
    have : c.siteAt j = sj := by unfold Cluster.siteAt; rw [hsj]; rfl
    rw [this]
    exact inflow_near hη0 hw.le B Tb hq (IMap.mem_of_get? hsj)
  have a3 := a1.div hη0 hw a2 ((a2.pos_iff hw).2 hA0)
  have a4 := ((hq i hi).mono hη0 hw.le (by omega : k ≤ k + 1 + (k + 1))).add hη0 hw.le a3
  have one1 : Rel (90 * w) 1 (1 : K) (mass c) :=
    Rel.weaken h0 he1 (le_trans (mul_le_mul_of_nonneg_right (by exact_mod_cast hm) h0) hNε) hw.le O.one
  have a5 : Rel (90 * w) 1 (2 : K) (mass c + 1) := by
    have := one1.add hη0 hw.le ((Rel.refl hη0 hw.le (zero_le_one' K)).mono hη0 hw.le (Nat.zero_le 1))
    rwa [one_add_one_eq_two] at this
  have a6 := a4.div hη0 hw a5 (by norm_num)
  have a7 := a6.trans hη0 hw.le (hr _ his)
  exact a7.mono hη0 hw.le (by omega)

/-- All rounds with and without rounding. -/
theorem iterateN_acc (h0 : 0 ≤ ε) (R : Rounding fl ε) {mem : Addr → K} {w : K} (hw : 90 * w < 1) (hφ : 0 < φ) (n : Nat) :
    ∀ {c : Cluster K} {m k r : Nat}, Basin c d δ φ → Tabled (90 * w) mem c → Occ ε m c → c.sites ≠ [] →
    (2 * d + 1 + c.sites.length : Nat) * ε + δ ≤ w * φ → m ≤ c.sites.length + 2 →
    (∀ i ∈ ids c, Rel (90 * w) (5 * 2 ^ r - 4) (rounds mem c r i) (c.probOn.at0 i)) →
    ∃ c', iterateN fl n c = .ok c' ∧ c' = { c with probOn := c'.probOn } ∧
      ∀ i ∈ ids c, Rel (90 * w) (5 * 2 ^ (r + n) - 4) (rounds mem c (r + n) i) (c'.probOn.at0 i) := by
  induction n with
  | zero =>
    intro c m k r B Tb O hne hz hm hq
    exact ⟨c, rfl, rfl, hq⟩
  | succ n ih =>
    intro c m k r B Tb O hne hz hm hq
    obtain ⟨c1, e1, e2, O1, hq1⟩ := iterate_acc h0 R B Tb O hne hz hw hφ hm hq
    have hs : c1.sites = c.sites := by rw [e2]
    have B1 : Basin c1 d δ φ := by rw [e2]; exact Basin_probOn B _
    have Tb1 : Tabled (90 * w) mem c1 := ⟨by
      rw [hs, Cluster.hopProb_congr hs]; exact Tb.near⟩
    have hr1 := Cluster.rounds_congr (mem := mem) hs
    obtain ⟨c2, f1, f2, hq2⟩ := ih (c := c1) (k := 0) (r := r + 1) B1 Tb1 O1 (by rw [hs]; exact hne) (by rw [hs]; exact hz) (by rw [hs]) (by
      intro i hi
      rw [Cluster.ids_congr hs] at hi
      rw [hr1]
      have := hq1 i hi
      have e : 2 * (5 * 2 ^ r - 4) + 4 = 5 * 2 ^ (r + 1) - 4 := by
        have : 1 ≤ 2 ^ r := Nat.one_le_two_pow
        rw [pow_succ]; omega
      rw [e] at this
      exact this)
    refine ⟨c2, ?_, ?_, ?_⟩
    · unfold iterateN; rw [e1, ok_bind, f1]
    · rw [f2, e2]
    · intro i hi
      have := hq2 i (by rw [Cluster.ids_congr hs]; exact hi)
      rw [hr1] at this
      have e : r + 1 + n = r + (n + 1) := by omega
      rwa [e] at this

end Mythical.Rounded
