import Verif.Lemmas.ClusterSolved

/-! # Bounds on the escape time constant of a cluster -/

set_option linter.unusedSectionVars false

namespace Mythical.Cluster
open Mythical ClusterSpec
variable {K : Type} [Field K] [LinearOrder K] [IsStrictOrderedRing K] [FloorRing K]
variable {env : Env K} {mem : Addr → K} {c c' : Cluster K} {freqs : IMap Int}

/-- The escape time constant is at least `1/R` and at most `R/r²`. -/
theorem Rebuilt.tau_bounds (hr : Rebuilt env mem freqs c c') (hi : CInv c) (hs : Sound mem c') (hm : Mutual mem c')
    (hl : Linked mem c') {r R : K} (hr0 : 0 < r) (hlow : ∀ i ∈ ids c', ∀ j, 0 < rate mem c' i j → r ≤ rate mem c' i j)
    (hup : ∀ i ∈ ids c', outRate mem c' i ≤ R) (hx : HasExit mem c') : ∃ t, c'.tau = some t ∧ 1 / R ≤ t ∧ t ≤ R / (r * r) := by
  have hs0 : Sound mem c := hs.congr hr.sites.symm
  have hd := hr.dist hs0 (Mutual.congr hr.sites.symm hm) hi.prob
  obtain ⟨h1, -⟩ := hr.tau_eq hs hd hl hx
  have hlk := leak_pos hs hd hx
  have hst := stay_pos hs hd hl
  have hR : 0 < R := by
    obtain ⟨i, hi⟩ := hd.ids_nonempty
    exact (hs.outRate_pos hi).trans_le (hup i hi)
  have hp : ∀ i ∈ ids c', 0 < c'.probOn.at0 i * siteTime mem c' i := fun i hi => mul_pos (hd.pos i hi) (hs.siteTime_pos hi)
  refine ⟨_, h1, ?_, ?_⟩
  · rw [div_le_div_iff₀ hR (mul_pos hlk hst)]
    have a1 : leak mem c' ≤ (∑ i ∈ ids c', if 0 < exitRate mem c' i then c'.probOn.at0 i * siteTime mem c' i else 0) * R := by
      unfold leak
      rw [Finset.sum_mul]
      refine Finset.sum_le_sum fun i hi => ?_
      have hin := hs.inRate_add_exitRate hi
      have hin0 := hs.inRate_nonneg i
      have hu := hup i hi
      split
      · exact mul_le_mul_of_nonneg_left (by linarith) (hp i hi).le
      · next h =>
        have : exitRate mem c' i = 0 := le_antisymm (not_lt.1 h) (hs.exitRate_nonneg i)
        rw [this, mul_zero, zero_mul]
    have a2 : stay mem c' ≤ 1 := by
      have := stay_add_leak hs hd
      rw [stay_eq]
      linarith
    calc 1 * (leak mem c' * stay mem c') ≤ leak mem c' * 1 := by
          rw [one_mul]; exact mul_le_mul_of_nonneg_left a2 hlk.le
      _ ≤ _ := by rw [mul_one]; exact a1
  · have b1 : r * (∑ i ∈ ids c', if 0 < exitRate mem c' i then c'.probOn.at0 i * siteTime mem c' i else 0) ≤ leak mem c' := by
      unfold leak
      rw [Finset.mul_sum]
      refine Finset.sum_le_sum fun i hi => ?_
      split
      · next h =>
        obtain ⟨j, hj, hrt⟩ := (hs.exitRate_pos_iff hi).1 h
        have : r ≤ exitRate mem c' i := by
          refine (hlow i hi j hrt).trans ?_
          exact Finset.single_le_sum (fun k _ => hs.rate_nonneg i k) (hs.mem_exits.2 ⟨hj, i, hi, hrt⟩)
        rw [mul_comm]
        exact mul_le_mul_of_nonneg_left this (hp i hi).le
      · rw [mul_zero]
        exact mul_nonneg (hp i hi).le (hs.exitRate_nonneg i)
    have b2 : r / R ≤ stay mem c' := by
      have : r / R = ∑ i ∈ ids c', c'.probOn.at0 i * (r / R) := by rw [← Finset.sum_mul, hd.one, one_mul]
      rw [this]
      unfold stay
      refine Finset.sum_le_sum fun i hi => ?_
      rw [mul_assoc]
      refine mul_le_mul_of_nonneg_left ?_ (hd.pos i hi).le
      obtain ⟨j, hj, hrt⟩ := hl i hi
      have hin : r ≤ inRate mem c' i :=
        (hlow i hi j hrt).trans (Finset.single_le_sum (fun k _ => hs.rate_nonneg i k) hj)
      have hT : 1 / R ≤ siteTime mem c' i := by
        unfold siteTime
        exact one_div_le_one_div_of_le (hs.outRate_pos hi) (hup i hi)
      calc r / R = 1 / R * r := by ring
        _ ≤ siteTime mem c' i * inRate mem c' i :=
          mul_le_mul hT hin hr0.le ((one_div_pos.2 hR).le.trans hT)
    rw [div_le_div_iff₀ (mul_pos hlk hst) (mul_pos hr0 hr0)]
    have b3 : r ≤ R * stay mem c' := by rw [div_le_iff₀ hR] at b2; linarith
    calc _ = r * (∑ i ∈ ids c', if 0 < exitRate mem c' i then c'.probOn.at0 i * siteTime mem c' i else 0) * r := by ring
      _ ≤ leak mem c' * (R * stay mem c') := mul_le_mul b1 b3 hr0.le hlk.le
      _ = _ := by ring

end Mythical.Cluster
