import Verif.Lemmas.Line

/-!
# C107: the rates of the simulation on a line (regression/test_1Dsystem.cpp)
-/

namespace Mythical
open Cuboid LineSpec Line

/-- **C107** (what holds of the neighbours). On a line of at least three sites every site has a positive rate to the sites next to it, and
to no others, but for the step from site 1 to site 0. Missing: that step. -/
theorem C107_rates_partial {d : Int} (h3 : 3 ≤ d) (hd : d ≤ INT_MAX) (field : ℝ) : ∃ R, rates d field = .ok R ∧
    ∀ i j, (∃ k, get2 R i j = some k ∧ 0 < k) ↔ Beside d i j ∧ ¬ (i = 1 ∧ j = 0) := by
  obtain ⟨R, e, hs⟩ := line_rates h3 hd field
  refine ⟨R, e, fun i j => ⟨fun ⟨k, hk, _⟩ => ((hs.iff i j k).1 hk).2.1, fun h => ⟨_, (hs.iff i j _).2 ⟨mem_axis'.2 h.1.1, h, rfl⟩, ?_⟩⟩⟩
  unfold Box.value Box.coef Box.hbar Box.pi Box.transfer Box.kBT
  positivity

/-- A line of 20 sites: sites 8 and 9 are linked both ways. -/
example : (∃ R, rates 20 0.1 = .ok R ∧ (∃ k, get2 R 8 9 = some k) ∧ ∃ k, get2 R 9 8 = some k) := by
  obtain ⟨R, h, h'⟩ := C107_rates_partial (d := 20) (by decide) (by decide) 0.1
  obtain ⟨k, hk, -⟩ := (h' 8 9).2 (by unfold Beside; omega)
  obtain ⟨k', hk', -⟩ := (h' 9 8).2 (by unfold Beside; omega)
  exact ⟨R, h, ⟨k, hk⟩, k', hk'⟩

/-- **C107** (what is false of the neighbours). Site 1 lies next to site 0, on which the electron starts, but has no rate to it, and no
other site has one. -/
theorem C107_start_counterexample {d : Int} (h3 : 3 ≤ d) (hd : d ≤ INT_MAX) (field : ℝ) : Beside d 1 0 ∧
    ∃ R, rates d field = .ok R ∧ ∀ i, get2 R i 0 = none := by
  obtain ⟨R, e, hs⟩ := line_rates h3 hd field
  refine ⟨by unfold Beside; omega, R, e, fun i => Option.eq_none_iff_forall_ne_some.2 fun k hk => ?_⟩
  have := ((hs.iff i 0 k).1 hk).2.1
  unfold Next Beside at this
  omega

/-- **C107**. On shorter lines the program stops at an assertion (one or two sites), has no rates (none) or cannot make its vector of
energies (a negative number). -/
theorem C107_short {d : Int} (h : d < 3) (field : ℝ) :
    rates d field = if d < 0 then .error .lengthError else if d = 0 then .ok [] else .error .assertFail := by
  split
  · next h0 => unfold rates; rw [if_pos h0]
  · split
    · next h0 => subst h0; rfl
    · obtain rfl | rfl : d = 1 ∨ d = 2 := by omega
      · exact line_rates_one field
      · exact line_rates_two field

/-- **C107** (what holds of the ratio of the rates). There and back the rates are in the ratio of the weights
`exp((energy + field * position) / kBT)`: the inverse of the weight that Boltzmann's law gives to the energy. -/
theorem C107_inverted {d : Int} (h3 : 3 ≤ d) (hd : d ≤ INT_MAX) {field : ℝ} {R : IMap (IMap ℝ)} (hR : rates d field = .ok R) {i j : Int}
    {k k' : ℝ} (hk : get2 R i j = some k) (hk' : get2 R j i = some k') :
    Real.exp ((level i + field * i) / 0.025) * k = Real.exp ((level j + field * j) / 0.025) * k' := by
  obtain ⟨R', hR', hs⟩ := line_rates h3 hd field
  rw [hR] at hR'
  obtain rfl := ok_inj.1 hR'
  obtain ⟨-, -, rfl⟩ := (hs.iff i j k).1 hk
  obtain ⟨-, -, rfl⟩ := (hs.iff j i k').1 hk'
  unfold Box.value
  rw [mul_left_comm, mul_left_comm (Real.exp ((level j + field * j) / 0.025)), ← Real.exp_add, ← Real.exp_add]
  congr 2
  unfold Box.reorganization Box.kBT
  push_cast
  ring

/-- **C107** (what holds of detailed balance). Boltzmann's law for the energy in the field, in which the energy falls along x, holds for a
pair of sites exactly if both are traps or neither is. Missing: the pairs of a trap and another site. -/
theorem C107_balance_partial {d : Int} (h3 : 3 ≤ d) (hd : d ≤ INT_MAX) {field : ℝ} {R : IMap (IMap ℝ)} (hR : rates d field = .ok R) {i j : Int}
    {k k' : ℝ} (hk : get2 R i j = some k) (hk' : get2 R j i = some k') :
    Real.exp (-(level i - field * i) / 0.025) * k = Real.exp (-(level j - field * j) / 0.025) * k' ↔ level i = level j := by
  have h := C107_inverted h3 hd hR hk hk'
  obtain ⟨R', hR', hs⟩ := line_rates h3 hd field
  rw [hR] at hR'
  obtain rfl := ok_inj.1 hR'
  have hpos : 0 < k' := by
    obtain ⟨-, -, rfl⟩ := (hs.iff j i k').1 hk'
    unfold Box.value Box.coef Box.hbar Box.pi Box.transfer Box.kBT
    positivity
  have e : k = Real.exp ((level j + field * j) / 0.025 - (level i + field * i) / 0.025) * k' := by
    rw [Real.exp_sub, div_mul_eq_mul_div, ← h]
    field_simp
  rw [e, ← mul_assoc, ← Real.exp_add]
  constructor
  · intro h
    have := Real.exp_injective (mul_right_cancel₀ hpos.ne' h)
    field_simp at this
    linarith
  · intro h
    congr 2
    rw [h]
    ring

/-- **C107** (what is false of the traps). Without a field the rate from a trap to a site that is none is greater than the one back: the
electron spends less time in the traps, not more. -/
theorem C107_traps_counterexample {d : Int} (h3 : 3 ≤ d) (hd : d ≤ INT_MAX) {R : IMap (IMap ℝ)} (hR : rates d 0 = .ok R) {i j : Int}
    {k k' : ℝ} (hk : get2 R i j = some k) (hk' : get2 R j i = some k') (hij : level i < level j) : k' < k := by
  have h := C107_inverted h3 hd hR hk hk'
  obtain ⟨R', hR', hs⟩ := line_rates h3 hd 0
  rw [hR] at hR'
  obtain rfl := ok_inj.1 hR'
  have hpos : 0 < k := by
    obtain ⟨-, -, rfl⟩ := (hs.iff i j k).1 hk
    unfold Box.value Box.coef Box.hbar Box.pi Box.transfer Box.kBT
    positivity
  simp only [zero_mul, add_zero] at h
  by_contra hc
  have h1 : Real.exp (level i / 0.025) < Real.exp (level j / 0.025) := Real.exp_lt_exp.2 (by gcongr)
  have h2 : Real.exp (level i / 0.025) * k < Real.exp (level j / 0.025) * k := mul_lt_mul_of_pos_right h1 hpos
  have h3 : Real.exp (level j / 0.025) * k ≤ Real.exp (level j / 0.025) * k' :=
    mul_le_mul_of_nonneg_left (not_lt.1 hc) (Real.exp_pos _).le
  linarith

/-- Site 8 is a trap, site 9 is none. -/
example : level 8 < level 9 := by unfold level; norm_num

end Mythical
