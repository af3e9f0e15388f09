import Verif.Lemmas.Width
import Mathlib.Data.Rat.Floor

/-!
# C110: the width of the distribution of energies (performance/test_crude_vs_coarsegrain_correlated.cpp)
-/

namespace Mythical
open WidthSpec Correlated

variable {K : Type} [Field K] [LinearOrder K] [IsStrictOrderedRing K]

/-- **C110**. The bins hold every energy exactly once: bin `k` holds the energies in the `k`th of 20 intervals of equal length between the
least and the greatest one, its upper end included. -/
theorem C110_bins {E : List K} {lo hi inc : K} (hr : Range E lo hi) (hi' : inc = (hi - lo) / 20) :
    extremes E = .ok (lo, hi) ∧ bins lo inc E = (List.range 20).map (fun k => (held lo inc E k : Int)) ∧
    (bins lo inc E).sum = E.length ∧ ∀ e ∈ E, ∃! k, k < 20 ∧ InBin lo inc k e := by
  have hle : lo ≤ hi := hr.1.2 _ hr.2.1
  have hinc : 0 ≤ inc := by rw [hi']; exact div_nonneg (sub_nonneg.2 hle) (by norm_num)
  obtain ⟨h1, h2⟩ := sum_held hr hle hi'
  refine ⟨extremes_ok hr, bins_eq hinc E, ?_, fun e he => ?_⟩
  · rw [bins_eq hinc E, ← h1]
    have : ∀ l : List Nat, (l.map fun k => (held lo inc E k : Int)).sum = ((l.map (held lo inc E)).sum : Nat) := by
      intro l
      induction l with
      | nil => rfl
      | cons a l ih => rw [List.map_cons, List.sum_cons, ih, List.map_cons, List.sum_cons]; push_cast; rfl
    exact this _
  · obtain ⟨k, hk⟩ := h2 e he
    refine ⟨k, hk, fun k' hk' => ?_⟩
    have a := (binOf_iff hinc k').2 hk'
    rw [(binOf_iff hinc k).2 hk] at a
    exact (Option.some_inj.1 a).symm

/-- 21 energies from 0 to 20 in steps of 1 and the energy 10 three times more. -/
def WidthSpec.sample : List ℚ := (List.range 21).map (fun k => (k : ℚ)) ++ [10, 10, 10]

example : Range sample 0 20 ∧ bins 0 1 sample = [2, 1, 1, 1, 1, 1, 1, 1, 1, 4, 1, 1, 1, 1, 1, 1, 1, 1, 1, 1] := by
  refine ⟨⟨⟨by decide +kernel, by decide +kernel⟩, by decide +kernel, by decide +kernel⟩, by decide +kernel⟩

/-- **C110** (what the program computes). Let `N k` be the numbers of energies in the bins, `m` the greatest of them, `i` the first and `j`
the last bin that holds more than `m / 20`, a twentieth and not a half of the greatest number. If all energies are equal, or bin `j` begins
two bin lengths above zero, the result is not a number. Otherwise it is the difference of the two numbers given. -/
theorem C110_value {E : List K} {lo hi inc : K} (hr : Range E lo hi) (hi' : inc = (hi - lo) / 20) :
    ∃ m i j, Peak (held lo inc E) m i j ∧
      fwhm E = if lo = hi ∨ lo + j * inc = 2 * inc then .error .nonFinite
        else .ok ((inc + ((m : K) / 20 - held lo inc E (j + 1)) / (held lo inc E j - held lo inc E (j + 1)) * ((lo + j * inc) / 2 - inc)) -
          ((lo + (i + 1) * inc) / 2 - inc +
            ((m : K) / 20 - below (held lo inc E) i) / (held lo inc E i - below (held lo inc E) i) * inc)) := by
  have hle : lo ≤ hi := hr.1.2 _ hr.2.1
  have hinc : 0 ≤ inc := by rw [hi']; exact div_nonneg (sub_nonneg.2 hle) (by norm_num)
  have h20 : lo + 20 * inc = hi := by rw [hi']; field_simp; ring
  obtain ⟨k0, hk0, hk0'⟩ := (sum_held hr hle hi').2 lo hr.1.1
  obtain ⟨m, i, j, hp⟩ := exists_peak (N := held lo inc E) ⟨k0, hk0, by
    unfold held
    exact List.countP_pos_iff.2 ⟨lo, hr.1.1, by simpa using hk0'⟩⟩
  refine ⟨m, i, j, hp, ?_⟩
  set N := held lo inc E with hN
  have hle20 : ∀ k, 20 * N k ≤ m → ((N k : Nat) : K) ≤ (m : K) / 20 := by
    intro k hk
    rw [le_div_iff₀ (by norm_num)]
    have : ((20 * N k : Nat) : K) ≤ m := by exact_mod_cast hk
    push_cast at this
    linarith
  have hlt20 : ∀ k, m < 20 * N k → (m : K) / 20 < ((N k : Nat) : K) := by
    intro k hk
    rw [div_lt_iff₀ (by norm_num)]
    have : (m : K) < ((20 * N k : Nat) : K) := by exact_mod_cast hk
    push_cast at this
    linarith
  have hget : ∀ k, k < 20 → ((List.range 20).map fun k => (N k : Int))[k]? = some (N k : Int) := by
    intro k hk
    rw [List.getElem?_map, List.getElem?_range hk]
    rfl
  have hlen : ((List.range 20).map fun k => (N k : Int)).length = 20 := by simp
  have hN20 : N 20 = 0 := by
    rw [hN]
    unfold held
    refine List.countP_eq_zero.2 fun e he => ?_
    have := hr.2.2 e he
    simp only [decide_eq_true_eq]
    rintro ⟨-, h | h⟩
    · omega
    · push_cast at h
      linarith
  -- the scan from below
  have hup := scanUp_eq (half := (m : K) / 20) (inc := inc) i ((List.range 20).map fun k => (N k : Int)) lo 0 (N i : Int)
    (hget i hp.first.1) (by push_cast; exact hlt20 i hp.first.2.1) fun k hk x hx => by
      rw [hget k (by have := hp.first.1; omega)] at hx
      obtain rfl := Option.some_inj.1 hx
      push_cast
      exact hle20 k (hp.first.2.2 k hk)
  have eprev : (if i = 0 then (0 : K) else (((((List.range 20).map fun k => (N k : Int)).getD (i - 1) 0 : Int)) : K)) =
      (below N i : K) := by
    unfold below
    split
    · simp
    · rw [List.getD_eq_getElem?_getD, hget (i - 1) (by have := hp.first.1; omega)]
      simp
  have hprev : (below N i : K) ≤ (m : K) / 20 := by
    unfold below
    split
    · push_cast; positivity
    · exact hle20 _ (hp.first.2.2 _ (by omega))
  rw [eprev] at hup
  -- the scan from above
  have hrev : ∀ k, k < 20 → (((List.range 20).map fun k => (N k : Int)).reverse)[k]? = some (N (19 - k) : Int) := by
    intro k hk
    rw [List.getElem?_reverse (by rw [hlen]; exact hk), hlen, show 20 - 1 - k = 19 - k by omega, hget _ (by omega)]
  have hj := hp.last.1
  have hdown := scanDown_eq (half := (m : K) / 20) (inc := inc) (19 - j) ((List.range 20).map fun k => (N k : Int)).reverse hi 0 (N j : Int)
    (by rw [hrev _ (by omega), show 19 - (19 - j) = j by omega]) (by push_cast; exact hlt20 j hp.last.2.1) fun k hk x hx => by
      rw [hrev k (by omega)] at hx
      obtain rfl := Option.some_inj.1 hx
      push_cast
      exact hle20 _ (hp.last.2.2 _ (by omega) (by omega))
  have enext : (if 19 - j = 0 then (0 : K) else ((((((List.range 20).map fun k => (N k : Int)).reverse).getD (19 - j - 1) 0 : Int)) : K)) =
      (N (j + 1) : K) := by
    split
    · next h => rw [show j + 1 = 20 by omega, hN20]; simp
    · rw [List.getD_eq_getElem?_getD, hrev _ (by omega), show 19 - (19 - j - 1) = j + 1 by omega]
      simp
  have hnext : (N (j + 1) : K) ≤ (m : K) / 20 := by
    by_cases h : j + 1 = 20
    · rw [h, hN20]; push_cast; positivity
    · exact hle20 _ (hp.last.2.2 _ (by omega) (by omega))
  have eedge : (hi - ((19 - j : Nat) : K) * inc - inc) / 2 = (lo + j * inc) / 2 := by
    rw [Nat.cast_sub (by omega), ← h20]
    push_cast
    ring
  rw [enext, eedge] at hdown
  unfold fwhm
  rw [extremes_ok hr, ok_bind]
  simp only
  have q1 : quot (hi - lo) (20 : K) = .ok inc := by unfold quot; rw [if_neg (by norm_num), hi']
  have q2 : quot ((m : Int) : K) (20 : K) = .ok ((m : K) / 20) := by unfold quot; rw [if_neg (by norm_num)]; simp
  rw [q1, ok_bind, bins_eq hinc E, maxCount_eq hp.attained hp.greatest, q2, ok_bind, hup, hdown]
  by_cases h0 : lo = hi
  · rw [if_pos (.inl h0)]
    have : inc = 0 := by rw [hi', h0]; simp
    unfold lowerIntersect quot
    simp only [sub_sub_cancel]
    rw [if_pos this]
    rfl
  · have hinc0 : inc ≠ 0 := by
      rw [hi']
      exact div_ne_zero (sub_ne_zero.2 (Ne.symm h0)) (by norm_num)
    rw [lower_eq hinc0 (by push_cast; exact (hprev.trans_lt (hlt20 i hp.first.2.1)).ne'), ok_bind,
      upper_eq (by push_cast; exact (hnext.trans_lt (hlt20 j hp.last.2.1)).ne')]
    have hc : (lo + j * inc) / 2 = inc ↔ lo + j * inc = 2 * inc := by
      rw [div_eq_iff (by norm_num : (2 : K) ≠ 0), mul_comm inc]
    by_cases h2 : lo + j * inc = 2 * inc
    · rw [if_pos (hc.2 h2), if_pos (.inr h2)]
      rfl
    · rw [if_neg (fun h => h2 (hc.1 h)), if_neg (by rintro (h | h); exacts [h0 h, h2 h]), ok_bind]
      push_cast
      congr 3
      ring

/-- For the sample above, `m = 4`, `i = 0` and `j = 19`. -/
example : Peak (held 0 1 sample) 4 0 19 ∧ fwhm sample = .ok (1 + (4 / 20 - 0) / (1 - 0) * ((0 + 19 * 1) / 2 - 1) - ((0 + 1) / 2 - 1 + (4 / 20 - 0) / (2 - 0) * 1)) := by
  refine ⟨⟨⟨9, by decide, by decide +kernel⟩, by decide +kernel, by decide +kernel, ?_⟩, by decide +kernel⟩
  exact ⟨by decide, by decide +kernel, fun k h1 h2 => by omega⟩

/-- Scaling of the result. -/
theorem Correlated.range_scale {E : List K} {lo hi c : K} (hc : 0 < c) (hr : Range E lo hi) : Range (E.map (c * ·)) (c * lo) (c * hi) := by
  refine ⟨⟨List.mem_map.2 ⟨lo, hr.1.1, rfl⟩, fun e he => ?_⟩, List.mem_map.2 ⟨hi, hr.2.1, rfl⟩, fun e he => ?_⟩
  · obtain ⟨x, hx, rfl⟩ := List.mem_map.1 he
    exact mul_le_mul_of_nonneg_left (hr.1.2 x hx) hc.le
  · obtain ⟨x, hx, rfl⟩ := List.mem_map.1 he
    exact mul_le_mul_of_nonneg_left (hr.2.2 x hx) hc.le

theorem Correlated.held_scale {E : List K} {lo inc c : K} (hc : 0 < c) : held (c * lo) (c * inc) (E.map (c * ·)) = held lo inc E := by
  funext k
  unfold held
  rw [List.countP_map]
  refine List.countP_congr fun e _ => ?_
  simp only [Function.comp, decide_eq_true_eq]
  unfold InBin
  have e1 : c * lo + ((k : K) + 1) * (c * inc) = c * (lo + ((k : K) + 1) * inc) := by ring
  have e2 : c * lo + (k : K) * (c * inc) = c * (lo + (k : K) * inc) := by ring
  rw [e1, e2, mul_le_mul_iff_right₀ hc, mul_lt_mul_iff_right₀ hc]

theorem WidthSpec.Peak.unique {N : Nat → Nat} {m i j m' i' j' : Nat} (h : Peak N m i j) (h' : Peak N m' i' j') : m = m' ∧ i = i' ∧ j = j' := by
  obtain ⟨k, hk, e⟩ := h.attained
  obtain ⟨k', hk', e'⟩ := h'.attained
  have h1 := h'.greatest k hk
  have h2 := h.greatest k' hk'
  have hm : m = m' := by omega
  subst hm
  have a := h.first
  have a' := h'.first
  have b := h.last
  have b' := h'.last
  refine ⟨rfl, ?_, ?_⟩
  · rcases Nat.lt_trichotomy i i' with hl | he | hl
    · have := a'.2.2 i hl; omega
    · exact he
    · have := a.2.2 i' hl; omega
  · rcases Nat.lt_trichotomy j j' with hl | he | hl
    · have := b.2.2 j' hl b'.1; omega
    · exact he
    · have := b'.2.2 j hl b.1; omega

/-- **C110** (what holds of a width). In other units of energy the result is the same width. Missing: that a shift of all energies does not
change it, that it is never negative, and that it is taken at half of the maximum. -/
theorem C110_units_partial {E : List K} (hne : E ≠ []) {c : K} (hc : 0 < c) : fwhm (E.map (c * ·)) = (fwhm E).map (c * ·) := by
  obtain ⟨b, -, hr⟩ := extremes_range hne
  obtain ⟨m, i, j, hp, e⟩ := C110_value hr rfl
  obtain ⟨m', i', j', hp', e'⟩ := C110_value (range_scale hc hr) rfl
  have hinc : (c * b.2 - c * b.1) / 20 = c * ((b.2 - b.1) / 20) := by ring
  rw [hinc] at hp' e'
  rw [held_scale hc] at hp' e'
  obtain ⟨rfl, rfl, rfl⟩ := hp.unique hp'
  rw [e, e']
  generalize (b.2 - b.1) / 20 = inc
  have h1 : c * b.1 = c * b.2 ↔ b.1 = b.2 := mul_right_inj' hc.ne'
  have h2 : c * b.1 + (j : K) * (c * inc) = 2 * (c * inc) ↔ b.1 + j * inc = 2 * inc := by
    rw [← mul_right_inj' hc.ne' (b := b.1 + j * inc)]
    constructor <;> intro h <;> linarith
  by_cases h : b.1 = b.2 ∨ b.1 + j * inc = 2 * inc
  · rw [if_pos h, if_pos (by rw [h1, h2]; exact h)]
    rfl
  · rw [if_neg h, if_neg (by rw [h1, h2]; exact h)]
    show _ = Except.ok _
    congr 1
    ring

/-- **C110** (what is false). The sample shifted by 100 has a width below zero, another one than before; shifted by -17 it has none. -/
theorem C110_counterexample : (∃ w, fwhm sample = .ok w ∧ 0 < w) ∧ (∃ w, fwhm (sample.map (· + 100)) = .ok w ∧ w < 0) ∧
    fwhm (sample.map (· + -17)) = .error .nonFinite := by
  refine ⟨?_, ?_, by decide +kernel⟩
  · refine ⟨_, (by decide +kernel : fwhm sample = .ok (1 + (4 / 20 - 0) / (1 - 0) * ((0 + 19 * 1) / 2 - 1) - ((0 + 1) / 2 - 1 + (4 / 20 - 0) / (2 - 0) * 1))), by norm_num⟩
  · refine ⟨-369 / 10, ?_, by norm_num⟩
    decide +kernel

end Mythical
