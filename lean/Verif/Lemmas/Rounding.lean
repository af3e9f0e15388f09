import Verif.Model.Rounded
import Verif.Spec.Rounded
import Mathlib.Tactic.Linarith
import Mathlib.Tactic.Ring
import Mathlib.Tactic.FieldSimp
import Mathlib.Tactic.Positivity

/-! # Lemmas on rounding: binary64 is a rounding -/

set_option linter.unusedSectionVars false

namespace Mythical.Rounded
open Mythical RoundSpec
variable {K : Type} [Field K] [LinearOrder K] [IsStrictOrderedRing K] [FloorRing K]

theorem nearest_err (x : K) : |(nearest x : K) - x| ≤ 1 / 2 := by
  have h1 := Int.floor_le x
  have h2 := Int.lt_floor_add_one x
  unfold nearest
  split
  · rw [abs_le]; constructor <;> linarith
  · split
    · push_cast; rw [abs_le]; constructor <;> linarith
    · split
      · rw [abs_le]; constructor <;> linarith
      · push_cast; rw [abs_le]; constructor <;> linarith

theorem nearest_int (m : Int) : nearest (m : K) = m := by
  unfold nearest
  rw [Int.floor_intCast, sub_self, if_pos (by norm_num)]

theorem nearest_mono : Monotone (nearest : K → Int) := by
  intro x y h
  by_contra hc
  rw [not_le] at hc
  have h1 := abs_le.1 (nearest_err x)
  have h2 := abs_le.1 (nearest_err y)
  have h3 : ((nearest y : Int) : K) + 1 ≤ ((nearest x : Int) : K) := by exact_mod_cast hc
  have : x = y := le_antisymm h (by linarith)
  rw [this] at hc
  exact lt_irrefl _ hc

theorem nearest_neg (x : K) : nearest (-x) = - nearest x := by
  by_cases hx : (⌊x⌋ : K) = x
  · rw [← hx, ← Int.cast_neg, nearest_int, nearest_int]
  · have hlt : (⌊x⌋ : K) < x := lt_of_le_of_ne (Int.floor_le x) hx
    have hf : ⌊-x⌋ = -⌊x⌋ - 1 := by
      rw [Int.floor_eq_iff]
      push_cast
      have := Int.lt_floor_add_one x
      constructor <;> linarith
    unfold nearest
    rw [hf]
    push_cast
    by_cases a : x - ⌊x⌋ < 1 / 2
    · rw [if_pos a, if_neg (by linarith), if_pos (by linarith)]; ring
    · rw [if_neg a]
      by_cases b : 1 / 2 < x - ⌊x⌋
      · rw [if_pos b, if_pos (by linarith)]; ring
      · rw [if_neg b, if_neg (by linarith), if_neg (by linarith)]
        by_cases e : ⌊x⌋ % 2 = 0
        · rw [if_pos e, if_neg (by omega)]; ring
        · rw [if_neg e, if_pos (by omega)]; ring

theorem binary64_zero : binary64 (0 : K) = 0 := if_pos rfl

theorem binary64_neg (x : K) : binary64 (-x) = - binary64 x := by
  by_cases h : x = 0
  · rw [h, neg_zero, binary64_zero, neg_zero]
  · unfold binary64
    rw [if_neg h, if_neg (neg_ne_zero.2 h), abs_neg, neg_div, nearest_neg]
    push_cast
    ring

/-- The exponent. -/
theorem log_bounds {x : K} (h : 0 < x) : (2 : K) ^ (Int.log 2 x) ≤ x ∧ x < 2 ^ (Int.log 2 x + 1) := by
  have h1 := Int.zpow_log_le_self (R := K) (b := 2) (by norm_num) h
  have h2 := Int.lt_zpow_succ_log_self (R := K) (b := 2) (by norm_num) x
  exact ⟨by exact_mod_cast h1, by exact_mod_cast h2⟩

theorem ulp_bounds {x : K} (h : 0 < x) :
    (2 : K) ^ 52 ≤ x / 2 ^ (Int.log 2 x - 52) ∧ x / 2 ^ (Int.log 2 x - 52) < 2 ^ 53 := by
  obtain ⟨h1, h2⟩ := log_bounds h
  have hu : (0 : K) < 2 ^ (Int.log 2 x - 52) := zpow_pos (by norm_num) _
  rw [le_div_iff₀ hu, div_lt_iff₀ hu]
  have e1 : (2 : K) ^ 52 * 2 ^ (Int.log 2 x - 52) = 2 ^ (Int.log 2 x) := by
    rw [← zpow_natCast, ← zpow_add₀ (by norm_num)]; congr 1; push_cast; ring
  have e2 : (2 : K) ^ 53 * 2 ^ (Int.log 2 x - 52) = 2 ^ (Int.log 2 x + 1) := by
    rw [← zpow_natCast, ← zpow_add₀ (by norm_num)]; congr 1; push_cast; ring
  rw [e1, e2]
  exact ⟨h1, h2⟩

theorem binary64_pos_def {x : K} (h : 0 < x) :
    binary64 x = nearest (x / 2 ^ (Int.log 2 x - 52)) * 2 ^ (Int.log 2 x - 52) := by
  unfold binary64; rw [if_neg h.ne', abs_of_pos h]

theorem binary64_pos_bounds {x : K} (h : 0 < x) :
    (2 : K) ^ (Int.log 2 x) ≤ binary64 x ∧ binary64 x ≤ 2 ^ (Int.log 2 x + 1) := by
  obtain ⟨h1, h2⟩ := ulp_bounds h
  have hu : (0 : K) < 2 ^ (Int.log 2 x - 52) := zpow_pos (by norm_num) _
  have e1 : (2 : K) ^ 52 * 2 ^ (Int.log 2 x - 52) = 2 ^ (Int.log 2 x) := by
    rw [← zpow_natCast, ← zpow_add₀ (by norm_num)]; congr 1; push_cast; ring
  have e2 : (2 : K) ^ 53 * 2 ^ (Int.log 2 x - 52) = 2 ^ (Int.log 2 x + 1) := by
    rw [← zpow_natCast, ← zpow_add₀ (by norm_num)]; congr 1; push_cast; ring
  have a1 : ((2 ^ 52 : Int)) ≤ nearest (x / 2 ^ (Int.log 2 x - 52)) := by
    rw [← nearest_int (K := K) (2 ^ 52)]; apply nearest_mono; exact le_trans (le_of_eq (by norm_num)) h1
  have a2 : nearest (x / 2 ^ (Int.log 2 x - 52)) ≤ (2 ^ 53 : Int) := by
    rw [← nearest_int (K := K) (2 ^ 53)]; apply nearest_mono; exact le_trans h2.le (le_of_eq (by norm_num))
  have b1 : ((2 : K) ^ 52) ≤ (nearest (x / 2 ^ (Int.log 2 x - 52)) : K) := by exact_mod_cast a1
  have b2 : (nearest (x / 2 ^ (Int.log 2 x - 52)) : K) ≤ (2 : K) ^ 53 := by exact_mod_cast a2
  rw [binary64_pos_def h, ← e1, ← e2]
  exact ⟨mul_le_mul_of_nonneg_right b1 hu.le, mul_le_mul_of_nonneg_right b2 hu.le⟩

theorem binary64_pos {x : K} (h : 0 < x) : 0 < binary64 x :=
  lt_of_lt_of_le (zpow_pos (by norm_num) _) (binary64_pos_bounds h).1

theorem binary64_mono_pos {x y : K} (hx : 0 < x) (h : x ≤ y) : binary64 x ≤ binary64 y := by
  have hy := lt_of_lt_of_le hx h
  have hl : Int.log 2 x ≤ Int.log 2 y := Int.log_mono_right hx h
  rcases hl.lt_or_eq with hl | hl
  · refine (binary64_pos_bounds hx).2.trans (le_trans ?_ (binary64_pos_bounds hy).1)
    exact zpow_le_zpow_right₀ (by norm_num) hl
  · rw [binary64_pos_def hx, binary64_pos_def hy, hl]
    have hu : (0 : K) < 2 ^ (Int.log 2 y - 52) := zpow_pos (by norm_num) _
    apply mul_le_mul_of_nonneg_right _ hu.le
    exact_mod_cast nearest_mono (div_le_div_of_nonneg_right h hu.le)

theorem binary64_mono : Monotone (binary64 : K → K) := by
  intro x y h
  rcases lt_trichotomy x 0 with hx | hx | hx
  · rcases lt_or_ge y 0 with hy | hy
    · have := binary64_mono_pos (x := -y) (y := -x) (by linarith) (by linarith)
      rw [binary64_neg, binary64_neg] at this
      linarith
    · have h1 := binary64_pos (x := -x) (by linarith)
      rw [binary64_neg] at h1
      have h2 : 0 ≤ binary64 y := by
        rcases hy.lt_or_eq with hy | hy
        · exact (binary64_pos hy).le
        · rw [← hy, binary64_zero]
      linarith
  · rw [hx, binary64_zero]
    rw [hx] at h
    rcases h.lt_or_eq with hy | hy
    · exact (binary64_pos hy).le
    · rw [← hy, binary64_zero]
  · exact binary64_mono_pos hx h

theorem binary64_err_pos {x : K} (h : 0 < x) : |binary64 x - x| ≤ 1 / 2 ^ 53 * x := by
  have hu : (0 : K) < 2 ^ (Int.log 2 x - 52) := zpow_pos (by norm_num) _
  have h1 := nearest_err (x / 2 ^ (Int.log 2 x - 52))
  have h2 := (ulp_bounds h).1
  rw [binary64_pos_def h]
  generalize (2 : K) ^ (Int.log 2 x - 52) = u at *
  have e : (nearest (x / u) : K) * u - x = ((nearest (x / u) : K) - x / u) * u := by
    rw [sub_mul, div_mul_cancel₀ _ hu.ne']
  rw [e, abs_mul, abs_of_pos hu]
  have h3 : u ≤ x / 2 ^ 52 := by
    rw [le_div_iff₀ (by positivity)]; rw [le_div_iff₀ hu] at h2; linarith
  calc |(nearest (x / u) : K) - x / u| * u ≤ 1 / 2 * u := mul_le_mul_of_nonneg_right h1 hu.le
    _ ≤ 1 / 2 * (x / 2 ^ 52) := by linarith
    _ = 1 / 2 ^ 53 * x := by ring

theorem binary64_err (x : K) : |binary64 x - x| ≤ 1 / 2 ^ 53 * |x| := by
  rcases lt_trichotomy x 0 with hx | hx | hx
  · have := binary64_err_pos (x := -x) (by linarith)
    rw [binary64_neg] at this
    rw [abs_of_neg hx, abs_sub_comm]
    have e : -binary64 x - -x = x - binary64 x := by ring
    rw [e] at this
    exact this
  · rw [hx, binary64_zero]; simp
  · rw [abs_of_pos hx]; exact binary64_err_pos hx

/-- Numbers with 53 significant bits stay as they are. -/
theorem binary64_fixed (m : Int) (k : Int) (h : |m| ≤ 2 ^ 53) : binary64 ((m : K) * 2 ^ k) = m * 2 ^ k := by
  by_cases h0 : m = 0
  · rw [h0, Int.cast_zero, zero_mul, binary64_zero]
  have hk : (0 : K) < 2 ^ k := zpow_pos (by norm_num) _
  have hmK : (m : K) ≠ 0 := Int.cast_ne_zero.2 h0
  unfold binary64
  rw [if_neg (mul_ne_zero hmK hk.ne')]
  have hpos : 0 < |(m : K) * 2 ^ k| := abs_pos.2 (mul_ne_zero hmK hk.ne')
  obtain ⟨b1, b2⟩ := log_bounds hpos
  generalize Int.log 2 |(m : K) * 2 ^ k| = e at *
  have hab : |(m : K) * 2 ^ k| = ((|m| : Int) : K) * 2 ^ k := by
    rw [abs_mul, abs_of_pos hk, Int.cast_abs]
  rw [hab] at b1 b2
  have hm53 : ((|m| : Int) : K) ≤ 2 ^ (53 : Int) := by exact_mod_cast h
  have hle : (2 : K) ^ e ≤ 2 ^ (53 + k) := by
    rw [zpow_add₀ (by norm_num)]
    exact b1.trans (mul_le_mul_of_nonneg_right hm53 hk.le)
  have he : e ≤ 53 + k := (zpow_le_zpow_iff_right₀ (by norm_num)).1 hle
  have hu : (0 : K) < 2 ^ (e - 52) := zpow_pos (by norm_num) _
  have key : ∃ j : Int, (m : K) * 2 ^ k / 2 ^ (e - 52) = j := by
    by_cases hek : e - 52 ≤ k
    · refine ⟨m * 2 ^ (k - (e - 52)).toNat, ?_⟩
      rw [mul_div_assoc, ← zpow_sub₀ (by norm_num)]
      push_cast
      congr 1
      rw [← zpow_natCast, Int.toNat_of_nonneg (by omega)]
    · have e53 : e = 53 + k := by omega
      have hm : |m| = 2 ^ 53 := by
        apply le_antisymm h
        rw [e53, zpow_add₀ (by norm_num)] at b1
        have := le_of_mul_le_mul_right b1 hk
        exact_mod_cast this
      have : (m : K) * 2 ^ k / 2 ^ (e - 52) = m / 2 := by
        rw [mul_div_assoc, ← zpow_sub₀ (by norm_num), e53]
        have : k - (53 + k - 52) = -1 := by ring
        rw [this, zpow_neg_one, div_eq_mul_inv]
      rcases abs_eq (by positivity) |>.1 hm with h' | h'
      · exact ⟨2 ^ 52, by rw [this, h']; push_cast; norm_num⟩
      · exact ⟨-2 ^ 52, by rw [this, h']; push_cast; norm_num⟩
  obtain ⟨j, hj⟩ := key
  rw [hj, nearest_int, ← hj, div_mul_cancel₀ _ hu.ne']

theorem binary64_idem (x : K) : binary64 (binary64 x) = binary64 x := by
  have pos : ∀ x : K, 0 < x → binary64 (binary64 x) = binary64 x := by
    intro x h
    rw [binary64_pos_def h]
    apply binary64_fixed
    obtain ⟨h1, h2⟩ := ulp_bounds h
    have a1 : ((2 ^ 52 : Int)) ≤ nearest (x / 2 ^ (Int.log 2 x - 52)) := by
      rw [← nearest_int (K := K) (2 ^ 52)]; apply nearest_mono; exact le_trans (le_of_eq (by norm_num)) h1
    have a2 : nearest (x / 2 ^ (Int.log 2 x - 52)) ≤ (2 ^ 53 : Int) := by
      rw [← nearest_int (K := K) (2 ^ 53)]; apply nearest_mono; exact le_trans h2.le (le_of_eq (by norm_num))
    rw [abs_of_nonneg (le_trans (by norm_num) a1)]
    exact a2
  rcases lt_trichotomy x 0 with hx | hx | hx
  · have := pos (-x) (by linarith)
    rw [binary64_neg, binary64_neg] at this
    exact neg_inj.1 this
  · rw [hx, binary64_zero, binary64_zero]
  · exact pos x hx

theorem binary64_rounding : Rounding (binary64 : K → K) (1 / 2 ^ 53) := ⟨binary64_mono, binary64_idem, binary64_err⟩

end Mythical.Rounded
