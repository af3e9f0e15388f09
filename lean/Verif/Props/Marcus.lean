import Verif.Model.Marcus
import Verif.Lemmas.Except
import Mathlib.Analysis.Real.Pi.Bounds
import Mathlib.Tactic.Linarith
import Mathlib.Tactic.FieldSimp
import Mathlib.Tactic.Ring
import Mathlib.Tactic.NormNum

/-! # Marcus rates (C22-C24, C66) -/

namespace Mythical

/-- The rate a user gets for reorganisation energy `lam`, temperature `T`, energies `Ei`, `Ej` and coupling `H`
is `k`. -/
def MarcusRate (lam T Ei Ej H k : ℝ) : Prop :=
  ∃ m, Marcus.construct lam T = .ok m ∧ m.getRate Ei Ej H = .ok k

theorem kB_pos : 0 < kB := by unfold kB; norm_num
theorem SRkB_pos : 0 < SRkB := by unfold SRkB; norm_num
theorem hBar_pos : 0 < hBar := by unfold hBar; norm_num
theorem PI_pos : 0 < PI := by unfold PI; norm_num
theorem SRPI_pos : 0 < SRPI := by unfold SRPI; norm_num

/-- The prefactor. -/
noncomputable def marcusA (T : ℝ) : ℝ := 2 * PI / hBar * 1 / (SRPI * 2 * SRkB * Real.sqrt T)

theorem marcusA_pos {T : ℝ} (hT : 0 < T) : 0 < marcusA T := by
  have := kB_pos; have := SRkB_pos; have := hBar_pos; have := PI_pos; have := SRPI_pos
  have := Real.sqrt_pos.2 hT
  unfold marcusA; positivity

theorem marcusRate_iff {lam T Ei Ej H k : ℝ} (hl : 0 < lam) (hT : 0 < T) :
    MarcusRate lam T Ei Ej H k ↔
      k = marcusA T * H * H * Real.exp (-1 * (lam + Ej - Ei) ^ 2 / (4 * lam * kB * T)) := by
  have hk := kB_pos
  have hd : 4 * lam * kB * T ≠ 0 := by positivity
  unfold MarcusRate Marcus.construct
  rw [if_neg (not_le.2 hT)]
  constructor
  · rintro ⟨m, h1, h2⟩
    cases h1
    simp only [Marcus.getRate, if_neg hd, ok_inj] at h2
    exact h2.symm
  · rintro rfl
    exact ⟨_, rfl, by simp only [Marcus.getRate, if_neg hd]; rfl⟩

/-- C22: the rate exists, is non-negative, and vanishes exactly without coupling. -/
theorem C22_nonneg (lam T Ei Ej H : ℝ) (hl : 0 < lam) (hT : 0 < T) :
    ∃ k, MarcusRate lam T Ei Ej H k ∧ 0 ≤ k ∧ (k = 0 ↔ H = 0) := by
  refine ⟨_, (marcusRate_iff hl hT).2 rfl, ?_, ?_⟩
  · have h1 := marcusA_pos hT
    have h2 := Real.exp_pos (-1 * (lam + Ej - Ei) ^ 2 / (4 * lam * kB * T))
    have := mul_self_nonneg H
    rw [mul_assoc (marcusA T)]
    positivity
  · have h1 := (marcusA_pos hT).ne'
    simp [h1]

/-- C22: the rate scales with the square of the coupling; in particular its sign does not matter. -/
theorem C22_quadratic {lam T Ei Ej H s k k' : ℝ} (hl : 0 < lam) (hT : 0 < T)
    (h : MarcusRate lam T Ei Ej H k) (h' : MarcusRate lam T Ei Ej (s * H) k') : k' = s ^ 2 * k := by
  rw [marcusRate_iff hl hT] at h h'
  rw [h, h']; ring

/-- C23: detailed balance with the Boltzmann factor of the library's `k_B`. -/
theorem C23_detailed_balance {lam T Ei Ej H kij kji : ℝ} (hl : 0 < lam) (hT : 0 < T) (hH : H ≠ 0)
    (hij : MarcusRate lam T Ei Ej H kij) (hji : MarcusRate lam T Ej Ei H kji) :
    kij / kji = Real.exp (-(Ej - Ei) / (8.617333262145e-5 * T)) := by
  rw [marcusRate_iff hl hT] at hij hji
  have hk := kB_pos
  have hA := (marcusA_pos hT).ne'
  rw [hij, hji, mul_div_mul_left _ _ (by simp [hA, hH]), ← Real.exp_sub]
  have : (8.617333262145e-5 : ℝ) = kB := rfl
  rw [this]
  congr 1
  field_simp
  ring

/-- C24: only the energy difference matters. -/
theorem C24_shift {lam T Ei Ej H k : ℝ} (e : ℝ) (hl : 0 < lam) (hT : 0 < T) :
    MarcusRate lam T Ei Ej H k ↔ MarcusRate lam T (Ei + e) (Ej + e) H k := by
  rw [marcusRate_iff hl hT, marcusRate_iff hl hT]
  have : lam + (Ej + e) - (Ei + e) = lam + Ej - Ei := by ring
  rw [this]

theorem marcus_lt {lam T Ei Ej Ei' Ej' H k k' : ℝ} (hl : 0 < lam) (hT : 0 < T) (hH : H ≠ 0)
    (h : MarcusRate lam T Ei Ej H k) (h' : MarcusRate lam T Ei' Ej' H k') :
    k < k' ↔ (lam - (Ei' - Ej')) ^ 2 < (lam - (Ei - Ej)) ^ 2 := by
  rw [marcusRate_iff hl hT] at h h'
  have hk := kB_pos
  have hA := marcusA_pos hT
  have hHH := mul_self_pos.2 hH
  have hd : 0 < 4 * lam * kB * T := by positivity
  rw [h, h', mul_assoc (marcusA T), mul_lt_mul_iff_right₀ (by positivity), Real.exp_lt_exp,
    div_lt_div_iff_of_pos_right hd]
  have e1 : lam + Ej - Ei = lam - (Ei - Ej) := by ring
  have e2 : lam + Ej' - Ei' = lam - (Ei' - Ej') := by ring
  rw [e1, e2]
  constructor <;> intro h <;> linarith

/-- C24: the rate is maximal exactly when the driving force `Ei - Ej` equals the reorganisation energy. -/
theorem C24_maximum {lam T Ei Ej Ei' Ej' H k k' : ℝ} (hl : 0 < lam) (hT : 0 < T) (hH : H ≠ 0)
    (h : MarcusRate lam T Ei Ej H k) (hmax : Ei - Ej = lam) (h' : MarcusRate lam T Ei' Ej' H k') :
    k' ≤ k ∧ (k' = k ↔ Ei' - Ej' = lam) := by
  have h1 := marcus_lt hl hT hH h h'
  have h2 := marcus_lt hl hT hH h' h
  rw [hmax, sub_self] at h1 h2
  have hle : k' ≤ k := by
    by_contra hlt
    have := h1.1 (not_le.1 hlt)
    nlinarith [sq_nonneg (lam - (Ei' - Ej'))]
  refine ⟨hle, ?_⟩
  constructor
  · rintro rfl
    by_contra hne
    have : lam - (Ei' - Ej') ≠ 0 := fun e => hne (by linarith)
    have := h2.2 (by rw [zero_pow two_ne_zero]; positivity)
    exact lt_irrefl _ this
  · intro e
    by_contra hne
    have := h2.1 (lt_of_le_of_ne hle hne)
    rw [e, sub_self] at this
    exact lt_irrefl _ this

/-- C24: normal region — below the reorganisation energy a larger driving force gives a faster rate. -/
theorem C24_normal_region {lam T Ei Ej Ei' Ej' H k k' : ℝ} (hl : 0 < lam) (hT : 0 < T) (hH : H ≠ 0)
    (h : MarcusRate lam T Ei Ej H k) (h' : MarcusRate lam T Ei' Ej' H k') (hlt : Ei - Ej < Ei' - Ej')
    (hle : Ei' - Ej' ≤ lam) : k < k' := by
  rw [marcus_lt hl hT hH h h']; nlinarith

/-- C24: inverted region — beyond it a larger driving force gives a slower rate. -/
theorem C24_inverted_region {lam T Ei Ej Ei' Ej' H k k' : ℝ} (hl : 0 < lam) (hT : 0 < T) (hH : H ≠ 0)
    (h : MarcusRate lam T Ei Ej H k) (h' : MarcusRate lam T Ei' Ej' H k') (hlt : Ei - Ej < Ei' - Ej')
    (hle : lam ≤ Ei - Ej) : k' < k := by
  rw [marcus_lt hl hT hH h' h]; nlinarith

/-- The hypotheses are met, e.g. by lambda = 0.1 eV, T = 300 K. -/
example : ∃ k k' : ℝ, MarcusRate 0.1 300 0.1 0 0.01 k ∧ MarcusRate 0.1 300 0 0.1 0.01 k' ∧ k' < k := by
  have h1 := (marcusRate_iff (lam := 0.1) (T := 300) (Ei := 0.1) (Ej := 0) (H := 0.01) (by norm_num) (by norm_num)).2 rfl
  have h2 := (marcusRate_iff (lam := 0.1) (T := 300) (Ei := 0) (Ej := 0.1) (H := 0.01) (by norm_num) (by norm_num)).2 rfl
  exact ⟨_, _, h1, h2, C24_normal_region (by norm_num) (by norm_num) (by norm_num) h2 h1 (by norm_num) (by norm_num)⟩

/-! ## C66: agreement with the documented formula -/

/-- The rate formula of the class documentation (include/mythical/charge_transport/marcus.hpp 23-25) with
`DeltaG = Ej - Ei`, the denominator `D` of the exponent left open (the documentation says `4 π k_B T`). -/
noncomputable def marcusDoc (D T lam Ei Ej H : ℝ) : ℝ :=
  2 * Real.pi / 6.582119569e-16 * (1 / Real.sqrt (4 * Real.pi * 8.617333262145e-5 * T)) * H ^ 2 *
    Real.exp (-(lam + (Ej - Ei)) ^ 2 / D)

/-- C66 (partial: holds with `4 lambda k_B T` in place of the documented denominator `4 π k_B T`, see
`C66_counterexample`): the rate is the documented one, with the true `π`, up to a relative error of `10⁻⁹`. -/
theorem C66_documented_partial {lam T Ei Ej H k : ℝ} (hl : 0 < lam) (hT : 0 < T)
    (h : MarcusRate lam T Ei Ej H k) :
    |k - marcusDoc (4 * lam * 8.617333262145e-5 * T) T lam Ei Ej H| ≤
      1e-9 * marcusDoc (4 * lam * 8.617333262145e-5 * T) T lam Ei Ej H := by
  rw [marcusRate_iff hl hT] at h
  have hk := kB_pos; have h2 := SRkB_pos; have h3 := hBar_pos; have h4 := PI_pos; have h5 := SRPI_pos
  have hpi := Real.pi_pos
  have hsT := Real.sqrt_pos.2 hT
  have ekB : (8.617333262145e-5 : ℝ) = kB := rfl
  have ehB : (6.582119569e-16 : ℝ) = hBar := rfl
  unfold marcusDoc
  rw [ekB, ehB]
  have hexp : Real.exp (-1 * (lam + Ej - Ei) ^ 2 / (4 * lam * kB * T))
      = Real.exp (-(lam + (Ej - Ei)) ^ 2 / (4 * lam * kB * T)) := by
    congr 1; ring
  rw [hexp] at h
  have hex := Real.exp_pos (-(lam + (Ej - Ei)) ^ 2 / (4 * lam * kB * T))
  generalize Real.exp (-(lam + (Ej - Ei)) ^ 2 / (4 * lam * kB * T)) = ex at h hex ⊢
  have hsq : Real.sqrt (4 * Real.pi * kB * T) = 2 * Real.sqrt (Real.pi * kB) * Real.sqrt T := by
    rw [show 4 * Real.pi * kB * T = (2 : ℝ) ^ 2 * (Real.pi * kB) * T by ring, Real.sqrt_mul (by positivity),
      Real.sqrt_mul (by positivity), Real.sqrt_sq (by norm_num)]
  rw [hsq]
  have p1 : 3.14159265358979323846 < Real.pi := Real.pi_gt_d20
  have p2 : Real.pi < 3.14159265358979323847 := Real.pi_lt_d20
  have rl : 0.016453616888 < Real.sqrt (Real.pi * kB) := by
    apply Real.lt_sqrt_of_sq_lt; unfold kB; nlinarith
  have ru : Real.sqrt (Real.pi * kB) < 0.016453616889 := by
    rw [Real.sqrt_lt' (by norm_num)]; unfold kB; nlinarith
  have hrpos : 0 < Real.sqrt (Real.pi * kB) := Real.sqrt_pos.2 (by positivity)
  generalize Real.sqrt (Real.pi * kB) = r at rl ru hrpos ⊢
  have hratio : k = 2 * Real.pi / hBar * (1 / (2 * r * Real.sqrt T)) * H ^ 2 * ex *
      (PI * r / (Real.pi * (SRPI * SRkB))) := by
    rw [h]; unfold marcusA
    field_simp
  have hdoc : 0 ≤ 2 * Real.pi / hBar * (1 / (2 * r * Real.sqrt T)) * H ^ 2 * ex := by positivity
  rw [hratio, ← mul_sub_one, abs_mul, abs_of_nonneg hdoc, mul_comm]
  apply mul_le_mul_of_nonneg_right _ hdoc
  have hden : 0 < Real.pi * (SRPI * SRkB) := by positivity
  rw [div_sub_one hden.ne', abs_div, abs_of_pos hden, div_le_iff₀ hden, abs_le]
  unfold PI SRPI SRkB
  constructor <;> nlinarith

/-- C66, negation of the full statement: at 300 K, reorganisation energy 0.1 eV, no driving force, the rate is less
than half of what the documented formula (exponent over `4 π k_B T`) says. -/
theorem C66_counterexample {k : ℝ} (h : MarcusRate 0.1 300 0 0 0.01 k) :
    k < marcusDoc (4 * Real.pi * 8.617333262145e-5 * 300) 300 0.1 0 0 0.01 / 2 := by
  have hb := C66_documented_partial (by norm_num) (by norm_num) h
  have hb := (abs_le.1 hb).2
  have hpi := Real.pi_pos
  have p1 : 3.14 < Real.pi := by have := Real.pi_gt_d20; linarith
  unfold marcusDoc at hb ⊢
  have hA : 0 < 2 * Real.pi / 6.582119569e-16 * (1 / Real.sqrt (4 * Real.pi * 8.617333262145e-5 * 300)) *
      (0.01 : ℝ) ^ 2 := by
    have : 0 < Real.sqrt (4 * Real.pi * 8.617333262145e-5 * 300) := Real.sqrt_pos.2 (by positivity)
    positivity
  generalize 2 * Real.pi / 6.582119569e-16 * (1 / Real.sqrt (4 * Real.pi * 8.617333262145e-5 * 300)) *
      (0.01 : ℝ) ^ 2 = A at hb hA ⊢
  set x := -(0.1 + (0 - 0) : ℝ) ^ 2 / (4 * Real.pi * 8.617333262145e-5 * 300) with hx
  set y := -(0.1 + (0 - 0) : ℝ) ^ 2 / (4 * 0.1 * 8.617333262145e-5 * 300) with hy
  have hxy : y + 0.9 ≤ x := by
    have hx' : -0.04 ≤ x := by
      rw [hx, neg_div, neg_le_neg_iff, div_le_iff₀ (by positivity)]; nlinarith
    have hy' : y ≤ -0.96 := by rw [hy]; norm_num
    linarith
  have he : Real.exp y * 2.3 ≤ Real.exp x := by
    have h9 : (2.3 : ℝ) ≤ Real.exp 0.9 := by
      have := Real.quadratic_le_exp_of_nonneg (x := 0.9) (by norm_num); norm_num at this ⊢; linarith
    calc Real.exp y * 2.3 ≤ Real.exp y * Real.exp 0.9 := by
          apply mul_le_mul_of_nonneg_left h9 (Real.exp_pos _).le
      _ = Real.exp (y + 0.9) := by rw [Real.exp_add]
      _ ≤ Real.exp x := Real.exp_le_exp.2 hxy
  have hpy := Real.exp_pos y
  clear_value x y
  have h1 := mul_pos hA hpy
  have h2 := mul_le_mul_of_nonneg_left he hA.le
  rw [← mul_assoc] at h2
  generalize A * Real.exp y = P at *
  generalize A * Real.exp x = Q at *
  norm_num at hb h2
  linarith

/-- The rate of the counterexample exists. -/
example : ∃ k, MarcusRate 0.1 300 0 0 0.01 k := ⟨_, (marcusRate_iff (by norm_num) (by norm_num)).2 rfl⟩

end Mythical
