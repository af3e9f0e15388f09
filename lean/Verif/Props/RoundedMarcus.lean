import Verif.Model.RoundedMarcus
import Verif.Spec.RoundedMarcus
import Verif.Lemmas.RoundedAcc
import Verif.Props.Marcus
import Mathlib.Analysis.Complex.ExponentialBounds

/-! # Property C98: Marcus rates in rounded arithmetic -/

set_option linter.unusedSectionVars false

namespace Mythical
open RoundSpec Rounded
variable {fl ex sq rt : ℝ → ℝ} {ε : ℝ}

/-- The rate a user gets in the arithmetic with rounding. -/
def MarcusRateR (fl ex sq rt : ℝ → ℝ) (lam T Ei Ej H k : ℝ) : Prop :=
  ∃ m, Rounded.marcus fl rt lam T = .ok m ∧ Rounded.marcusRate fl ex sq m Ei Ej H = .ok k

/-- The denominator of the exponent and the prefactor. -/
theorem marcus_parts (R : Rounding fl ε) (L : Libm ex sq rt ε) (h0 : 0 ≤ ε) (h1 : ε < 1) {lam T : ℝ} (hl : 0 < lam) (hT : 0 < T) :
    ∃ D A, Rounded.marcus fl rt lam T = .ok ⟨lam, D, A⟩ ∧ Rel ε 4 (4 * lam * kB * T) D ∧ Rel ε 12 (marcusA T) A ∧ 0 < D ∧ 0 < A := by
  have k1 := kB_pos; have k2 := SRkB_pos; have k3 := hBar_pos; have k4 := PI_pos; have k5 := SRPI_pos
  have hs := Real.sqrt_pos.2 hT
  have rc : ∀ {x : ℝ}, 0 < x → Rel ε 1 x (fl x) := fun hx => Rel.round h0 h1.le R hx.le
  have rr : ∀ {x : ℝ}, 0 ≤ x → Rel ε 0 x x := fun hx => Rel.refl h0 h1.le hx
  have rq : Rel ε 1 (Real.sqrt T) (rt T) := Rel.of_abs hs.le h1.le (L.sqrt T hT.le)
  have pos : ∀ {m : Nat} {x y : ℝ}, Rel ε m x y → 0 < x → 0 < y := fun r hx =>
    lt_of_lt_of_le (mul_pos (pow_pos (by linarith) _) hx) r.low
  have d1 : Rel ε 1 (4 * lam) (fl (4 * lam)) := rc (by positivity)
  have d2 := (d1.mul h0 h1.le (rc k1)).rnd h0 h1 R
  have d3 := (d2.mul h0 h1.le (rr hT.le)).rnd h0 h1 R
  have n1 := ((rr (by norm_num : (0 : ℝ) ≤ 2)).mul h0 h1.le (rc k4)).rnd h0 h1 R
  have n2 := (n1.div h0 h1 (rc k3) k3).rnd h0 h1 R
  have n3 := (n2.mul h0 h1.le (rr (by norm_num : (0 : ℝ) ≤ 1))).rnd h0 h1 R
  have e1 := ((rc k5).mul h0 h1.le (rr (by norm_num : (0 : ℝ) ≤ 2))).rnd h0 h1 R
  have e2 := (e1.mul h0 h1.le (rc k2)).rnd h0 h1 R
  have e3 := (e2.mul h0 h1.le rq).rnd h0 h1 R
  have hden : 0 < SRPI * 2 * SRkB * Real.sqrt T := by positivity
  have a := (n3.div h0 h1 e3 hden).rnd h0 h1 R
  have hD := pos d3 (by positivity)
  have hA := pos a (by positivity)
  refine ⟨_, _, ?_, d3.mono h0 h1.le (by norm_num), a.mono h0 h1.le (by norm_num), hD, hA⟩
  unfold Rounded.marcus
  simp only
  rw [if_neg]
  rintro (q | q)
  · linarith
  · exact (pos e3 hden).ne' q

/-- The exponent. -/
theorem marcus_exponent (R : Rounding fl ε) (L : Libm ex sq rt ε) (h0 : 0 ≤ ε) (h1 : 100 * ε ≤ 1) {lam T D Ei Ej : ℝ} (hl : 0 < lam) (hT : 0 < T)
    (hD : Rel ε 4 (4 * lam * kB * T) D) :
    |fl (fl (-1 * sq (fl (fl (lam + Ej) - Ei))) / D) - -1 * (lam + Ej - Ei) ^ 2 / (4 * lam * kB * T)| ≤
      21 * (|lam| + |Ei| + |Ej|) ^ 2 / (4 * lam * kB * T) * ε := by
  have k1 := kB_pos
  have hlt : ε < 1 := by linarith
  set D0 := 4 * lam * kB * T with hD0
  have hD0p : 0 < D0 := by rw [hD0]; positivity
  set M := |lam| + |Ei| + |Ej| with hM
  have hM0 : 0 ≤ M := by rw [hM]; positivity
  set g := fl (fl (lam + Ej) - Ei) with hg
  set G := lam + Ej - Ei with hG
  have a1 : |lam + Ej| ≤ |lam| + |Ej| := abs_add_le _ _
  have a2 := R.err (lam + Ej)
  have a3 := R.err (fl (lam + Ej) - Ei)
  have a4 : |fl (lam + Ej) - (lam + Ej)| ≤ ε * M := by
    refine a2.trans (mul_le_mul_of_nonneg_left ?_ h0)
    have := abs_nonneg Ei
    rw [hM]; linarith
  have hGM : |G| ≤ M := by
    rw [hG]
    refine (abs_sub _ _).trans ?_
    rw [hM]; linarith
  have a5 : |fl (lam + Ej) - Ei| ≤ (1 + ε) * M := by
    have e : fl (lam + Ej) - Ei = (fl (lam + Ej) - (lam + Ej)) + G := by rw [hG]; ring
    rw [e]
    refine (abs_add_le _ _).trans ?_
    linarith
  have a6 : |g - G| ≤ (2 + ε) * ε * M := by
    have e : g - G = (g - (fl (lam + Ej) - Ei)) + (fl (lam + Ej) - (lam + Ej)) := by rw [hG]; ring
    rw [e]
    refine (abs_add_le _ _).trans ?_
    have : ε * |fl (lam + Ej) - Ei| ≤ ε * ((1 + ε) * M) := mul_le_mul_of_nonneg_left a5 h0
    linarith
  have hε2 : (2 + ε) * ε ≤ 21 / 10 * ε := by nlinarith
  have a7 : |g - G| ≤ 21 / 10 * ε * M := a6.trans (mul_le_mul_of_nonneg_right hε2 hM0)
  have hgM : |g| ≤ 103 / 100 * M := by
    have e : g = (g - G) + G := by ring
    rw [e]
    refine (abs_add_le _ _).trans ?_
    nlinarith
  have a8 : |g ^ 2 - G ^ 2| ≤ 5 * ε * M ^ 2 := by
    have e : g ^ 2 - G ^ 2 = (g - G) * (g + G) := by ring
    rw [e, abs_mul]
    have q : |g + G| ≤ 203 / 100 * M := (abs_add_le _ _).trans (by linarith)
    calc |g - G| * |g + G| ≤ (21 / 10 * ε * M) * (203 / 100 * M) := mul_le_mul a7 q (abs_nonneg _) (by positivity)
      _ ≤ 5 * ε * M ^ 2 := by nlinarith [mul_nonneg h0 (sq_nonneg M)]
  have a9 : g ^ 2 ≤ 107 / 100 * M ^ 2 := by
    rw [← sq_abs g]
    have := abs_nonneg g
    nlinarith
  -- the operations of the exponent
  have r1 : Rel ε 1 (g ^ 2) (sq g) := Rel.of_abs (sq_nonneg g) hlt.le (L.sq g)
  have r2 : Rel ε 1 (sq g) (-fl (-1 * sq g)) := by
    refine Rel.of_abs r1.right hlt.le ?_
    have := R.err (-1 * sq g)
    rw [show |(-1 : ℝ) * sq g| = sq g by rw [neg_one_mul, abs_neg, abs_of_nonneg r1.right]] at this
    rw [← abs_neg]
    refine le_trans (le_of_eq ?_) this
    congr 1; ring
  have r3 := (r1.trans h0 hlt.le r2).div h0 hlt hD hD0p
  have r4 : Rel ε 1 (-fl (-1 * sq g) / D) (-fl (fl (-1 * sq g) / D)) := by
    refine Rel.of_abs r3.right hlt.le ?_
    have := R.err (fl (-1 * sq g) / D)
    rw [show |fl (-1 * sq g) / D| = -fl (-1 * sq g) / D by
      rw [← abs_neg, ← neg_div, abs_of_nonneg r3.right]] at this
    rw [← abs_neg]
    refine le_trans (le_of_eq ?_) this
    congr 1; ring
  have r5 : Rel ε 7 (g ^ 2 / D0) (-fl (fl (-1 * sq g) / D)) := (r3.trans h0 hlt.le r4).mono h0 hlt.le (by norm_num)
  obtain ⟨b1, b2⟩ := r5.bounds hlt.le h0 (by push_cast; linarith)
  push_cast at b1 b2
  have c1 : g ^ 2 / D0 ≤ 107 / 100 * (M ^ 2 / D0) := by
    rw [div_le_iff₀ hD0p, mul_assoc, div_mul_cancel₀ _ hD0p.ne']; exact a9
  have c2 : |g ^ 2 / D0 - G ^ 2 / D0| ≤ 5 * ε * (M ^ 2 / D0) := by
    rw [← sub_div, abs_div, abs_of_pos hD0p, div_le_iff₀ hD0p, mul_assoc, div_mul_cancel₀ _ hD0p.ne']; exact a8
  obtain ⟨c3, c4⟩ := abs_le.1 c2
  have hc0 : 0 ≤ g ^ 2 / D0 := r5.left
  have hq : 0 ≤ M ^ 2 / D0 := by positivity
  have e1 : -1 * G ^ 2 / D0 = -(G ^ 2 / D0) := by ring
  have e2 : 21 * M ^ 2 / D0 * ε = 21 * ε * (M ^ 2 / D0) := by ring
  rw [e1, e2, abs_le]
  have p1 : ε * (g ^ 2 / D0) ≤ ε * (107 / 100 * (M ^ 2 / D0)) := mul_le_mul_of_nonneg_left c1 h0
  have p2 : 0 ≤ ε * (M ^ 2 / D0) := mul_nonneg h0 hq
  constructor <;> linarith

/-- The operations of `getRate` after the exponent. -/
theorem marcus_rel (R : Rounding fl ε) (L : Libm ex sq rt ε) (h0 : 0 ≤ ε) (hlt : ε < 1) {T A : ℝ}
    (rA : Rel ε 12 (marcusA T) A) (H a : ℝ) :
    Rel ε 16 (marcusA T * H * H * Real.exp a) (fl (fl (fl (A * H) * H) * ex a)) := by
  have p1 : Rel ε 12 (marcusA T * H * H) (A * H * H) := by
    have := rA.mul h0 hlt.le (Rel.refl h0 hlt.le (mul_self_nonneg H))
    rw [← mul_assoc, ← mul_assoc] at this
    exact this
  have p2 : Rel ε 1 (A * H * H) (fl (A * H) * H) := by
    refine Rel.of_abs p1.right hlt.le ?_
    rw [← sub_mul, abs_mul]
    have := mul_le_mul_of_nonneg_right (R.err (A * H)) (abs_nonneg H)
    refine this.trans (le_of_eq ?_)
    rw [mul_assoc, ← abs_mul, abs_of_nonneg p1.right]
  have p3 := (p1.trans h0 hlt.le p2).rnd h0 hlt R
  have p4 : Rel ε 1 (Real.exp a) (ex a) := Rel.of_abs (Real.exp_pos a).le hlt.le (L.exp a)
  have p5 := (p3.mul h0 hlt.le p4).rnd h0 hlt R
  exact p5.mono h0 hlt.le (by norm_num)

/-- The rate up to factors. -/
theorem marcus_factor (R : Rounding fl ε) (L : Libm ex sq rt ε) (h0 : 0 ≤ ε) (h1 : 100 * ε ≤ 1) {lam T Ei Ej H : ℝ} (hl : 0 < lam)
    (hT : 0 < T) {k : ℝ} (h : MarcusRate lam T Ei Ej H k) :
    ∃ k', MarcusRateR fl ex sq rt lam T Ei Ej H k' ∧ 0 ≤ k ∧ 0 ≤ k' ∧
      (1 - marcusErr ε lam T Ei Ej) * k ≤ k' ∧ (1 - marcusErr ε lam T Ei Ej) * k' ≤ k ∧ (0 < k' ↔ H ≠ 0) := by
  have hlt : ε < 1 := by linarith
  have k1 := kB_pos
  obtain ⟨D, A, e1, rD, rA, hD, hA⟩ := marcus_parts R L h0 hlt hl hT
  rw [marcusRate_iff hl hT] at h
  have X := marcus_exponent R L h0 h1 (Ei := Ei) (Ej := Ej) hl hT rD
  set a := fl (fl (-1 * sq (fl (fl (lam + Ej) - Ei))) / D) with ha
  set b := -1 * (lam + Ej - Ei) ^ 2 / (4 * lam * kB * T) with hb
  set x := 21 * (|lam| + |Ei| + |Ej|) ^ 2 / (4 * lam * kB * T) * ε with hx
  have hx0 : 0 ≤ x := by rw [hx]; positivity
  have hA0 := marcusA_pos hT
  have p6 := marcus_rel R L h0 hlt rA H a
  have hB : 0 ≤ marcusA T * H * H := by rw [mul_assoc]; exact mul_nonneg hA0.le (mul_self_nonneg H)
  refine ⟨fl (fl (fl (A * H) * H) * ex a), ⟨_, e1, ?_⟩, ?_⟩
  · unfold Rounded.marcusRate
    rw [if_neg hD.ne']
  · have hE : marcusErr ε lam T Ei Ej = 16 * ε + x := by
      rw [hx]; unfold marcusErr kB; ring
    have f1 : 1 - 16 * ε ≤ (1 - ε) ^ 16 := by have := one_sub_pow h0 hlt.le 16; push_cast at this; exact this
    have f2 : 1 - x ≤ Real.exp (-x) := by have := Real.add_one_le_exp (-x); linarith
    obtain ⟨x1, x2⟩ := abs_le.1 X
    have g1 : Real.exp (-x) * Real.exp b ≤ Real.exp a := by rw [← Real.exp_add]; exact Real.exp_le_exp.2 (by linarith)
    have g2 : Real.exp (-x) * Real.exp a ≤ Real.exp b := by rw [← Real.exp_add]; exact Real.exp_le_exp.2 (by linarith)
    have hf0 : 0 ≤ (1 - ε) ^ 16 := pow_nonneg (by linarith) _
    have hex := (Real.exp_pos (-x)).le
    have hF : 1 - marcusErr ε lam T Ei Ej ≤ (1 - ε) ^ 16 * Real.exp (-x) := by
      rw [hE]
      by_cases q : x ≤ 1
      · calc 1 - (16 * ε + x) ≤ (1 - 16 * ε) * (1 - x) := by nlinarith
          _ ≤ (1 - ε) ^ 16 * Real.exp (-x) := mul_le_mul f1 f2 (by linarith) hf0
      · have : 0 ≤ (1 - ε) ^ 16 * Real.exp (-x) := mul_nonneg hf0 hex
        push Not at q
        linarith
    have hk : k = marcusA T * H * H * Real.exp b := h
    have hk0 : 0 ≤ k := by rw [hk]; exact mul_nonneg hB (Real.exp_pos _).le
    refine ⟨hk0, p6.right, ?_, ?_, ?_⟩
    · refine le_trans (mul_le_mul_of_nonneg_right hF hk0) (le_trans ?_ p6.low)
      rw [mul_assoc]
      refine mul_le_mul_of_nonneg_left ?_ hf0
      rw [hk]
      calc Real.exp (-x) * (marcusA T * H * H * Real.exp b) = marcusA T * H * H * (Real.exp (-x) * Real.exp b) := by ring
        _ ≤ _ := mul_le_mul_of_nonneg_left g1 hB
    · refine le_trans (mul_le_mul_of_nonneg_right hF p6.right) ?_
      rw [mul_comm ((1 - ε) ^ 16), mul_assoc]
      refine le_trans (mul_le_mul_of_nonneg_left p6.high hex) ?_
      rw [hk]
      calc Real.exp (-x) * (marcusA T * H * H * Real.exp a) = marcusA T * H * H * (Real.exp (-x) * Real.exp a) := by ring
        _ ≤ _ := mul_le_mul_of_nonneg_left g2 hB
    · constructor
      · intro q e
        rw [e] at q p6
        have := p6.high
        simp only [mul_zero, zero_mul] at this q
        have hpos : 0 < (1 - ε) ^ 16 := pow_pos (by linarith) _
        nlinarith
      · intro q
        have : 0 < marcusA T * H * H * Real.exp a := by
          rw [mul_assoc (marcusA T)]
          exact mul_pos (mul_pos hA0 (mul_self_pos.2 q)) (Real.exp_pos _)
        exact lt_of_lt_of_le (mul_pos (pow_pos (by linarith) _) this) p6.low

/-- **C98 (accuracy).** With rounding of every operation and of the constants, and with a library whose exponential,
square and root have a relative error of at most `ε`, the rate differs from the Marcus rate by at most the part
`2·(16 + 21·(|λ| + |Eᵢ| + |Eⱼ|)²/(4λk_BT))·ε` of it, if that part is at most one. It is never negative, and zero only for
`H_AB = 0`. -/
theorem C98_rate_partial (R : Rounding fl ε) (L : Libm ex sq rt ε) (h0 : 0 ≤ ε) (h1 : 100 * ε ≤ 1) {lam T Ei Ej H : ℝ} (hl : 0 < lam) (hT : 0 < T)
    (hs : 2 * marcusErr ε lam T Ei Ej ≤ 1) {k : ℝ} (h : MarcusRate lam T Ei Ej H k) :
    ∃ k', MarcusRateR fl ex sq rt lam T Ei Ej H k' ∧ |k' - k| ≤ 2 * marcusErr ε lam T Ei Ej * k ∧ 0 ≤ k' ∧ (k' = 0 ↔ H = 0) := by
  obtain ⟨k', e, p0, p1, p2, p3, p4⟩ := marcus_factor R L h0 h1 hl hT h
  refine ⟨k', e, ?_, p1, ?_⟩
  · have hη : 0 ≤ marcusErr ε lam T Ei Ej := by unfold marcusErr; positivity
    rw [abs_le]
    generalize marcusErr ε lam T Ei Ej = η at *
    constructor
    · nlinarith
    · have : k' ≤ 2 * k := by nlinarith
      nlinarith
  · constructor
    · intro q
      by_contra c
      exact (p4.2 c).ne' q
    · intro q
      by_contra c
      exact p4.1 (lt_of_le_of_ne p1 (Ne.symm c)) q

/-- **C98 (detailed balance).** The ratio of the rates of the two directions differs from the Boltzmann factor by at
most four times the part of `marcusErr`. -/
theorem C98_balance_partial (R : Rounding fl ε) (L : Libm ex sq rt ε) (h0 : 0 ≤ ε) (h1 : 100 * ε ≤ 1) {lam T Ei Ej H : ℝ} (hl : 0 < lam) (hT : 0 < T)
    (hH : H ≠ 0) (hs : 4 * marcusErr ε lam T Ei Ej ≤ 1) {kij kji : ℝ} (hij : MarcusRateR fl ex sq rt lam T Ei Ej H kij)
    (hji : MarcusRateR fl ex sq rt lam T Ej Ei H kji) :
    |kij / kji - Real.exp (-(Ej - Ei) / (8.617333262145e-5 * T))| ≤
      4 * marcusErr ε lam T Ei Ej * Real.exp (-(Ej - Ei) / (8.617333262145e-5 * T)) := by
  have func : ∀ {a b x y}, MarcusRateR fl ex sq rt lam T a b H x → MarcusRateR fl ex sq rt lam T a b H y → x = y := by
    rintro a b x y ⟨m, e1, e2⟩ ⟨m', e3, e4⟩
    rw [e1] at e3; cases e3
    rw [e2] at e4; cases e4; rfl
  obtain ⟨x, hx⟩ : ∃ x, MarcusRate lam T Ei Ej H x := ⟨_, (marcusRate_iff hl hT).2 rfl⟩
  obtain ⟨y, hy⟩ : ∃ y, MarcusRate lam T Ej Ei H y := ⟨_, (marcusRate_iff hl hT).2 rfl⟩
  have hB := C23_detailed_balance hl hT hH hx hy
  obtain ⟨x', e1, x0, _, x1, x2, x3⟩ := marcus_factor R L h0 h1 hl hT hx
  obtain ⟨y', e2, y0, _, y1, y2, y3⟩ := marcus_factor R L h0 h1 hl hT hy
  rw [func e1 hij] at x1 x2 x3
  rw [func e2 hji] at y1 y2 y3
  have hsym : marcusErr ε lam T Ej Ei = marcusErr ε lam T Ei Ej := by unfold marcusErr; ring
  rw [hsym] at y1 y2
  have kx := x3.2 hH
  have ky := y3.2 hH
  have hη : 0 ≤ marcusErr ε lam T Ei Ej := by unfold marcusErr; positivity
  have hBp := Real.exp_pos (-(Ej - Ei) / (8.617333262145e-5 * T))
  generalize marcusErr ε lam T Ei Ej = η at *
  generalize Real.exp (-(Ej - Ei) / (8.617333262145e-5 * T)) = B at *
  have hyp : 0 < y := by nlinarith
  have hxB : x = B * y := by
    first
      | exact hB
      | (rw [div_eq_iff hyp.ne'] at hB; exact hB)
  rw [abs_le]
  have q1 : kij / kji ≤ (1 + 4 * η) * B := by
    rw [div_le_iff₀ ky]
    -- (1-η)kij ≤ B y, (1-η) y ≤ kji
    have a1 : (1 - η) ^ 2 * kij ≤ B * kji := by
      calc (1 - η) ^ 2 * kij = (1 - η) * ((1 - η) * kij) := by ring
        _ ≤ (1 - η) * x := mul_le_mul_of_nonneg_left x2 (by linarith)
        _ = B * ((1 - η) * y) := by rw [hxB]; ring
        _ ≤ B * kji := mul_le_mul_of_nonneg_left y1 hBp.le
    have a2 : 1 ≤ (1 + 4 * η) * (1 - η) ^ 2 := by nlinarith [mul_nonneg hη hη, mul_nonneg hη (mul_nonneg hη hη)]
    calc kij = 1 * kij := by ring
      _ ≤ (1 + 4 * η) * (1 - η) ^ 2 * kij := mul_le_mul_of_nonneg_right a2 kx.le
      _ = (1 + 4 * η) * ((1 - η) ^ 2 * kij) := by ring
      _ ≤ (1 + 4 * η) * (B * kji) := mul_le_mul_of_nonneg_left a1 (by linarith)
      _ = (1 + 4 * η) * B * kji := by ring
  have q2 : (1 - 4 * η) * B ≤ kij / kji := by
    rw [le_div_iff₀ ky]
    have a1 : (1 - η) ^ 2 * (B * kji) ≤ kij := by
      calc (1 - η) ^ 2 * (B * kji) = (1 - η) * (B * ((1 - η) * kji)) := by ring
        _ ≤ (1 - η) * (B * y) := mul_le_mul_of_nonneg_left (mul_le_mul_of_nonneg_left y2 hBp.le) (by linarith)
        _ = (1 - η) * x := by rw [hxB]
        _ ≤ kij := x1
    have a2 : 1 - 4 * η ≤ (1 - η) ^ 2 := by nlinarith
    calc (1 - 4 * η) * B * kji = (1 - 4 * η) * (B * kji) := by ring
      _ ≤ (1 - η) ^ 2 * (B * kji) := mul_le_mul_of_nonneg_right a2 (mul_pos hBp ky).le
      _ ≤ kij := a1
  constructor <;> linarith

/-- **C98 (order).** Rounding never turns the order round: if the library's exponential is monotone and its square is
monotone in the modulus, then in the normal region (`λ + Eⱼ - Eᵢ` not below zero) a higher target or a lower start
never has a larger rate, without any slack. -/
theorem C98_order (R : Rounding fl ε) (L : Libm ex sq rt ε) (h0 : 0 ≤ ε) (h1 : ε < 1) (hex : Monotone ex)
    (hsq : ∀ x y, 0 ≤ x → x ≤ y → sq x ≤ sq y) {lam T Ei Ej Ei' Ej' H k k' : ℝ} (hl : 0 < lam) (hT : 0 < T)
    (hi : Ei' ≤ Ei) (hj : Ej ≤ Ej') (hn : Ei ≤ lam + Ej) (hd : fl Ei = Ei)
    (h : MarcusRateR fl ex sq rt lam T Ei Ej H k) (h' : MarcusRateR fl ex sq rt lam T Ei' Ej' H k') : k' ≤ k := by
  obtain ⟨D, A, e1, rD, rA, hD, hA⟩ := marcus_parts R L h0 h1 hl hT
  obtain ⟨m, f1, f2⟩ := h
  obtain ⟨m', f1', f2'⟩ := h'
  rw [e1] at f1 f1'
  cases f1; cases f1'
  unfold Rounded.marcusRate at f2 f2'
  rw [if_neg hD.ne'] at f2 f2'
  cases f2; cases f2'
  have g0 : 0 ≤ fl (fl (lam + Ej) - Ei) := by
    rw [← R.zero]
    refine R.mono ?_
    have := R.mono hn
    rw [hd] at this
    linarith
  have g1 : fl (fl (lam + Ej) - Ei) ≤ fl (fl (lam + Ej') - Ei') := by
    refine R.mono ?_
    have := R.mono (show lam + Ej ≤ lam + Ej' by linarith)
    linarith
  have g2 := hsq _ _ g0 g1
  have g3 : fl (fl (-1 * sq (fl (fl (lam + Ej') - Ei'))) / D) ≤ fl (fl (-1 * sq (fl (fl (lam + Ej) - Ei))) / D) :=
    R.mono ((div_le_div_iff_of_pos_right hD).2 (R.mono (by linarith)))
  refine R.mono (mul_le_mul_of_nonneg_left (hex g3) ?_)
  have p : Rel ε 1 (A * H * H) (fl (A * H) * H) := by
    have hh : 0 ≤ A * H * H := by rw [mul_assoc]; exact mul_nonneg hA.le (mul_self_nonneg H)
    refine Rel.of_abs hh h1.le ?_
    rw [← sub_mul, abs_mul]
    have := mul_le_mul_of_nonneg_right (R.err (A * H)) (abs_nonneg H)
    refine this.trans (le_of_eq ?_)
    rw [mul_assoc, ← abs_mul, abs_of_nonneg hh]
  exact (p.rnd h0 h1 R).right

/-- The result of an exponential in doubles: a value below half the smallest double, `2⁻¹⁰⁷⁵`, becomes zero. -/
noncomputable def expDouble (fl : ℝ → ℝ) (x : ℝ) : ℝ := if Real.exp x < 1 / 2 ^ 1075 then 0 else fl (Real.exp x)

theorem expDouble_lost (x : ℝ) (h : x ≤ -746) : expDouble fl x = 0 := by
  unfold expDouble
  rw [if_pos]
  have h1 : Real.exp x ≤ Real.exp (-746) := Real.exp_le_exp.2 h
  have h2 : Real.exp (-746) = (Real.exp 1 ^ 746)⁻¹ := by
    rw [Real.exp_neg, ← Real.exp_nat_mul]; norm_num
  have h3 : (2.718 : ℝ) ^ 746 ≤ Real.exp 1 ^ 746 := pow_le_pow_left₀ (by norm_num) (by linarith [Real.exp_one_gt_d9]) _
  have h4 : (2 : ℝ) ^ 1075 < 2.718 ^ 746 := by
    have a : (2 : ℝ) ^ 49 ≤ 2.718 ^ 34 := by norm_num
    have b : (2 : ℝ) ^ 46 < 2.718 ^ 32 := by norm_num
    have c : ((2 : ℝ) ^ 49) ^ 21 ≤ (2.718 ^ 34) ^ 21 := pow_le_pow_left₀ (by positivity) a 21
    rw [← pow_mul, ← pow_mul] at c
    rw [show 1075 = 49 * 21 + 46 from rfl, show 746 = 34 * 21 + 32 from rfl, pow_add, pow_add]
    exact mul_lt_mul_of_le_of_lt_of_pos_of_nonneg c b (by positivity) (by positivity)
  refine lt_of_le_of_lt h1 ?_
  rw [h2, one_div]
  exact inv_strictAnti₀ (by positivity) (lt_of_lt_of_le h4 h3)

/-- **C98 (counterexample).** With the smallest exponents of doubles a rate with coupling can be zero: with `λ = 0.1` eV
at 300 K a hop up by 3 eV has the rate zero in whatever rounding, while the Marcus rate is positive. -/
theorem C98_counterexample (R : Rounding fl ε) (L : Libm Real.exp sq rt ε) (h0 : 0 ≤ ε) (h1 : 1000 * ε ≤ 1) :
    MarcusRateR fl (expDouble fl) sq rt (1 / 10) 300 0 3 1 0 ∧ ∃ k, MarcusRate (1 / 10) 300 0 3 1 k ∧ 0 < k := by
  have hl : (0 : ℝ) < 1 / 10 := by norm_num
  have hT : (0 : ℝ) < 300 := by norm_num
  constructor
  · obtain ⟨D, A, e1, rD, rA, hD, hA⟩ := marcus_parts R L h0 (by linarith) hl hT
    refine ⟨_, e1, ?_⟩
    unfold Rounded.marcusRate
    rw [if_neg hD.ne']
    have X := marcus_exponent R L h0 (by linarith) (Ei := 0) (Ej := 3) hl hT rD
    have hx : fl (fl (-1 * sq (fl (fl (1 / 10 + 3) - 0))) / D) ≤ -746 := by
      have := (abs_le.1 X).2
      have a1 : (-1 : ℝ) * (1 / 10 + 3 - 0) ^ 2 / (4 * (1 / 10) * kB * 300) ≤ -900 := by unfold kB; norm_num
      have a2 : (21 : ℝ) * (|1 / 10| + |0| + |3|) ^ 2 / (4 * (1 / 10) * kB * 300) ≤ 20000 := by
        rw [abs_of_pos hl, abs_zero, abs_of_pos (by norm_num : (0 : ℝ) < 3)]
        unfold kB; norm_num
      have a3 := mul_le_mul_of_nonneg_right a2 h0
      linarith
    simp only
    rw [expDouble_lost _ hx, mul_zero, R.zero]
  · refine ⟨_, (marcusRate_iff hl hT).2 rfl, ?_⟩
    have := marcusA_pos hT
    positivity

/-- A library that rounds the exact results to `double`. -/
theorem libm64 : Libm (fun x => Rounded.binary64 (Real.exp x)) (fun x => Rounded.binary64 (x ^ 2))
    (fun x => Rounded.binary64 (Real.sqrt x)) (1 / 2 ^ 53) := by
  have R := Rounded.binary64_rounding (K := ℝ)
  refine ⟨fun x => ?_, fun x => ?_, fun x _ => ?_⟩
  · have := R.err (Real.exp x); rwa [abs_of_pos (Real.exp_pos x)] at this
  · have := R.err (x ^ 2); rwa [abs_of_nonneg (sq_nonneg x)] at this
  · have := R.err (Real.sqrt x); rwa [abs_of_nonneg (Real.sqrt_nonneg x)] at this

/-- With the constants of the time-of-flight example the rate of a hop down by 0.15 eV is right up to a part of `10⁻¹²` in
`double` arithmetic. -/
example : ∃ k k', MarcusRate (1 / 50) 300 (1 / 10) (-1 / 20) (1 / 100) k ∧
    MarcusRateR Rounded.binary64 (fun x => Rounded.binary64 (Real.exp x)) (fun x => Rounded.binary64 (x ^ 2))
      (fun x => Rounded.binary64 (Real.sqrt x)) (1 / 50) 300 (1 / 10) (-1 / 20) (1 / 100) k' ∧
    |k' - k| ≤ 1 / 10 ^ 12 * k ∧ k' ≠ 0 := by
  have he : marcusErr (1 / 2 ^ 53) (1 / 50) 300 (1 / 10) (-1 / 20) ≤ 1 / (2 * 10 ^ 12) := by
    unfold marcusErr
    rw [abs_of_pos (by norm_num), abs_of_pos (by norm_num), abs_of_neg (by norm_num)]
    norm_num
  have hk : MarcusRate (1 / 50) 300 (1 / 10) (-1 / 20) (1 / 100) _ := (marcusRate_iff (by norm_num) (by norm_num)).2 rfl
  obtain ⟨k', h1, h2, -, h4⟩ := C98_rate_partial Rounded.binary64_rounding libm64 (by norm_num) (by norm_num) (by norm_num)
    (by norm_num) (by norm_num at he ⊢; linarith) hk
  refine ⟨_, k', hk, h1, h2.trans (mul_le_mul_of_nonneg_right (by norm_num at he ⊢; linarith) ?_), fun c => by have := h4.1 c; norm_num at this⟩
  have := marcusA_pos (show (0 : ℝ) < 300 by norm_num)
  positivity

/-- The counterexample in `double` arithmetic. -/
example : MarcusRateR Rounded.binary64 (expDouble Rounded.binary64) (fun x => Rounded.binary64 (x ^ 2))
    (fun x => Rounded.binary64 (Real.sqrt x)) (1 / 10) 300 0 3 1 0 :=
  (C98_counterexample Rounded.binary64_rounding ⟨fun x => by simp [(Real.exp_pos x).le], libm64.sq, libm64.sqrt⟩ (by norm_num)
    (by norm_num)).1

/-- The square rounded to `double` is monotone, and so is the exponential: the hypotheses of `C98_order`. -/
example : Monotone (fun x => (Rounded.binary64 (Real.exp x) : ℝ)) ∧
    ∀ x y : ℝ, 0 ≤ x → x ≤ y → Rounded.binary64 (x ^ 2) ≤ Rounded.binary64 (y ^ 2) :=
  ⟨fun _ _ h => Rounded.binary64_rounding.mono (Real.exp_le_exp.2 h),
    fun _ _ h0 h => Rounded.binary64_rounding.mono (pow_le_pow_left₀ h0 h 2)⟩

end Mythical
