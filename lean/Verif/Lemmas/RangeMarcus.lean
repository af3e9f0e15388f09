import Verif.Lemmas.Range
import Verif.Props.RoundedMarcus

/-! # Lemmas on the range of `double` in `Marcus` -/

set_option linter.unusedSectionVars false

namespace Mythical
open Rounded RoundSpec
variable {fl ex sq rt : ℝ → ℝ} {ε : ℝ}

theorem RoundSpec.Ieee.of_abs (I : Ieee fl) {a b : Int} {x : ℝ} (h : x = 0 ∨ Mag a b |x|) (ha : -1022 ≤ a) (hb : b ≤ 1023) :
    fl x = binary64 x := by
  rcases h with rfl | h
  · rw [I.zero, binary64_zero]
  · exact I.normal x ((pow_le ha).trans h.1) (h.2.trans (pow_le hb))

theorem binary64_abs (x : ℝ) : |binary64 x| = binary64 |x| := by
  rcases le_total 0 x with h | h
  · have : 0 ≤ binary64 x := by have := binary64_mono h; rwa [binary64_zero] at this
    rw [abs_of_nonneg h, abs_of_nonneg this]
  · have : binary64 x ≤ 0 := by have := binary64_mono h; rwa [binary64_zero] at this
    rw [abs_of_nonpos h, abs_of_nonpos this, binary64_neg]

theorem binary64_rounding_of (hε : 1 / 2 ^ 53 ≤ ε) : Rounding (binary64 : ℝ → ℝ) ε :=
  ⟨binary64_mono, binary64_idem, fun x => (binary64_err x).trans (mul_le_mul_of_nonneg_right hε (abs_nonneg x))⟩

theorem grid_round {x : ℝ} {k : Int} (h : ∃ m : Int, x = m * 2 ^ k) : ∃ m : Int, binary64 x = m * 2 ^ k := by
  obtain ⟨m, hm⟩ := h
  by_cases h0 : x = 0
  · exact ⟨0, by rw [h0, binary64_zero]; simp⟩
  · unfold binary64
    rw [if_neg h0]
    generalize Int.log 2 |x| - 52 = e
    by_cases he : k ≤ e
    · refine ⟨nearest (x / 2 ^ e) * 2 ^ (e - k).toNat, ?_⟩
      push_cast
      rw [mul_assoc, ← zpow_natCast, Int.toNat_of_nonneg (by omega), ← zpow_add₀ (by norm_num)]
      congr 2
      ring
    · have hi : x / 2 ^ e = ((m * 2 ^ (k - e).toNat : Int) : ℝ) := by
        push_cast
        rw [← zpow_natCast, Int.toNat_of_nonneg (by omega), hm, mul_div_assoc, ← zpow_sub₀ (by norm_num)]
      refine ⟨m, ?_⟩
      rw [hi, nearest_int, ← hi, div_mul_cancel₀ _ (zpow_pos (by norm_num) _).ne', hm]

theorem grid_add {x y : ℝ} {k : Int} (h : ∃ m : Int, x = m * 2 ^ k) (h' : ∃ m : Int, y = m * 2 ^ k) : ∃ m : Int, x + y = m * 2 ^ k := by
  obtain ⟨m, rfl⟩ := h
  obtain ⟨n, rfl⟩ := h'
  exact ⟨m + n, by push_cast; ring⟩

theorem grid_sub {x y : ℝ} {k : Int} (h : ∃ m : Int, x = m * 2 ^ k) (h' : ∃ m : Int, y = m * 2 ^ k) : ∃ m : Int, x - y = m * 2 ^ k := by
  obtain ⟨m, rfl⟩ := h
  obtain ⟨n, rfl⟩ := h'
  exact ⟨m - n, by push_cast; ring⟩

theorem grid_mag {x : ℝ} {k b : Int} (h : ∃ m : Int, x = m * 2 ^ k) (hb : |x| ≤ 2 ^ b) : x = 0 ∨ Mag k b |x| := by
  obtain ⟨m, hm⟩ := h
  by_cases h0 : m = 0
  · left; rw [hm, h0]; simp
  · right
    refine ⟨?_, hb⟩
    have hk : (0 : ℝ) < 2 ^ k := zpow_pos (by norm_num) _
    rw [hm, abs_mul, abs_of_pos hk]
    have : (1 : ℝ) ≤ |(m : ℝ)| := by
      rw [← Int.cast_abs]
      exact_mod_cast Int.one_le_abs h0
    nlinarith

theorem Mag.two : Mag 1 1 (2 : ℝ) := by unfold Mag; norm_num
theorem Mag.four : Mag 2 2 (4 : ℝ) := by unfold Mag; norm_num
theorem mag_kB : Mag (-14) (-13) kB := by unfold Mag kB; norm_num [zpow_neg]
theorem mag_SRkB : Mag (-7) (-6) SRkB := by unfold Mag SRkB; norm_num [zpow_neg]
theorem mag_hBar : Mag (-51) (-50) hBar := by unfold Mag hBar; norm_num [zpow_neg]
theorem mag_PI : Mag 1 2 PI := by unfold Mag PI; norm_num
theorem mag_SRPI : Mag 0 1 SRPI := by unfold Mag SRPI; norm_num

theorem mag_root (L : LibmIn ex sq rt ε) (h1 : ε ≤ 1 / 2) {T : ℝ} (hT : Mag (-20) 20 T) : Mag (-11) 11 (rt T) := by
  have hp := hT.pos
  have a := L.sqrt T hp.le
  have s1 : (2 : ℝ) ^ (-10 : Int) ≤ Real.sqrt T := by
    apply Real.le_sqrt_of_sq_le
    refine le_trans (le_of_eq ?_) hT.1
    norm_num [zpow_neg]
  have s2 : Real.sqrt T ≤ 2 ^ (10 : Int) := by
    rw [Real.sqrt_le_left (by positivity)]
    refine hT.2.trans (le_of_eq ?_)
    norm_num
  have sp : 0 ≤ Real.sqrt T := Real.sqrt_nonneg _
  rw [abs_le] at a
  have b := mul_le_mul_of_nonneg_right h1 sp
  unfold Mag
  rw [show (2 : ℝ) ^ (-11 : Int) = 2 ^ (-10 : Int) / 2 by norm_num [zpow_neg], show (2 : ℝ) ^ (11 : Int) = 2 ^ (10 : Int) * 2 by norm_num]
  generalize (2 : ℝ) ^ (-10 : Int) = u at *
  generalize (2 : ℝ) ^ (10 : Int) = v at *
  constructor <;> linarith [a.1, a.2]

/-- The constructor. -/
theorem marcus_range (I : Ieee fl) (L : LibmIn ex sq rt ε) (h1 : ε ≤ 1 / 2) {lam T : ℝ} (hl : Mag (-50) 50 lam)
    (hT : Mag (-20) 20 T) : Rounded.marcus fl rt lam T = Rounded.marcus binary64 rt lam T ∧
      ∀ D A, Rounded.marcus binary64 rt lam T = .ok ⟨lam, D, A⟩ → Mag (-82) 59 D ∧ Mag 45 71 A := by
  have hr := mag_root L h1 hT
  have a1 : Mag 1 2 (binary64 SRPI * 2) := mag_SRPI.round.mul Mag.two
  have a2 : Mag (-6) (-4) (binary64 (binary64 SRPI * 2) * binary64 SRkB) := a1.round.mul mag_SRkB.round
  have a3 : Mag (-17) 7 (binary64 (binary64 (binary64 SRPI * 2) * binary64 SRkB) * rt T) := a2.round.mul hr
  have b1 : Mag (-48) 52 (4 * lam) := (Mag.four.mul hl)
  have b2 : Mag (-62) 39 (binary64 (4 * lam) * binary64 kB) := b1.round.mul mag_kB.round
  have b3 : Mag (-82) 59 (binary64 (binary64 (4 * lam) * binary64 kB) * T) := b2.round.mul hT
  have c1 : Mag 2 3 (2 * binary64 PI) := Mag.two.mul mag_PI.round
  have c2 : Mag 52 54 (binary64 (2 * binary64 PI) / binary64 hBar) := c1.round.div mag_hBar.round
  have c3 : Mag 52 54 (binary64 (binary64 (2 * binary64 PI) / binary64 hBar) * 1) := c2.round.mul Mag.one
  have c4 : Mag 45 71 (binary64 (binary64 (binary64 (2 * binary64 PI) / binary64 hBar) * 1) /
      binary64 (binary64 (binary64 (binary64 SRPI * 2) * binary64 SRkB) * rt T)) := c3.round.div a3.round
  have e : ∀ {a b : Int} {x : ℝ}, Mag a b x → -1022 ≤ a → b ≤ 1023 → fl x = binary64 x := fun h ha hb => I.eq h ha hb
  constructor
  · unfold Rounded.marcus
    rw [e mag_SRPI (by norm_num) (by norm_num), e mag_SRkB (by norm_num) (by norm_num), e a1 (by norm_num) (by norm_num),
      e a2 (by norm_num) (by norm_num), e a3 (by norm_num) (by norm_num), e mag_kB (by norm_num) (by norm_num),
      e b1 (by norm_num) (by norm_num), e b2 (by norm_num) (by norm_num), e b3 (by norm_num) (by norm_num),
      e mag_PI (by norm_num) (by norm_num), e mag_hBar (by norm_num) (by norm_num), e c1 (by norm_num) (by norm_num),
      e c2 (by norm_num) (by norm_num), e c3 (by norm_num) (by norm_num)]
    simp only
    rw [e c4 (by norm_num) (by norm_num)]
  · intro D A h
    unfold Rounded.marcus at h
    simp only at h
    split at h
    · cases h
    · cases h
      exact ⟨b3.round, c4.round⟩

/-- `exp` and the square, taken as exact where the library may fail. -/
noncomputable def exIn (ex : ℝ → ℝ) (x : ℝ) : ℝ := if |x| ≤ 700 then ex x else Real.exp x
open Classical in
noncomputable def sqIn (sq : ℝ → ℝ) (x : ℝ) : ℝ := if x = 0 ∨ Mag (-500) 500 |x| then sq x else x ^ 2

theorem libmIn_ext (L : LibmIn ex sq rt ε) (h0 : 0 ≤ ε) : Libm (exIn ex) (sqIn sq) rt ε where
  exp := fun x => by
    unfold exIn
    split
    · next h => exact L.exp x h
    · rw [sub_self, abs_zero]; exact mul_nonneg h0 (Real.exp_pos x).le
  sq := fun x => by
    unfold sqIn
    split
    · next h => exact L.sq x h
    · rw [sub_self, abs_zero]; exact mul_nonneg h0 (sq_nonneg x)
  sqrt := L.sqrt

theorem exp_low {x : ℝ} (h : -612 ≤ x) : (2 : ℝ) ^ (-884 : Int) ≤ Real.exp x := by
  have h1 : Real.exp 1 ^ 9 ≤ 2 ^ 13 := by
    have := Real.exp_one_lt_d9
    calc Real.exp 1 ^ 9 ≤ (2.7182818286 : ℝ) ^ 9 := pow_le_pow_left₀ (Real.exp_pos _).le this.le 9
      _ ≤ 2 ^ 13 := by norm_num
  have h2 : Real.exp 612 ≤ 2 ^ (884 : Int) := by
    have e : Real.exp 612 = (Real.exp 1 ^ 9) ^ 68 := by
      rw [← pow_mul, ← Real.exp_nat_mul]; norm_num
    rw [e]
    calc (Real.exp 1 ^ 9) ^ 68 ≤ ((2 : ℝ) ^ 13) ^ 68 := pow_le_pow_left₀ (by positivity) h1 68
      _ = 2 ^ (884 : Int) := by rw [← pow_mul]; rfl
  have h3 : Real.exp (-612) ≤ Real.exp x := Real.exp_le_exp.2 h
  rw [Real.exp_neg] at h3
  refine le_trans ?_ h3
  rw [zpow_neg]
  exact inv_anti₀ (Real.exp_pos _) h2

/-- One rate. -/
theorem rate_range (I : Ieee fl) (L : LibmIn ex sq rt ε) (h0 : 1 / 2 ^ 53 ≤ ε) (h1 : 100000 * ε ≤ 1) {lam T Ei Ej H : ℝ}
    (hl : Mag (-50) 50 lam) (hT : Mag (-20) 20 T) (gl : Grid lam) (gi : Grid Ei) (gj : Grid Ej) (hH : H = 0 ∨ Mag (-50) 50 |H|)
    (hx : (|lam| + |Ei| + |Ej|) ^ 2 / (4 * lam * kB * T) ≤ 600) {D A : ℝ} (hD : Rel ε 4 (4 * lam * kB * T) D) (mD : Mag (-82) 59 D)
    (mA : Mag 45 71 A) :
    Rounded.marcusRate fl ex sq ⟨lam, D, A⟩ Ei Ej H = Rounded.marcusRate binary64 (exIn ex) (sqIn sq) ⟨lam, D, A⟩ Ei Ej H := by
  have hε : 0 ≤ ε := le_trans (by positivity) h0
  have R := binary64_rounding_of h0
  have L' := libmIn_ext L hε
  have e1 : ∃ m : Int, lam + Ej = m * 2 ^ (-300 : Int) := grid_add gl.1 gj.1
  have b1 : |lam + Ej| ≤ 2 ^ (101 : Int) := by
    refine (abs_add_le _ _).trans ?_
    rw [show (2 : ℝ) ^ (101 : Int) = 2 ^ (100 : Int) + 2 ^ (100 : Int) by norm_num]
    exact add_le_add gl.2 gj.2
  have b1' : |binary64 (lam + Ej)| ≤ 2 ^ (101 : Int) := by
    rw [binary64_abs, ← binary64_pow]; exact binary64_mono b1
  have b2 : |binary64 (lam + Ej) - Ei| ≤ 2 ^ (102 : Int) := by
    refine (abs_sub _ _).trans ?_
    rw [show (2 : ℝ) ^ (102 : Int) = 2 ^ (101 : Int) + 2 ^ (101 : Int) by norm_num]
    exact add_le_add b1' (gi.2.trans (pow_le (by norm_num)))
  have e2 := grid_sub (grid_round e1) gi.1
  have b2' : |binary64 (binary64 (lam + Ej) - Ei)| ≤ 2 ^ (102 : Int) := by
    rw [binary64_abs, ← binary64_pow]; exact binary64_mono b2
  have hg : fl (fl (lam + Ej) - Ei) = binary64 (binary64 (lam + Ej) - Ei) := by
    rw [I.of_abs (grid_mag e1 b1) (by norm_num) (by norm_num), I.of_abs (grid_mag e2 b2) (by norm_num) (by norm_num)]
  have mg := grid_mag (grid_round e2) b2'
  have X := marcus_exponent R L' hε (by linarith) (Ei := Ei) (Ej := Ej) hl.pos hT.pos hD
  set g := binary64 (binary64 (lam + Ej) - Ei) with hgd
  have hsq : sqIn sq g = sq g := by
    unfold sqIn
    rw [if_pos]
    rcases mg with h | h
    · exact .inl h
    · exact .inr (h.mono (by norm_num) (by norm_num))
  rw [hsq] at X
  have mq : sq g = 0 ∨ Mag (-601) 205 |sq g| := by
    have hq := L'.sq g
    rw [hsq] at hq
    rcases mg with h | h
    · left
      rw [h] at hq ⊢
      simpa using hq
    · right
      have m2 : Mag (-600) 204 (g ^ 2) := by
        rw [← sq_abs, pow_two]
        exact h.mul h
      have p := m2.pos
      rw [abs_le] at hq
      have : ε * g ^ 2 ≤ 1 / 2 * g ^ 2 := mul_le_mul_of_nonneg_right (by linarith) p.le
      have q1 : g ^ 2 / 2 ≤ sq g := by linarith [hq.1]
      have q2 : sq g ≤ g ^ 2 * 2 := by linarith [hq.2]
      rw [abs_of_pos (by linarith)]
      unfold Mag
      rw [show (2 : ℝ) ^ (-601 : Int) = 2 ^ (-600 : Int) / 2 by rw [show (-601 : Int) = -600 - 1 by norm_num, zpow_sub_one₀ (by norm_num)]; rfl,
        show (2 : ℝ) ^ (205 : Int) = 2 ^ (204 : Int) * 2 by rw [show (205 : Int) = 204 + 1 by norm_num, zpow_add_one₀ (by norm_num)]]
      constructor <;> linarith [m2.1, m2.2]
  have m3 : -1 * sq g = 0 ∨ Mag (-601) 205 |-1 * sq g| := by
    rcases mq with h | h
    · left; rw [h]; simp
    · right; rw [abs_mul, abs_neg, abs_one, one_mul]; exact h
  have m4 : binary64 (-1 * sq g) / D = 0 ∨ Mag (-660) 287 |binary64 (-1 * sq g) / D| := by
    rcases m3 with h | h
    · left; rw [h, binary64_zero, zero_div]
    · right
      rw [abs_div, abs_of_pos mD.pos, binary64_abs]
      exact h.round.div mD
  have hy : fl (fl (-1 * sq g) / D) = binary64 (binary64 (-1 * sq g) / D) := by
    rw [I.of_abs m3 (by norm_num) (by norm_num), I.of_abs m4 (by norm_num) (by norm_num)]
  set y := binary64 (binary64 (-1 * sq g) / D) with hyd
  -- the exponent
  have k1 := kB_pos
  have hD0 : 0 < 4 * lam * kB * T := by have := hl.pos; have := hT.pos; positivity
  have hM : (lam + Ej - Ei) ^ 2 / (4 * lam * kB * T) ≤ 600 := by
    refine le_trans (div_le_div_of_nonneg_right ?_ hD0.le) hx
    rw [← sq_abs (lam + Ej - Ei)]
    apply pow_le_pow_left₀ (abs_nonneg _)
    have := abs_sub (lam + Ej) Ei
    have := abs_add_le lam Ej
    linarith
  have hM0 : 0 ≤ (lam + Ej - Ei) ^ 2 / (4 * lam * kB * T) := by positivity
  have X2 : |y - -1 * (lam + Ej - Ei) ^ 2 / (4 * lam * kB * T)| ≤ 1 := by
    refine X.trans ?_
    have : 21 * (|lam| + |Ei| + |Ej|) ^ 2 / (4 * lam * kB * T) = 21 * ((|lam| + |Ei| + |Ej|) ^ 2 / (4 * lam * kB * T)) := by ring
    rw [this]
    have := mul_le_mul_of_nonneg_right hx hε
    nlinarith
  have e5 : -1 * (lam + Ej - Ei) ^ 2 / (4 * lam * kB * T) = -((lam + Ej - Ei) ^ 2 / (4 * lam * kB * T)) := by ring
  rw [e5, abs_le] at X2
  have y1 : -601 ≤ y := by linarith [X2.1]
  have y2 : y ≤ 1 := by linarith [X2.2]
  have hex : exIn ex y = ex y := by
    unfold exIn
    rw [if_pos (abs_le.2 ⟨by linarith, by linarith⟩)]
  have me : Mag (-885) 3 (ex y) := by
    have := L.exp y (abs_le.2 ⟨by linarith, by linarith⟩)
    rw [abs_le] at this
    have l1 := exp_low (show -612 ≤ y by linarith)
    have l2 : Real.exp y ≤ 2.7182818286 := (Real.exp_le_exp.2 y2).trans Real.exp_one_lt_d9.le
    have p := Real.exp_pos y
    have q := mul_le_mul_of_nonneg_right (show ε ≤ 1 / 2 by linarith) p.le
    unfold Mag
    rw [show (2 : ℝ) ^ (-885 : Int) = 2 ^ (-884 : Int) / 2 by rw [show (-885 : Int) = -884 - 1 by norm_num, zpow_sub_one₀ (by norm_num)]; rfl]
    constructor
    · linarith [this.1]
    · norm_num; linarith [this.2]
  have m6 : A * H = 0 ∨ Mag (-5) 121 |A * H| := by
    rcases hH with h | h
    · left; rw [h, mul_zero]
    · right; rw [abs_mul, abs_of_pos mA.pos]; exact mA.mul h
  have m7 : binary64 (A * H) * H = 0 ∨ Mag (-55) 171 |binary64 (A * H) * H| := by
    rcases hH with h | h
    · left; rw [h, mul_zero]
    · rcases m6 with h' | h'
      · left; rw [h', binary64_zero, zero_mul]
      · right; rw [abs_mul, binary64_abs]; exact h'.round.mul h
  have m8 : binary64 (binary64 (A * H) * H) * ex y = 0 ∨ Mag (-940) 174 |binary64 (binary64 (A * H) * H) * ex y| := by
    rcases m7 with h | h
    · left; rw [h, binary64_zero, zero_mul]
    · right; rw [abs_mul, binary64_abs, abs_of_pos me.pos]; exact h.round.mul me
  unfold Rounded.marcusRate
  simp only
  rw [hg, hsq, hy, hex, I.of_abs m6 (by norm_num) (by norm_num), I.of_abs m7 (by norm_num) (by norm_num),
    I.of_abs m8 (by norm_num) (by norm_num)]

end Mythical
