import Verif.Lemmas.RangeCuboid

/-! # Lemmas on the range of `double` in the rates of the time-of-flight example -/

set_option linter.unusedSectionVars false

namespace Mythical
open Rounded Cuboid CuboidSpec RoundSpec ToF ToFSpec
variable {fl ex sq rt : ℝ → ℝ} {ε : ℝ}

theorem zm_mul {a b c d : Int} {x y : ℝ} (h : x = 0 ∨ Mag a b |x|) (h' : y = 0 ∨ Mag c d |y|) :
    x * y = 0 ∨ Mag (a + c) (b + d) |x * y| := by
  rcases h with rfl | h
  · left; rw [zero_mul]
  · rcases h' with rfl | h'
    · left; rw [mul_zero]
    · right; rw [abs_mul]; exact h.mul h'

theorem zm_round {a b : Int} {x : ℝ} (h : x = 0 ∨ Mag a b |x|) : binary64 x = 0 ∨ Mag a b |binary64 x| := by
  rcases h with rfl | h
  · left; rw [binary64_zero]
  · right; rw [binary64_abs]; exact h.round

/-- A result of modulus at least `2^a` is a multiple of `2^(a-52)`. -/
theorem grid_of_mag {a b : Int} {x : ℝ} (h : x = 0 ∨ Mag a b |x|) {k : Int} (hk : k + 52 ≤ a) : ∃ m : Int, binary64 x = m * 2 ^ k := by
  rcases h with rfl | h
  · exact ⟨0, by rw [binary64_zero]; simp⟩
  · have h0 : x ≠ 0 := by
      rintro rfl
      have := h.pos
      simp at this
    have hl : a ≤ Int.log 2 |x| := by
      have := Int.zpow_le_iff_le_log (b := 2) (R := ℝ) (r := |x|) (x := a) (by norm_num) (abs_pos.2 h0)
      rw [← this]
      exact_mod_cast h.1
    unfold binary64
    rw [if_neg h0]
    refine ⟨nearest (x / 2 ^ (Int.log 2 |x| - 52)) * 2 ^ (Int.log 2 |x| - 52 - k).toNat, ?_⟩
    generalize nearest (x / 2 ^ (Int.log 2 |x| - 52)) = n
    push_cast
    rw [mul_assoc, ← zpow_natCast, Int.toNat_of_nonneg (by omega), ← zpow_add₀ (by norm_num)]
    congr 2
    ring

theorem foldlM_congr_mem {α β : Type} {f g : β → α → Except Fault β} (l : List α) (h : ∀ x ∈ l, ∀ s, f s x = g s x) (s : β) :
    l.foldlM f s = l.foldlM g s := by
  induction l generalizing s with
  | nil => rfl
  | cons x l ih =>
    rw [List.foldlM_cons, List.foldlM_cons, h x (by simp)]
    exact bind_congr_ok fun v _ => ih (fun y hy => h y (by simp [hy])) v

theorem exp_twenty {x : ℝ} (h : |x| ≤ 20) : Mag (-29) 29 (Real.exp x) := by
  rw [abs_le] at h
  have h1 : Real.exp 20 ≤ 2 ^ (29 : Int) := by
    have e : Real.exp 20 = Real.exp 1 ^ 20 := by rw [← Real.exp_nat_mul]; norm_num
    rw [e]
    calc Real.exp 1 ^ 20 ≤ (2.7182818286 : ℝ) ^ 20 := pow_le_pow_left₀ (Real.exp_pos _).le Real.exp_one_lt_d9.le 20
      _ ≤ 2 ^ (29 : Int) := by norm_num
  constructor
  · refine le_trans ?_ (Real.exp_le_exp.2 h.1)
    rw [Real.exp_neg, zpow_neg]
    exact inv_anti₀ (Real.exp_pos _) h1
  · exact (Real.exp_le_exp.2 h.2).trans h1

/-- The field term. -/
theorem tilt_range (I : Ieee fl) {c : Cuboid} {p : Params} {E : Int → ℝ} (M : Moderate c p E) {dx : Int} (hdx : |dx| ≤ INT_MAX) :
    fl (fl (p.field * fl ((dx : ℝ) * c.spacing)) * p.charge) =
      binary64 (binary64 (p.field * binary64 ((dx : ℝ) * c.spacing)) * p.charge) ∧
    (∃ m : Int, binary64 (binary64 (p.field * binary64 ((dx : ℝ) * c.spacing)) * p.charge) = m * 2 ^ (-300 : Int)) ∧
    |binary64 (binary64 (p.field * binary64 ((dx : ℝ) * c.spacing)) * p.charge)| ≤ 2 ^ (91 : Int) ∧
    |binary64 (binary64 (p.field * binary64 ((dx : ℝ) * c.spacing)) * p.charge)| ≤
      1001 / 1000 * |p.field * ((dx : ℝ) * c.spacing) * p.charge| := by
  have z0 : (dx : ℝ) = 0 ∨ Mag 0 31 |(dx : ℝ)| := by
    rcases eq_or_ne dx 0 with rfl | h
    · left; simp
    · right
      rw [← Int.cast_abs]
      constructor
      · rw [zpow_zero]; exact_mod_cast Int.one_le_abs h
      · have : ((|dx| : Int) : ℝ) ≤ INT_MAX := by exact_mod_cast hdx
        refine this.trans ?_
        norm_num [INT_MAX]
  have z1 : (dx : ℝ) * c.spacing = 0 ∨ Mag (-20) 51 |(dx : ℝ) * c.spacing| :=
    zm_mul z0 (.inr (by rw [abs_of_pos M.spacing.pos]; exact M.spacing))
  have z2 : p.field * binary64 ((dx : ℝ) * c.spacing) = 0 ∨ Mag (-60) 71 |p.field * binary64 ((dx : ℝ) * c.spacing)| :=
    zm_mul M.field (zm_round z1)
  have z3 : binary64 (p.field * binary64 ((dx : ℝ) * c.spacing)) * p.charge = 0 ∨
      Mag (-100) 91 |binary64 (p.field * binary64 ((dx : ℝ) * c.spacing)) * p.charge| := zm_mul (zm_round z2) M.charge
  refine ⟨?_, grid_of_mag z3 (by norm_num), ?_, ?_⟩
  · rw [I.of_abs z1 (by norm_num) (by norm_num), I.of_abs z2 (by norm_num) (by norm_num), I.of_abs z3 (by norm_num) (by norm_num)]
  · rcases zm_round z3 with h | h
    · rw [h, abs_zero]; positivity
    · exact h.2
  · have up : ∀ x : ℝ, |binary64 x| ≤ 10001 / 10000 * |x| := by
      intro x
      have := binary64_err (K := ℝ) x
      have h2 := abs_sub_abs_le_abs_sub (binary64 x) x
      have : (1 : ℝ) / 2 ^ 53 * |x| ≤ 1 / 10000 * |x| := mul_le_mul_of_nonneg_right (by norm_num) (abs_nonneg x)
      linarith
    refine (up _).trans ?_
    rw [abs_mul, abs_mul (p.field * _)]
    have a1 := up (p.field * binary64 ((dx : ℝ) * c.spacing))
    rw [abs_mul p.field] at a1
    rw [abs_mul p.field]
    have a2 := mul_le_mul_of_nonneg_left (up ((dx : ℝ) * c.spacing)) (abs_nonneg p.field)
    have a3 : |binary64 (p.field * binary64 ((dx : ℝ) * c.spacing))| ≤ 10003 / 10000 * (|p.field| * |(dx : ℝ) * c.spacing|) := by
      have := mul_nonneg (abs_nonneg p.field) (abs_nonneg ((dx : ℝ) * c.spacing))
      nlinarith
    have a4 := mul_le_mul_of_nonneg_right a3 (abs_nonneg p.charge)
    have a5 : 0 ≤ |p.field| * |(dx : ℝ) * c.spacing| * |p.charge| := by positivity
    linarith

/-- The coupling. -/
theorem coupling_range (I : Ieee fl) (L : LibmIn ex sq rt ε) (h1 : 100000 * ε ≤ 1) {c : Cuboid} {p : Params} {E : Int → ℝ}
    (M : Moderate c p E) {d : ℝ} (hd : d = 0 ∨ Mag (-22) 20 d) (hdc : d ≤ p.cutoff) :
    fl (p.A * ex (fl (fl (-1 * p.alpha) * d))) = binary64 (p.A * exIn ex (binary64 (binary64 (-1 * p.alpha) * d))) ∧
    Mag (-50) 50 |binary64 (p.A * exIn ex (binary64 (binary64 (-1 * p.alpha) * d)))| := by
  have hd0 : 0 ≤ d := by
    rcases hd with h | h
    · exact h.ge
    · exact h.pos.le
  have z1 : -1 * p.alpha = 0 ∨ Mag (-20) 20 |-1 * p.alpha| := by
    rcases M.alpha with h | h
    · left; rw [h]; simp
    · right; rw [abs_mul, abs_neg, abs_one, one_mul]; exact h
  have z2 : binary64 (-1 * p.alpha) * d = 0 ∨ Mag (-42) 40 |binary64 (-1 * p.alpha) * d| :=
    zm_mul (zm_round z1) (by rw [abs_of_nonneg hd0]; exact hd)
  have up : ∀ x : ℝ, |binary64 x| ≤ 101 / 100 * |x| := by
    intro x
    have := binary64_err (K := ℝ) x
    have h2 := abs_sub_abs_le_abs_sub (binary64 x) x
    have : (1 : ℝ) / 2 ^ 53 * |x| ≤ 1 / 100 * |x| := mul_le_mul_of_nonneg_right (by norm_num) (abs_nonneg x)
    linarith
  have hy : |binary64 (binary64 (-1 * p.alpha) * d)| ≤ 20 := by
    refine (up _).trans ?_
    rw [abs_mul, abs_of_nonneg hd0]
    have a1 := up (-1 * p.alpha)
    rw [abs_mul, abs_neg, abs_one, one_mul] at a1
    have a2 := mul_le_mul a1 hdc hd0 (by positivity)
    have := M.decay
    linarith
  have e : exIn ex (binary64 (binary64 (-1 * p.alpha) * d)) = ex (binary64 (binary64 (-1 * p.alpha) * d)) := by
    unfold exIn
    rw [if_pos (by linarith)]
  have mx : Mag (-30) 30 (ex (binary64 (binary64 (-1 * p.alpha) * d))) := by
    have a := L.exp _ (hy.trans (by norm_num))
    have b := exp_twenty hy
    have p := b.pos
    generalize Real.exp (binary64 (binary64 (-1 * _) * d)) = X at *
    have q := mul_le_mul_of_nonneg_right (show ε ≤ 1 / 2 by linarith) p.le
    rw [abs_le] at a
    obtain ⟨b1, b2⟩ := b
    constructor
    · refine le_trans ?_ (show X / 2 ≤ _ by linarith [a.1])
      have : (2 : ℝ) ^ (-30 : Int) = 2 ^ (-29 : Int) / 2 := by norm_num [zpow_neg]
      rw [this]; exact div_le_div_of_nonneg_right b1 (by norm_num)
    · refine le_trans (show _ ≤ X * 2 by linarith [a.2]) ?_
      have : (2 : ℝ) ^ (30 : Int) = 2 ^ (29 : Int) * 2 := by norm_num
      rw [this]; exact mul_le_mul_of_nonneg_right b2 (by norm_num)
  have z3 : Mag (-50) 50 |p.A * ex (binary64 (binary64 (-1 * p.alpha) * d))| := by
    rw [abs_mul, abs_of_pos mx.pos]
    exact M.A.mul mx
  rw [e, I.of_abs z1 (by norm_num) (by norm_num), I.of_abs z2 (by norm_num) (by norm_num), I.of_abs (.inr z3) (by norm_num) (by norm_num)]
  exact ⟨rfl, by rw [binary64_abs]; exact z3.round⟩

/-- One round of the inner loop. -/
theorem pair_range (I : Ieee fl) (L : LibmIn ex sq rt ε) (h0 : 1 / 2 ^ 53 ≤ ε) (h1 : 100000 * ε ≤ 1) {c : Cuboid} {p : Params}
    {E : Int → ℝ} (M : Moderate c p E) {energies : List ℝ} (hE : Energies c energies E) {D A : ℝ}
    (hD : Rel ε 4 (4 * p.lambda * kB * p.temp) D) (mD : Mag (-82) 59 D) (mA : Mag 45 71 A) {x : Int → Int}
    (hx : ∀ i, ValidIndex c i → c.getX i = .ok (x i) ∧ 0 ≤ x i ∧ x i < c.length) {i j : Int} (hi : ValidIndex c i)
    (hj : ValidIndex c j) (hlen : c.length ≤ INT_MAX) {d : ℝ} (hd : d = 0 ∨ Mag (-22) 20 d) (hdc : d ≤ p.cutoff)
    (hr : (|p.lambda| + |E i| + |E j| + |p.field * (((x j - x i : Int) : ℝ) * c.spacing) * p.charge|) ^ 2 /
      (4 * p.lambda * kB * p.temp) ≤ 590) (rates : IMap (IMap ℝ)) :
    Rounded.pairRates fl ex sq c ⟨p.lambda, D, A⟩ p energies i (x i) (E i) rates (j, d) =
      Rounded.pairRates binary64 (exIn ex) (sqIn sq) c ⟨p.lambda, D, A⟩ p energies i (x i) (E i) rates (j, d) := by
  obtain ⟨xi1, xi2, xi3⟩ := hx i hi
  obtain ⟨xj1, xj2, xj3⟩ := hx j hj
  unfold Rounded.pairRates
  simp only
  rw [xj1, ok_bind, ok_bind]
  refine bind_congr_ok fun dx hdx => ?_
  rw [chk_eq_ok] at hdx
  obtain ⟨rfl, -⟩ := hdx
  refine bind_congr_ok fun e he => ?_
  have hee : e = E j := by
    have := hE j hj
    unfold energyAt at he
    unfold ValidIndex at hj
    rw [if_neg (by omega)] at he
    rw [this] at he
    simpa using he.symm
  subst hee
  obtain ⟨t1, t2, t3, t4⟩ := tilt_range I M (dx := x j - x i) (abs_le.2 ⟨by omega, by omega⟩)
  obtain ⟨c1, c2⟩ := coupling_range I L h1 M hd hdc
  rw [t1, c1]
  generalize binary64 (p.A * exIn ex (binary64 (binary64 (-1 * p.alpha) * d))) = H at c2 ⊢
  generalize binary64 (binary64 (p.field * binary64 (((x j - x i : Int) : ℝ) * c.spacing)) * p.charge) = f at t2 t3 t4 ⊢
  obtain ⟨ei1, ei2⟩ := M.energy i hi
  obtain ⟨ej1, ej2⟩ := M.energy j hj
  have g1 := grid_sub ej1 t2
  have b1 : |E j - f| ≤ 2 ^ (92 : Int) := by
    refine (abs_sub _ _).trans ?_
    rw [show (2 : ℝ) ^ (92 : Int) = 2 ^ (91 : Int) + 2 ^ (91 : Int) by norm_num]
    exact add_le_add (ej2.trans (pow_le (by norm_num))) t3
  have b2 : |binary64 (E j - f)| ≤ 2 ^ (92 : Int) := by
    rw [binary64_abs, ← binary64_pow]; exact binary64_mono b1
  rw [I.of_abs (grid_mag g1 b1) (by norm_num) (by norm_num)]
  have G : Grid (binary64 (E j - f)) := ⟨grid_round g1, b2.trans (pow_le (by norm_num))⟩
  have Gi : Grid (E i) := ⟨ei1, ei2.trans (pow_le (by norm_num))⟩
  have k1 := kB_pos
  have hD0 : 0 < 4 * p.lambda * kB * p.temp := by have := M.lambda.pos; have := M.temp.pos; positivity
  have b3 : |binary64 (E j - f)| ≤ 1003 / 1000 * (|E j| + |p.field * (((x j - x i : Int) : ℝ) * c.spacing) * p.charge|) := by
    have a1 := binary64_err (K := ℝ) (E j - f)
    have a2 := abs_sub_abs_le_abs_sub (binary64 (E j - f)) (E j - f)
    have a3 : (1 : ℝ) / 2 ^ 53 * |E j - f| ≤ 1 / 1000 * |E j - f| := mul_le_mul_of_nonneg_right (by norm_num) (abs_nonneg _)
    have a4 := abs_sub (E j) f
    have a5 := abs_nonneg (E j)
    have a6 := abs_nonneg (p.field * (((x j - x i : Int) : ℝ) * c.spacing) * p.charge)
    linarith
  have hb : (|p.lambda| + |E i| + |binary64 (E j - f)|) ^ 2 / (4 * p.lambda * kB * p.temp) ≤ 600 := by
    rw [div_le_iff₀ hD0] at hr ⊢
    have a0 : |p.lambda| + |E i| + |binary64 (E j - f)| ≤ 1003 / 1000 * (|p.lambda| + |E i| + |E j| +
        |p.field * (((x j - x i : Int) : ℝ) * c.spacing) * p.charge|) := by
      have := abs_nonneg p.lambda; have := abs_nonneg (E i)
      linarith
    have a1 := pow_le_pow_left₀ (by positivity) a0 2
    rw [mul_pow, show ((1003 : ℝ) / 1000) ^ 2 = 1006009 / 1000000 by norm_num] at a1
    linarith
  have r1 := rate_range I L h0 h1 (H := H) M.lambda M.temp M.lambdaGrid Gi G (.inr c2) hb hD mD mA
  have r2 := rate_range I L h0 h1 (H := H) M.lambda M.temp M.lambdaGrid G Gi (.inr c2)
    (by rw [show |p.lambda| + |binary64 (E j - f)| + |E i| = |p.lambda| + |E i| + |binary64 (E j - f)| by ring]; exact hb) hD mD mA
  rw [r1, r2]

/-- The whole computation. -/
theorem calculateRates_range (I : Ieee fl) (T : Root rt ε) (L : LibmIn ex sq rt ε) (h0 : 1 / 2 ^ 53 ≤ ε) (h1 : 100000 * ε ≤ 1)
    {c : Cuboid} (hb : Built c) {p : Params} {E : Int → ℝ} (M : Moderate c p E) {energies : List ℝ} (hE : Energies c energies E)
    {D : IMap (IMap ℝ)} (hD : Rounded.getAllNeighborDistances fl rt c p.cutoff = .ok D) (hr : Reach c p E D)
    {visit : IMap (IMap ℝ) → List (Int × List (Int × ℝ))} (hv : Visits visit) :
    Rounded.getAllNeighborDistances binary64 rt c p.cutoff = .ok D ∧
    Rounded.calculateRates fl ex sq rt c p energies visit = Rounded.calculateRates binary64 (exIn ex) (sqIn sq) rt c p energies visit := by
  have hε : 0 ≤ ε := le_trans (by positivity) h0
  have R := binary64_rounding_of h0
  have g := good_of_built hb
  have hs := (search_range I T (by linarith) (M.spacing.mono (by norm_num) (by norm_num)) (cutoff := p.cutoff)
    (.inr (M.cutoff.mono (by norm_num) (by norm_num)))).2.2
  rw [hs] at hD
  refine ⟨hD, ?_⟩
  obtain ⟨x, hx1, hx2⟩ := xOf hb
  obtain ⟨m1, m2⟩ := marcus_range I L (by linarith) M.lambda M.temp
  obtain ⟨den, A, hmar, rD, -, -, -⟩ := marcus_parts R (libmIn_ext L hε) hε (by linarith) M.lambda.pos M.temp.pos
  obtain ⟨mD, mA⟩ := m2 den A hmar
  unfold Rounded.calculateRates
  rw [m1, hs, hD, hmar]
  simp only [ok_bind]
  obtain ⟨v1, -⟩ := visit_mem hv (neat_getAll_rounded hD)
  apply foldlM_congr_mem
  intro ir hir s
  obtain ⟨⟨jd0, hjd0⟩, hrow⟩ := v1 ir hir
  have hval := (getAll_rounded_value hb hD).2
  have hvi : ValidIndex c ir.1 := by
    obtain ⟨-, -, a, b, -, q1, -, -⟩ := hval _ _ _ (hrow jd0 hjd0)
    exact siteAt_bounds g q1
  unfold Rounded.siteRates
  obtain ⟨xi1, -, -⟩ := hx2 _ hvi
  rw [xi1, ok_bind, ok_bind]
  refine bind_congr_ok fun e he => ?_
  have hee : e = E ir.1 := by
    have := hE ir.1 hvi
    unfold energyAt at he
    unfold ValidIndex at hvi
    rw [if_neg (by omega)] at he
    rw [this] at he
    simpa using he.symm
  subst hee
  apply foldlM_congr_mem
  rintro ⟨j, d⟩ hjd s'
  have hget := hrow _ hjd
  simp only at hget
  obtain ⟨-, hle, a, b, b', q1, q2, q3, q4⟩ := hval _ _ _ hget
  have hvj := siteAt_bounds g q2
  refine pair_range I L h0 h1 M hE rD mD mA hx2 hvi hvj g.l_le ?_ hle ?_ s'
  · have hst : 0 ≤ steps b' a := by unfold steps; positivity
    have a1 := T.err _ hst
    rcases hst.lt_or_eq with hp | hz
    · right
      have s1 : (1 : ℝ) ≤ Real.sqrt (steps b' a) := by
        rw [Real.one_le_sqrt]; exact_mod_cast hp
      have b := mul_le_mul_of_nonneg_right (show ε ≤ 1 / 2 by linarith) (by linarith : 0 ≤ Real.sqrt (steps b' a))
      rw [abs_le] at a1
      refine ⟨?_, hle.trans M.cutoff.2⟩
      have c0 : (2 : ℝ) ^ (-21 : Int) ≤ rt (steps b' a) * c.spacing := by
        have : (2 : ℝ) ^ (-21 : Int) = 1 / 2 * 2 ^ (-20 : Int) := by norm_num [zpow_neg]
        rw [this]
        exact mul_le_mul (by linarith [a1.1]) M.spacing.1 (by positivity) (by linarith [a1.1])
      rw [q4]
      have := binary64_mono c0
      rw [binary64_pow] at this
      exact (pow_le (by norm_num)).trans this
    · left
      rw [← hz] at q4 a1
      simp at a1
      rw [q4, Int.cast_zero, a1, zero_mul, binary64_zero]
  · have := hr ir.1 j a b (by rw [hget]; rfl) q1 q2
    rw [hx1 _ _ q1, hx1 _ _ q2]
    exact this

end Mythical
