import Verif.Lemmas.RangeSite
import Verif.Lemmas.RangeToF
import Verif.Props.Rounded

/-! # Property C100: the range of `double` does not matter for rates, distances and energies of moderate size -/

set_option linter.unusedSectionVars false

namespace Mythical
open Rounded Cuboid CuboidSpec RoundSpec ToF ToFSpec SiteSpec Site
variable {fl ex sq rt : ℝ → ℝ} {ε : ℝ}

/-- **C100 (double).** The arithmetic of `double` with gradual underflow is such an arithmetic. It is not that of unbounded
exponents: below `2^-1022` its results are the nearest multiples of `2^-1074`, and it loses `2^-1080`. -/
theorem C100_double : Ieee (double : ℝ → ℝ) ∧
    (∀ x : ℝ, |x| < 2 ^ (-1022 : Int) → (∃ m : Int, double x = m * 2 ^ (-1074 : Int)) ∧ |double x - x| ≤ 2 ^ (-1074 : Int) / 2) ∧
    double ((2 : ℝ) ^ (-1080 : Int)) = 0 ∧
    binary64 ((2 : ℝ) ^ (-1080 : Int)) = 2 ^ (-1080 : Int) := by
  refine ⟨double_ieee, fun x hx => ?_, ?_, binary64_pow _⟩
  · unfold double
    rw [if_pos hx]
    refine ⟨⟨_, rfl⟩, ?_⟩
    have hu : (0 : ℝ) < 2 ^ (-1074 : Int) := zpow_pos (by norm_num) _
    have := mul_le_mul_of_nonneg_right (nearest_err (x / 2 ^ (-1074 : Int))) hu.le
    rw [← abs_of_pos hu, ← abs_mul, abs_of_pos hu, sub_mul, div_mul_cancel₀ _ hu.ne'] at this
    linarith
  have hp : (0 : ℝ) < 2 ^ (-1080 : Int) := zpow_pos (by norm_num) _
  unfold double
  rw [abs_of_pos hp, if_pos (zpow_lt_zpow_right₀ (by norm_num) (by norm_num)), ← zpow_sub₀ (by norm_num)]
  have : nearest ((2 : ℝ) ^ (-1080 - -1074 : Int)) = 0 := by
    have e : (2 : ℝ) ^ (-1080 - -1074 : Int) = 1 / 64 := by norm_num [zpow_neg]
    rw [e]
    unfold nearest
    have hf : ⌊(1 / 64 : ℝ)⌋ = 0 := by norm_num
    rw [hf]
    norm_num
  rw [this]; simp

/-- The rates that the calls on a site name lie between `2^-500` and `2^500` whenever a call is made, and they name at most
`2^20` rates. -/
def ModerateRates (ops : List ((Addr → ℝ) × Op)) : Prop :=
  (∀ mo ∈ ops, ∀ mo' ∈ ops, ∀ a ∈ addrsOf mo'.2, Mag (-500) 500 (mo.1 a)) ∧
  (ops.map fun mo => (addrsOf mo.2).length).sum ≤ 2 ^ 20

theorem moderate_run (I : Ieee fl) {id : Int} {ops : List ((Addr → ℝ) × Op)} (hm : ModerateRates ops) :
    Rounded.run fl (Site.new id) ops = Rounded.run binary64 (Site.new id) ops ∧
    ∀ s', Rounded.run binary64 (Site.new id) ops = .ok s' →
      (∀ na ∈ s'.neigh, ∃ mo ∈ ops, na.2 ∈ addrsOf mo.2) ∧ s'.neigh.length ≤ 2 ^ 20 ∧ (ops ≠ [] → Tame s') := by
  obtain ⟨h1, h2⟩ := run_range I (A := ops.flatMap fun mo => addrsOf mo.2) (s := Site.new id)
    (fun mo hmo a ha => by
      obtain ⟨mo', h1, h2⟩ := List.mem_flatMap.1 ha
      exact hm.1 mo hmo mo' h1 a h2) (by simp [Site.new])
    (fun mo hmo a ha => List.mem_flatMap.2 ⟨mo, hmo, ha⟩) (by simpa [Site.new] using hm.2)
  refine ⟨h1, fun s' h => ⟨fun na hna => ?_, (h2 s' h).2⟩⟩
  exact List.mem_flatMap.1 ((h2 s' h).1 na hna)

/-- **C100 (site).** Any history of calls on a new site ends the same with and without bounds on the exponents, and then every
draw picks the same site and every dwell time is the same. -/
theorem C100_site (I : Ieee fl) {id : Int} {ops : List ((Addr → ℝ) × Op)} (hm : ModerateRates ops) :
    Rounded.run fl (Site.new id) ops = Rounded.run binary64 (Site.new id) ops ∧
    ∀ s, Rounded.run fl (Site.new id) ops = .ok s → ops ≠ [] →
      (∀ u, Rounded.pickNewSiteId fl s u = Rounded.pickNewSiteId binary64 s u) ∧
      ∀ e, Mag (-60) 10 e → Rounded.getDwellTime fl s e = Rounded.getDwellTime binary64 s e := by
  obtain ⟨h1, h2⟩ := moderate_run I (id := id) hm
  refine ⟨h1, fun s hs hne => ?_⟩
  rw [h1] at hs
  have t := (h2 s hs).2.2 hne
  exact ⟨fun u => pick_range I t u, fun e he => dwell_range I t he⟩

/-- **C100 (law of a site).** So the probability of each neighbour, the time constant and the dwell times are right up to a
part of the order of `n 2^-53` in the arithmetic of `double`, bounds on the exponents included, where `n` is the number of
neighbours. -/
theorem C100_law (I : Ieee fl) {id : Int} {ops : List ((Addr → ℝ) × Op)} {mem : Addr → ℝ} {o : Op} {s : Site ℝ}
    (hv : ∀ mo ∈ ops ++ [(mem, o)], ValidOp mo.2) (hm : ModerateRates (ops ++ [(mem, o)]))
    (h : Rounded.run fl (Site.new id) (ops ++ [(mem, o)]) = .ok s) (hm1 : neighOf (ops ++ [(mem, o)]) (-1) = none) :
    (∀ n a, neighOf (ops ++ [(mem, o)]) n = some a →
      ∃ p : ℝ, MeasureTheory.volume {u : ℝ | (0 ≤ u ∧ u < 1) ∧ Rounded.pickNewSiteId fl s u = n} = ENNReal.ofReal p ∧
        |p - mem a / (s.getRateToNeighbors mem).sum| ≤ 8 * ((s.getRateToNeighbors mem).length + 1) / 2 ^ 53) ∧
    |s.tau - 1 / (s.getRateToNeighbors mem).sum| ≤
      2 * ((s.getRateToNeighbors mem).length + 1) / 2 ^ 53 * (1 / (s.getRateToNeighbors mem).sum) ∧
    ∀ e, Mag (-60) 10 e → |Rounded.getDwellTime fl s e - e * s.tau| ≤ 1 / 2 ^ 53 * (e * s.tau) := by
  obtain ⟨h1, h2⟩ := moderate_run I (id := id) hm
  obtain ⟨-, h3⟩ := C100_site I (id := id) hm
  obtain ⟨p1, p2⟩ := h3 s h (by simp)
  rw [h1] at h
  obtain ⟨a1, a2, a3⟩ := h2 s h
  have t := a3 (by simp)
  obtain ⟨-, hw, hn⟩ := rounded_after hv h
  have hpos : ∀ n a, neighOf (ops ++ [(mem, o)]) n = some a → 0 < mem a := by
    intro n a hna
    rw [← hn] at hna
    obtain ⟨mo, q1, q2⟩ := a1 _ (IMap.mem_of_get? hna)
    exact (hm.1 (mem, o) (by simp) mo q1 a q2).pos
  have hlen : (s.getRateToNeighbors mem).length = s.neigh.length := List.length_map ..
  have hN : 8 * (((s.getRateToNeighbors mem).length + 1) * (1 / 2 ^ 53 : ℝ)) ≤ 1 := by
    rw [hlen]
    have : (s.neigh.length : ℝ) ≤ 2 ^ 20 := by exact_mod_cast a2
    generalize (s.neigh.length : ℝ) = n at this ⊢
    norm_num at this ⊢
    linarith
  refine ⟨fun n a hna => ?_, ?_, fun e he => ?_⟩
  · obtain ⟨p, b1, b2⟩ := C90_probability binary64_rounding (by norm_num) hv h hpos hm1 hN hna
    refine ⟨p, ?_, b2.trans (le_of_eq (by ring))⟩
    rw [← b1]
    congr 1
    ext u
    simp only [Set.mem_ofPred_eq, p1]
  · exact (C90_tau binary64_rounding (by norm_num) hv h hpos hN).trans (le_of_eq (by ring))
  · rw [p2 e he]
    have := binary64_err (K := ℝ) (e * s.tau)
    rwa [abs_of_pos (mul_pos he.pos t.tau.pos)] at this

/-- **C100 (lattice).** The searches for neighbours return the same. -/
theorem C100_lattice (I : Ieee fl) (T : Root rt ε) (h1 : ε ≤ 1 / 2) {c : Cuboid} (hs : Mag (-500) 500 c.spacing) {cutoff : ℝ}
    (hc : cutoff = 0 ∨ Mag (-500) 500 cutoff) :
    (∀ i, Rounded.getNeighbors fl rt c i cutoff = Rounded.getNeighbors binary64 rt c i cutoff) ∧
    (∀ i, Rounded.getNeighborDistances fl rt c i cutoff = Rounded.getNeighborDistances binary64 rt c i cutoff) ∧
    Rounded.getAllNeighborDistances fl rt c cutoff = Rounded.getAllNeighborDistances binary64 rt c cutoff :=
  search_range I T h1 hs hc

theorem marcusErr_le {lam T Ei Ej : ℝ} (h0 : 0 ≤ ε) (hx : (|lam| + |Ei| + |Ej|) ^ 2 / (4 * lam * 8.617333262145e-5 * T) ≤ 600) :
    marcusErr ε lam T Ei Ej ≤ 12616 * ε := by
  unfold marcusErr
  apply mul_le_mul_of_nonneg_right _ h0
  rw [mul_div_assoc]
  linarith

theorem marcusRateR_range (I : Ieee fl) (L : LibmIn ex sq rt ε) (h0 : 1 / 2 ^ 53 ≤ ε) (h1 : 100000 * ε ≤ 1) {lam T Ei Ej H : ℝ}
    (hl : Mag (-50) 50 lam) (hT : Mag (-20) 20 T) (gl : Grid lam) (gi : Grid Ei) (gj : Grid Ej) (hH : H = 0 ∨ Mag (-50) 50 |H|)
    (hx : (|lam| + |Ei| + |Ej|) ^ 2 / (4 * lam * 8.617333262145e-5 * T) ≤ 600) (k : ℝ) :
    MarcusRateR fl ex sq rt lam T Ei Ej H k ↔ MarcusRateR binary64 (exIn ex) (sqIn sq) rt lam T Ei Ej H k := by
  have hε : 0 ≤ ε := le_trans (by positivity) h0
  obtain ⟨m1, m2⟩ := marcus_range I L (by linarith) hl hT
  obtain ⟨D, A, hmar, rD, -, -, -⟩ := marcus_parts (binary64_rounding_of h0) (libmIn_ext L hε) hε (by linarith) hl.pos hT.pos
  obtain ⟨mD, mA⟩ := m2 D A hmar
  have r := rate_range I L h0 h1 hl hT gl gi gj hH hx rD mD mA
  unfold MarcusRateR
  rw [m1, hmar]
  constructor
  · rintro ⟨m, e1, e2⟩
    cases e1
    exact ⟨_, rfl, by rw [← r]; exact e2⟩
  · rintro ⟨m, e1, e2⟩
    cases e1
    exact ⟨_, rfl, by rw [r]; exact e2⟩

/-- **C100 (Marcus rates).** A Marcus rate whose exponent is at most 600 is right up to the part `25232 ε`; it does not vanish
unless the coupling does. -/
theorem C100_marcus (I : Ieee fl) (L : LibmIn ex sq rt ε) (h0 : 1 / 2 ^ 53 ≤ ε) (h1 : 100000 * ε ≤ 1) {lam T Ei Ej H : ℝ}
    (hl : Mag (-50) 50 lam) (hT : Mag (-20) 20 T) (gl : Grid lam) (gi : Grid Ei) (gj : Grid Ej) (hH : H = 0 ∨ Mag (-50) 50 |H|)
    (hx : (|lam| + |Ei| + |Ej|) ^ 2 / (4 * lam * 8.617333262145e-5 * T) ≤ 600) {k : ℝ} (h : MarcusRate lam T Ei Ej H k) :
    ∃ k', MarcusRateR fl ex sq rt lam T Ei Ej H k' ∧ |k' - k| ≤ 2 * marcusErr ε lam T Ei Ej * k ∧
      |k' - k| ≤ 25232 * ε * k ∧ 0 ≤ k' ∧ (k' = 0 ↔ H = 0) := by
  have hε : 0 ≤ ε := le_trans (by positivity) h0
  have he := marcusErr_le hε hx
  obtain ⟨k', a1, a2, a3, a4⟩ := C98_rate_partial (binary64_rounding_of h0) (libmIn_ext L hε) hε (by linarith) hl.pos hT.pos
    (by linarith) h
  refine ⟨k', (marcusRateR_range I L h0 h1 hl hT gl gi gj hH hx k').2 a1, a2, a2.trans ?_, a3, a4⟩
  have hk : 0 ≤ k := by
    obtain ⟨-, -, k0, -⟩ := marcus_factor (binary64_rounding_of h0) (libmIn_ext L hε) hε (by linarith) hl.pos hT.pos h
    exact k0
  exact mul_le_mul_of_nonneg_right (by linarith) hk

/-- **C100 (detailed balance).** -/
theorem C100_balance (I : Ieee fl) (L : LibmIn ex sq rt ε) (h0 : 1 / 2 ^ 53 ≤ ε) (h1 : 100000 * ε ≤ 1) {lam T Ei Ej H : ℝ}
    (hl : Mag (-50) 50 lam) (hT : Mag (-20) 20 T) (gl : Grid lam) (gi : Grid Ei) (gj : Grid Ej) (hH : Mag (-50) 50 |H|)
    (hx : (|lam| + |Ei| + |Ej|) ^ 2 / (4 * lam * 8.617333262145e-5 * T) ≤ 600) {kij kji : ℝ}
    (hij : MarcusRateR fl ex sq rt lam T Ei Ej H kij) (hji : MarcusRateR fl ex sq rt lam T Ej Ei H kji) :
    |kij / kji - Real.exp (-(Ej - Ei) / (8.617333262145e-5 * T))| ≤
      50464 * ε * Real.exp (-(Ej - Ei) / (8.617333262145e-5 * T)) := by
  have hε : 0 ≤ ε := le_trans (by positivity) h0
  have he := marcusErr_le hε hx
  have hx' : (|lam| + |Ej| + |Ei|) ^ 2 / (4 * lam * 8.617333262145e-5 * T) ≤ 600 := by
    rwa [show |lam| + |Ej| + |Ei| = |lam| + |Ei| + |Ej| by ring]
  rw [marcusRateR_range I L h0 h1 hl hT gl gi gj (.inr hH) hx] at hij
  rw [marcusRateR_range I L h0 h1 hl hT gl gj gi (.inr hH) hx'] at hji
  refine (C98_balance_partial (binary64_rounding_of h0) (libmIn_ext L hε) hε (by linarith) hl.pos hT.pos (abs_pos.1 hH.pos)
    (by linarith) hij hji).trans (mul_le_mul_of_nonneg_right (by linarith) (Real.exp_pos _).le)

theorem tofErr_le {c : Cuboid} {p : Params} {Ei Ej : ℝ} {dx : Int} {r : ℝ} (h0 : 0 ≤ ε) (hr : |p.alpha| * r ≤ 20)
    (hx : (|p.lambda| + |Ei| + |Ej| + |p.field * ((dx : ℝ) * c.spacing) * p.charge|) ^ 2 /
      (4 * p.lambda * 8.617333262145e-5 * p.temp) ≤ 590) : tofErr ε p c.spacing Ei Ej dx r ≤ 20360 * ε := by
  unfold tofErr
  apply mul_le_mul_of_nonneg_right _ h0
  rw [mul_div_assoc]
  linarith

/-- **C100 (rates of the time-of-flight example).** For constants and energies of moderate size and exponents of at most 590
`calculateRates` returns if the search does, in whatever order the maps are gone through. There is a rate exactly for the pairs
that the search lists. Each is positive and right up to the part `40720 ε`. -/
theorem C100_rates (I : Ieee fl) (T : Root rt ε) (L : LibmIn ex sq rt ε) (h0 : 1 / 2 ^ 53 ≤ ε) (h1 : 100000 * ε ≤ 1)
    {c : Cuboid} (hb : Built c) {p : Params} {E : Int → ℝ} (M : Moderate c p E) {energies : List ℝ} (hE : Energies c energies E)
    {D : IMap (IMap ℝ)} (hD : Rounded.getAllNeighborDistances fl rt c p.cutoff = .ok D) (hr : Reach c p E D)
    {visit : IMap (IMap ℝ) → List (Int × List (Int × ℝ))} (hv : Visits visit) :
    ∃ Q, Rounded.calculateRates fl ex sq rt c p energies visit = .ok Q ∧
      (∀ i j, (get2 Q i j).isSome ↔ (get2 D i j).isSome) ∧
      ∀ i j k, get2 Q i j = some k → 0 < k ∧ ∃ a b b' k₀, SiteAt c i a ∧ SiteAt c j b ∧ Image c b b' ∧
        MarcusRate p.lambda p.temp (energyInField c p (E i) a) (energyInField c p (E j) b) (p.A * Real.exp (-p.alpha * euclid c a b')) k₀ ∧
        |k - k₀| ≤ 40720 * ε * k₀ := by
  have hε : 0 ≤ ε := le_trans (by positivity) h0
  obtain ⟨d1, d2⟩ := calculateRates_range I T L h0 h1 hb M hE hD hr hv
  obtain ⟨Q, q1, q2, q3⟩ := C99_rates_partial (binary64_rounding_of h0) T (libmIn_ext L hε) hε (by linarith) hb M.spacing.pos
    M.lambda.pos M.temp.pos (abs_pos.1 M.A.pos) hE d1 hv
  refine ⟨Q, by rw [d2]; exact q1, q2, fun i j k hk => ?_⟩
  obtain ⟨k0, a, b, b', k₀, s1, s2, s3, s4, s5, s6⟩ := q3 i j k hk
  refine ⟨k0, a, b, b', k₀, s1, s2, s3, s5, ?_⟩
  have hsome : (get2 D i j).isSome := (q2 i j).1 (by rw [hk]; rfl)
  have al := abs_nonneg p.alpha
  have hr' : |p.alpha| * euclid c a b' ≤ 20 := by
    have e0 := euclid_nonneg (c := c) M.spacing.pos.le a b'
    have e1 : euclid c a b' ≤ 20 / 19 * p.cutoff := by nlinarith [M.cutoff.pos]
    have := mul_le_mul_of_nonneg_left e1 al
    have := M.decay
    linarith
  have he := tofErr_le (c := c) hε hr' (hr i j a b hsome s1 s2)
  have hk0 : 0 ≤ k₀ := by
    obtain ⟨-, -, z, -⟩ := marcus_factor (binary64_rounding_of h0) (libmIn_ext L hε) hε (by linarith) M.lambda.pos M.temp.pos s5
    exact z
  exact (s6 (by linarith)).trans (mul_le_mul_of_nonneg_right (by linarith) hk0)

/-- **C100 (detailed balance of the example).** -/
theorem C100_tof_balance (I : Ieee fl) (T : Root rt ε) (L : LibmIn ex sq rt ε) (h0 : 1 / 2 ^ 53 ≤ ε) (h1 : 100000 * ε ≤ 1)
    {c : Cuboid} (hb : Built c) {p : Params} {E : Int → ℝ} (M : Moderate c p E) {energies : List ℝ} (hE : Energies c energies E)
    {D : IMap (IMap ℝ)} (hD : Rounded.getAllNeighborDistances fl rt c p.cutoff = .ok D) (hr : Reach c p E D)
    {visit : IMap (IMap ℝ) → List (Int × List (Int × ℝ))} (hv : Visits visit) {Q : IMap (IMap ℝ)}
    (hQ : Rounded.calculateRates fl ex sq rt c p energies visit = .ok Q) {i j : Int} {a b : Pos} (ha : SiteAt c i a)
    (hb' : SiteAt c j b) {k k' : ℝ} (hk : get2 Q i j = some k) (hk' : get2 Q j i = some k') :
    |k / k' - Real.exp (-(energyInField c p (E j) b - energyInField c p (E i) a) / (8.617333262145e-5 * p.temp))| ≤
      81440 * ε * Real.exp (-(energyInField c p (E j) b - energyInField c p (E i) a) / (8.617333262145e-5 * p.temp)) := by
  have hε : 0 ≤ ε := le_trans (by positivity) h0
  obtain ⟨d1, d2⟩ := calculateRates_range I T L h0 h1 hb M hE hD hr hv
  obtain ⟨Q', q1, q2, -⟩ := C100_rates I T L h0 h1 hb M hE hD hr hv
  rw [hQ] at q1
  obtain rfl := ok_inj.1 q1
  have he := tofErr_le (c := c) hε (show |p.alpha| * p.cutoff ≤ 20 by linarith [M.decay])
    (hr i j a b ((q2 i j).1 (by rw [hk]; rfl)) ha hb')
  rw [d2] at hQ
  exact (C99_balance_partial (binary64_rounding_of h0) T (libmIn_ext L hε) hε (by linarith) hb M.spacing.pos M.lambda.pos M.temp.pos
    (abs_pos.1 M.A.pos) hE hv hQ ha hb' hk hk' (by linarith)).trans (mul_le_mul_of_nonneg_right (by linarith) (Real.exp_pos _).le)

/-- **C100 (order in the example).** -/
theorem C100_tof_order (I : Ieee fl) (T : Root rt ε) (L : LibmIn ex sq rt ε) (h0 : 1 / 2 ^ 53 ≤ ε) (h1 : 100000 * ε ≤ 1)
    {c : Cuboid} (hb : Built c) {p : Params} {E : Int → ℝ} (M : Moderate c p E) {energies : List ℝ} (hE : Energies c energies E)
    {D : IMap (IMap ℝ)} (hD : Rounded.getAllNeighborDistances fl rt c p.cutoff = .ok D) (hr : Reach c p E D)
    {visit visit' : IMap (IMap ℝ) → List (Int × List (Int × ℝ))} (hv : Visits visit) (hv' : Visits visit') {Q Q' : IMap (IMap ℝ)}
    (hQ : Rounded.calculateRates fl ex sq rt c p energies visit = .ok Q)
    (hQ' : Rounded.calculateRates fl ex sq rt c p energies visit' = .ok Q') (i j : Int) :
    ((get2 Q i j).isSome ↔ (get2 Q' i j).isSome) ∧
    ∀ k k', get2 Q i j = some k → get2 Q' i j = some k' → |k - k'| ≤ 81440 * ε * k' := by
  have hε : 0 ≤ ε := le_trans (by positivity) h0
  obtain ⟨d1, d2⟩ := calculateRates_range I T L h0 h1 hb M hE hD hr hv
  obtain ⟨-, d2'⟩ := calculateRates_range I T L h0 h1 hb M hE hD hr hv'
  obtain ⟨R, q1, q2, q3⟩ := C100_rates I T L h0 h1 hb M hE hD hr hv
  obtain ⟨R', q1', q2', q3'⟩ := C100_rates I T L h0 h1 hb M hE hD hr hv'
  rw [hQ] at q1
  obtain rfl := ok_inj.1 q1
  rw [hQ'] at q1'
  obtain rfl := ok_inj.1 q1'
  rw [d2] at hQ
  rw [d2'] at hQ'
  obtain ⟨o1, o2⟩ := C99_order_partial (binary64_rounding_of h0) T (libmIn_ext L hε) hε (by linarith) hb M.spacing.pos M.lambda.pos
    M.temp.pos hE hv hv' hQ hQ' i j
  refine ⟨o1, fun k k' hk hk' => ?_⟩
  obtain ⟨-, a, b, -, -, s1, s2, -⟩ := q3 i j k hk
  have he := tofErr_le (c := c) hε (show |p.alpha| * p.cutoff ≤ 20 by linarith [M.decay])
    (hr i j a b ((q2 i j).1 (by rw [hk]; rfl)) s1 s2)
  exact (o2 k k' a b hk hk' s1 s2 (by linarith)).trans (mul_le_mul_of_nonneg_right (by linarith) (q3' i j k' hk').1.le)

/-! ## Cases -/

/-- The library functions rounded to `double`, bounds on the exponents included. -/
theorem libm_double : LibmIn (fun x => double (Real.exp x)) (fun x => double (x ^ 2)) (fun x => binary64 (Real.sqrt x)) (1 / 2 ^ 53) := by
  have I := double_ieee (K := ℝ)
  refine ⟨fun x hx => ?_, fun x hx => ?_, libm64.sqrt⟩
  · have h1 : Real.exp 702 ≤ 2 ^ (1014 : Int) := by
      have h9 : Real.exp 1 ^ 9 ≤ 2 ^ 13 :=
        calc Real.exp 1 ^ 9 ≤ (2.7182818286 : ℝ) ^ 9 := pow_le_pow_left₀ (Real.exp_pos _).le Real.exp_one_lt_d9.le 9
          _ ≤ 2 ^ 13 := by norm_num
      have e : Real.exp 702 = (Real.exp 1 ^ 9) ^ 78 := by rw [← pow_mul, ← Real.exp_nat_mul]; norm_num
      rw [e]
      calc (Real.exp 1 ^ 9) ^ 78 ≤ ((2 : ℝ) ^ 13) ^ 78 := pow_le_pow_left₀ (by positivity) h9 78
        _ = 2 ^ (1014 : Int) := by rw [← pow_mul]; rfl
    have m : Mag (-1014) 1014 (Real.exp x) := by
      rw [abs_le] at hx
      constructor
      · refine le_trans ?_ (Real.exp_le_exp.2 (show -702 ≤ x by linarith))
        rw [Real.exp_neg, zpow_neg]
        exact inv_anti₀ (Real.exp_pos _) h1
      · exact (Real.exp_le_exp.2 (by linarith)).trans h1
    rw [I.eq m (by norm_num) (by norm_num)]
    exact libm64.exp x
  · have : double (x ^ 2) = binary64 (x ^ 2) := by
      rw [pow_two]
      exact I.of_abs (zm_mul hx hx) (by norm_num) (by norm_num)
    simp only [this]
    exact libm64.sq x

/-- Three neighbours, one of them with a rate of `2^-330`, in the arithmetic of `double`. -/
noncomputable def apart : Addr → ℝ := fun a => if a = 0 then 2 ^ (-330 : Int) else 2 ^ (46 : Int)

example : ∃ s, Rounded.run double (Site.new 7) ([] ++ [(apart, Op.setRates [(1, 0), (2, 1), (3, 2)])]) = .ok s ∧
    ∃ p : ℝ, MeasureTheory.volume {u : ℝ | (0 ≤ u ∧ u < 1) ∧ Rounded.pickNewSiteId double s u = 2} = ENNReal.ofReal p ∧
      |p - 2 ^ (46 : Int) / (s.getRateToNeighbors apart).sum| ≤ 8 * ((s.getRateToNeighbors apart).length + 1) / 2 ^ 53 := by
  have hm : ModerateRates ([] ++ [(apart, Op.setRates [(1, 0), (2, 1), (3, 2)])]) := by
    refine ⟨?_, by decide⟩
    simp only [List.nil_append, List.mem_singleton, forall_eq, addrsOf]
    intro a _
    unfold apart
    split
    · exact (Mag.pow _).mono (by norm_num) (by norm_num)
    · exact (Mag.pow _).mono (by norm_num) (by norm_num)
  have hv : ∀ mo ∈ [] ++ [(apart, Op.setRates [(1, 0), (2, 1), (3, 2)])], ValidOp mo.2 := by
    simp only [List.nil_append, List.mem_singleton, forall_eq]
    show IMap.WF _
    unfold IMap.WF
    decide
  have e2 : neighOf ([] ++ [(apart, Op.setRates [(1, 0), (2, 1), (3, 2)])]) 2 = some 1 := rfl
  obtain ⟨s, hs⟩ := C90_accepts (ops := []) (s := Site.new 7) (id := 7) binary64_rounding (by norm_num) hv rfl
    (fun n a _ => by
      unfold apart
      split
      · exact ⟨zpow_pos (by norm_num) _, binary64_pow _⟩
      · exact ⟨zpow_pos (by norm_num) _, binary64_pow _⟩) (by simp)
  rw [← (C100_site double_ieee hm).1] at hs
  obtain ⟨p, h1, h2⟩ := (C100_law double_ieee hv hm hs rfl).1 2 1 e2
  exact ⟨s, hs, p, h1, h2⟩

theorem grid_small {n k : Int} (hk : -300 ≤ k) (hk' : k ≤ 0) (hn : |n| ≤ 2 ^ 50) : Grid ((n : ℝ) * 2 ^ k) := by
  constructor
  · refine ⟨n * 2 ^ (k + 300).toNat, ?_⟩
    push_cast
    rw [mul_assoc, ← zpow_natCast, Int.toNat_of_nonneg (by omega), ← zpow_add₀ (by norm_num)]
    congr 2
    ring
  · rw [abs_mul, abs_of_pos (zpow_pos (by norm_num : (0 : ℝ) < 2) k)]
    have h1 : |(n : ℝ)| ≤ 2 ^ (50 : Int) := by
      rw [← Int.cast_abs]
      have : ((|n| : Int) : ℝ) ≤ ((2 ^ 50 : Int) : ℝ) := by exact_mod_cast hn
      refine this.trans (le_of_eq ?_)
      norm_num
    have h2 : (2 : ℝ) ^ k ≤ 1 := by
      have := pow_le (K := ℝ) hk'
      rwa [zpow_zero] at this
    calc |(n : ℝ)| * 2 ^ k ≤ 2 ^ (50 : Int) * 1 := mul_le_mul h1 h2 (zpow_pos (by norm_num) _).le (by positivity)
      _ ≤ 2 ^ (100 : Int) := by rw [mul_one]; exact pow_le (by norm_num)

/-- A hop up by 3/8 eV at 300 K: its exponent is about 64, its rate is right up to a part of `3·10⁻¹²`, and the rates of
the two directions are in the ratio of the Boltzmann factor up to `6·10⁻¹²`. -/
example : ∃ k k' k'', MarcusRate (1 / 32) 300 0 (3 / 8) (1 / 4) k ∧
    MarcusRateR double (fun x => double (Real.exp x)) (fun x => double (x ^ 2)) (fun x => binary64 (Real.sqrt x))
      (1 / 32) 300 0 (3 / 8) (1 / 4) k' ∧
    MarcusRateR double (fun x => double (Real.exp x)) (fun x => double (x ^ 2)) (fun x => binary64 (Real.sqrt x))
      (1 / 32) 300 (3 / 8) 0 (1 / 4) k'' ∧
    |k' - k| ≤ 3 / 10 ^ 12 * k ∧ k' ≠ 0 ∧
    |k' / k'' - Real.exp (-(3 / 8 - 0) / (8.617333262145e-5 * 300))| ≤ 6 / 10 ^ 12 * Real.exp (-(3 / 8 - 0) / (8.617333262145e-5 * 300)) := by
  have g1 : Grid (1 / 32) := by have := grid_small (n := 1) (k := -5) (by norm_num) (by norm_num) (by norm_num); norm_num at this ⊢; exact this
  have g2 : Grid (3 / 8) := by have := grid_small (n := 3) (k := -3) (by norm_num) (by norm_num) (by norm_num); norm_num at this ⊢; exact this
  have g0 : Grid 0 := by have := grid_small (n := 0) (k := 0) (by norm_num) (by norm_num) (by norm_num); simpa using this
  have hl : Mag (-50) 50 (1 / 32 : ℝ) := by constructor <;> norm_num [zpow_neg]
  have hT : Mag (-20) 20 (300 : ℝ) := by constructor <;> norm_num [zpow_neg]
  have hH : Mag (-50) 50 |(1 / 4 : ℝ)| := by rw [abs_of_pos (by norm_num)]; constructor <;> norm_num [zpow_neg]
  have hx : (|(1 / 32 : ℝ)| + |0| + |3 / 8|) ^ 2 / (4 * (1 / 32) * 8.617333262145e-5 * 300) ≤ 600 := by
    rw [abs_of_pos (by norm_num : (0 : ℝ) < 1 / 32), abs_zero, abs_of_pos (by norm_num : (0 : ℝ) < 3 / 8)]
    norm_num
  have hx' : (|(1 / 32 : ℝ)| + |3 / 8| + |0|) ^ 2 / (4 * (1 / 32) * 8.617333262145e-5 * 300) ≤ 600 := by
    rw [abs_of_pos (by norm_num : (0 : ℝ) < 1 / 32), abs_zero, abs_of_pos (by norm_num : (0 : ℝ) < 3 / 8)]
    norm_num
  have hk : MarcusRate (1 / 32) 300 0 (3 / 8) (1 / 4) _ := (marcusRate_iff (by norm_num) (by norm_num)).2 rfl
  have hk2 : MarcusRate (1 / 32) 300 (3 / 8) 0 (1 / 4) _ := (marcusRate_iff (by norm_num) (by norm_num)).2 rfl
  have I := double_ieee (K := ℝ)
  obtain ⟨k', a1, -, a2, -, a3⟩ := C100_marcus I libm_double (le_refl _) (by norm_num) hl hT g1 g0 g2 (.inr hH) hx hk
  obtain ⟨k'', b1, -, -, -, -⟩ := C100_marcus I libm_double (le_refl _) (by norm_num) hl hT g1 g2 g0 (.inr hH) hx' hk2
  have c1 := C100_balance I libm_double (le_refl _) (by norm_num) hl hT g1 g0 g2 hH hx a1 b1
  refine ⟨_, k', k'', hk, a1, b1, a2.trans (mul_le_mul_of_nonneg_right (by norm_num) ?_), fun h => by have := a3.1 h; norm_num at this,
    c1.trans (mul_le_mul_of_nonneg_right (by norm_num) (Real.exp_pos _).le)⟩
  have := marcusA_pos (show (0 : ℝ) < 300 by norm_num)
  positivity

/-- Constants near those of the example that are numbers of `double`. -/
noncomputable def dyadic : Params := ⟨2, 1 / 32, 300, 2, 10, 1 / 64, -1⟩

theorem dyadic_moderate : Moderate box345 dyadic fun _ => 1 / 8 := by
  have g1 : Grid (1 / 32) := by have := grid_small (n := 1) (k := -5) (by norm_num) (by norm_num) (by norm_num); norm_num at this ⊢; exact this
  have g2 : Grid (1 / 8) := by have := grid_small (n := 1) (k := -3) (by norm_num) (by norm_num) (by norm_num); norm_num at this ⊢; exact this
  refine ⟨?_, ?_, ?_, g1, ?_, ?_, .inr ?_, .inr ?_, .inr ?_, ?_, fun _ _ => ⟨g2.1, ?_⟩⟩
  all_goals first
    | (unfold Mag; norm_num [dyadic, box345, zpow_neg, abs_of_pos])
    | (norm_num [dyadic, abs_of_pos])

theorem dyadic_reach (D : IMap (IMap ℝ)) : Reach box345 dyadic (fun _ => 1 / 8) D := by
  rintro i j a b - ⟨⟨⟨a1, a2⟩, -⟩, -⟩ ⟨⟨⟨b1, b2⟩, -⟩, -⟩
  simp only [box345] at a2 b2
  have h : |((b.x - a.x : Int) : ℝ)| ≤ 2 := by
    rw [← Int.cast_abs]
    exact_mod_cast (abs_le.2 ⟨by omega, by omega⟩ : |b.x - a.x| ≤ 2)
  have e : |dyadic.field * (((b.x - a.x : Int) : ℝ) * box345.spacing) * dyadic.charge| ≤ 1 / 32 := by
    have : dyadic.field * (((b.x - a.x : Int) : ℝ) * box345.spacing) * dyadic.charge = -(1 / 64) * ((b.x - a.x : Int) : ℝ) := by
      simp only [dyadic, box345]; ring
    rw [this, abs_mul, abs_neg, abs_of_pos (by norm_num : (0 : ℝ) < 1 / 64)]
    linarith
  have hf := abs_nonneg (dyadic.field * (((b.x - a.x : Int) : ℝ) * box345.spacing) * dyadic.charge)
  generalize |dyadic.field * (((b.x - a.x : Int) : ℝ) * box345.spacing) * dyadic.charge| = f at e hf
  simp only [dyadic]
  rw [abs_of_pos (by norm_num : (0 : ℝ) < 1 / 32), abs_of_pos (by norm_num : (0 : ℝ) < 1 / 8), div_le_iff₀ (by norm_num)]
  norm_num
  nlinarith

theorem dyadic_energies : Energies box345 (List.replicate 60 (1 / 8)) fun _ => 1 / 8 := by
  intro i hi
  rw [List.getElem?_replicate, if_pos]
  have h1 := hi.1; have h2 := hi.2
  simp only [box345] at h2
  omega

/-- All of it on a lattice of 3 x 4 x 5 sites: rates between sites 0 and 1 in two orders of the maps, both directions. -/
example : ∃ Q Q' k k' k₁, Rounded.calculateRates double (fun x => double (Real.exp x)) (fun x => double (x ^ 2)) root64 box345
      dyadic (List.replicate 60 (1 / 8)) (fun m => m) = .ok Q ∧
    Rounded.calculateRates double (fun x => double (Real.exp x)) (fun x => double (x ^ 2)) root64 box345
      dyadic (List.replicate 60 (1 / 8)) (fun m => m.reverse.map fun ir => (ir.1, ir.2.reverse)) = .ok Q' ∧
    get2 Q 0 1 = some k ∧ get2 Q' 0 1 = some k' ∧ get2 Q 1 0 = some k₁ ∧ 0 < k ∧ |k - k'| ≤ 1 / 10 ^ 11 * k' ∧
    |k / k₁ - Real.exp (-(energyInField box345 dyadic (1 / 8) ⟨1, 0, 0⟩ - energyInField box345 dyadic (1 / 8) ⟨0, 0, 0⟩) /
        (8.617333262145e-5 * 300))| ≤
      1 / 10 ^ 11 * Real.exp (-(energyInField box345 dyadic (1 / 8) ⟨1, 0, 0⟩ - energyInField box345 dyadic (1 / 8) ⟨0, 0, 0⟩) /
        (8.617333262145e-5 * 300)) := by
  obtain ⟨D, hD, h01⟩ := ToF.box_search_double
  have I := double_ieee (K := ℝ)
  have M := dyadic_moderate
  rw [← (C100_lattice I root64_root (by norm_num) (M.spacing.mono (by norm_num) (by norm_num))
    (cutoff := params.cutoff) (.inr (M.cutoff.mono (by norm_num) (by norm_num)))).2.2] at hD
  have hD' : Rounded.getAllNeighborDistances double root64 box345 dyadic.cutoff = .ok D := hD
  have h10 : (get2 D 1 0).isSome := by
    rw [(getAll_rounded_value box345_built hD).1 1 0]; exact h01
  obtain ⟨Q, q1, q2, q3⟩ := C100_rates I root64_root libm_double (le_refl _) (by norm_num) box345_built M dyadic_energies hD'
    (dyadic_reach D) visits_id
  obtain ⟨Q', q1', q2', q3'⟩ := C100_rates I root64_root libm_double (le_refl _) (by norm_num) box345_built M dyadic_energies hD'
    (dyadic_reach D) visits_reverse
  obtain ⟨k, hk⟩ := Option.isSome_iff_exists.1 ((q2 0 1).2 h01)
  obtain ⟨k', hk'⟩ := Option.isSome_iff_exists.1 ((q2' 0 1).2 h01)
  obtain ⟨k₁, hk₁⟩ := Option.isSome_iff_exists.1 ((q2 1 0).2 h10)
  refine ⟨Q, Q', k, k', k₁, q1, q1', hk, hk', hk₁, (q3 _ _ _ hk).1, ?_, ?_⟩
  · exact ((C100_tof_order I root64_root libm_double (le_refl _) (by norm_num) box345_built M dyadic_energies hD'
      (dyadic_reach D) visits_id visits_reverse q1 q1' 0 1).2 k k' hk hk').trans
        (mul_le_mul_of_nonneg_right (by norm_num) (q3' _ _ _ hk').1.le)
  · exact (C100_tof_balance I root64_root libm_double (le_refl _) (by norm_num) box345_built M dyadic_energies hD'
      (dyadic_reach D) visits_id q1 ⟨by decide, by decide⟩ ⟨by decide, by decide⟩ hk hk₁).trans
        (mul_le_mul_of_nonneg_right (by norm_num) (Real.exp_pos _).le)

end Mythical
