import Verif.Lemmas.ClusterTerm

/-! # Lemmas about the cluster: the iteration stops if some sites have no links

While clusters are merged, a cluster can consist of a connected part and of sites without any link to the rest. The
probability of these sites is halved in each round, and the connected part behaves as in `ClusterTerm`. -/

set_option linter.unusedSectionVars false

namespace Mythical.Cluster
open Mythical ClusterSpec
variable {K : Type} [Field K] [LinearOrder K] [IsStrictOrderedRing K] [FloorRing K]
variable {env : Env K} {mem : Addr → K} {c c' : Cluster K} {L : Finset Int}

/-- The sites outside `L` have no links. -/
structure Dusty (mem : Addr → K) (c : Cluster K) (L : Finset Int) : Prop where
  sub : L ⊆ ids c
  out : ∀ i ∈ ids c, i ∉ L → ∀ j ∈ ids c, rate mem c i j = 0
  into : ∀ i ∈ ids c, i ∉ L → ∀ j ∈ ids c, rate mem c j i = 0

theorem Dusty.congr (h : c'.sites = c.sites) (hd : Dusty mem c L) : Dusty mem c' L := by
  obtain ⟨h1, h2, h3⟩ := hd
  exact ⟨by rw [ids_congr h]; exact h1, by rw [ids_congr h, rate_congr h]; exact h2,
    by rw [ids_congr h, rate_congr h]; exact h3⟩

theorem Dusty.hopProb (hd : Dusty mem c L) {n i : Int} (hn : n ∈ ids c) (hnL : n ∉ L) (hi : i ∈ ids c) :
    hopProb mem c n i = 0 := by
  unfold ClusterSpec.hopProb
  rw [hd.out n hn hnL i hi, zero_div]

theorem Dusty.inflow_eq (hd : Dusty mem c L) (p : Int → K) {i : Int} (hi : i ∈ ids c) :
    inflow mem c p i = ∑ n ∈ L, ClusterSpec.hopProb mem c n i * p n := by
  unfold inflow
  refine (Finset.sum_subset hd.sub fun n hn hnL => ?_).symm
  rw [hd.hopProb hn hnL hi, zero_mul]

theorem Dusty.inflow_dust (hd : Dusty mem c L) (p : Int → K) {i : Int} (hi : i ∈ ids c) (hiL : i ∉ L) :
    inflow mem c p i = 0 := by
  unfold inflow
  refine Finset.sum_eq_zero fun n hn => ?_
  unfold ClusterSpec.hopProb
  rw [hd.into i hi hiL n hn, zero_div, zero_mul]

theorem Dusty.inflow_nonneg (hs : Sound mem c) (hd : Dusty mem c L) {p : Int → K} (hp : ∀ i ∈ L, 0 ≤ p i) {i : Int}
    (hi : i ∈ ids c) : 0 ≤ inflow mem c p i := by
  rw [hd.inflow_eq p hi]
  exact Finset.sum_nonneg fun n hn => mul_nonneg (hs.hopProb_nonneg n i) (hp n hn)

/-- The probability of the sites without links. -/
def dust (c : Cluster K) (L : Finset Int) : K := ∑ i ∈ ids c \ L, c.prob i

theorem mass_eq (hd : Dusty mem c L) (hdist : Dist c) : ∑ i ∈ L, c.prob i = 1 - dust c L := by
  unfold dust
  have h := Finset.sum_sdiff (f := c.prob) hd.sub
  have h1 : ∑ i ∈ ids c, c.prob i = 1 := hdist.one
  rw [h1] at h
  linarith

theorem dust_nonneg (hdist : Dist c) : 0 ≤ dust c L :=
  Finset.sum_nonneg fun i hi => (hdist.pos i (Finset.mem_sdiff.1 hi).1).le

theorem dust_le_one (hd : Dusty mem c L) (hdist : Dist c) : dust c L ≤ 1 := by
  have h := mass_eq hd hdist
  have : 0 ≤ ∑ i ∈ L, c.prob i := Finset.sum_nonneg fun i hi => (hdist.pos i (hd.sub hi)).le
  linarith

theorem prob_half (hs : Sound mem c) (hm : Mutual mem c) (hd : Dusty mem c L) (hdist : Dist c) (h : c.iterate = .ok c')
    {i : Int} (hi : i ∈ ids c) (hiL : i ∉ L) : c'.prob i = c.prob i / 2 := by
  obtain ⟨-, hv⟩ := iterate_prob hs hm hdist h
  rw [hv i hi, hd.inflow_dust _ hi hiL, zero_div, zero_add]

theorem dust_half (hs : Sound mem c) (hm : Mutual mem c) (hd : Dusty mem c L) (hdist : Dist c) (h : c.iterate = .ok c') :
    dust c' L = dust c L / 2 := by
  unfold dust
  rw [ids_congr (iterate_sites h), Finset.sum_div]
  refine Finset.sum_congr rfl fun i hi => ?_
  rw [Finset.mem_sdiff] at hi
  exact prob_half hs hm hd hdist h hi.1 hi.2

theorem dust_pow {n : Nat} (hs : Sound mem c) (hm : Mutual mem c) (hd : Dusty mem c L) (hdist : Dist c)
    (h : iterateN n c = .ok c') : Dist c' ∧ dust c' L = dust c L * (1 / 2) ^ n := by
  induction n generalizing c' with
  | zero => cases h; exact ⟨hdist, by simp⟩
  | succ n ih =>
    obtain ⟨d, h1, h2⟩ := iterateN_succ' h
    obtain ⟨a, b⟩ := ih h1
    have e := iterateN_sites h1
    refine ⟨iterate_dist (hs.congr e) (Mutual.congr e hm) a h2, ?_⟩
    rw [dust_half (hs.congr e) (Mutual.congr e hm) (hd.congr e) a h2, b, pow_succ]
    ring

/-- `r` is a lower bound of the growth on `L`. -/
structure GrowsOn (mem : Addr → K) (c : Cluster K) (L : Finset Int) (r : K) : Prop where
  dist : Dist c
  low : ∀ i ∈ L, 0 ≤ excess mem c r i

theorem sum_inflow_on (hd : Dusty mem c L) (p : Int → K) :
    ∑ i ∈ ids c, inflow mem c p i = ∑ i ∈ L, inflow mem c p i :=
  (Finset.sum_subset hd.sub fun _ hi hiL => hd.inflow_dust p hi hiL).symm

theorem sum_excess_on (hd : Dusty mem c L) (hdist : Dist c) (r : K) :
    ∑ i ∈ L, excess mem c r i = ∑ i ∈ ids c, inflow mem c c.prob i - r * (1 - dust c L) := by
  unfold excess
  rw [Finset.sum_sub_distrib, ← Finset.mul_sum, mass_eq hd hdist, sum_inflow_on hd]

theorem GrowsOn.le_sum {r : K} (hd : Dusty mem c L) (hg : GrowsOn mem c L r) :
    r * (1 - dust c L) ≤ ∑ i ∈ ids c, inflow mem c c.prob i := by
  have h := Finset.sum_nonneg hg.low
  rw [sum_excess_on hd hg.dist] at h
  linarith

theorem GrowsOn.sum_le_one {r : K} (hs : Sound mem c) (hg : GrowsOn mem c L r) :
    ∑ i ∈ ids c, inflow mem c c.prob i ≤ 1 :=
  (sum_inflow_le hs fun i hi => (hg.dist.pos i hi).le).trans hg.dist.one.le

theorem GrowsOn.iterate {r : K} (hs : Sound mem c) (hm : Mutual mem c) (hd : Dusty mem c L) (hg : GrowsOn mem c L r)
    (h : c.iterate = .ok c') : GrowsOn mem c' L r := by
  refine ⟨iterate_dist hs hm hg.dist h, fun i hi => ?_⟩
  obtain ⟨h0, -⟩ := iterate_prob hs hm hg.dist h
  rw [iterate_excess hs hm hg.dist h r (hd.sub hi)]
  have := hd.inflow_nonneg hs hg.low (hd.sub hi)
  have := hg.low i hi
  positivity

theorem GrowsOn.half {r : K} (hs : Sound mem c) (hm : Mutual mem c) (hd : Dusty mem c L) (hg : GrowsOn mem c L r)
    (h : c.iterate = .ok c') {i : Int} (hi : i ∈ L) : excess mem c r i / 2 ≤ excess mem c' r i := by
  obtain ⟨h0, -⟩ := iterate_prob hs hm hg.dist h
  rw [iterate_excess hs hm hg.dist h r (hd.sub hi)]
  have := hd.inflow_nonneg hs hg.low (hd.sub hi)
  have : 0 ≤ inflow mem c (excess mem c r) i / ∑ i ∈ ids c, inflow mem c c.prob i := by positivity
  linarith

theorem GrowsOn.spread {r : K} (hs : Sound mem c) (hm : Mutual mem c) (hd : Dusty mem c L) (hg : GrowsOn mem c L r)
    (h : c.iterate = .ok c') {i j : Int} (hi : i ∈ L) (hj : j ∈ L) :
    ClusterSpec.hopProb mem c j i * excess mem c r j / 2 ≤ excess mem c' r i := by
  obtain ⟨h0, -⟩ := iterate_prob hs hm hg.dist h
  rw [iterate_excess hs hm hg.dist h r (hd.sub hi)]
  have h1 : ClusterSpec.hopProb mem c j i * excess mem c r j ≤ inflow mem c (excess mem c r) i := by
    rw [hd.inflow_eq _ (hd.sub hi)]
    exact Finset.single_le_sum (f := fun n => ClusterSpec.hopProb mem c n i * excess mem c r n)
      (fun n hn => mul_nonneg (hs.hopProb_nonneg n i) (hg.low n hn)) hj
  have h2 : inflow mem c (excess mem c r) i ≤
      inflow mem c (excess mem c r) i / ∑ i ∈ ids c, inflow mem c c.prob i :=
    le_div_self (hd.inflow_nonneg hs hg.low (hd.sub hi)) h0 (hg.sum_le_one hs)
  have := hg.low i hi
  linarith

theorem GrowsOn.iterateN {r : K} {n : Nat} (hs : Sound mem c) (hm : Mutual mem c) (hd : Dusty mem c L)
    (hg : GrowsOn mem c L r) (h : iterateN n c = .ok c') : GrowsOn mem c' L r := by
  induction n generalizing c' with
  | zero => cases h; exact hg
  | succ n ih =>
    obtain ⟨d, h1, h2⟩ := iterateN_succ' h
    have e := iterateN_sites h1
    exact (ih h1).iterate (hs.congr e) (Mutual.congr e hm) (hd.congr e) h2

theorem Dusty.chain (hd : Dusty mem c L) {n : Nat} {i j : Int} (hi : i ∈ L) (h : Chain mem c n i j) : j ∈ L := by
  cases h with
  | refl => exact hi
  | step h hj hk hr =>
    by_contra hn
    rw [hd.into _ hk hn _ hj] at hr
    exact lt_irrefl _ hr

theorem GrowsOn.reach {r q : K} (hq : 0 < q) (hq1 : q ≤ 1)
    (hQ : ∀ a ∈ ids c, ∀ b ∈ ids c, 0 < rate mem c a b → q ≤ ClusterSpec.hopProb mem c a b)
    (hs : Sound mem c) (hm : Mutual mem c) (hD : Dusty mem c L) (hg : GrowsOn mem c L r) {n : Nat} {i j : Int} (hj : j ∈ L)
    (hc : Chain mem c n j i) : ∀ {t : Nat} {d : Cluster K}, n ≤ t → Cluster.iterateN t c = .ok d →
      (q / 2) ^ t * excess mem c r j ≤ excess mem d r i := by
  have hstay : ∀ {i : Int} {t : Nat} {d d' : Cluster K}, i ∈ L → Cluster.iterateN t c = .ok d → d.iterate = .ok d' →
      (q / 2) ^ t * excess mem c r j ≤ excess mem d r i → (q / 2) ^ (t + 1) * excess mem c r j ≤ excess mem d' r i := by
    intro i t d d' hi h1 h2 hh
    have e := iterateN_sites h1
    have hgd := hg.iterateN hs hm hD h1
    have h3 := hgd.half (hs.congr e) (Mutual.congr e hm) (hD.congr e) h2 hi
    have h4 := hgd.low i hi
    have h5 := hg.low j hj
    have h6 : (0 : K) ≤ (q / 2) ^ t * excess mem c r j := by positivity
    calc (q / 2) ^ (t + 1) * excess mem c r j = q * ((q / 2) ^ t * excess mem c r j) / 2 := by ring
      _ ≤ ((q / 2) ^ t * excess mem c r j) / 2 := by
          have := mul_le_of_le_one_left h6 hq1
          linarith
      _ ≤ excess mem d' r i := by linarith
  induction hc with
  | refl i =>
    intro t
    induction t with
    | zero =>
      intro d _ h
      cases h
      simp
    | succ t ih =>
      intro d' _ h
      obtain ⟨d, h1, h2⟩ := iterateN_succ' h
      exact hstay hj h1 h2 (ih (Nat.zero_le _) h1)
  | @step n j k i hc hk hi hr ih =>
    have hkL : k ∈ L := hD.chain hj hc
    have hiL : i ∈ L := hD.chain hj (.step hc hk hi hr)
    intro t
    induction t with
    | zero => intro d hn; exact absurd hn (by omega)
    | succ t iht =>
      intro d' hn h
      obtain ⟨d, h1, h2⟩ := iterateN_succ' h
      by_cases hnt : n + 1 ≤ t
      · exact hstay hiL h1 h2 (iht hnt h1)
      · have h3 := ih hj hstay (t := t) (by omega) h1
        have e := iterateN_sites h1
        have hgd := hg.iterateN hs hm hD h1
        have h4 := hgd.spread (hs.congr e) (Mutual.congr e hm) (hD.congr e) h2 hiL hkL
        rw [hopProb_congr e] at h4
        have h5 := hQ k hk i hi hr
        have h6 := hgd.low k hkL
        have h7 : (0 : K) ≤ (q / 2) ^ t * excess mem c r j := by
          have := hg.low j hj
          positivity
        calc (q / 2) ^ (t + 1) * excess mem c r j = q * ((q / 2) ^ t * excess mem c r j) / 2 := by ring
          _ ≤ ClusterSpec.hopProb mem c k i * excess mem d r k / 2 := by
            have := mul_le_mul h5 h3 h7 (hq.le.trans h5)
            linarith
          _ ≤ excess mem d' r i := h4

theorem GrowsOn.improve {r q δ : K} {m : Nat} (hq : 0 < q) (hq1 : q ≤ 1)
    (hQ : ∀ a ∈ ids c, ∀ b ∈ ids c, 0 < rate mem c a b → q ≤ ClusterSpec.hopProb mem c a b)
    (hs : Sound mem c) (hm : Mutual mem c) (hD : Dusty mem c L) (hg : GrowsOn mem c L r)
    (hc : ∀ i ∈ L, ∀ j ∈ L, ∃ n ≤ m, Chain mem c n i j) {j : Int} (hj : j ∈ L)
    (hδ : 0 ≤ δ) (hex : δ ≤ excess mem c r j) {d : Cluster K} (hd : Cluster.iterateN m c = .ok d) :
    GrowsOn mem d L (r + (q / 2) ^ m * δ) := by
  have hgd := hg.iterateN hs hm hD hd
  have e := iterateN_sites hd
  refine ⟨hgd.dist, fun i hi => ?_⟩
  obtain ⟨n, hn, hch⟩ := hc j hj i hi
  have h1 := hg.reach hq hq1 hQ hs hm hD hj hch hn hd
  have h2 : (q / 2) ^ m * δ ≤ (q / 2) ^ m * excess mem c r j := mul_le_mul_of_nonneg_left hex (by positivity)
  have hp1 : d.prob i ≤ 1 := by
    rw [← hgd.dist.one]
    exact Finset.single_le_sum (f := fun k => d.probOn.at0 k) (fun k hk => (hgd.dist.pos k hk).le) ((hD.congr e).sub hi)
  have h3 : (q / 2) ^ m * δ * d.prob i ≤ (q / 2) ^ m * δ := mul_le_of_le_one_right (by positivity) hp1
  have e4 : excess mem d (r + (q / 2) ^ m * δ) i = excess mem d r i - (q / 2) ^ m * δ * d.prob i := by
    unfold excess; ring
  rw [e4]
  linarith

/-- With half of the probability on `L`, a growth bound is at most 2. -/
theorem GrowsOn.le_two {r : K} (hs : Sound mem c) (hD : Dusty mem c L) (hg : GrowsOn mem c L r) (h0 : 0 < r)
    (hdust : dust c L ≤ 1 / 2) : r ≤ 2 := by
  have h1 := hg.le_sum hD
  have h2 := hg.sum_le_one hs
  have h3 : r * (1 / 2) ≤ r * (1 - dust c L) := mul_le_mul_of_nonneg_left (by linarith) h0.le
  linarith

theorem GrowsOn.small {r r0 δ : K} (h0 : 0 < r0) (hr : r0 ≤ r) (hs : Sound mem c) (hm : Mutual mem c) (hD : Dusty mem c L)
    (hg : GrowsOn mem c L r) (hL : L.Nonempty) (hdust : dust c L ≤ 1 / 2) (hδ : ∀ i ∈ L, excess mem c r i ≤ δ)
    (h : c.iterate = .ok c') {i : Int} (hi : i ∈ ids c) :
    |c.prob i - c'.prob i| ≤ ((1 + (ids c).card) * δ + 2 * dust c L) / r0 := by
  obtain ⟨hspos, hv⟩ := iterate_prob hs hm hg.dist h
  have hr2 := hg.le_two hs hD (h0.trans_le hr) hdust
  have hd0 : 0 ≤ dust c L := dust_nonneg hg.dist
  obtain ⟨l, hl⟩ := hL
  have hδ0 : 0 ≤ δ := (hg.low l hl).trans (hδ l hl)
  have hn : (0 : K) ≤ (ids c).card := Nat.cast_nonneg _
  have hp1 : c.prob i ≤ 1 := by
    rw [← hg.dist.one]
    exact Finset.single_le_sum (f := fun k => c.probOn.at0 k) (fun k hk => (hg.dist.pos k hk).le) hi
  have hp0 : 0 < c.prob i := hg.dist.pos i hi
  by_cases hiL : i ∈ L
  · have hsum := sum_excess_on hD hg.dist r
    have hle : ∑ i ∈ L, excess mem c r i ≤ (ids c).card * δ := by
      have h1 := Finset.sum_le_card_nsmul L (excess mem c r) δ hδ
      rw [nsmul_eq_mul] at h1
      refine h1.trans (mul_le_mul_of_nonneg_right ?_ hδ0)
      exact_mod_cast Finset.card_le_card hD.sub
    have hnn : 0 ≤ ∑ i ∈ L, excess mem c r i := Finset.sum_nonneg hg.low
    have hge := hg.le_sum hD
    set s := ∑ i ∈ ids c, inflow mem c c.prob i with hsd
    have hs0 : r0 / 2 ≤ s := by
      have h3 : r * (1 / 2) ≤ r * (1 - dust c L) := mul_le_mul_of_nonneg_left (by linarith) (h0.le.trans hr)
      linarith
    have e : c.prob i - c'.prob i = ((s - r) * c.prob i - excess mem c r i) / (2 * s) := by
      rw [hv i hi]
      unfold excess
      have := hspos.ne'
      field_simp
      ring
    have hrd : r * dust c L ≤ 2 * dust c L := mul_le_mul_of_nonneg_right hr2 hd0
    have hrd0 : 0 ≤ r * dust c L := mul_nonneg (h0.le.trans hr) hd0
    rw [e, abs_div, abs_of_pos (show (0 : K) < 2 * s by linarith)]
    have hnum : |(s - r) * c.prob i - excess mem c r i| ≤ (1 + (ids c).card) * δ + 2 * dust c L := by
      have h1 : |s - r| ≤ (ids c).card * δ + 2 * dust c L := by
        rw [abs_le]; constructor <;> nlinarith
      have h2 : |(s - r) * c.prob i| ≤ (ids c).card * δ + 2 * dust c L := by
        rw [abs_mul, abs_of_pos hp0]
        exact (mul_le_of_le_one_right (abs_nonneg _) hp1).trans h1
      have h3 := hg.low i hiL
      have h4 := hδ i hiL
      rw [abs_le] at h2 ⊢
      constructor <;> nlinarith [h2.1, h2.2]
    calc |(s - r) * c.prob i - excess mem c r i| / (2 * s)
        ≤ ((1 + (ids c).card) * δ + 2 * dust c L) / (2 * s) := by gcongr
      _ ≤ ((1 + (ids c).card) * δ + 2 * dust c L) / r0 := by
        have : r0 ≤ 2 * s := by linarith
        gcongr
  · rw [prob_half hs hm hD hg.dist h hi hiL, abs_of_nonneg (by linarith), le_div_iff₀ h0]
    have h1 : c.prob i ≤ dust c L :=
      Finset.single_le_sum (f := fun k => c.prob k) (fun k hk => (hg.dist.pos k (Finset.mem_sdiff.1 hk).1).le)
        (Finset.mem_sdiff.2 ⟨hi, hiL⟩)
    have h2 : 0 ≤ (1 + ((ids c).card : K)) * δ := by positivity
    have h3 : (c.prob i - c.prob i / 2) * r0 ≤ dust c L * 2 :=
      mul_le_mul (by linarith) (hr.trans hr2) h0.le hd0
    linarith

theorem GrowsOn.stops {r r0 tol : K} (h0 : 0 < r0) (hr : r0 ≤ r) (htol : 0 < tol) (hs : Sound mem c) (hm : Mutual mem c)
    (hD : Dusty mem c L) (hg : GrowsOn mem c L r) (hL : L.Nonempty) (hdust : dust c L ≤ 1 / 2)
    (hdust' : dust c L ≤ r0 * tol / (4 * (ids c).card))
    (hδ : ∀ i ∈ L, excess mem c r i ≤ r0 * tol / (2 * (1 + (ids c).card) * (ids c).card))
    (h : c.iterate = .ok c') : errorSq c c' ≤ tol ^ 2 := by
  rw [errorSq_eq hg.dist.keys]
  have hcard : (0 : K) < (ids c).card := by exact_mod_cast Finset.card_pos.2 hg.dist.ids_nonempty
  have hb : ∀ i ∈ ids c, (c.prob i - c'.prob i) ^ 2 ≤ (tol / (ids c).card) ^ 2 := by
    intro i hi
    have h1 := hg.small h0 hr hs hm hD hL hdust hδ h hi
    have h2 : ((1 + ((ids c).card : K)) * (r0 * tol / (2 * (1 + (ids c).card) * (ids c).card)) + 2 * dust c L) / r0 ≤
        tol / (ids c).card := by
      rw [div_le_iff₀ h0]
      have e1 : (1 + ((ids c).card : K)) * (r0 * tol / (2 * (1 + (ids c).card) * (ids c).card)) =
          r0 * tol / (2 * (ids c).card) := by field_simp
      have e2 : tol / (ids c).card * r0 = r0 * tol / (2 * (ids c).card) + 2 * (r0 * tol / (4 * (ids c).card)) := by
        field_simp; ring
      rw [e1, e2]
      linarith
    rw [← sq_abs]
    exact pow_le_pow_left₀ (abs_nonneg _) (h1.trans h2) 2
  have h3 := Finset.sum_le_card_nsmul (ids c) _ _ hb
  rw [nsmul_eq_mul] at h3
  refine h3.trans ?_
  have h1 : (1 : K) ≤ (ids c).card := by exact_mod_cast Finset.card_pos.2 hg.dist.ids_nonempty
  have : ((ids c).card : K) * (tol / (ids c).card) ^ 2 = tol ^ 2 / (ids c).card := by field_simp
  rw [this]
  exact div_le_self (by positivity) h1

theorem GrowsOn.terminates {q r0 η : K} {m : Nat} (hm1 : 1 ≤ m) (hq : 0 < q) (hq1 : q ≤ 1) (h0 : 0 < r0)
    (hL : L.Nonempty) :
    ∀ (k : Nat) {c : Cluster K} {r : K},
    (∀ a ∈ ids c, ∀ b ∈ ids c, 0 < rate mem c a b → q ≤ ClusterSpec.hopProb mem c a b) →
    Sound mem c → Mutual mem c → Dusty mem c L → 0 < c.tol →
    (∀ i ∈ L, ∀ j ∈ L, ∃ n ≤ m, Chain mem c n i j) →
    SomeLink mem c →
    η = (q / 2) ^ m * (r0 * c.tol / (2 * (1 + (ids c).card) * (ids c).card)) →
    dust c L ≤ 1 / 2 → dust c L ≤ r0 * c.tol / (4 * (ids c).card) →
    r0 ≤ r → GrowsOn mem c L r → 2 < r + k * η → ∃ c', toleranceLoop (m * k) c = .ok c' := by
  intro k
  induction k with
  | zero =>
    intro c r hQ hs hm hD ht hch hl hη hd1 hd2 hr hg h1
    have := hg.le_two hs hD (h0.trans_le hr) hd1
    simp at h1
    exact absurd h1 (not_lt.2 this)
  | succ k ih =>
    intro c r hQ hs hm hD ht hch hl hη hd1 hd2 hr hg h1
    obtain ⟨i, hi, j, hj, hrr⟩ := hl
    rcases toleranceLoop_rounds m hs hm hg.dist hi hj hrr with ⟨c', h⟩ | ⟨d, hd, htd, hk⟩
    · exact ⟨c', by rw [Nat.mul_succ, Nat.add_comm]; exact toleranceLoop_mono h⟩
    · by_cases hsmall : ∀ i ∈ L, excess mem c r i ≤ r0 * c.tol / (2 * (1 + (ids c).card) * (ids c).card)
      · obtain ⟨d1, hd1'⟩ := iterate_total hs hm hg.dist hi hj hrr
        have := hg.stops h0 hr ht hs hm hD hL hd1 hd2 hsmall hd1'
        have h2 : toleranceLoop 1 c = .ok d1 := by
          unfold toleranceLoop; rw [hd1', ok_bind, if_neg (not_lt.2 this)]
        refine ⟨d1, ?_⟩
        rw [show m * (k + 1) = 1 + (m * (k + 1) - 1) by
          have := Nat.mul_le_mul hm1 (show 1 ≤ k + 1 by omega)
          omega]
        exact toleranceLoop_mono h2
      · push Not at hsmall
        obtain ⟨a, ha, hlt⟩ := hsmall
        have hcard : (0 : K) < (ids c).card := by exact_mod_cast Finset.card_pos.2 hg.dist.ids_nonempty
        have hδ0 : 0 ≤ r0 * c.tol / (2 * (1 + (ids c).card) * (ids c).card) := by positivity
        have hgd := hg.improve hq hq1 hQ hs hm hD hch ha hδ0 hlt.le hd
        rw [← hη] at hgd
        have e := iterateN_sites hd
        have hη0 : 0 ≤ η := by rw [hη]; positivity
        have hdd : dust d L ≤ dust c L := by
          rw [(dust_pow hs hm hD hg.dist hd).2]
          exact mul_le_of_le_one_right (dust_nonneg hg.dist) (pow_le_one₀ (by norm_num) (by norm_num))
        obtain ⟨c', h⟩ := ih (c := d) (r := r + η) (by rw [ids_congr e, rate_congr e, hopProb_congr e]; exact hQ)
          (hs.congr e) (Mutual.congr e hm) (hD.congr e) (by rw [htd]; exact ht)
          (fun i hi j hj => by
            obtain ⟨n, hn, hcn⟩ := hch i hi j hj
            exact ⟨n, hn, hcn.congr e⟩)
          (SomeLink.congr e ⟨i, hi, j, hj, hrr⟩)
          (by rw [htd, ids_congr e]; exact hη) (hdd.trans hd1) (by rw [htd, ids_congr e]; exact hdd.trans hd2)
          (by linarith) hgd (by push_cast at h1 ⊢; linarith)
        exact ⟨c', by rw [Nat.mul_succ, Nat.add_comm, hk]; exact h⟩

/-- The tolerance loop stops on a cluster made of a connected part with links and of sites without links. -/
theorem toleranceLoop_dusty (hs : Sound mem c) (hm : Mutual mem c) (hd : Dist c) (hD : Dusty mem c L) (hL : L.Nonempty)
    (hlk : ∀ i ∈ L, ∃ j ∈ L, 0 < rate mem c i j) (hc : ∀ i ∈ L, ∀ j ∈ L, Path mem c i j) (ht : 0 < c.tol) :
    ∃ N, ∀ n ≥ N, ∃ c', toleranceLoop n c = .ok c' := by
  -- a lower bound for the hop probabilities
  obtain ⟨q, hq, hq1, hQ⟩ := exists_lower (((ids c) ×ˢ (ids c)).filter fun x => 0 < rate mem c x.1 x.2)
    (fun x => ClusterSpec.hopProb mem c x.1 x.2) (by
      rintro ⟨a, b⟩ hx
      rw [Finset.mem_filter, Finset.mem_product] at hx
      exact (hs.hopProb_pos_iff hx.1.1 b).2 hx.2)
  have hQ' : ∀ a ∈ ids c, ∀ b ∈ ids c, 0 < rate mem c a b → q ≤ ClusterSpec.hopProb mem c a b := fun a ha b hb hr =>
    hQ (a, b) (by rw [Finset.mem_filter, Finset.mem_product]; exact ⟨⟨ha, hb⟩, hr⟩)
  -- a bound for the lengths of chains
  have hex : ∀ i j, ∃ n, i ∈ L → j ∈ L → Chain mem c n i j := by
    intro i j
    by_cases h : i ∈ L ∧ j ∈ L
    · obtain ⟨n, hn, -⟩ := chain_of_path (hD.sub h.1) (hc i h.1 j h.2)
      exact ⟨n, fun _ _ => hn⟩
    · exact ⟨0, fun a b => absurd ⟨a, b⟩ h⟩
  choose f hf using hex
  obtain ⟨m, hm1, hmf⟩ : ∃ m, 1 ≤ m ∧ ∀ i ∈ L, ∀ j ∈ L, f i j ≤ m := by
    refine ⟨(∑ i ∈ L, ∑ j ∈ L, f i j) + 1, by omega, fun i hi j hj => ?_⟩
    have h1 := Finset.single_le_sum (f := fun j => f i j) (fun _ _ => Nat.zero_le _) hj
    have h2 := Finset.single_le_sum (f := fun i => ∑ j ∈ L, f i j) (fun _ _ => Nat.zero_le _) hi
    exact (h1.trans h2).trans (Nat.le_succ _)
  -- the first growth bound
  have hin : ∀ i ∈ L, 0 < inflow mem c c.prob i := by
    intro i hi
    obtain ⟨j, hj, hr⟩ := hlk i hi
    exact Finset.sum_pos' (fun n hn => mul_nonneg (hs.hopProb_nonneg n i) (hd.pos n hn).le)
      ⟨j, hD.sub hj, mul_pos ((hs.hopProb_pos_iff (hD.sub hj) i).2 (hm i (hD.sub hi) j (hD.sub hj) hr)) (hd.pos j (hD.sub hj))⟩
  obtain ⟨r0, h0, -, hr0⟩ := exists_lower L (fun i => inflow mem c c.prob i / c.prob i)
    (fun i hi => div_pos (hin i hi) (hd.pos i (hD.sub hi)))
  have hg : GrowsOn mem c L r0 := ⟨hd, fun i hi => by
    have := hr0 i hi
    rw [le_div_iff₀ (show 0 < c.prob i from hd.pos i (hD.sub hi))] at this
    unfold excess; linarith⟩
  have hcard : (0 : K) < (ids c).card := by exact_mod_cast Finset.card_pos.2 hd.ids_nonempty
  have hη : 0 < (q / 2) ^ m * (r0 * c.tol / (2 * (1 + (ids c).card) * (ids c).card)) := by positivity
  obtain ⟨k, hk⟩ := exists_nat_gt (2 / ((q / 2) ^ m * (r0 * c.tol / (2 * (1 + (ids c).card) * (ids c).card))))
  obtain ⟨i, hi⟩ := hL
  obtain ⟨j, hj, hr⟩ := hlk i hi
  -- the rounds until the sites without links have little probability
  have hbound : 0 < min (1 / 2) (r0 * c.tol / (4 * (ids c).card)) := lt_min (by norm_num) (by positivity)
  obtain ⟨M, hM⟩ := exists_pow_lt_of_lt_one hbound (show (1 / 2 : K) < 1 by norm_num)
  rcases toleranceLoop_rounds M hs hm hd (hD.sub hi) (hD.sub hj) hr with ⟨c', h⟩ | ⟨d, hdM, htd, hkd⟩
  · refine ⟨M, fun n hn => ⟨c', ?_⟩⟩
    obtain ⟨l, rfl⟩ := Nat.exists_eq_add_of_le hn
    exact toleranceLoop_mono h
  · have e := iterateN_sites hdM
    obtain ⟨hdist, hdu⟩ := dust_pow hs hm hD hd hdM
    have hle : dust d L ≤ min (1 / 2) (r0 * c.tol / (4 * (ids c).card)) := by
      rw [hdu]
      exact (mul_le_of_le_one_left (by positivity) (dust_le_one hD hd)).trans hM.le
    have hgd := hg.iterateN hs hm hD hdM
    obtain ⟨c', h⟩ := GrowsOn.terminates (mem := mem) hm1 hq hq1 h0 ⟨i, hi⟩ k (c := d)
      (by rw [ids_congr e, rate_congr e, hopProb_congr e]; exact hQ') (hs.congr e) (Mutual.congr e hm) (hD.congr e)
      (by rw [htd]; exact ht) (fun i hi j hj => ⟨f i j, hmf i hi j hj, (hf i j hi hj).congr e⟩)
      (SomeLink.congr e ⟨i, hD.sub hi, j, hD.sub hj, hr⟩) rfl (hle.trans (min_le_left _ _))
      (by rw [htd, ids_congr e]; exact hle.trans (min_le_right _ _)) (le_refl _) hgd (by
        rw [htd, ids_congr e]
        rw [div_lt_iff₀ hη] at hk
        linarith)
    refine ⟨M + m * k, fun n hn => ⟨c', ?_⟩⟩
    obtain ⟨l, rfl⟩ := Nat.exists_eq_add_of_le hn
    rw [Nat.add_assoc, hkd]
    exact toleranceLoop_mono h

end Mythical.Cluster
