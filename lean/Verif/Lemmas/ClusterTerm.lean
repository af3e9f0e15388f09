import Verif.Lemmas.ClusterTotal
import Mathlib.Algebra.Order.BigOperators.Ring.Finset
import Mathlib.Algebra.Order.Archimedean.Basic
import Mathlib.Tactic.Positivity

/-! # Lemmas about the cluster: the tolerance loop terminates

For a distribution `p` with `pQ ≥ r p` write `v = pQ - r p ≥ 0`. One round maps `v` to `(vQ/s + v)/2`, so a positive
entry of `v` spreads to all sites within `m` rounds, after which `r` can be increased by a fixed amount. As `r ≤ 1`,
only finitely many rounds can have a large `v`, and a round with a small `v` changes `p` only a little. -/

set_option linter.unusedSectionVars false

namespace Mythical.Cluster
open Mythical ClusterSpec
variable {K : Type} [Field K] [LinearOrder K] [IsStrictOrderedRing K] [FloorRing K]
variable {env : Env K} {mem : Addr → K} {c c' : Cluster K}

/-- The current occupation probabilities. -/
def prob (c : Cluster K) : Int → K := fun n => c.probOn.at0 n

/-- The excess of the inflow over `r` times the probability. -/
def excess (mem : Addr → K) (c : Cluster K) (r : K) (i : Int) : K := inflow mem c c.prob i - r * c.prob i

theorem exists_lower {ι : Type} (T : Finset ι) (f : ι → K) (h : ∀ x ∈ T, 0 < f x) :
    ∃ q, 0 < q ∧ q ≤ 1 ∧ ∀ x ∈ T, q ≤ f x := by
  classical
  induction T using Finset.induction_on with
  | empty => exact ⟨1, one_pos, le_refl _, by simp⟩
  | insert a T _ ih =>
    obtain ⟨q, h0, h1, hq⟩ := ih fun x hx => h x (Finset.mem_insert_of_mem hx)
    refine ⟨min q (f a), lt_min h0 (h a (Finset.mem_insert_self _ _)), (min_le_left _ _).trans h1, fun x hx => ?_⟩
    rcases Finset.mem_insert.1 hx with rfl | hx
    · exact min_le_right _ _
    · exact (min_le_left _ _).trans (hq x hx)

theorem sum_hopProb_le (hs : Sound mem c) {n : Int} (hn : n ∈ ids c) : ∑ i ∈ ids c, hopProb mem c n i ≤ 1 := by
  have h := hs.inRate_add_exitRate hn
  have hp := hs.outRate_pos hn
  have he := hs.exitRate_nonneg n
  unfold hopProb
  rw [← Finset.sum_div, div_le_one hp]
  change inRate mem c n ≤ _
  linarith

theorem sum_inflow_le (hs : Sound mem c) {p : Int → K} (hp : ∀ i ∈ ids c, 0 ≤ p i) :
    ∑ i ∈ ids c, inflow mem c p i ≤ ∑ i ∈ ids c, p i := by
  unfold inflow
  rw [Finset.sum_comm]
  apply Finset.sum_le_sum
  intro n hn
  rw [← Finset.sum_mul]
  exact mul_le_of_le_one_left (hp n hn) (sum_hopProb_le hs hn)

/-- One round in terms of probabilities. -/
theorem iterate_prob (hs : Sound mem c) (hm : Mutual mem c) (hd : Dist c) (h : c.iterate = .ok c') :
    0 < ∑ i ∈ ids c, inflow mem c c.prob i ∧
    ∀ i ∈ ids c, c'.prob i = (inflow mem c c.prob i / (∑ i ∈ ids c, inflow mem c c.prob i) + c.prob i) / 2 := by
  have hne : ∑ i ∈ ids c, inflow mem c c.prob i ≠ 0 := by
    intro hz
    rw [iterate_zero hs hm hz] at h
    cases h
  have hnn : ∀ i, 0 ≤ inflow mem c c.prob i := inflow_nonneg hs fun n hn => (hd.pos n hn).le
  refine ⟨lt_of_le_of_ne (Finset.sum_nonneg fun i _ => hnn i) hne.symm, ?_⟩
  obtain ⟨P, hP, -, hv⟩ := iterate_ok hs hm hd.keys hd.one hne
  rw [hP] at h
  cases h
  exact hv

theorem inflow_comb (mem : Addr → K) (c : Cluster K) (p q r : Int → K) (a b : K)
    (h : ∀ n ∈ ids c, p n = a * q n + b * r n) (i : Int) :
    inflow mem c p i = a * inflow mem c q i + b * inflow mem c r i := by
  unfold inflow
  rw [Finset.mul_sum, Finset.mul_sum, ← Finset.sum_add_distrib]
  apply Finset.sum_congr rfl
  intro n hn
  rw [h n hn]; ring

/-- One round on the excess. -/
theorem iterate_excess (hs : Sound mem c) (hm : Mutual mem c) (hd : Dist c) (h : c.iterate = .ok c') (r : K)
    {i : Int} (hi : i ∈ ids c) :
    excess mem c' r i = (inflow mem c (excess mem c r) i / (∑ i ∈ ids c, inflow mem c c.prob i) + excess mem c r i) / 2 := by
  obtain ⟨h0, hv⟩ := iterate_prob hs hm hd h
  set s := ∑ i ∈ ids c, inflow mem c c.prob i with hsdef
  have hne := h0.ne'
  have e1 : inflow mem c c'.prob i = (1 / (2 * s)) * inflow mem c (inflow mem c c.prob) i +
      (1 / 2) * inflow mem c c.prob i :=
    inflow_comb mem c _ _ _ _ _ (fun n hn => by rw [hv n hn]; field_simp) i
  have e2 : inflow mem c (excess mem c r) i = 1 * inflow mem c (inflow mem c c.prob) i +
      (-r) * inflow mem c c.prob i :=
    inflow_comb mem c _ _ _ _ _ (fun n _ => by unfold excess; ring) i
  have e3 : excess mem c' r i = inflow mem c c'.prob i - r * c'.prob i := by
    unfold excess; rw [inflow_congr (iterate_sites h)]
  rw [e3, e1, e2, hv i hi]
  unfold excess
  field_simp
  ring

/-- `r` is a lower bound for the growth of the distribution in `c`. -/
structure Grows (mem : Addr → K) (c : Cluster K) (r : K) : Prop where
  dist : Dist c
  low : ∀ i ∈ ids c, 0 ≤ excess mem c r i

theorem Grows.le_sum {r : K} (hg : Grows mem c r) : r ≤ ∑ i ∈ ids c, inflow mem c c.prob i := by
  have h := Finset.sum_nonneg hg.low
  unfold excess at h
  rw [Finset.sum_sub_distrib, ← Finset.mul_sum] at h
  have := hg.dist.one
  unfold prob at h ⊢
  rw [this] at h
  linarith

theorem Grows.sum_le_one {r : K} (hs : Sound mem c) (hg : Grows mem c r) :
    ∑ i ∈ ids c, inflow mem c c.prob i ≤ 1 :=
  (sum_inflow_le hs fun i hi => (hg.dist.pos i hi).le).trans hg.dist.one.le

theorem Grows.iterate {r : K} (hs : Sound mem c) (hm : Mutual mem c) (hg : Grows mem c r) (h : c.iterate = .ok c') :
    Grows mem c' r := by
  refine ⟨iterate_dist hs hm hg.dist h, fun i hi => ?_⟩
  rw [ids_congr (iterate_sites h)] at hi
  obtain ⟨h0, -⟩ := iterate_prob hs hm hg.dist h
  rw [iterate_excess hs hm hg.dist h r hi]
  have := inflow_nonneg hs hg.low i
  have := hg.low i hi
  positivity

/-- One round keeps at least half of the excess. -/
theorem Grows.half {r : K} (hs : Sound mem c) (hm : Mutual mem c) (hg : Grows mem c r) (h : c.iterate = .ok c')
    {i : Int} (hi : i ∈ ids c) : excess mem c r i / 2 ≤ excess mem c' r i := by
  obtain ⟨h0, -⟩ := iterate_prob hs hm hg.dist h
  rw [iterate_excess hs hm hg.dist h r hi]
  have := inflow_nonneg hs hg.low i
  have : 0 ≤ inflow mem c (excess mem c r) i / ∑ i ∈ ids c, inflow mem c c.prob i := by positivity
  linarith

/-- One round spreads the excess along links. -/
theorem Grows.spread {r : K} (hs : Sound mem c) (hm : Mutual mem c) (hg : Grows mem c r) (h : c.iterate = .ok c')
    {i j : Int} (hi : i ∈ ids c) (hj : j ∈ ids c) : hopProb mem c j i * excess mem c r j / 2 ≤ excess mem c' r i := by
  obtain ⟨h0, -⟩ := iterate_prob hs hm hg.dist h
  rw [iterate_excess hs hm hg.dist h r hi]
  have h1 : hopProb mem c j i * excess mem c r j ≤ inflow mem c (excess mem c r) i :=
    Finset.single_le_sum (f := fun n => hopProb mem c n i * excess mem c r n)
      (fun n hn => mul_nonneg (hs.hopProb_nonneg n i) (hg.low n hn)) hj
  have h2 : inflow mem c (excess mem c r) i ≤
      inflow mem c (excess mem c r) i / ∑ i ∈ ids c, inflow mem c c.prob i :=
    le_div_self (inflow_nonneg hs hg.low i) h0 (hg.sum_le_one hs)
  have := hg.low i hi
  linarith

/-- A chain of `n` links inside the cluster. -/
inductive Chain (mem : Addr → K) (c : Cluster K) : Nat → Int → Int → Prop where
  | refl (i : Int) : Chain mem c 0 i i
  | step {n : Nat} {i j k : Int} (h : Chain mem c n i j) (hj : j ∈ ids c) (hk : k ∈ ids c) (hr : 0 < rate mem c j k) :
      Chain mem c (n + 1) i k

theorem Chain.congr (h : c'.sites = c.sites) {n : Nat} {i j : Int} (hc : Chain mem c n i j) : Chain mem c' n i j := by
  induction hc with
  | refl i => exact .refl i
  | step _ hj hk hr ih =>
    exact .step ih (by rw [ids_congr h]; exact hj) (by rw [ids_congr h]; exact hk) (by rw [rate_congr h]; exact hr)

theorem chain_of_path {i j : Int} (hi : i ∈ ids c) (h : Path mem c i j) : ∃ n, Chain mem c n i j ∧ j ∈ ids c := by
  induction h with
  | refl => exact ⟨0, .refl _, hi⟩
  | step _ hk hr ih =>
    obtain ⟨n, hn, hj⟩ := ih
    exact ⟨n + 1, .step hn hj hk hr, hk⟩

theorem iterateN_succ' {n : Nat} (h : iterateN (n + 1) c = .ok c') :
    ∃ d, iterateN n c = .ok d ∧ d.iterate = .ok c' := by
  induction n generalizing c with
  | zero =>
    unfold iterateN at h
    rw [bind_eq_ok] at h
    obtain ⟨d, h1, h2⟩ := h
    cases h2
    exact ⟨c, rfl, h1⟩
  | succ n ih =>
    unfold iterateN at h
    rw [bind_eq_ok] at h
    obtain ⟨d, h1, h2⟩ := h
    obtain ⟨e, he, he2⟩ := ih h2
    refine ⟨e, ?_, he2⟩
    unfold iterateN
    rw [h1, ok_bind, he]

theorem iterateN_sites {n : Nat} (h : iterateN n c = .ok c') : c'.sites = c.sites := by
  rw [iterateN_shape h]

theorem Grows.iterateN {r : K} {n : Nat} (hs : Sound mem c) (hm : Mutual mem c) (hg : Grows mem c r)
    (h : iterateN n c = .ok c') : Grows mem c' r := by
  induction n generalizing c' with
  | zero => cases h; exact hg
  | succ n ih =>
    obtain ⟨d, h1, h2⟩ := iterateN_succ' h
    have e := iterateN_sites h1
    exact (ih h1).iterate (hs.congr e) (Mutual.congr e hm) h2

/-- After `t` rounds the excess at `j` has reached every site within `t` links. -/
theorem Grows.reach {r q : K} (hq : 0 < q) (hq1 : q ≤ 1)
    (hQ : ∀ a ∈ ids c, ∀ b ∈ ids c, 0 < rate mem c a b → q ≤ hopProb mem c a b)
    (hs : Sound mem c) (hm : Mutual mem c) (hg : Grows mem c r) {n : Nat} {i j : Int} (hj : j ∈ ids c)
    (hc : Chain mem c n j i) : ∀ {t : Nat} {d : Cluster K}, n ≤ t → Cluster.iterateN t c = .ok d →
      (q / 2) ^ t * excess mem c r j ≤ excess mem d r i := by
  have hstay : ∀ {i : Int} {t : Nat} {d d' : Cluster K}, i ∈ ids c → Cluster.iterateN t c = .ok d → d.iterate = .ok d' →
      (q / 2) ^ t * excess mem c r j ≤ excess mem d r i → (q / 2) ^ (t + 1) * excess mem c r j ≤ excess mem d' r i := by
    intro i t d d' hi h1 h2 hh
    have e := iterateN_sites h1
    have hgd := hg.iterateN hs hm h1
    have hi' : i ∈ ids d := by rw [ids_congr e]; exact hi
    have h3 := hgd.half (hs.congr e) (Mutual.congr e hm) h2 hi'
    have h4 := hgd.low i hi'
    have h5 := hg.low j hj
    have h6 : (0 : K) ≤ (q / 2) ^ t * excess mem c r j := by positivity
    calc (q / 2) ^ (t + 1) * excess mem c r j = q * ((q / 2) ^ t * excess mem c r j) / 2 := by ring
      _ ≤ ((q / 2) ^ t * excess mem c r j) / 2 := by
          have := mul_le_of_le_one_left h6 hq1
          linarith
      _ ≤ excess mem d' r i := by linarith
  induction hc with
  | refl i =>
    intro t
    induction t with
    | zero =>
      intro d _ h
      cases h
      simp
    | succ t ih =>
      intro d' _ h
      obtain ⟨d, h1, h2⟩ := iterateN_succ' h
      exact hstay hj h1 h2 (ih (Nat.zero_le _) h1)
  | @step n j k i hc hk hi hr ih =>
    intro t
    induction t with
    | zero => intro d hn; exact absurd hn (by omega)
    | succ t iht =>
      intro d' hn h
      obtain ⟨d, h1, h2⟩ := iterateN_succ' h
      by_cases hnt : n + 1 ≤ t
      · exact hstay hi h1 h2 (iht hnt h1)
      · have h3 := ih hj hstay (t := t) (by omega) h1
        have e := iterateN_sites h1
        have hgd := hg.iterateN hs hm h1
        have hi' : i ∈ ids d := by rw [ids_congr e]; exact hi
        have hk' : k ∈ ids d := by rw [ids_congr e]; exact hk
        have h4 := hgd.spread (hs.congr e) (Mutual.congr e hm) h2 hi' hk'
        rw [hopProb_congr e] at h4
        have h5 := hQ k hk i hi hr
        have h6 := hgd.low k hk'
        have h7 : (0 : K) ≤ (q / 2) ^ t * excess mem c r j := by
          have := hg.low j hj
          positivity
        calc (q / 2) ^ (t + 1) * excess mem c r j = q * ((q / 2) ^ t * excess mem c r j) / 2 := by ring
          _ ≤ hopProb mem c k i * excess mem d r k / 2 := by
            have := mul_le_mul h5 h3 h7 (hq.le.trans h5)
            linarith
          _ ≤ excess mem d' r i := h4

/-- If one entry has a large excess, the growth bound goes up after `m` rounds. -/
theorem Grows.improve {r q δ : K} {m : Nat} (hq : 0 < q) (hq1 : q ≤ 1)
    (hQ : ∀ a ∈ ids c, ∀ b ∈ ids c, 0 < rate mem c a b → q ≤ hopProb mem c a b)
    (hs : Sound mem c) (hm : Mutual mem c) (hg : Grows mem c r)
    (hc : ∀ i ∈ ids c, ∀ j ∈ ids c, ∃ n ≤ m, Chain mem c n i j) {j : Int} (hj : j ∈ ids c)
    (hδ : 0 ≤ δ) (hex : δ ≤ excess mem c r j) {d : Cluster K} (hd : Cluster.iterateN m c = .ok d) :
    Grows mem d (r + (q / 2) ^ m * δ) := by
  have hgd := hg.iterateN hs hm hd
  have e := iterateN_sites hd
  refine ⟨hgd.dist, fun i hi => ?_⟩
  have hi' : i ∈ ids c := by rw [ids_congr e] at hi; exact hi
  obtain ⟨n, hn, hch⟩ := hc j hj i hi'
  have h1 := hg.reach hq hq1 hQ hs hm hj hch hn hd
  have h2 : (q / 2) ^ m * δ ≤ (q / 2) ^ m * excess mem c r j := mul_le_mul_of_nonneg_left hex (by positivity)
  have hp1 : d.prob i ≤ 1 := by
    rw [← hgd.dist.one]
    exact Finset.single_le_sum (f := fun k => d.probOn.at0 k) (fun k hk => (hgd.dist.pos k hk).le) hi
  have h3 : (q / 2) ^ m * δ * d.prob i ≤ (q / 2) ^ m * δ := mul_le_of_le_one_right (by positivity) hp1
  have e4 : excess mem d (r + (q / 2) ^ m * δ) i = excess mem d r i - (q / 2) ^ m * δ * d.prob i := by
    unfold excess; ring
  rw [e4]
  linarith

/-- A round in which every excess is small changes the distribution only a little. -/
theorem Grows.small {r r0 δ : K} (h0 : 0 < r0) (hr : r0 ≤ r) (hs : Sound mem c) (hm : Mutual mem c)
    (hg : Grows mem c r) (hδ : ∀ i ∈ ids c, excess mem c r i ≤ δ) (h : c.iterate = .ok c') {i : Int} (hi : i ∈ ids c) :
    |c.prob i - c'.prob i| ≤ (1 + (ids c).card) * δ / (2 * r0) := by
  obtain ⟨hspos, hv⟩ := iterate_prob hs hm hg.dist h
  have hge := hg.le_sum
  have hsum : ∑ i ∈ ids c, excess mem c r i = ∑ i ∈ ids c, inflow mem c c.prob i - r := by
    unfold excess
    rw [Finset.sum_sub_distrib, ← Finset.mul_sum]
    have := hg.dist.one
    unfold prob
    rw [this, mul_one]
  have hle : ∑ i ∈ ids c, excess mem c r i ≤ (ids c).card * δ := by
    have := Finset.sum_le_card_nsmul (ids c) (excess mem c r) δ hδ
    rwa [nsmul_eq_mul] at this
  set s := ∑ i ∈ ids c, inflow mem c c.prob i with hsd
  have hp1 : c.prob i ≤ 1 := by
    rw [← hg.dist.one]
    exact Finset.single_le_sum (f := fun k => c.probOn.at0 k) (fun k hk => (hg.dist.pos k hk).le) hi
  have hp0 : 0 < c.prob i := hg.dist.pos i hi
  have hδ0 : 0 ≤ δ := (hg.low i hi).trans (hδ i hi)
  have hn : (0 : K) ≤ (ids c).card := Nat.cast_nonneg _
  have e : c.prob i - c'.prob i = ((s - r) * c.prob i - excess mem c r i) / (2 * s) := by
    rw [hv i hi]
    unfold excess
    have := hspos.ne'
    field_simp
    ring
  rw [e, abs_div, abs_of_pos (show (0 : K) < 2 * s by linarith)]
  have hnum : |(s - r) * c.prob i - excess mem c r i| ≤ (1 + (ids c).card) * δ := by
    have h1 : 0 ≤ (s - r) * c.prob i := mul_nonneg (by linarith) hp0.le
    have h2 : (s - r) * c.prob i ≤ (ids c).card * δ :=
      (mul_le_of_le_one_right (by linarith) hp1).trans (by linarith)
    have h3 := hg.low i hi
    have h4 := hδ i hi
    rw [abs_le]
    constructor <;> nlinarith
  calc |(s - r) * c.prob i - excess mem c r i| / (2 * s) ≤ (1 + (ids c).card) * δ / (2 * s) := by gcongr
    _ ≤ (1 + (ids c).card) * δ / (2 * r0) := by
      have : r0 ≤ s := hr.trans hge
      gcongr

theorem errorSq_eq (hk : ProbKeys c) (hd : Cluster K) : errorSq c hd = ∑ i ∈ ids c, (c.prob i - hd.prob i) ^ 2 := by
  unfold errorSq
  rw [IMap.foldl_add_start (fun ip : Int × K => (ip.2 - hd.probOn.at0 ip.1) ^ 2), zero_add,
    IMap.sum_map_keys hk.1 (fun k v => (v - hd.probOn.at0 k) ^ 2) (fun k => (c.prob k - hd.prob k) ^ 2), hk.toFinset]
  intro k v hkv
  show _ = (c.probOn.at0 k - hd.probOn.at0 k) ^ 2
  rw [IMap.at0_of_mem hk.1 hkv]

/-- The threshold of the excess below which a round is within the tolerance `tol`. -/
theorem Grows.stops {r r0 tol : K} (h0 : 0 < r0) (hr : r0 ≤ r) (htol : 0 < tol) (hs : Sound mem c) (hm : Mutual mem c)
    (hg : Grows mem c r)
    (hδ : ∀ i ∈ ids c, excess mem c r i ≤ 2 * r0 * tol / ((1 + (ids c).card) * (ids c).card))
    (h : c.iterate = .ok c') : errorSq c c' ≤ tol ^ 2 := by
  rw [errorSq_eq hg.dist.keys]
  have hcard : (0 : K) < (ids c).card := by exact_mod_cast Finset.card_pos.2 hg.dist.ids_nonempty
  have hb : ∀ i ∈ ids c, (c.prob i - c'.prob i) ^ 2 ≤ (tol / (ids c).card) ^ 2 := by
    intro i hi
    have h1 := hg.small h0 hr hs hm hδ h hi
    have h2 : (1 + ((ids c).card : K)) * (2 * r0 * tol / ((1 + (ids c).card) * (ids c).card)) / (2 * r0) =
        tol / (ids c).card := by
      field_simp
    rw [h2] at h1
    rw [← sq_abs]
    exact pow_le_pow_left₀ (abs_nonneg _) h1 2
  have h3 := Finset.sum_le_card_nsmul (ids c) _ _ hb
  rw [nsmul_eq_mul] at h3
  refine h3.trans ?_
  have h1 : (1 : K) ≤ (ids c).card := by exact_mod_cast Finset.card_pos.2 hg.dist.ids_nonempty
  have : ((ids c).card : K) * (tol / (ids c).card) ^ 2 = tol ^ 2 / (ids c).card := by field_simp
  rw [this]
  exact div_le_self (by positivity) h1

theorem toleranceLoop_mono {n k : Nat} (h : toleranceLoop n c = .ok c') : toleranceLoop (n + k) c = .ok c' := by
  induction n generalizing c with
  | zero => cases h
  | succ n ih =>
    rw [Nat.succ_add]
    unfold toleranceLoop at h ⊢
    rw [bind_eq_ok] at h ⊢
    obtain ⟨d, h1, h2⟩ := h
    refine ⟨d, h1, ?_⟩
    split at h2
    · next hc => rw [if_pos hc]; exact ih h2
    · next hc => rw [if_neg hc]; exact h2

/-- Either the loop stops within `m` rounds, or it goes on from the `m`-th distribution. -/
theorem toleranceLoop_rounds (m : Nat) (hs : Sound mem c) (hm : Mutual mem c) (hd : Dist c)
    {i j : Int} (hi : i ∈ ids c) (hj : j ∈ ids c) (hr : 0 < rate mem c i j) :
    (∃ c', toleranceLoop m c = .ok c') ∨
    (∃ d, iterateN m c = .ok d ∧ d.tol = c.tol ∧ ∀ k, toleranceLoop (m + k) c = toleranceLoop k d) := by
  induction m generalizing c with
  | zero => exact Or.inr ⟨c, rfl, rfl, fun k => by rw [Nat.zero_add]⟩
  | succ m ih =>
    obtain ⟨d, h1⟩ := iterate_total hs hm hd hi hj hr
    have e := iterate_sites h1
    by_cases hc : errorSq c d > c.tol ^ 2
    · rcases ih (hs.congr e) (Mutual.congr e hm) (iterate_dist hs hm hd h1) (by rw [ids_congr e]; exact hi)
        (by rw [ids_congr e]; exact hj) (by rw [rate_congr e]; exact hr) with ⟨c', h⟩ | ⟨d', h, ht, hk⟩
      · exact Or.inl ⟨c', by unfold toleranceLoop; rw [h1, ok_bind, if_pos hc, h]⟩
      · refine Or.inr ⟨d', by unfold iterateN; rw [h1, ok_bind, h], ?_, fun k => ?_⟩
        · rw [ht, iterate_shape h1]
        · rw [Nat.succ_add]
          conv_lhs => unfold toleranceLoop
          rw [h1, ok_bind, if_pos hc, hk]
    · exact Or.inl ⟨d, by unfold toleranceLoop; rw [h1, ok_bind, if_neg hc]⟩

/-- The tolerance loop stops within a number of rounds given by how far the growth bound is from 1. -/
theorem Grows.terminates {q r0 η : K} {m : Nat} (hm1 : 1 ≤ m) (hq : 0 < q) (hq1 : q ≤ 1) (h0 : 0 < r0) :
    ∀ (k : Nat) {c : Cluster K} {r : K},
    (∀ a ∈ ids c, ∀ b ∈ ids c, 0 < rate mem c a b → q ≤ hopProb mem c a b) →
    Sound mem c → Mutual mem c → 0 < c.tol →
    (∀ i ∈ ids c, ∀ j ∈ ids c, ∃ n ≤ m, Chain mem c n i j) →
    (∃ i ∈ ids c, ∃ j ∈ ids c, 0 < rate mem c i j) →
    η = (q / 2) ^ m * (2 * r0 * c.tol / ((1 + (ids c).card) * (ids c).card)) →
    r0 ≤ r → Grows mem c r → 1 < r + k * η → ∃ c', toleranceLoop (m * k) c = .ok c' := by
  intro k
  induction k with
  | zero =>
    intro c r hQ hs hm ht hch hl hη hr hg h1
    have := hg.le_sum.trans (hg.sum_le_one hs)
    simp at h1
    exact absurd h1 (not_lt.2 this)
  | succ k ih =>
    intro c r hQ hs hm ht hch hl hη hr hg h1
    obtain ⟨i, hi, j, hj, hrr⟩ := hl
    rcases toleranceLoop_rounds m hs hm hg.dist hi hj hrr with ⟨c', h⟩ | ⟨d, hd, htd, hk⟩
    · exact ⟨c', by rw [Nat.mul_succ, Nat.add_comm]; exact toleranceLoop_mono h⟩
    · by_cases hsmall : ∀ i ∈ ids c, excess mem c r i ≤ 2 * r0 * c.tol / ((1 + (ids c).card) * (ids c).card)
      · obtain ⟨d1, hd1⟩ := iterate_total hs hm hg.dist hi hj hrr
        have := hg.stops h0 hr ht hs hm hsmall hd1
        have h2 : toleranceLoop 1 c = .ok d1 := by
          unfold toleranceLoop; rw [hd1, ok_bind, if_neg (not_lt.2 this)]
        refine ⟨d1, ?_⟩
        rw [show m * (k + 1) = 1 + (m * (k + 1) - 1) by
          have := Nat.mul_le_mul hm1 (show 1 ≤ k + 1 by omega)
          omega]
        exact toleranceLoop_mono h2
      · push Not at hsmall
        obtain ⟨a, ha, hlt⟩ := hsmall
        have hcard : (0 : K) < (ids c).card := by exact_mod_cast Finset.card_pos.2 hg.dist.ids_nonempty
        have hδ0 : 0 ≤ 2 * r0 * c.tol / ((1 + (ids c).card) * (ids c).card) := by positivity
        have hgd := hg.improve hq hq1 hQ hs hm hch ha hδ0 hlt.le hd
        rw [← hη] at hgd
        have e := iterateN_sites hd
        have hη0 : 0 ≤ η := by rw [hη]; positivity
        obtain ⟨c', h⟩ := ih (c := d) (r := r + η) (by rw [ids_congr e, rate_congr e, hopProb_congr e]; exact hQ)
          (hs.congr e) (Mutual.congr e hm) (by rw [htd]; exact ht)
          (fun i hi j hj => by
            rw [ids_congr e] at hi hj
            obtain ⟨n, hn, hcn⟩ := hch i hi j hj
            exact ⟨n, hn, hcn.congr e⟩)
          ⟨i, by rw [ids_congr e]; exact hi, j, by rw [ids_congr e]; exact hj, by rw [rate_congr e]; exact hrr⟩
          (by rw [htd, ids_congr e]; exact hη) (by linarith) hgd (by push_cast at h1 ⊢; linarith)
        exact ⟨c', by rw [Nat.mul_succ, Nat.add_comm, hk]; exact h⟩

/-- On a connected cluster of at least two sites every site has a link. -/
theorem linked_of_connected (hm : Mutual mem c) (hw : c.sites.WF) (h1 : 1 < c.sites.length) (hc : Connected mem c) :
    Linked mem c := by
  intro i hi
  have h2 : 1 < (ids c).card := by rw [card_ids hw]; exact h1
  obtain ⟨j, hj, hne⟩ := Finset.exists_mem_ne h2 i
  have hp := hc j hj i hi
  cases hp with
  | refl => exact absurd rfl hne
  | step h hk hr =>
    rename_i k
    obtain ⟨n, -, hk'⟩ := chain_of_path hj h
    exact ⟨k, hk', hm k hk' i hi hr⟩

theorem toleranceLoop_terminates (hs : Sound mem c) (hm : Mutual mem c) (hd : Dist c) (h1 : 1 < c.sites.length)
    (hc : Connected mem c) (ht : 0 < c.tol) : ∃ N, ∀ n ≥ N, ∃ c', toleranceLoop n c = .ok c' := by
  have hl := linked_of_connected hm hs.wf h1 hc
  -- a lower bound for the hop probabilities
  obtain ⟨q, hq, hq1, hQ⟩ := exists_lower (((ids c) ×ˢ (ids c)).filter fun x => 0 < rate mem c x.1 x.2)
    (fun x => hopProb mem c x.1 x.2) (by
      rintro ⟨a, b⟩ hx
      rw [Finset.mem_filter, Finset.mem_product] at hx
      exact (hs.hopProb_pos_iff hx.1.1 b).2 hx.2)
  have hQ' : ∀ a ∈ ids c, ∀ b ∈ ids c, 0 < rate mem c a b → q ≤ hopProb mem c a b := fun a ha b hb hr =>
    hQ (a, b) (by rw [Finset.mem_filter, Finset.mem_product]; exact ⟨⟨ha, hb⟩, hr⟩)
  -- a bound for the lengths of chains
  have hex : ∀ i j, ∃ n, i ∈ ids c → j ∈ ids c → Chain mem c n i j := by
    intro i j
    by_cases h : i ∈ ids c ∧ j ∈ ids c
    · obtain ⟨n, hn, -⟩ := chain_of_path h.1 (hc i h.1 j h.2)
      exact ⟨n, fun _ _ => hn⟩
    · exact ⟨0, fun a b => absurd ⟨a, b⟩ h⟩
  choose f hf using hex
  obtain ⟨m, hm1, hmf⟩ : ∃ m, 1 ≤ m ∧ ∀ i ∈ ids c, ∀ j ∈ ids c, f i j ≤ m := by
    refine ⟨(∑ i ∈ ids c, ∑ j ∈ ids c, f i j) + 1, by omega, fun i hi j hj => ?_⟩
    have h1 := Finset.single_le_sum (f := fun j => f i j) (fun _ _ => Nat.zero_le _) hj
    have h2 := Finset.single_le_sum (f := fun i => ∑ j ∈ ids c, f i j) (fun _ _ => Nat.zero_le _) hi
    exact (h1.trans h2).trans (Nat.le_succ _)
  -- the first growth bound
  have hin : ∀ i ∈ ids c, 0 < inflow mem c c.prob i := by
    intro i hi
    obtain ⟨j, hj, hr⟩ := hl i hi
    exact Finset.sum_pos' (fun n hn => mul_nonneg (hs.hopProb_nonneg n i) (hd.pos n hn).le)
      ⟨j, hj, mul_pos ((hs.hopProb_pos_iff hj i).2 (hm i hi j hj hr)) (hd.pos j hj)⟩
  obtain ⟨r0, h0, -, hr0⟩ := exists_lower (ids c) (fun i => inflow mem c c.prob i / c.prob i)
    (fun i hi => div_pos (hin i hi) (hd.pos i hi))
  have hg : Grows mem c r0 := ⟨hd, fun i hi => by
    have := hr0 i hi
    rw [le_div_iff₀ (show 0 < c.prob i from hd.pos i hi)] at this
    unfold excess; linarith⟩
  have hcard : (0 : K) < (ids c).card := by exact_mod_cast Finset.card_pos.2 hd.ids_nonempty
  have hη : 0 < (q / 2) ^ m * (2 * r0 * c.tol / ((1 + (ids c).card) * (ids c).card)) := by positivity
  obtain ⟨k, hk⟩ := exists_nat_gt (1 / ((q / 2) ^ m * (2 * r0 * c.tol / ((1 + (ids c).card) * (ids c).card))))
  obtain ⟨i, hi⟩ := hd.ids_nonempty
  obtain ⟨j, hj, hr⟩ := hl i hi
  obtain ⟨c', h⟩ := Grows.terminates hm1 hq hq1 h0 k hQ' hs hm ht
    (fun i hi j hj => ⟨f i j, hmf i hi j hj, hf i j hi hj⟩) ⟨i, hi, j, hj, hr⟩ rfl (le_refl _) hg (by
      rw [div_lt_iff₀ hη] at hk
      linarith)
  refine ⟨m * k, fun n hn => ⟨c', ?_⟩⟩
  obtain ⟨l, rfl⟩ := Nat.exists_eq_add_of_le hn
  exact toleranceLoop_mono h

end Mythical.Cluster
