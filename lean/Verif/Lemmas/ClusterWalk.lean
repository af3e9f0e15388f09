import Verif.Spec.ClusterWalk
import Verif.Lemmas.ClusterLimit
import Mathlib.Analysis.SpecificLimits.Basic
import Mathlib.Topology.Algebra.InfiniteSum.Ring

/-! # Lemmas about the walk that a cluster stands for -/

set_option linter.unusedSectionVars false
set_option linter.unusedVariables false

namespace Mythical.Cluster
open ClusterSpec Filter Topology
variable {mem : Addr → ℝ} {c : Cluster ℝ}

/-- The share that stays in one hop. -/
theorem Stationary.hold (hs : Sound mem c) (hm : Mutual mem c) (hl : Linked mem c) (hx : HasExit mem c) (hne : (ids c).Nonempty)
    {p : Int → ℝ} (h : Stationary mem c p) :
    ∃ L, 0 < L ∧ L < 1 ∧ L = ∑ i ∈ ids c, p i * (exitRate mem c i / outRate mem c i) ∧
      ∀ i ∈ ids c, ∑ n ∈ ids c, p n * hopProb mem c n i = (1 - L) * p i := by
  obtain ⟨ρ, hρ, he⟩ := Stationary.eigen hs hm hl hne h
  have h1 : ∑ i ∈ ids c, inflow mem c p i = ρ := by
    rw [Finset.sum_congr rfl he, ← Finset.mul_sum, h.one, mul_one]
  have h2 : ρ + ∑ i ∈ ids c, p i * (exitRate mem c i / outRate mem c i) = 1 := by
    rw [← h1, sum_inflow, ← Finset.sum_add_distrib, ← h.one]
    apply Finset.sum_congr rfl
    intro i hi
    have := hs.inRate_add_exitRate hi
    have h2 : siteTime mem c i * outRate mem c i = 1 := by
      unfold siteTime; exact one_div_mul_cancel (hs.outRate_pos hi).ne'
    have h3 : exitRate mem c i / outRate mem c i = siteTime mem c i * exitRate mem c i := by
      unfold siteTime; ring
    rw [h3]
    calc _ = p i * (siteTime mem c i * (inRate mem c i + exitRate mem c i)) := by ring
      _ = p i := by rw [this, h2, mul_one]
  have h3 : 0 < ∑ i ∈ ids c, p i * (exitRate mem c i / outRate mem c i) := by
    obtain ⟨i, hi, j, hj, hr⟩ := hx
    apply Finset.sum_pos'
    · intro k hk
      exact mul_nonneg (h.pos k hk).le (div_nonneg (hs.exitRate_nonneg k) (hs.outRate_pos hk).le)
    · exact ⟨i, hi, mul_pos (h.pos i hi) (div_pos ((hs.exitRate_pos_iff hi).2 ⟨j, hj, hr⟩) (hs.outRate_pos hi))⟩
  refine ⟨_, h3, by linarith, rfl, fun i hi => ?_⟩
  rw [show 1 - (∑ i ∈ ids c, p i * (exitRate mem c i / outRate mem c i)) = ρ by linarith, ← he i hi]
  exact Finset.sum_congr rfl fun n _ => mul_comm _ _

theorem inside_eq {p : Int → ℝ} {L : ℝ} (h : ∀ i ∈ ids c, ∑ n ∈ ids c, p n * hopProb mem c n i = (1 - L) * p i) (k : Nat) :
    ∀ i ∈ ids c, inside mem c p k i = (1 - L) ^ k * p i := by
  induction k with
  | zero => intro i _; simp [inside]
  | succ k ih =>
    intro i hi
    show ∑ n ∈ ids c, inside mem c p k n * hopProb mem c n i = _
    rw [Finset.sum_congr rfl fun n hn => by rw [ih n hn, mul_assoc], ← Finset.mul_sum, h i hi]
    ring

theorem hasSum_hold {L : ℝ} (h0 : 0 < L) (h1 : L < 1) (x : ℝ) : HasSum (fun k : Nat => (1 - L) ^ k * x) (x / L) := by
  have := (hasSum_geometric_of_lt_one (r := 1 - L) (by linarith) (by linarith)).mul_right x
  rwa [sub_sub_cancel, inv_mul_eq_div] at this

theorem hasSum_leavesTo {p : Int → ℝ} {L : ℝ} (h0 : 0 < L) (h1 : L < 1)
    (h : ∀ i ∈ ids c, ∑ n ∈ ids c, p n * hopProb mem c n i = (1 - L) * p i) (n : Int) :
    HasSum (leavesTo mem c p n) ((∑ i ∈ ids c, p i * hopProb mem c i n) / L) := by
  have e : leavesTo mem c p n = fun k => (1 - L) ^ k * ∑ i ∈ ids c, p i * hopProb mem c i n := by
    funext k
    unfold leavesTo
    rw [Finset.mul_sum]
    exact Finset.sum_congr rfl fun i hi => by rw [inside_eq h k i hi, mul_assoc]
  rw [e]
  exact hasSum_hold h0 h1 _

theorem hasSum_timeAt {p : Int → ℝ} {L : ℝ} (h0 : 0 < L) (h1 : L < 1)
    (h : ∀ i ∈ ids c, ∑ n ∈ ids c, p n * hopProb mem c n i = (1 - L) * p i) {i : Int} (hi : i ∈ ids c) :
    HasSum (timeAt mem c p i) (p i * siteTime mem c i / L) := by
  have e : timeAt mem c p i = fun k => (1 - L) ^ k * (p i * siteTime mem c i) := by
    funext k
    unfold timeAt
    rw [inside_eq h k i hi, mul_assoc]
  rw [e]
  exact hasSum_hold h0 h1 _

theorem sum_leave (p : Int → ℝ) :
    ∑ n ∈ exits c, ∑ i ∈ ids c, p i * hopProb mem c i n = ∑ i ∈ ids c, p i * (exitRate mem c i / outRate mem c i) := by
  rw [Finset.sum_comm]
  apply Finset.sum_congr rfl
  intro i _
  unfold exitRate hopProb
  rw [← Finset.mul_sum, Finset.sum_div]

/-- A ratio of two weighted sums depends continuously on the weights. -/
theorem ratio_close (S : Finset Int) (a b p : Int → ℝ) (hb : ∑ i ∈ S, p i * b i ≠ 0) {ε : ℝ} (hε : 0 < ε) :
    ∃ η > 0, ∀ q : Int → ℝ, (∀ i ∈ S, |q i - p i| < η) →
      |(∑ i ∈ S, q i * a i) / (∑ i ∈ S, q i * b i) - (∑ i ∈ S, p i * a i) / (∑ i ∈ S, p i * b i)| < ε := by
  have key : ∀ (f x : Int → ℝ), ∑ i : S, x i * f i = ∑ i ∈ S, x i * f i := fun f x =>
    Finset.sum_coe_sort S fun i => x i * f i
  have hc : ContinuousAt (fun x : S → ℝ => (∑ i : S, x i * a i) / (∑ i : S, x i * b i)) (fun i : S => p i) := by
    apply ContinuousAt.div
    · exact (continuous_finsetSum _ fun i _ => (continuous_apply i).mul continuous_const).continuousAt
    · exact (continuous_finsetSum _ fun i _ => (continuous_apply i).mul continuous_const).continuousAt
    · rw [key b p]; exact hb
  obtain ⟨η, hη, h⟩ := Metric.continuousAt_iff.1 hc ε hε
  refine ⟨η, hη, fun q hq => ?_⟩
  have := @h (fun i : S => q i) ((dist_pi_lt_iff hη).2 fun i => by rw [Real.dist_eq]; exact hq i i.2)
  rw [Real.dist_eq] at this
  simp only [key] at this
  exact this

end Mythical.Cluster
