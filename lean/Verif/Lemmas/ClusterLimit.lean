import Verif.Lemmas.ClusterRounds
import Mathlib.Topology.Order.MonotoneConvergence
import Mathlib.Topology.Sequences
import Mathlib.Topology.Instances.Real.Lemmas
import Mathlib.Topology.Algebra.Order.LiminfLimsup

/-! # Lemmas about the cluster: the rounds converge

The growth bound of `ClusterTerm` is bounded and increasing, hence converges, and the excess tends to 0. Every limit point of
the distributions is therefore an eigenvector, of which there is only one on a connected cluster. -/

set_option linter.unusedSectionVars false
set_option linter.unusedVariables false

namespace Mythical.Cluster
open Mythical ClusterSpec

section Field
variable {K : Type} [Field K] [LinearOrder K] [IsStrictOrderedRing K] [FloorRing K]
variable {mem : Addr → K} {c c' : Cluster K}

/-- Inflow spreads positivity along chains. -/
theorem pos_of_chain (hs : Sound mem c) {x : Int → K} {ρ : K} (hρ : 0 < ρ) (hx : ∀ i ∈ ids c, 0 ≤ x i)
    (he : ∀ i ∈ ids c, inflow mem c x i = ρ * x i) {n : Nat} {i j : Int} (hi : i ∈ ids c) (hc : Chain mem c n i j)
    (hp : 0 < x i) : 0 < x j := by
  induction hc with
  | refl => exact hp
  | @step n i j k _ hj hk hr ih =>
    have hxj := ih hi hp
    have h1 : 0 < inflow mem c x k :=
      Finset.sum_pos' (fun n hn => mul_nonneg (hs.hopProb_nonneg n k) (hx n hn))
        ⟨j, hj, mul_pos ((hs.hopProb_pos_iff hj k).2 hr) hxj⟩
    rw [he k hk] at h1
    exact (mul_pos_iff_of_pos_left hρ).1 h1

/-- An eigenvector that is not negative and not zero is positive on a connected cluster. -/
theorem pos_of_eigen (hs : Sound mem c) (hc : Connected mem c) {x : Int → K} {ρ : K} (hρ : 0 < ρ) (hx : ∀ i ∈ ids c, 0 ≤ x i)
    (he : ∀ i ∈ ids c, inflow mem c x i = ρ * x i) {j : Int} (hj : j ∈ ids c) (hp : 0 < x j) : ∀ i ∈ ids c, 0 < x i := by
  intro i hi
  obtain ⟨n, hn, -⟩ := chain_of_path hj (hc j hj i hi)
  exact pos_of_chain hs hρ hx he hj hn hp

/-- The smallest ratio of two functions on the sites. -/
theorem exists_ratio (p q : Int → K) (hne : (ids c).Nonempty) (hp : ∀ i ∈ ids c, 0 < p i) :
    ∃ j ∈ ids c, ∀ i ∈ ids c, q j / p j * p i ≤ q i := by
  obtain ⟨j, hj, h⟩ := Finset.exists_min_image (ids c) (fun i => q i / p i) hne
  exact ⟨j, hj, fun i hi => by have := h i hi; rwa [le_div_iff₀ (hp i hi)] at this⟩

theorem inflow_sub (p q : Int → K) (t : K) (i : Int) :
    inflow mem c (fun n => q n - t * p n) i = inflow mem c q i - t * inflow mem c p i := by
  unfold inflow
  rw [Finset.mul_sum, ← Finset.sum_sub_distrib]
  exact Finset.sum_congr rfl fun n _ => by ring

theorem eigen_le (hs : Sound mem c) (hne : (ids c).Nonempty) {p q : Int → K} {ρ σ : K} (hσ : 0 < σ)
    (hp : ∀ i ∈ ids c, 0 < p i) (hq : ∀ i ∈ ids c, 0 < q i) (ep : ∀ i ∈ ids c, inflow mem c p i = ρ * p i)
    (eq : ∀ i ∈ ids c, inflow mem c q i = σ * q i) : ρ ≤ σ := by
  obtain ⟨j, hj, h⟩ := exists_ratio p q hne hp
  have h1 := inflow_nonneg hs (p := fun n => q n - q j / p j * p n) (fun i hi => by have := h i hi; linarith) j
  rw [inflow_sub, ep j hj, eq j hj] at h1
  have h2 : q j / p j * (ρ * p j) = ρ * q j := by have := (hp j hj).ne'; field_simp
  rw [h2] at h1
  have h3 : 0 ≤ (σ - ρ) * q j := by linarith
  have := (mul_nonneg_iff_of_pos_right (hq j hj)).1 h3
  linarith

/-- On a connected cluster there is at most one positive eigenvector with sum 1. -/
theorem eigen_unique (hs : Sound mem c) (hc : Connected mem c) (hne : (ids c).Nonempty) {p q : Int → K} {ρ σ : K}
    (hρ : 0 < ρ) (hσ : 0 < σ)
    (hp : ∀ i ∈ ids c, 0 < p i) (hq : ∀ i ∈ ids c, 0 < q i) (ep : ∀ i ∈ ids c, inflow mem c p i = ρ * p i)
    (eq : ∀ i ∈ ids c, inflow mem c q i = σ * q i) (p1 : ∑ i ∈ ids c, p i = 1) (q1 : ∑ i ∈ ids c, q i = 1) :
    ∀ i ∈ ids c, q i = p i := by
  obtain rfl : ρ = σ := le_antisymm (eigen_le hs hne hσ hp hq ep eq) (eigen_le hs hne hρ hq hp eq ep)
  obtain ⟨j, hj, h⟩ := exists_ratio p q hne hp
  have hx : ∀ i ∈ ids c, 0 ≤ q i - q j / p j * p i := fun i hi => by have := h i hi; linarith
  have he : ∀ i ∈ ids c, inflow mem c (fun n => q n - q j / p j * p n) i = ρ * (q i - q j / p j * p i) := by
    intro i hi
    rw [inflow_sub, ep i hi, eq i hi]; ring
  have hxj : q j - q j / p j * p j = 0 := by have := (hp j hj).ne'; field_simp; ring
  have hz : ∀ i ∈ ids c, q i = q j / p j * p i := by
    intro i hi
    by_contra hne'
    have hpos : 0 < q i - q j / p j * p i := lt_of_le_of_ne (hx i hi) fun e => hne' (by linarith)
    have := pos_of_eigen hs hc hρ hx he hi hpos j hj
    rw [hxj] at this
    exact lt_irrefl _ this
  have ht : q j / p j = 1 := by
    rw [Finset.sum_congr rfl hz, ← Finset.mul_sum, p1, mul_one] at q1
    exact q1
  intro i hi
  rw [hz i hi, ht, one_mul]

theorem inflow_pos_at (hs : Sound mem c) (hm : Mutual mem c) (hl : Linked mem c) (hne : (ids c).Nonempty) {p : Int → K}
    (hp : ∀ i ∈ ids c, 0 < p i) {i : Int} (hi : i ∈ ids c) : 0 < inflow mem c p i := by
  obtain ⟨j, hj, hr⟩ := hl i hi
  exact Finset.sum_pos' (fun n hn => mul_nonneg (hs.hopProb_nonneg n i) (hp n hn).le)
    ⟨j, hj, mul_pos ((hs.hopProb_pos_iff hj i).2 (hm i hi j hj hr)) (hp j hj)⟩

theorem Stationary.eigen (hs : Sound mem c) (hm : Mutual mem c) (hl : Linked mem c) (hne : (ids c).Nonempty) {p : Int → K}
    (h : Stationary mem c p) : ∃ ρ, 0 < ρ ∧ ∀ i ∈ ids c, inflow mem c p i = ρ * p i := by
  have h0 : 0 < ∑ j ∈ ids c, inflow mem c p j := Finset.sum_pos (fun j hj => inflow_pos_at hs hm hl hne h.pos hj) hne
  refine ⟨_, h0, fun i hi => ?_⟩
  have := h.same i hi
  rw [afterHop_eq p p (fun _ _ => rfl), div_eq_iff h0.ne'] at this
  rw [this, mul_comm]

theorem stationary_of_eigen {p : Int → K} {ρ : K} (hρ : 0 < ρ) (hp : ∀ i ∈ ids c, 0 < p i) (h1 : ∑ i ∈ ids c, p i = 1)
    (he : ∀ i ∈ ids c, inflow mem c p i = ρ * p i) : Stationary mem c p := by
  refine ⟨hp, h1, fun i hi => ?_⟩
  rw [afterHop_eq p p (fun _ _ => rfl), Finset.sum_congr rfl he, ← Finset.mul_sum, h1, he i hi, mul_one,
    mul_div_cancel_left₀ _ hρ.ne']

/-- What the rounds do, in terms of growth bounds. -/
structure Rising (mem : Addr → K) (c : Cluster K) (m : Nat) (κ : K) : Prop where
  pos : ∀ n, ∀ i ∈ ids c, 0 < rounds mem c n i
  one : ∀ n, ∑ i ∈ ids c, rounds mem c n i = 1
  kpos : 0 < κ
  start : ∀ i ∈ ids c, 0 < inflow mem c (rounds mem c 0) i
  keep : ∀ n r, (∀ i ∈ ids c, r * rounds mem c n i ≤ inflow mem c (rounds mem c n) i) →
    ∀ i ∈ ids c, r * rounds mem c (n + 1) i ≤ inflow mem c (rounds mem c (n + 1)) i
  grow : ∀ n r, (∀ i ∈ ids c, r * rounds mem c n i ≤ inflow mem c (rounds mem c n) i) → ∀ j ∈ ids c,
    ∀ i ∈ ids c, (r + κ * (inflow mem c (rounds mem c n) j - r * rounds mem c n j)) * rounds mem c (n + m) i ≤
      inflow mem c (rounds mem c (n + m)) i

theorem iterateN_each {i j : Int} (hs : Sound mem c) (hm : Mutual mem c) (hd : Dist c) (hi : i ∈ ids c) (hj : j ∈ ids c)
    (hr : 0 < rate mem c i j) (n : Nat) : ∃ d, iterateN n c = .ok d ∧ Dist d := by
  induction n generalizing c with
  | zero => exact ⟨c, rfl, hd⟩
  | succ n ih =>
    obtain ⟨c1, h1⟩ := iterate_total hs hm hd hi hj hr
    have e := iterate_sites h1
    obtain ⟨d, h2, hd2⟩ := ih (hs.congr e) (Mutual.congr e hm) (iterate_dist hs hm hd h1) (by rw [ids_congr e]; exact hi)
      (by rw [ids_congr e]; exact hj) (by rw [rate_congr e]; exact hr)
    refine ⟨d, ?_, hd2⟩
    unfold iterateN
    rw [h1, ok_bind, h2]

theorem iterateN_add {a b : Nat} {d e : Cluster K} (h1 : iterateN a c = .ok d) (h2 : iterateN (a + b) c = .ok e) :
    iterateN b d = .ok e := by
  induction a generalizing c with
  | zero => cases h1; rwa [Nat.zero_add] at h2
  | succ a ih =>
    rw [Nat.succ_add] at h2
    unfold iterateN at h1 h2
    obtain ⟨x, hx, h1⟩ := bind_eq_ok.1 h1
    rw [hx, ok_bind] at h2
    exact ih h1 h2

theorem rising (hs : Sound mem c) (hm : Mutual mem c) (hc : Connected mem c) (h1 : 1 < (ids c).card) :
    ∃ m κ, Rising mem c m κ := by
  have h1' : 1 < c.sites.length := by rw [← card_ids hs.wf]; exact h1
  have hl := linked_of_connected hm hs.wf h1' hc
  obtain ⟨q, hq, hq1, hQ⟩ := exists_lower (((ids c) ×ˢ (ids c)).filter fun x => 0 < rate mem c x.1 x.2)
    (fun x => hopProb mem c x.1 x.2) (by
      rintro ⟨a, b⟩ hx
      rw [Finset.mem_filter, Finset.mem_product] at hx
      exact (hs.hopProb_pos_iff hx.1.1 b).2 hx.2)
  have hQ' : ∀ a ∈ ids c, ∀ b ∈ ids c, 0 < rate mem c a b → q ≤ hopProb mem c a b := fun a ha b hb hr =>
    hQ (a, b) (by rw [Finset.mem_filter, Finset.mem_product]; exact ⟨⟨ha, hb⟩, hr⟩)
  have hex : ∀ i j, ∃ n, i ∈ ids c → j ∈ ids c → Chain mem c n i j := by
    intro i j
    by_cases h : i ∈ ids c ∧ j ∈ ids c
    · obtain ⟨n, hn, -⟩ := chain_of_path h.1 (hc i h.1 j h.2)
      exact ⟨n, fun _ _ => hn⟩
    · exact ⟨0, fun a b => absurd ⟨a, b⟩ h⟩
  choose f hf using hex
  obtain ⟨m, hmf⟩ : ∃ m, ∀ i ∈ ids c, ∀ j ∈ ids c, f i j ≤ m := by
    refine ⟨∑ i ∈ ids c, ∑ j ∈ ids c, f i j, fun i hi j hj => ?_⟩
    have h1 := Finset.single_le_sum (f := fun j => f i j) (fun _ _ => Nat.zero_le _) hj
    have h2 := Finset.single_le_sum (f := fun i => ∑ j ∈ ids c, f i j) (fun _ _ => Nat.zero_le _) hi
    exact h1.trans h2
  -- the clusters after each round
  have hne : (ids c).Nonempty := Finset.card_pos.1 (by omega)
  obtain ⟨i0, hi0⟩ := hne
  obtain ⟨j0, hj0, hr0⟩ := hl i0 hi0
  set b : Cluster K := { c with probOn := [] } with hb
  have hbs : b.sites = c.sites := rfl
  set c0 := b.initProb with hc0
  have e0 : c0.sites = c.sites := rfl
  have hd0 : Dist c0 := initProb_dist (c := b) hs.wf ⟨List.nodup_nil, by simp [hb, IMap.keys]⟩ (by
    intro e; rw [show c.sites = [] from e] at h1'; simp at h1')
  have hs0 := hs.congr e0
  have hm0 := Mutual.congr e0 hm
  have htot := iterateN_each hs0 hm0 hd0 (by rw [ids_congr e0]; exact hi0) (by rw [ids_congr e0]; exact hj0)
    (by rw [rate_congr e0]; exact hr0)
  choose d hdit hdd using htot
  have es : ∀ n, (d n).sites = c.sites := fun n => (iterateN_sites (hdit n)).trans e0
  have hp : ∀ n, ∀ i ∈ ids c, (d n).prob i = rounds mem c n i := by
    intro n i hi
    have := iterateN_rounds hs0 hm0 hd0 (hdit n) (n := 0) (by
      intro i hi
      show b.initProb.probOn.at0 i = 1 / _
      rw [initProb_at0 (c := b) hs.wf hi]
      congr 2
      exact (card_ids (c := b) hs.wf).symm) i (by rw [ids_congr e0]; exact hi)
    rwa [Nat.zero_add, rounds_congr e0] at this
  have hinf : ∀ n i, inflow mem (d n) (d n).prob i = inflow mem c (rounds mem c n) i := by
    intro n i
    rw [inflow_congr (es n)]
    exact Finset.sum_congr rfl fun k hk => by rw [hp n k hk]
  have hgr : ∀ n r, Grows mem (d n) r ↔ ∀ i ∈ ids c, r * rounds mem c n i ≤ inflow mem c (rounds mem c n) i := by
    intro n r
    constructor
    · intro h i hi
      have := h.low i (by rw [ids_congr (es n)]; exact hi)
      unfold excess at this
      rw [hinf, hp n i hi] at this
      linarith
    · intro h
      refine ⟨hdd n, fun i hi => ?_⟩
      rw [ids_congr (es n)] at hi
      have := h i hi
      unfold excess
      rw [hinf, hp n i hi]
      linarith
  have hpos : ∀ n, ∀ i ∈ ids c, 0 < rounds mem c n i := by
    intro n i hi
    rw [← hp n i hi]
    exact (hdd n).pos i (by rw [ids_congr (es n)]; exact hi)
  refine ⟨m, (q / 2) ^ m, hpos, ?_, by positivity, ?_, ?_, ?_⟩
  · intro n
    rw [← Finset.sum_congr rfl (hp n), ← ids_congr (es n)]
    exact (hdd n).one
  · exact fun i hi => inflow_pos_at hs hm hl ⟨i, hi⟩ (hpos 0) hi
  · intro n r h
    rw [← hgr] at h ⊢
    have h2 : iterateN 1 (d n) = .ok (d (n + 1)) := iterateN_add (hdit n) (hdit (n + 1))
    exact h.iterateN (hs.congr (es n)) (Mutual.congr (es n) hm) h2
  · intro n r h j hj
    rw [← hgr] at h ⊢
    have h2 : iterateN m (d n) = .ok (d (n + m)) := iterateN_add (hdit n) (hdit (n + m))
    have hj' : j ∈ ids (d n) := by rw [ids_congr (es n)]; exact hj
    have he : excess mem (d n) r j = inflow mem c (rounds mem c n) j - r * rounds mem c n j := by
      unfold excess
      rw [hinf, hp n j hj]
    refine h.improve hq hq1 ?_ (hs.congr (es n)) (Mutual.congr (es n) hm) ?_ hj' ?_ he.ge h2
    · rw [ids_congr (es n), rate_congr (es n), hopProb_congr (es n)]
      exact hQ'
    · rw [ids_congr (es n)]
      exact fun i hi j hj => ⟨f i j, hmf i hi j hj, (hf i j hi hj).congr (es n)⟩
    · rw [← he]
      exact h.low j hj'

end Field

section Real
open Filter Topology
variable {mem : Addr → ℝ} {c : Cluster ℝ}

theorem rounds_converge (hs : Sound mem c) (hm : Mutual mem c) (hc : Connected mem c) (h1 : 1 < (ids c).card) :
    ∃ p, Stationary mem c p ∧ ∀ i ∈ ids c, Tendsto (fun n => rounds mem c n i) atTop (𝓝 (p i)) := by
  obtain ⟨m, κ, R⟩ := rising hs hm hc h1
  have hne : (ids c).Nonempty := Finset.card_pos.1 (by omega)
  set r : Nat → ℝ := fun n => (ids c).inf' hne fun i => inflow mem c (rounds mem c n) i / rounds mem c n i with hrd
  have hr : ∀ n s, (∀ i ∈ ids c, s * rounds mem c n i ≤ inflow mem c (rounds mem c n) i) ↔ s ≤ r n := by
    intro n s
    rw [hrd, Finset.le_inf'_iff]
    exact forall₂_congr fun i hi => (le_div_iff₀ (R.pos n i hi)).symm
  have hmono : Monotone r := monotone_nat_of_le_succ fun n => (hr _ _).1 (R.keep n _ ((hr n _).2 le_rfl))
  have hle1 : ∀ n, r n ≤ 1 := by
    intro n
    have h2 := Finset.sum_le_sum ((hr n _).2 le_rfl)
    rw [← Finset.mul_sum, R.one, mul_one] at h2
    have h3 := sum_inflow_le hs fun i hi => (R.pos n i hi).le
    rw [R.one] at h3
    exact h2.trans h3
  have hlim : Tendsto r atTop (𝓝 (⨆ n, r n)) :=
    tendsto_atTop_ciSup hmono ⟨1, by rintro _ ⟨n, rfl⟩; exact hle1 n⟩
  have h0 : 0 < r 0 := by
    rw [hrd, Finset.lt_inf'_iff]
    exact fun i hi => div_pos (R.start i hi) (R.pos 0 i hi)
  have hρ : 0 < ⨆ n, r n := h0.trans_le (ge_of_tendsto hlim (Eventually.of_forall fun n => hmono (Nat.zero_le n)))
  set ρ := ⨆ n, r n with hρd
  -- the excess tends to 0
  have hex : ∀ j ∈ ids c, Tendsto (fun n => inflow mem c (rounds mem c n) j - r n * rounds mem c n j) atTop (𝓝 0) := by
    intro j hj
    have hb : Tendsto (fun n => (r (n + m) - r n) / κ) atTop (𝓝 0) := by
      have h2 := ((hlim.comp (tendsto_add_atTop_nat m)).sub hlim).div_const κ
      rw [sub_self, zero_div] at h2
      exact h2
    refine squeeze_zero (fun n => ?_) (fun n => ?_) hb
    · have := (hr n (r n)).2 le_rfl j hj
      linarith
    · have := (hr _ _).1 (R.grow n (r n) ((hr n _).2 le_rfl) j hj)
      rw [le_div_iff₀ R.kpos]
      linarith
  -- limit points are eigenvectors
  set x : Nat → Int → ℝ := fun n i => if i ∈ ids c then rounds mem c n i else 0 with hx
  have hxi : ∀ n, ∀ i ∈ ids c, x n i = rounds mem c n i := fun n i hi => by rw [hx]; exact if_pos hi
  have hfl : ∀ n j, inflow mem c (x n) j = inflow mem c (rounds mem c n) j := fun n j =>
    Finset.sum_congr rfl fun k hk => by rw [hxi n k hk]
  have hlp : ∀ (φ : Nat → Nat) (p : Int → ℝ), Tendsto φ atTop atTop → Tendsto (fun n => x (φ n)) atTop (𝓝 p) →
      (∀ i ∈ ids c, 0 < p i) ∧ ∑ i ∈ ids c, p i = 1 ∧ (∀ i ∈ ids c, inflow mem c p i = ρ * p i) ∧ ∀ i ∉ ids c, p i = 0 := by
    intro φ p hφ hp
    have hpi : ∀ i, Tendsto (fun n => x (φ n) i) atTop (𝓝 (p i)) := fun i => (tendsto_pi_nhds.1 hp) i
    have hnn : ∀ i ∈ ids c, 0 ≤ p i := fun i hi =>
      ge_of_tendsto' (hpi i) fun n => by rw [hxi _ i hi]; exact (R.pos _ i hi).le
    have hone : ∑ i ∈ ids c, p i = 1 := by
      refine tendsto_nhds_unique (tendsto_finsetSum (ids c) fun i _ => hpi i) ?_
      have : (fun n => ∑ i ∈ ids c, x (φ n) i) = fun _ => (1 : ℝ) := by
        funext n
        rw [Finset.sum_congr rfl (hxi (φ n)), R.one]
      rw [this]
      exact tendsto_const_nhds
    have heig : ∀ i ∈ ids c, inflow mem c p i = ρ * p i := by
      intro j hj
      have h2 : Tendsto (fun n => inflow mem c (x (φ n)) j - r (φ n) * x (φ n) j) atTop
          (𝓝 (inflow mem c p j - ρ * p j)) :=
        (tendsto_finsetSum (ids c) fun i _ => (hpi i).const_mul _).sub ((hlim.comp hφ).mul (hpi j))
      have h3 := (hex j hj).comp hφ
      have h4 : (fun n => inflow mem c (x (φ n)) j - r (φ n) * x (φ n) j) =
          (fun n => inflow mem c (rounds mem c n) j - r n * rounds mem c n j) ∘ φ := by
        funext n
        simp only [Function.comp]
        rw [hfl, hxi _ j hj]
      rw [h4] at h2
      have := tendsto_nhds_unique h2 h3
      linarith
    refine ⟨?_, hone, heig, fun i hi => ?_⟩
    · obtain ⟨j, hj, hpj⟩ : ∃ j ∈ ids c, 0 < p j := by
        by_contra hcon
        push Not at hcon
        have := Finset.sum_nonpos hcon
        rw [hone] at this
        linarith
      exact pos_of_eigen hs hc hρ hnn heig hj hpj
    · refine tendsto_nhds_unique (hpi i) ?_
      have : (fun n => x (φ n) i) = fun _ => (0 : ℝ) := by
        funext n
        rw [hx]
        exact if_neg hi
      rw [this]
      exact tendsto_const_nhds
  have hK : IsCompact (Set.univ.pi fun _ : Int => Set.Icc (0 : ℝ) 1) := isCompact_univ_pi fun _ => isCompact_Icc
  have hxK : ∀ n, x n ∈ Set.univ.pi fun _ : Int => Set.Icc (0 : ℝ) 1 := by
    intro n i _
    by_cases hi : i ∈ ids c
    · rw [hxi n i hi]
      refine ⟨(R.pos n i hi).le, ?_⟩
      rw [← R.one n]
      exact Finset.single_le_sum (f := fun k => rounds mem c n k) (fun k hk => (R.pos n k hk).le) hi
    · have : x n i = 0 := by rw [hx]; exact if_neg hi
      rw [this]
      exact ⟨le_rfl, zero_le_one⟩
  obtain ⟨p, -, φ, hφ, hp⟩ := hK.tendsto_subseq hxK
  obtain ⟨p1, p2, p3, p4⟩ := hlp φ p hφ.tendsto_atTop hp
  refine ⟨p, stationary_of_eigen hρ p1 p2 p3, ?_⟩
  have hconv : Tendsto x atTop (𝓝 p) := by
    refine tendsto_of_subseq_tendsto fun ns hns => ?_
    obtain ⟨q, -, ψ, hψ, hq⟩ := hK.tendsto_subseq fun n => hxK (ns n)
    obtain ⟨q1, q2, q3, q4⟩ := hlp (ns ∘ ψ) q (hns.comp hψ.tendsto_atTop) hq
    have : q = p := by
      funext i
      by_cases hi : i ∈ ids c
      · exact eigen_unique hs hc hne hρ hρ p1 q1 p3 q3 p2 q2 i hi
      · rw [q4 i hi, p4 i hi]
    rw [this] at hq
    exact ⟨ψ, hq⟩
  intro i hi
  have := tendsto_pi_nhds.1 hconv i
  exact this.congr fun n => hxi n i hi

end Real

end Mythical.Cluster
