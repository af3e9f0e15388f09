import Verif.Lemmas.ClusterLimit
import Verif.Props.ClusterRounds
import Mathlib.Analysis.Real.Sqrt

/-! # The occupation probabilities converge (C68) -/

set_option linter.unusedSectionVars false
set_option linter.unusedVariables false

namespace Mythical
open Cluster ClusterSpec Filter Topology
variable {mem : Addr → ℝ} {c : Cluster ℝ}

/-- A round that changes nothing is the last one that changes anything: the distribution is stationary. -/
theorem Cluster.stationary_of_change {m : Nat} {κ : ℝ} (R : Rising mem c m κ) {n : Nat} (h : change mem c n = 0) :
    Stationary mem c (rounds mem c n) ∧ ∀ i ∈ ids c, rounds mem c (n + 1) i = rounds mem c n i := by
  have h2 : ∀ i ∈ ids c, rounds mem c (n + 1) i = rounds mem c n i := by
    intro i hi
    have := (Finset.sum_eq_zero_iff_of_nonneg fun i _ => sq_nonneg _).1 h i hi
    rw [sq_eq_zero_iff] at this
    linarith
  refine ⟨⟨R.pos n, R.one n, fun i hi => ?_⟩, h2⟩
  have := h2 i hi
  rw [show rounds mem c (n + 1) i = (rounds mem c n i + afterHop mem c (rounds mem c n) i) / 2 from rfl] at this
  linarith

/-- **C68.** A connected cluster of at least two sites has exactly one stationary distribution: the one that is the same
after a hop that does not leave the cluster. The occupation probabilities after an update are as close to it as desired, if
the number of iterations is large enough or the tolerance is small enough. -/
theorem C68 (hs : Sound mem c) (hm : Mutual mem c) (hc : Connected mem c) (h1 : 1 < (ids c).card) :
    ∃ p, Stationary mem c p ∧ (∀ q, Stationary mem c q → ∀ i ∈ ids c, q i = p i) ∧
      ∀ ε > 0, ∃ N : Int, ∃ δ > 0, ∀ (env : Env ℝ) (id : Int) (evs : List (Cluster.Event ℝ)) (d d' : Cluster ℝ),
        Trace env (Cluster.new id) evs d → d.sites = c.sites → d.update env mem = (.ok (), d') →
        ((settingsOf evs).method ≠ .tolerance ∧ N ≤ (settingsOf evs).rounds) ∨
          ((settingsOf evs).method = .tolerance ∧ 0 < (settingsOf evs).tolerance ∧ (settingsOf evs).tolerance ≤ δ) →
        ∀ i ∈ ids c, |occ d' i - p i| < ε := by
  obtain ⟨p, hp, hlim⟩ := rounds_converge hs hm hc h1
  have hne : (ids c).Nonempty := Finset.card_pos.1 (by omega)
  have hl := linked_of_connected hm hs.wf (by rw [← card_ids hs.wf]; exact h1) hc
  have huniq : ∀ q, Stationary mem c q → ∀ i ∈ ids c, q i = p i := by
    intro q hq
    obtain ⟨ρ, hρ, e1⟩ := Stationary.eigen hs hm hl hne hp
    obtain ⟨σ, hσ, e2⟩ := Stationary.eigen hs hm hl hne hq
    exact eigen_unique hs hc hne hρ hσ hp.pos hq.pos e1 e2 hp.one hq.one
  refine ⟨p, hp, huniq, fun ε hε => ?_⟩
  obtain ⟨M, hM⟩ : ∃ M, ∀ n ≥ M, ∀ i ∈ ids c, |rounds mem c n i - p i| < ε := by
    have : ∀ i ∈ ids c, ∀ᶠ n in atTop, |rounds mem c n i - p i| < ε := fun i hi => by
      have := (Metric.tendsto_nhds.1 (hlim i hi)) ε hε
      simpa only [Real.dist_eq] using this
    exact eventually_atTop.1 ((eventually_all_finset (ids c)).2 this)
  obtain ⟨m, κ, R⟩ := rising hs hm hc h1
  obtain ⟨δ, hδ, hδ1, hδM⟩ := exists_lower ((Finset.range M).filter fun n => change mem c n ≠ 0) (change mem c) (by
    intro n hn
    rw [Finset.mem_filter] at hn
    exact lt_of_le_of_ne (Finset.sum_nonneg fun i _ => sq_nonneg _) hn.2.symm)
  refine ⟨M, δ / 2, by linarith, ?_⟩
  intro env id evs d d' ht e hu hset i hi
  have hi' : i ∈ ids d := by rw [ids_congr e]; exact hi
  obtain ⟨r1, r2, r3⟩ := C67 ht (hs.congr e) (Mutual.congr e hm) hu
  rw [rounds_congr e] at r1 r2
  rcases hset with ⟨hmeth, hN⟩ | ⟨hmeth, htol, hle⟩
  · have hN' : M ≤ (settingsOf evs).rounds.toNat := by omega
    cases hq : (settingsOf evs).method with
    | tolerance => exact absurd hq hmeth
    | iterationsPerCluster => rw [r1 hq i hi']; exact hM _ hN' i hi
    | iterationsPerSite =>
      rw [r2 hq i hi']
      refine hM _ ?_ i hi
      rw [ids_congr e]
      exact hN'.trans (Nat.le_mul_of_pos_right _ (by omega))
  · obtain ⟨N, hN1, hN2, -⟩ := r3 hmeth htol
    rw [hN1 i hi', rounds_congr e]
    by_cases hMN : M ≤ N
    · exact hM _ (by omega) i hi
    · have hch : change mem d N = change mem c N := by
        unfold change; rw [ids_congr e, rounds_congr e, rounds_congr e]
      rw [hch] at hN2
      have h0 : change mem c N = 0 := by
        by_contra hcon
        have := hδM N (by rw [Finset.mem_filter, Finset.mem_range]; exact ⟨by omega, hcon⟩)
        nlinarith
      obtain ⟨hst, hsame⟩ := stationary_of_change R h0
      rw [hsame i hi, huniq _ hst i hi, sub_self, abs_zero]
      exact hε

/-! ## A concrete cluster -/

/-- Two sites with rates 1 between them and from the first to a site outside. -/
noncomputable def realSites : List (Site ℝ) :=
  [⟨1, 0, 0, 1 / 2, unassignedId, [(2, 0), (3, 1)], [(2, 1 / 2), (3, 1 / 2)], none⟩,
    ⟨2, 0, 0, 1, unassignedId, [(1, 2)], [(1, 1)], none⟩]

/-- The cluster of these sites. -/
noncomputable def realC : Cluster ℝ :=
  { (Cluster.new 0 : Cluster ℝ) with
    sites := [(1, ⟨1, 0, 0, 1 / 2, 0, [(2, 0), (3, 1)], [(2, 1 / 2), (3, 1 / 2)], none⟩),
      (2, ⟨2, 0, 0, 1, 0, [(1, 2)], [(1, 1)], none⟩)] }

theorem realC_trace (env : Env ℝ) : Trace env (Cluster.new 0) [⟨Cluster.new 0, .addSites realSites, .ok .unit⟩] realC :=
  .cons (fun _ => 1) rfl trivial (.nil _)

theorem realC_ids : ids realC = {1, 2} := by decide

theorem realC_sound : Sound (fun _ => 1) realC := by
  refine sound_of (by decide) ?_
  intro is his
  simp only [realC, List.mem_cons, List.not_mem_nil, or_false] at his
  rcases his with rfl | rfl
  · refine ⟨by decide, by simp, ?_, ?_, ?_⟩ <;> norm_num [Site.sumRates]
  · refine ⟨by decide, by simp, ?_, ?_, ?_⟩ <;> norm_num [Site.sumRates]

theorem realC_rates : rate (fun _ => (1 : ℝ)) realC 1 2 = 1 ∧ rate (fun _ => (1 : ℝ)) realC 2 1 = 1 ∧
    rate (fun _ => (1 : ℝ)) realC 1 3 = 1 ∧ rate (fun _ => (1 : ℝ)) realC 1 1 = 0 ∧ rate (fun _ => (1 : ℝ)) realC 2 2 = 0 :=
  ⟨rfl, rfl, rfl, rfl, rfl⟩

theorem realC_mutual : Mutual (fun _ => (1 : ℝ)) realC := by
  obtain ⟨a, b, -, d, e⟩ := realC_rates
  intro i hi j hj h
  rw [realC_ids, Finset.mem_insert, Finset.mem_singleton] at hi hj
  rcases hi with rfl | rfl <;> rcases hj with rfl | rfl
  · exact h
  · rw [b]; exact one_pos
  · rw [a]; exact one_pos
  · exact h

theorem realC_connected : Connected (fun _ => (1 : ℝ)) realC := by
  obtain ⟨a, b, -, -, -⟩ := realC_rates
  intro i hi j hj
  have h1 : (1 : Int) ∈ ids realC := by rw [realC_ids]; decide
  have h2 : (2 : Int) ∈ ids realC := by rw [realC_ids]; decide
  rw [realC_ids, Finset.mem_insert, Finset.mem_singleton] at hi hj
  rcases hi with rfl | rfl <;> rcases hj with rfl | rfl
  · exact .refl _
  · exact .step (.refl _) h2 (by rw [a]; exact one_pos)
  · exact .step (.refl _) h1 (by rw [b]; exact one_pos)
  · exact .refl _

/-- Any environment with descending sorts. -/
noncomputable def realEnv (n : Nat) : Env ℝ where
  sort := {
    f := List.insertionSort fun x y => y.2 ≤ x.2
    perm := List.perm_insertionSort _
    desc := fun l => by
      have : Std.Total fun x y : Int × ℝ => y.2 ≤ x.2 := ⟨fun a b => le_total b.2 a.2⟩
      have : IsTrans (Int × ℝ) fun x y => y.2 ≤ x.2 := ⟨fun _ _ _ h1 h2 => h2.trans h1⟩
      exact List.pairwise_insertionSort _ l }
  fuel := n

/-- The hypotheses of C68 on this cluster. Its stationary distribution is `2 - √2` and `√2 - 1`: no finite number of
rounds reaches it. With enough fuel an update of this cluster returns. -/
example : Sound (fun _ => 1) realC ∧ Mutual (fun _ => (1 : ℝ)) realC ∧ Connected (fun _ => (1 : ℝ)) realC ∧
    1 < (ids realC).card ∧
    Stationary (fun _ => 1) realC (fun i => if i = 1 then 2 - √2 else √2 - 1) ∧
    ∃ env d', Trace env (Cluster.new 0) [⟨Cluster.new 0, .addSites realSites, .ok .unit⟩] realC ∧
      realC.update env (fun _ => 1) = (.ok (), d') := by
  have hcard : 1 < (ids realC).card := by rw [realC_ids]; decide
  refine ⟨realC_sound, realC_mutual, realC_connected, hcard, ?_, ?_⟩
  · have hq : √2 * √2 = (2 : ℝ) := Real.mul_self_sqrt (by norm_num)
    have h1 : (1 : ℝ) < √2 := by nlinarith [Real.sqrt_nonneg 2]
    have h2 : √2 < (2 : ℝ) := by nlinarith [Real.sqrt_nonneg 2]
    obtain ⟨a, b, f, d, e⟩ := realC_rates
    have hre : reach realC = {1, 2, 3} := by decide
    have o1 : outRate (fun _ => (1 : ℝ)) realC 1 = 2 := by
      unfold outRate
      rw [hre, Finset.sum_insert (by decide), Finset.sum_insert (by decide), Finset.sum_singleton, d, a, f]
      norm_num
    have o2 : outRate (fun _ => (1 : ℝ)) realC 2 = 1 := by
      unfold outRate
      rw [hre, Finset.sum_insert (by decide), Finset.sum_insert (by decide), Finset.sum_singleton, b, e,
        show rate (fun _ => (1 : ℝ)) realC 2 3 = 0 from rfl]
      norm_num
    refine ⟨?_, ?_, ?_⟩
    · rw [realC_ids]
      intro i hi
      rw [Finset.mem_insert, Finset.mem_singleton] at hi
      rcases hi with rfl | rfl
      · rw [if_pos rfl]; linarith
      · rw [if_neg (by decide)]; linarith
    · rw [realC_ids]
      norm_num
    · intro i hi
      unfold afterHop hopProb
      rw [realC_ids] at hi ⊢
      simp only [Finset.sum_insert (show (1 : Int) ∉ ({2} : Finset Int) by decide), Finset.sum_singleton, a, b, d, e, o1, o2]
      rw [Finset.mem_insert, Finset.mem_singleton] at hi
      have hne : (2 - √2) * (0 / 2) + (√2 - 1) * (1 / 1) + ((2 - √2) * (1 / 2) + (√2 - 1) * (0 / 1)) ≠ (0 : ℝ) := by
        intro h; nlinarith
      rcases hi with rfl | rfl
      · simp only [b, d, if_pos, if_neg (show ¬ (2 : Int) = 1 by decide)]
        rw [div_eq_iff hne]
        nlinarith
      · simp only [a, e, if_pos, if_neg (show ¬ (2 : Int) = 1 by decide)]
        rw [div_eq_iff hne]
        nlinarith
  · obtain ⟨N, hN⟩ := C46_terminates (realC_trace (realEnv 0)) realC_sound realC_mutual hcard realC_connected
      (show (0 : ℝ) < 1 / 100 by norm_num)
    obtain ⟨d', hd'⟩ := (hN (realEnv N) le_rfl).2
      ⟨1, by rw [realC_ids]; decide, 3, by rw [realC_ids]; decide, by rw [realC_rates.2.2.1]; exact one_pos⟩
      (fun i hi => by cases hi)
    exact ⟨realEnv N, d', realC_trace _, hd'⟩

end Mythical
