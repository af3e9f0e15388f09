import Verif.Lemmas.ClusterWalk
import Verif.Props.ClusterLimit
import Verif.Props.ClusterPick

/-! # A converged cluster stands for the hopping inside it (C76) -/

set_option linter.unusedSectionVars false
set_option linter.unusedVariables false

namespace Mythical
open Cluster ClusterSpec SiteSpec Filter Topology
variable {mem : Addr → ℝ} {c : Cluster ℝ}

/-- **C76** (the walk). A walker that starts with the stationary distribution of a connected cluster with an exit leaves it
with probability one, and it leaves to every neighbour with positive probability, after a finite mean time. -/
theorem C76_walk (hs : Sound mem c) (hm : Mutual mem c) (hc : Connected mem c) (hx : HasExit mem c) (h1 : 1 < (ids c).card) :
    ∃ p exit time, Walk mem c p exit time ∧ ∑ n ∈ exits c, exit n = 1 ∧ (∀ n ∈ exits c, 0 < exit n) ∧
      ∀ i ∈ ids c, 0 < time i := by
  obtain ⟨p, hp, -⟩ := C68 hs hm hc h1
  have hne : (ids c).Nonempty := Finset.card_pos.1 (by omega)
  have hl := linked_of_connected hm hs.wf (by rw [← card_ids hs.wf]; exact h1) hc
  obtain ⟨L, h0, hL, e, he⟩ := Stationary.hold hs hm hl hx hne hp
  refine ⟨p, _, _, ⟨hp, fun n _ => hasSum_leavesTo h0 hL he n, fun i hi => hasSum_timeAt h0 hL he hi⟩, ?_, fun n hn => ?_,
    fun i hi => ?_⟩
  · rw [← Finset.sum_div, sum_leave, ← e, div_self h0.ne']
  · obtain ⟨-, i, hi, hr⟩ := hs.mem_exits.1 hn
    refine div_pos (Finset.sum_pos' (fun k hk => mul_nonneg (hp.pos k hk).le (hs.hopProb_nonneg k n))
      ⟨i, hi, mul_pos (hp.pos i hi) ((hs.hopProb_pos_iff hi n).2 hr)⟩) h0
  · exact div_pos (mul_pos (hp.pos i hi) (hs.siteTime_pos hi)) h0

/-- **C76** (what the cluster says). With enough iterations or a small enough tolerance, the probabilities of hopping to the
neighbours that a cluster reports after an update are as close as desired to those with which the walker leaves to them. -/
theorem C76_exits (hs : Sound mem c) (hm : Mutual mem c) (hc : Connected mem c) (hx : HasExit mem c) (h1 : 1 < (ids c).card)
    {p exit time : Int → ℝ} (hw : Walk mem c p exit time) :
    ∀ ε > 0, ∃ N : Int, ∃ δ > 0, ∀ (env : Env ℝ) (id : Int) (evs : List (Cluster.Event ℝ)) (d d' : Cluster ℝ),
      Trace env (Cluster.new id) evs d → d.sites = c.sites → d.update env mem = (.ok (), d') → Asks N δ evs →
      ∀ n ∈ exits c, ∃ q, d'.getProbabilityOfHoppingToNeighbor n = .ok q ∧ |q - exit n| < ε := by
  intro ε hε
  have hne : (ids c).Nonempty := Finset.card_pos.1 (by omega)
  have hl := linked_of_connected hm hs.wf (by rw [← card_ids hs.wf]; exact h1) hc
  obtain ⟨L, h0, hL, e, he⟩ := Stationary.hold hs hm hl hx hne hw.start
  have hex : ∀ n ∈ exits c, exit n = (∑ i ∈ ids c, p i * hopProb mem c i n) /
      ∑ i ∈ ids c, p i * (exitRate mem c i / outRate mem c i) := by
    intro n hn
    rw [← e]
    exact (hw.exit n hn).unique (hasSum_leavesTo h0 hL he n)
  obtain ⟨p', hp', huniq, hlim⟩ := C68 hs hm hc h1
  have hall : ∃ η > 0, ∀ n ∈ exits c, ∀ q : Int → ℝ, (∀ i ∈ ids c, |q i - p i| < η) →
      |(∑ i ∈ ids c, q i * hopProb mem c i n) / (∑ i ∈ ids c, q i * (exitRate mem c i / outRate mem c i)) - exit n| < ε := by
    have hb : ∑ i ∈ ids c, p i * (exitRate mem c i / outRate mem c i) ≠ 0 := by rw [← e]; exact h0.ne'
    choose η hη h using fun n => ratio_close (ids c) (fun i => hopProb mem c i n)
      (fun i => exitRate mem c i / outRate mem c i) p hb hε
    obtain ⟨m, hm0, hmle, hm1⟩ := exists_lower (exits c) η fun n _ => hη n
    exact ⟨m, hm0, fun n hn q hq => by
      rw [hex n hn]; exact h n q fun i hi => (hq i hi).trans_le (hm1 n hn)⟩
  obtain ⟨η, hη, hall⟩ := hall
  obtain ⟨N, δ, hδ, hN⟩ := hlim η hη
  refine ⟨N, δ, hδ, fun env id evs d d' ht ed hu hask n hn => ?_⟩
  have hclose := hN env id evs d d' ht ed hu hask
  obtain ⟨e', -⟩ := after_update ht (hs.congr ed) (Mutual.congr ed hm) hu
  have e2 : d'.sites = c.sites := e'.trans ed
  obtain ⟨-, h3, h4, -⟩ := C38_exits ht (hs.congr ed) (Mutual.congr ed hm) (hx.congr ed) hu
  obtain ⟨q, hq, -, hqe⟩ := h4 n ((h3 n).2 (by rw [ids_congr e2, rate_congr e2]; exact hs.mem_exits.1 hn))
  refine ⟨q, hq, ?_⟩
  have := hall n hn (occ d') (fun i hi => by rw [← huniq p hw.start i hi |>.symm]; exact hclose i hi)
  rw [hqe]
  unfold leaveProb
  rw [ids_congr e2, hopProb_congr e2, outRate_congr e2, exitRate_congr e2]
  exact this

/-- **C76** (what the cluster does). After the first update, with enough iterations or a small enough tolerance, a walker whose time
is up is released to each neighbour for draws that form an interval whose length is as close as desired to the probability of
leaving to it, and a walker with time left is put on each site for draws that form an interval whose length is as close as desired
to the share of the site in the time spent in the cluster. -/
theorem C76_picks (hs : Sound mem c) (hm : Mutual mem c) (hc : Connected mem c) (hx : HasExit mem c) (h1 : 1 < (ids c).card)
    {p exit time : Int → ℝ} (hw : Walk mem c p exit time) :
    ∀ ε > 0, ∃ N : Int, ∃ δ > 0, ∀ (env : Env ℝ) (id : Int) (evs evs' : List (Cluster.Event ℝ)) (d d1 d2 : Cluster ℝ) (w : Int) (r : ℝ),
      Trace env (Cluster.new id) evs d → NotUpdated evs → d.sites = c.sites → d.update env mem = (.ok (), d1) → Asks N δ evs →
      Trace env d1 evs' d2 → d2.remaining.get? w = some r →
      (r ≤ 0 → ∀ n ∈ exits c, ∃ lo hi : ℝ, 0 ≤ lo ∧ hi ≤ 1 ∧ |hi - lo - exit n| < ε ∧
        ∀ u, Draw u → ((∃ d3, d2.pickNewSiteId w u = .ok (n, d3)) ↔ lo ≤ u ∧ u < hi)) ∧
      (0 < r → ∀ i ∈ ids c, ∃ lo hi : ℝ, 0 ≤ lo ∧ hi ≤ 1 ∧ |hi - lo - time i / ∑ k ∈ ids c, time k| < ε ∧
        ∀ u, Draw u → ((∃ d3, d2.pickNewSiteId w u = .ok (i, d3)) ↔ lo ≤ u ∧ u < hi)) := by
  intro ε hε
  have hne : (ids c).Nonempty := Finset.card_pos.1 (by omega)
  have hl := linked_of_connected hm hs.wf (by rw [← card_ids hs.wf]; exact h1) hc
  obtain ⟨L, h0, hL, e, he⟩ := Stationary.hold hs hm hl hx hne hw.start
  have htime : ∀ i ∈ ids c, time i = p i * siteTime mem c i / L := fun i hi =>
    (hw.time i hi).unique (hasSum_timeAt h0 hL he hi)
  have hmean : 0 < ∑ i ∈ ids c, p i * siteTime mem c i :=
    Finset.sum_pos (fun i hi => mul_pos (hw.start.pos i hi) (hs.siteTime_pos hi)) hne
  have hshare : ∀ i ∈ ids c, time i / ∑ k ∈ ids c, time k =
      (∑ k ∈ ids c, p k * if k = i then siteTime mem c k else 0) / ∑ k ∈ ids c, p k * siteTime mem c k := by
    intro i hi
    rw [Finset.sum_congr rfl htime, ← Finset.sum_div, htime i hi, div_div_div_cancel_right₀ h0.ne']
    congr 1
    rw [Finset.sum_congr rfl fun k _ => mul_ite _ _ _ _, Finset.sum_congr rfl (g := fun k =>
      if k = i then p k * siteTime mem c k else 0) fun k _ => by rw [mul_zero], Finset.sum_ite_eq' , if_pos hi]
  obtain ⟨p', hp', huniq, hlim⟩ := C68 hs hm hc h1
  have hall : ∃ η > 0, ∀ i ∈ ids c, ∀ q : Int → ℝ, (∀ i ∈ ids c, |q i - p i| < η) →
      |q i * siteTime mem c i / (∑ k ∈ ids c, q k * siteTime mem c k) - time i / ∑ k ∈ ids c, time k| < ε := by
    choose η hη h using fun i => ratio_close (ids c) (fun k => if k = i then siteTime mem c k else 0)
      (siteTime mem c) p hmean.ne' hε
    obtain ⟨m, hm0, hmle, hm1⟩ := exists_lower (ids c) η fun n _ => hη n
    refine ⟨m, hm0, fun i hi q hq => ?_⟩
    rw [hshare i hi]
    have := h i q fun k hk => (hq k hk).trans_le (hm1 i hi)
    rwa [Finset.sum_congr rfl fun k _ => mul_ite _ _ _ _, Finset.sum_congr rfl (g := fun k =>
      if k = i then q k * siteTime mem c k else 0) fun k _ => by rw [mul_zero], Finset.sum_ite_eq', if_pos hi] at this
  obtain ⟨η, hη, hall⟩ := hall
  obtain ⟨N1, δ1, hδ1, hN1⟩ := hlim η hη
  obtain ⟨N2, δ2, hδ2, hN2⟩ := C76_exits hs hm hc hx h1 hw ε hε
  refine ⟨max N1 N2, min δ1 δ2, lt_min hδ1 hδ2, fun env id evs evs' d d1 d2 w r ht hn ed hu hask ht' hr => ?_⟩
  have ask1 : Asks N1 δ1 evs := hask.imp (fun h => ⟨h.1, (le_max_left _ _).trans h.2⟩)
    fun h => ⟨h.1, h.2.1, h.2.2.trans (min_le_left _ _)⟩
  have ask2 : Asks N2 δ2 evs := hask.imp (fun h => ⟨h.1, (le_max_right _ _).trans h.2⟩)
    fun h => ⟨h.1, h.2.1, h.2.2.trans (min_le_right _ _)⟩
  obtain ⟨e', -⟩ := after_update ht (hs.congr ed) (Mutual.congr ed hm) hu
  have e2 : d1.sites = c.sites := e'.trans ed
  obtain ⟨hin, hout⟩ := C40_partial ht hn (hs.congr ed) (Mutual.congr ed hm) (hx.congr ed) hu ht' hr
  constructor
  · intro h n hn
    obtain ⟨q, hq, hclose⟩ := hN2 env id evs d d1 ht ed hu ask2 n hn
    obtain ⟨-, h3, -⟩ := C38_exits ht (hs.congr ed) (Mutual.congr ed hm) (hx.congr ed) hu
    obtain ⟨lo, hi, l0, l1, -, l2, l3⟩ := hout h n
      ((h3 n).2 (by rw [ids_congr e2, rate_congr e2]; exact hs.mem_exits.1 hn))
    rw [hq, Except.ok.injEq] at l2
    exact ⟨lo, hi, l0, l1, by rw [← l2]; exact hclose, l3⟩
  · intro h i hi
    obtain ⟨lo, hi', l0, l1, -, l2, l3⟩ := hin h i (by rw [ids_congr e2]; exact hi)
    refine ⟨lo, hi', l0, l1, ?_, l3⟩
    rw [l2]
    unfold meanTime
    rw [ids_congr e2, siteTime_congr e2]
    exact hall i hi (occ d1) fun k hk => by rw [huniq p hw.start k hk]; exact hN1 env id evs d d1 ht ed hu ask1 k hk

/-- **C76** (the mean time). With enough iterations or a small enough tolerance, the quotient of the mean time per hop and the
probability of leaving per hop for the occupation probabilities after an update, which C41 asks for, is as close as desired to the
mean time after which the walker leaves. -/
theorem C76_time (hs : Sound mem c) (hm : Mutual mem c) (hc : Connected mem c) (hx : HasExit mem c) (h1 : 1 < (ids c).card)
    {p exit time : Int → ℝ} (hw : Walk mem c p exit time) :
    ∀ ε > 0, ∃ N : Int, ∃ δ > 0, ∀ (env : Env ℝ) (id : Int) (evs : List (Cluster.Event ℝ)) (d d' : Cluster ℝ),
      Trace env (Cluster.new id) evs d → d.sites = c.sites → d.update env mem = (.ok (), d') → Asks N δ evs →
      |meanTime mem d' / leaveProb mem d' - ∑ i ∈ ids c, time i| < ε := by
  intro ε hε
  have hne : (ids c).Nonempty := Finset.card_pos.1 (by omega)
  have hl := linked_of_connected hm hs.wf (by rw [← card_ids hs.wf]; exact h1) hc
  obtain ⟨L, h0, hL, e, he⟩ := Stationary.hold hs hm hl hx hne hw.start
  have htime : ∑ i ∈ ids c, time i = (∑ i ∈ ids c, p i * siteTime mem c i) /
      ∑ i ∈ ids c, p i * (exitRate mem c i / outRate mem c i) := by
    rw [← e, Finset.sum_div]
    exact Finset.sum_congr rfl fun i hi => (hw.time i hi).unique (hasSum_timeAt h0 hL he hi)
  obtain ⟨p', hp', huniq, hlim⟩ := C68 hs hm hc h1
  obtain ⟨η, hη, hall⟩ := ratio_close (ids c) (siteTime mem c) (fun i => exitRate mem c i / outRate mem c i) p
    (by rw [← e]; exact h0.ne') hε
  obtain ⟨N, δ, hδ, hN⟩ := hlim η hη
  refine ⟨N, δ, hδ, fun env id evs d d' ht ed hu hask => ?_⟩
  have hclose := hN env id evs d d' ht ed hu hask
  obtain ⟨e', -⟩ := after_update ht (hs.congr ed) (Mutual.congr ed hm) hu
  have e2 : d'.sites = c.sites := e'.trans ed
  rw [htime]
  unfold meanTime leaveProb
  rw [ids_congr e2, siteTime_congr e2, outRate_congr e2, exitRate_congr e2]
  exact hall (occ d') fun i hi => by rw [huniq p hw.start i hi]; exact hclose i hi

/-! ## A concrete cluster -/

/-- Two sites with rates 1 between them and from each to a site outside. -/
noncomputable def pairSites : List (Site ℝ) :=
  [⟨1, 0, 0, 1 / 2, unassignedId, [(2, 0), (3, 1)], [(2, 1 / 2), (3, 1 / 2)], none⟩,
    ⟨2, 0, 0, 1 / 2, unassignedId, [(1, 2), (4, 3)], [(1, 1 / 2), (4, 1 / 2)], none⟩]

/-- The cluster of these sites. -/
noncomputable def pairC : Cluster ℝ :=
  { (Cluster.new 0 : Cluster ℝ) with
    sites := [(1, ⟨1, 0, 0, 1 / 2, 0, [(2, 0), (3, 1)], [(2, 1 / 2), (3, 1 / 2)], none⟩),
      (2, ⟨2, 0, 0, 1 / 2, 0, [(1, 2), (4, 3)], [(1, 1 / 2), (4, 1 / 2)], none⟩)] }

theorem pairC_trace (env : Env ℝ) : Trace env (Cluster.new 0) [⟨Cluster.new 0, .addSites pairSites, .ok .unit⟩] pairC :=
  .cons (fun _ => 1) rfl trivial (.nil _)

theorem pairC_ids : ids pairC = {1, 2} := by decide

theorem pairC_exits : exits pairC = {3, 4} := by decide

theorem pairC_sound : Sound (fun _ => 1) pairC := by
  refine sound_of (by decide) ?_
  intro is his
  simp only [pairC, List.mem_cons, List.not_mem_nil, or_false] at his
  rcases his with rfl | rfl
  · refine ⟨by decide, by simp, ?_, ?_, ?_⟩ <;> norm_num [Site.sumRates]
  · refine ⟨by decide, by simp, ?_, ?_, ?_⟩ <;> norm_num [Site.sumRates]

theorem pairC_rates : rate (fun _ => (1 : ℝ)) pairC 1 2 = 1 ∧ rate (fun _ => (1 : ℝ)) pairC 2 1 = 1 ∧
    rate (fun _ => (1 : ℝ)) pairC 1 3 = 1 ∧ rate (fun _ => (1 : ℝ)) pairC 2 3 = 0 ∧ rate (fun _ => (1 : ℝ)) pairC 1 1 = 0 ∧
    rate (fun _ => (1 : ℝ)) pairC 2 2 = 0 ∧ rate (fun _ => (1 : ℝ)) pairC 1 4 = 0 ∧ rate (fun _ => (1 : ℝ)) pairC 2 4 = 1 :=
  ⟨rfl, rfl, rfl, rfl, rfl, rfl, rfl, rfl⟩

theorem pairC_mutual : Mutual (fun _ => (1 : ℝ)) pairC := by
  obtain ⟨a, b, -⟩ := pairC_rates
  intro i hi j hj h
  rw [pairC_ids, Finset.mem_insert, Finset.mem_singleton] at hi hj
  rcases hi with rfl | rfl <;> rcases hj with rfl | rfl
  · exact h
  · rw [b]; exact one_pos
  · rw [a]; exact one_pos
  · exact h

theorem pairC_connected : Connected (fun _ => (1 : ℝ)) pairC := by
  obtain ⟨a, b, -⟩ := pairC_rates
  intro i hi j hj
  have h1 : (1 : Int) ∈ ids pairC := by rw [pairC_ids]; decide
  have h2 : (2 : Int) ∈ ids pairC := by rw [pairC_ids]; decide
  rw [pairC_ids, Finset.mem_insert, Finset.mem_singleton] at hi hj
  rcases hi with rfl | rfl <;> rcases hj with rfl | rfl
  · exact .refl _
  · exact .step (.refl _) h2 (by rw [a]; exact one_pos)
  · exact .step (.refl _) h1 (by rw [b]; exact one_pos)
  · exact .refl _

theorem pairC_hop : hopProb (fun _ => (1 : ℝ)) pairC 1 1 = 0 ∧ hopProb (fun _ => (1 : ℝ)) pairC 1 2 = 1 / 2 ∧
    hopProb (fun _ => (1 : ℝ)) pairC 2 1 = 1 / 2 ∧ hopProb (fun _ => (1 : ℝ)) pairC 2 2 = 0 ∧
    hopProb (fun _ => (1 : ℝ)) pairC 1 3 = 1 / 2 ∧ hopProb (fun _ => (1 : ℝ)) pairC 2 3 = 0 := by
  obtain ⟨a, b, f, g, d, e, k, l⟩ := pairC_rates
  have hre : reach pairC = {1, 2, 3, 4} := by decide
  have o1 : outRate (fun _ => (1 : ℝ)) pairC 1 = 2 := by
    unfold outRate
    rw [hre, Finset.sum_insert (by decide), Finset.sum_insert (by decide), Finset.sum_insert (by decide), Finset.sum_singleton,
      d, a, f, k]
    norm_num
  have o2 : outRate (fun _ => (1 : ℝ)) pairC 2 = 2 := by
    unfold outRate
    rw [hre, Finset.sum_insert (by decide), Finset.sum_insert (by decide), Finset.sum_insert (by decide), Finset.sum_singleton,
      b, e, g, l]
    norm_num
  unfold hopProb
  rw [o1, o2, a, b, d, e, f, g]
  norm_num

theorem pairC_exit : HasExit (fun _ => (1 : ℝ)) pairC :=
  ⟨1, by rw [pairC_ids]; decide, 3, by rw [pairC_ids]; decide, by rw [pairC_rates.2.2.1]; exact one_pos⟩

theorem pairC_sum (f : Int → ℝ) : ∑ n ∈ ids pairC, f n = f 1 + f 2 := by
  rw [pairC_ids, Finset.sum_insert (by decide), Finset.sum_singleton]

/-- The hypotheses of C76 on this cluster, with an update that returns. -/
example : Sound (fun _ => 1) pairC ∧ Mutual (fun _ => (1 : ℝ)) pairC ∧ Connected (fun _ => (1 : ℝ)) pairC ∧
    HasExit (fun _ => (1 : ℝ)) pairC ∧ 1 < (ids pairC).card ∧ (∃ p exit time, Walk (fun _ => 1) pairC p exit time) ∧
    ∃ env d', Trace env (Cluster.new 0) [⟨Cluster.new 0, .addSites pairSites, .ok .unit⟩] pairC ∧
      pairC.update env (fun _ => 1) = (.ok (), d') ∧ Asks 3 (1 / 100) [⟨Cluster.new 0, .addSites pairSites, .ok .unit⟩] := by
  have hcard : 1 < (ids pairC).card := by rw [pairC_ids]; decide
  obtain ⟨p, exit, time, hw, -⟩ := C76_walk pairC_sound pairC_mutual pairC_connected pairC_exit hcard
  refine ⟨pairC_sound, pairC_mutual, pairC_connected, pairC_exit, hcard, ⟨p, exit, time, hw⟩, ?_⟩
  obtain ⟨N, hN⟩ := C46_terminates (pairC_trace (realEnv 0)) pairC_sound pairC_mutual hcard pairC_connected
    (show (0 : ℝ) < 1 / 100 by norm_num)
  obtain ⟨d', hd'⟩ := (hN (realEnv N) le_rfl).2 pairC_exit (fun i hi => by cases hi)
  exact ⟨realEnv N, d', pairC_trace _, hd', .inl ⟨by decide, by decide⟩⟩

/-- A walker that has entered this cluster at site 1. -/
theorem pairC_inside (k : Nat) :
    inside (fun _ => (1 : ℝ)) pairC (fun i => if i = 1 then 1 else 0) (2 * k) 1 = (1 / 4) ^ k ∧
    inside (fun _ => (1 : ℝ)) pairC (fun i => if i = 1 then 1 else 0) (2 * k) 2 = 0 ∧
    inside (fun _ => (1 : ℝ)) pairC (fun i => if i = 1 then 1 else 0) (2 * k + 1) 1 = 0 ∧
    inside (fun _ => (1 : ℝ)) pairC (fun i => if i = 1 then 1 else 0) (2 * k + 1) 2 = (1 / 4) ^ k / 2 := by
  obtain ⟨a, b, d, e, -⟩ := pairC_hop
  have step : ∀ n i, inside (fun _ => (1 : ℝ)) pairC (fun i => if i = 1 then 1 else 0) (n + 1) i =
      inside (fun _ => (1 : ℝ)) pairC (fun i => if i = 1 then 1 else 0) n 1 * hopProb (fun _ => (1 : ℝ)) pairC 1 i +
      inside (fun _ => (1 : ℝ)) pairC (fun i => if i = 1 then 1 else 0) n 2 * hopProb (fun _ => (1 : ℝ)) pairC 2 i :=
    fun n i => pairC_sum _
  induction k with
  | zero =>
    rw [Nat.mul_zero, step, step, a, b, d, e]
    simp [inside]
  | succ k ih =>
    obtain ⟨-, -, i3, i4⟩ := ih
    have h1 : inside (fun _ => (1 : ℝ)) pairC (fun i => if i = 1 then 1 else 0) (2 * (k + 1)) 1 = (1 / 4) ^ (k + 1) := by
      rw [show 2 * (k + 1) = 2 * k + 1 + 1 by ring, step, i3, i4, d, pow_succ]; ring
    have h2 : inside (fun _ => (1 : ℝ)) pairC (fun i => if i = 1 then 1 else 0) (2 * (k + 1)) 2 = 0 := by
      rw [show 2 * (k + 1) = 2 * k + 1 + 1 by ring, step, i3, i4, e]; ring
    refine ⟨h1, h2, ?_, ?_⟩
    · rw [step, h1, h2, a]; ring
    · rw [step, h1, h2, b]; ring

theorem pairC_rounds (n : Nat) : ∀ i ∈ ids pairC, rounds (fun _ => (1 : ℝ)) pairC n i = 1 / 2 := by
  obtain ⟨a, b, d, e, -⟩ := pairC_hop
  have h1 : (1 : Int) ∈ ids pairC := by rw [pairC_ids]; decide
  have h2 : (2 : Int) ∈ ids pairC := by rw [pairC_ids]; decide
  induction n with
  | zero =>
    intro i _
    show 1 / ((ids pairC).card : ℝ) = 1 / 2
    rw [pairC_ids]
    norm_num
  | succ n ih =>
    have key : ∀ i ∈ ids pairC, ∑ m ∈ ids pairC, rounds (fun _ => (1 : ℝ)) pairC n m * hopProb (fun _ => (1 : ℝ)) pairC m i = 1 / 4 := by
      intro i hi
      rw [pairC_sum, ih 1 h1, ih 2 h2]
      rw [pairC_ids, Finset.mem_insert, Finset.mem_singleton] at hi
      rcases hi with rfl | rfl
      · rw [a, d]; norm_num
      · rw [b, e]; norm_num
    intro i hi
    show (rounds _ pairC n i + afterHop _ pairC (rounds _ pairC n) i) / 2 = 1 / 2
    unfold afterHop
    rw [ih i hi, key i hi, Finset.sum_congr rfl key, pairC_sum]
    norm_num

/-- **C76** (where the start matters). The walker does not start with the stationary distribution when it enters a cluster: if it
enters this one at site 1, it leaves to site 3, next to site 1, with probability 2/3. The cluster reports 1/2 after every update. -/
theorem C76_entry : HasSum (leavesTo (fun _ => (1 : ℝ)) pairC (fun i => if i = 1 then 1 else 0) 3) (2 / 3) ∧
    ∀ (env : Env ℝ) (id : Int) (evs : List (Cluster.Event ℝ)) (d d' : Cluster ℝ), Trace env (Cluster.new id) evs d →
      d.sites = pairC.sites → d.update env (fun _ => 1) = (.ok (), d') → 0 < (settingsOf evs).tolerance →
      d'.getProbabilityOfHoppingToNeighbor 3 = .ok (1 / 2) := by
  obtain ⟨a, b, d0, e, f, g⟩ := pairC_hop
  constructor
  · have hl : ∀ k, leavesTo (fun _ => (1 : ℝ)) pairC (fun i => if i = 1 then 1 else 0) 3 k =
        inside (fun _ => (1 : ℝ)) pairC (fun i => if i = 1 then 1 else 0) k 1 / 2 := by
      intro k
      unfold leavesTo
      rw [pairC_sum, f, g]
      ring
    have h1 : HasSum (fun k => leavesTo (fun _ => (1 : ℝ)) pairC (fun i => if i = 1 then 1 else 0) 3 (2 * k)) (2 / 3) := by
      have := (hasSum_geometric_of_lt_one (r := (1 / 4 : ℝ)) (by norm_num) (by norm_num)).mul_right (1 / 2)
      have e2 : (1 - (1 / 4 : ℝ))⁻¹ * (1 / 2) = 2 / 3 := by norm_num
      rw [e2] at this
      have e3 : (fun k => leavesTo (fun _ => (1 : ℝ)) pairC (fun i => if i = 1 then 1 else 0) 3 (2 * k)) =
          fun k => (1 / 4 : ℝ) ^ k * (1 / 2) := by
        funext k
        rw [hl, (pairC_inside k).1]
        ring
      rw [e3]
      exact this
    have h2 : HasSum (fun k => leavesTo (fun _ => (1 : ℝ)) pairC (fun i => if i = 1 then 1 else 0) 3 (2 * k + 1)) 0 := by
      have e3 : (fun k => leavesTo (fun _ => (1 : ℝ)) pairC (fun i => if i = 1 then 1 else 0) 3 (2 * k + 1)) = fun _ => 0 := by
        funext k
        rw [hl, (pairC_inside k).2.2.1, zero_div]
      rw [e3]
      exact hasSum_zero
    have := h1.even_add_odd h2
    rwa [add_zero] at this
  · intro env id evs d d' ht ed hu htol
    have hs := pairC_sound.congr ed
    have hm := Mutual.congr ed pairC_mutual
    obtain ⟨r1, r2, r3⟩ := C67 ht hs hm hu
    have hocc : ∀ i ∈ ids pairC, occ d' i = 1 / 2 := by
      intro i hi
      have hi' : i ∈ ids d := by rw [ids_congr ed]; exact hi
      cases hq : (settingsOf evs).method with
      | iterationsPerCluster => rw [r1 hq i hi', rounds_congr ed]; exact pairC_rounds _ i hi
      | iterationsPerSite => rw [r2 hq i hi', rounds_congr ed]; exact pairC_rounds _ i hi
      | tolerance =>
        obtain ⟨N, hN, -⟩ := r3 hq htol
        rw [hN i hi', rounds_congr ed]; exact pairC_rounds _ i hi
    obtain ⟨e', -⟩ := after_update ht hs hm hu
    have e2 : d'.sites = pairC.sites := e'.trans ed
    have hx : (3 : Int) ∈ exits pairC := by rw [pairC_exits]; decide
    obtain ⟨n0, i0, j0, r0⟩ := pairC_sound.mem_exits.1 hx
    obtain ⟨-, h3, h4, -⟩ := C38_exits ht hs hm (HasExit.congr ed ⟨i0, j0, 3, n0, r0⟩) hu
    obtain ⟨q, hq, -, hqe⟩ := h4 3 ((h3 3).2 (by rw [ids_congr e2, rate_congr e2]; exact pairC_sound.mem_exits.1 hx))
    have h1 : (1 : Int) ∈ ids pairC := by rw [pairC_ids]; decide
    have h2 : (2 : Int) ∈ ids pairC := by rw [pairC_ids]; decide
    have ex1 : exitRate (fun _ => (1 : ℝ)) pairC 1 / outRate (fun _ => (1 : ℝ)) pairC 1 = 1 / 2 := by
      have : exitRate (fun _ => (1 : ℝ)) pairC 1 = 1 := by
        unfold exitRate
        rw [pairC_exits, Finset.sum_insert (by decide), Finset.sum_singleton, pairC_rates.2.2.1, pairC_rates.2.2.2.2.2.2.1, add_zero]
      rw [this]
      have h := f
      unfold hopProb at h
      rwa [pairC_rates.2.2.1] at h
    have ex2 : exitRate (fun _ => (1 : ℝ)) pairC 2 / outRate (fun _ => (1 : ℝ)) pairC 2 = 1 / 2 := by
      have : exitRate (fun _ => (1 : ℝ)) pairC 2 = 1 := by
        unfold exitRate
        rw [pairC_exits, Finset.sum_insert (by decide), Finset.sum_singleton, pairC_rates.2.2.2.1, pairC_rates.2.2.2.2.2.2.2, zero_add]
      rw [this]
      have h := d0
      unfold hopProb at h
      rwa [pairC_rates.2.1] at h
    rw [hq, hqe]
    unfold leaveProb
    rw [ids_congr e2, hopProb_congr e2, outRate_congr e2, exitRate_congr e2, pairC_sum, pairC_sum, hocc 1 h1, hocc 2 h2, f, g,
      ex1, ex2]
    norm_num

end Mythical
