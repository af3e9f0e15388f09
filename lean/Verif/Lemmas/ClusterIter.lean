import Verif.Spec.Cluster
import Verif.Lemmas.MapSum
import Mathlib.Algebra.Order.BigOperators.Group.Finset
import Mathlib.Algebra.Order.BigOperators.Ring.Finset
import Mathlib.Algebra.BigOperators.Field

/-! # Lemmas about the cluster: rates and one round of the master equation -/

set_option linter.unusedSectionVars false

namespace Mythical.Cluster
open Mythical ClusterSpec
variable {K : Type} [Field K] [LinearOrder K] [IsStrictOrderedRing K] [FloorRing K]
variable {mem : Addr → K} {c : Cluster K}

theorem mem_ids {i : Int} : i ∈ ids c ↔ ∃ s, c.sites.get? i = some s := by
  unfold ids; rw [List.mem_toFinset, IMap.mem_keys_iff_get?]

theorem siteIsIn_iff {i : Int} : c.siteIsInCluster i = true ↔ i ∈ ids c := by
  unfold siteIsInCluster ids; rw [IMap.has_iff, List.mem_toFinset]

theorem rate_of_site {i : Int} {s : Site K} (h : c.sites.get? i = some s) (j : Int) :
    rate mem c i j = ((s.neigh.get? j).map mem).getD 0 := by
  unfold rate; rw [h]; simp only; cases s.neigh.get? j <;> rfl

theorem rate_of_not_mem {i : Int} (h : i ∉ ids c) (j : Int) : rate mem c i j = 0 := by
  unfold rate
  cases e : c.sites.get? i with
  | none => rfl
  | some s => exact absurd (mem_ids.2 ⟨s, e⟩) h

theorem neigh_mem_reach {i : Int} {s : Site K} (h : c.sites.get? i = some s) {j : Int} (hj : j ∈ s.neigh.keys) :
    j ∈ reach c := by
  unfold reach
  rw [List.mem_toFinset, List.mem_flatMap]
  exact ⟨(i, s), IMap.mem_of_get? h, hj⟩

theorem sum_neigh_eq {i : Int} {s : Site K} (h : c.sites.get? i = some s) (hw : s.neigh.WF) (S : Finset Int)
    (hS : ∀ j ∈ s.neigh.keys, j ∈ S) (f : Int → K) :
    ∑ j ∈ S, rate mem c i j * f j = (s.neigh.map fun na => mem na.2 * f na.1).sum := by
  have h1 : (s.neigh.map fun na => mem na.2 * f na.1).sum = ∑ j ∈ s.neigh.keys.toFinset, rate mem c i j * f j := by
    apply IMap.sum_map_keys hw (fun k a => mem a * f k)
    intro k v hkv
    rw [rate_of_site h, IMap.get?_of_mem hw hkv]
    rfl
  rw [h1]
  symm
  apply Finset.sum_subset
  · intro j hj; exact hS j (List.mem_toFinset.1 hj)
  · intro j _ hj
    rw [List.mem_toFinset] at hj
    rw [rate_of_site h, IMap.get?_eq_none_iff.2 hj]
    simp

theorem outRate_eq {i : Int} {s : Site K} (h : c.sites.get? i = some s) (hw : s.neigh.WF) :
    outRate mem c i = s.sumRates mem := by
  have := sum_neigh_eq (mem := mem) h hw (reach c) (fun j hj => neigh_mem_reach h hj) (fun _ => 1)
  simp only [mul_one] at this
  unfold outRate
  rw [this, Site.sumRates_eq]

section Sound
variable (hs : Sound mem c)
include hs

theorem _root_.Mythical.ClusterSpec.Sound.outRate_pos {i : Int} (hi : i ∈ ids c) : 0 < outRate mem c i := by
  obtain ⟨s, h⟩ := mem_ids.1 hi
  rw [outRate_eq h (hs.neighWF i s h)]
  exact Site.sumRates_pos (hs.pos i s h) (hs.fresh i s h).ne_nil

theorem _root_.Mythical.ClusterSpec.Sound.rate_nonneg (i j : Int) : 0 ≤ rate mem c i j := by
  unfold rate
  split
  · exact le_refl _
  · next s h =>
    split
    · exact le_refl _
    · next a ha => exact (hs.pos i s h (j, a) (IMap.mem_of_get? ha)).le

theorem _root_.Mythical.ClusterSpec.Sound.rate_pos_iff {i : Int} {s : Site K} (h : c.sites.get? i = some s) (j : Int) :
    0 < rate mem c i j ↔ j ∈ s.neigh.keys := by
  rw [rate_of_site h, IMap.mem_keys_iff_get?]
  cases e : s.neigh.get? j with
  | none => simp
  | some a => simpa using hs.pos i s h (j, a) (IMap.mem_of_get? e)

theorem _root_.Mythical.ClusterSpec.Sound.mem_exits {j : Int} : j ∈ exits c ↔ j ∉ ids c ∧ ∃ i ∈ ids c, 0 < rate mem c i j := by
  unfold exits reach
  rw [Finset.mem_sdiff, List.mem_toFinset, List.mem_flatMap, and_comm]
  apply and_congr_right
  intro _
  constructor
  · rintro ⟨⟨i, s⟩, hm, hj⟩
    have h := IMap.get?_of_mem hs.wf hm
    exact ⟨i, mem_ids.2 ⟨s, h⟩, (hs.rate_pos_iff h j).2 hj⟩
  · rintro ⟨i, hi, hr⟩
    obtain ⟨s, h⟩ := mem_ids.1 hi
    exact ⟨(i, s), IMap.mem_of_get? h, (hs.rate_pos_iff h j).1 hr⟩

theorem _root_.Mythical.ClusterSpec.Sound.hopProb_nonneg (i j : Int) : 0 ≤ hopProb mem c i j := by
  unfold hopProb
  apply div_nonneg (hs.rate_nonneg i j)
  unfold outRate
  exact Finset.sum_nonneg fun k _ => hs.rate_nonneg i k

theorem _root_.Mythical.ClusterSpec.Sound.hopProb_pos_iff {i : Int} (hi : i ∈ ids c) (j : Int) : 0 < hopProb mem c i j ↔ 0 < rate mem c i j := by
  unfold hopProb
  exact div_pos_iff_of_pos_right (hs.outRate_pos hi)

theorem _root_.Mythical.ClusterSpec.Sound.sum_hopProb {i : Int} (hi : i ∈ ids c) : ∑ j ∈ reach c, hopProb mem c i j = 1 := by
  unfold hopProb
  rw [← Finset.sum_div]
  exact div_self (hs.outRate_pos hi).ne'

theorem _root_.Mythical.ClusterSpec.Sound.probabilityTo {i : Int} {s : Site K} (h : c.sites.get? i = some s) {j : Int} (hj : j ∈ s.neigh.keys) :
    s.probabilityTo j = .ok (hopProb mem c i j) := by
  obtain ⟨a, ha⟩ := IMap.mem_keys_iff_get?.1 hj
  unfold Site.probabilityTo
  rw [if_pos (IMap.has_iff.2 hj), (hs.fresh i s h).get? (hs.neighWF i s h), ha]
  unfold hopProb
  rw [rate_of_site h, ha, outRate_eq h (hs.neighWF i s h)]
  rfl

theorem _root_.Mythical.ClusterSpec.Sound.tau {i : Int} {s : Site K} (h : c.sites.get? i = some s) : s.tau = siteTime mem c i := by
  unfold siteTime
  rw [outRate_eq h (hs.neighWF i s h), (hs.fresh i s h).tau]

theorem _root_.Mythical.ClusterSpec.Sound.siteTime_pos {i : Int} (hi : i ∈ ids c) : 0 < siteTime mem c i := by
  unfold siteTime; exact one_div_pos.2 (hs.outRate_pos hi)

theorem _root_.Mythical.ClusterSpec.Sound.siteAt_tau {i : Int} (hi : i ∈ ids c) : (c.siteAt i).tau = siteTime mem c i := by
  obtain ⟨s, h⟩ := mem_ids.1 hi
  unfold siteAt
  rw [h]
  exact hs.tau h

/-- Inside plus outside rates are all rates. -/
theorem _root_.Mythical.ClusterSpec.Sound.inRate_add_exitRate {i : Int} (hi : i ∈ ids c) : inRate mem c i + exitRate mem c i = outRate mem c i := by
  have h1 : outRate mem c i = ∑ j ∈ reach c ∪ ids c, rate mem c i j := by
    unfold outRate
    apply Finset.sum_subset Finset.subset_union_left
    intro j _ hj
    obtain ⟨s, h⟩ := mem_ids.1 hi
    rw [rate_of_site h]
    cases e : s.neigh.get? j with
    | none => rfl
    | some a => exact absurd (neigh_mem_reach h (IMap.mem_keys_iff_get?.2 ⟨a, e⟩)) hj
  rw [h1]
  unfold inRate exitRate exits
  rw [← Finset.sdiff_union_of_subset (Finset.subset_union_right : ids c ⊆ reach c ∪ ids c),
    Finset.sum_union Finset.sdiff_disjoint, Finset.union_sdiff_right, add_comm]

/-- What one round of the master equation computes for a site: the probability flowing in from the cluster. -/
def inflow (mem : Addr → K) (c : Cluster K) (p : Int → K) (i : Int) : K := ∑ n ∈ ids c, hopProb mem c n i * p n

theorem iterSite_eq (hm : Mutual mem c) {i : Int} {s : Site K} (h : c.sites.get? i = some s) :
    c.iterSite i s = .ok (inflow mem c (fun n => c.probOn.at0 n) i) := by
  have hi : i ∈ ids c := mem_ids.2 ⟨s, h⟩
  have hw := hs.neighWF i s h
  have hstep : ∀ t : K, ∀ n ∈ s.getNeighborSiteIds, c.iterNeigh i s t n =
      .ok (t + ((if n ∈ ids c then hopProb mem c n i * c.probOn.at0 n else 0) -
        hopProb mem c i n * c.probOn.at0 i)) := by
    intro t n hn
    have hn : n ∈ s.neigh.keys := hn
    unfold iterNeigh
    rw [hs.probabilityTo h hn]
    cases e : c.sites.get? n with
    | none =>
      have : n ∉ ids c := fun hc => by obtain ⟨x, hx⟩ := mem_ids.1 hc; rw [e] at hx; cases hx
      rw [if_neg this]
      show Except.ok _ = _
      rw [ok_inj]; ring
    | some sn =>
      have hnc : n ∈ ids c := mem_ids.2 ⟨sn, e⟩
      rw [if_pos hnc]
      have hr : 0 < rate mem c n i := hm i hi n hnc ((hs.rate_pos_iff h n).2 hn)
      simp only
      rw [hs.probabilityTo e ((hs.rate_pos_iff e i).1 hr)]
      show Except.ok _ = _
      rw [ok_inj]; ring
  unfold iterSite
  rw [foldlM_ok hstep, ok_inj, IMap.foldl_add_start (fun n => (if n ∈ ids c then hopProb mem c n i * c.probOn.at0 n else 0) -
        hopProb mem c i n * c.probOn.at0 i)]
  have hl : (s.getNeighborSiteIds.map fun n => (if n ∈ ids c then hopProb mem c n i * c.probOn.at0 n else 0) -
        hopProb mem c i n * c.probOn.at0 i).sum =
      ∑ n ∈ s.neigh.keys.toFinset, ((if n ∈ ids c then hopProb mem c n i * c.probOn.at0 n else 0) -
        hopProb mem c i n * c.probOn.at0 i) := (List.sum_toFinset _ hw).symm
  rw [hl, Finset.sum_sub_distrib, ← Finset.sum_mul]
  have h1 : ∑ n ∈ s.neigh.keys.toFinset, hopProb mem c i n = 1 := by
    rw [← hs.sum_hopProb hi]
    apply Finset.sum_subset
    · intro j hj; exact neigh_mem_reach h (List.mem_toFinset.1 hj)
    · intro j _ hj
      rw [List.mem_toFinset] at hj
      unfold hopProb
      rw [rate_of_site h, IMap.get?_eq_none_iff.2 hj]
      simp
  have h2 : ∑ n ∈ s.neigh.keys.toFinset, (if n ∈ ids c then hopProb mem c n i * c.probOn.at0 n else 0) =
      inflow mem c (fun n => c.probOn.at0 n) i := by
    unfold inflow
    rw [← Finset.sum_filter]
    apply Finset.sum_subset
    · intro j hj; exact (Finset.mem_filter.1 hj).2
    · intro j hj hj2
      have hnot : ¬ 0 < rate mem c i j := by
        intro hr
        apply hj2
        rw [Finset.mem_filter, List.mem_toFinset]
        exact ⟨(hs.rate_pos_iff h j).1 hr, hj⟩
      have hz : rate mem c j i = 0 := by
        rcases (hs.rate_nonneg j i).lt_or_eq with hlt | heq
        · exact absurd (hm j hj i hi hlt) hnot
        · exact heq.symm
      unfold hopProb
      rw [hz]; simp
  rw [h1, h2]
  ring

/-- The occupation probabilities are kept exactly for the sites of the cluster. -/
def ProbKeys (c : Cluster K) : Prop := c.probOn.WF ∧ ∀ k, k ∈ c.probOn.keys ↔ k ∈ c.sites.keys

omit hs in
theorem ProbKeys.toFinset (h : ProbKeys c) : c.probOn.keys.toFinset = ids c := IMap.toFinset_keys_eq h.2

theorem iterTemp_eq (hm : Mutual mem c) :
    c.iterTemp = .ok (c.sites.map fun is => (is.1, inflow mem c (fun n => c.probOn.at0 n) is.1)) := by
  unfold iterTemp
  apply mapM_ok
  rintro ⟨i, s⟩ his
  simp only
  rw [iterSite_eq hs hm (IMap.get?_of_mem hs.wf his)]
  rfl

/-- One round. -/
theorem iterate_ok (hm : Mutual mem c) (hk : ProbKeys c) (h1 : ∑ i ∈ ids c, c.probOn.at0 i = 1)
    (ht : ∑ i ∈ ids c, inflow mem c (fun n => c.probOn.at0 n) i ≠ 0) :
    ∃ P, c.iterate = .ok { c with probOn := P } ∧ ProbKeys { c with probOn := P } ∧
      ∀ i ∈ ids c, P.at0 i = (inflow mem c (fun n => c.probOn.at0 n) i /
        (∑ i ∈ ids c, inflow mem c (fun n => c.probOn.at0 n) i) + c.probOn.at0 i) / 2 := by
  set fl := inflow mem c (fun n => c.probOn.at0 n) with hfl
  have hsum : IMap.sumVals (c.sites.map fun is => (is.1, fl is.1)) = ∑ i ∈ ids c, fl i := by
    rw [IMap.sumVals_keys (IMap.wf_map hs.wf _), IMap.keys_map]
    apply Finset.sum_congr rfl
    intro i hi
    obtain ⟨s, h⟩ := mem_ids.1 hi
    rw [IMap.at0_map, h]; rfl
  set T := ∑ i ∈ ids c, fl i with hT
  have hsum2 : IMap.sumVals (((c.sites.map fun is => (is.1, fl is.1)).map fun it =>
      (it.1, (it.2 * (1 / T) + c.probOn.at0 it.1) * (1 / 2))) : IMap K) = 1 := by
    rw [IMap.sumVals_keys (IMap.wf_map (IMap.wf_map hs.wf _) _), IMap.keys_map, IMap.keys_map]
    have : ∀ i ∈ c.sites.keys.toFinset, IMap.at0 (((c.sites.map fun is => (is.1, fl is.1)).map fun it =>
        (it.1, (it.2 * (1 / T) + c.probOn.at0 it.1) * (1 / 2))) : IMap K) i = (fl i / T + c.probOn.at0 i) / 2 := by
      intro i hi
      obtain ⟨s, h⟩ := mem_ids.1 hi
      rw [IMap.at0_map, IMap.get?_map, h]
      simp only [Option.map_some, Option.getD_some]
      ring
    rw [Finset.sum_congr rfl this, ← Finset.sum_div, Finset.sum_add_distrib, ← Finset.sum_div]
    show (T / T + ∑ i ∈ ids c, c.probOn.at0 i) / 2 = 1
    rw [h1, div_self ht]; norm_num
  refine ⟨((c.sites.map fun is => (is.1, fl is.1)).map fun it =>
      (it.1, (it.2 * (1 / T) + c.probOn.at0 it.1) * (1 / 2))).foldl (fun m it => IMap.set m it.1 (it.2 * (1 / 1))) c.probOn,
    ?eq, ?keys, ?val⟩
  case eq =>
    unfold iterate
    rw [iterTemp_eq hs hm, ok_bind]
    simp only
    rw [hsum, if_neg ht, hsum2, if_neg one_ne_zero]
  case keys =>
    refine ⟨IMap.wf_foldl_set _ _ _ hk.1, fun k => ?_⟩
    show k ∈ IMap.keys _ ↔ k ∈ c.sites.keys
    rw [IMap.keys_foldl_set, IMap.keys_map, IMap.keys_map, hk.2, or_self]
  case val =>
    intro i hi
    obtain ⟨s, h⟩ := mem_ids.1 hi
    unfold IMap.at0
    rw [IMap.get?_foldl_set (IMap.wf_map (IMap.wf_map hs.wf _) _), IMap.get?_map, IMap.get?_map, h]
    simp only [Option.map_some, Option.some_or, Option.getD_some]
    ring

theorem iterate_zero (hm : Mutual mem c)
    (ht : ∑ i ∈ ids c, inflow mem c (fun n => c.probOn.at0 n) i = 0) : c.iterate = .error .nonFinite := by
  have hsum : IMap.sumVals (c.sites.map fun is => (is.1, inflow mem c (fun n => c.probOn.at0 n) is.1)) =
      ∑ i ∈ ids c, inflow mem c (fun n => c.probOn.at0 n) i := by
    rw [IMap.sumVals_keys (IMap.wf_map hs.wf _), IMap.keys_map]
    apply Finset.sum_congr rfl
    intro i hi
    obtain ⟨s, h⟩ := mem_ids.1 hi
    rw [IMap.at0_map, h]; rfl
  unfold iterate
  rw [iterTemp_eq hs hm, ok_bind]
  simp only
  rw [hsum, if_pos ht]

end Sound
end Mythical.Cluster
