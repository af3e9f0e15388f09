import Verif.Props.Basin

/-! # C101: the settings of the basin search, and what is left open by the order of the edges -/

set_option linter.unusedSectionVars false

namespace Mythical.Basin
open Mythical BasinSpec Explorer
variable {K : Type} [Field K] [LinearOrder K] [IsStrictOrderedRing K] [FloorRing K]

/-! ## The threshold -/

theorem addEdge_threshold {ex ex' : Explorer K} (ht : 0 ≤ ex.threshold) (ht' : 0 ≤ ex'.threshold) {mem : Addr → K}
    {sites : SiteContainer K} (hp : Positive mem sites) {v n : Int} {r : K} (hr : rate mem sites v n = some r) (st : Search K) :
    addEdge ex mem sites v st n = addEdge ex' mem sites v st n := by
  have hrpos := hp.pos _ _ _ hr
  unfold addEdge
  split
  · rfl
  rw [(getRateToNeighbor_spec mem sites v n r).mpr hr]
  obtain ⟨s, a, hs, ha, har⟩ := rate_some hr
  have hcur : sites.getFastestRateOffSite mem v = .ok (s.getFastestRate mem) := by
    simp [SiteContainer.getFastestRateOffSite, SiteContainer.getSite, hs]
  simp only [ok_bind, hcur]
  have hrc : r ≤ s.getFastestRate mem := har ▸ rate_le_fastest ha
  have hcpos : 0 < s.getFastestRate mem := lt_of_lt_of_le hrpos hrc
  have hfge : r ≤ (updateFastest st r).fastest := by
    unfold updateFastest
    simp only
    split
    · exact le_refl r
    · rename_i h; exact not_lt.mp h
  have hfpos : 0 < (updateFastest st r).fastest := lt_of_lt_of_le hrpos hfge
  have hratio : r / (updateFastest st r).fastest * ((r - s.getFastestRate mem) / s.getFastestRate mem) ≤ 0 :=
    mul_nonpos_of_nonneg_of_nonpos (by positivity) (div_nonpos_of_nonpos_of_nonneg (by linarith) hcpos.le)
  have hfast : rateFastEnough ex { updateFastest st r with cur := s.getFastestRate mem } r =
      rateFastEnough ex' { updateFastest st r with cur := s.getFastestRate mem } r := by
    unfold rateFastEnough
    rw [if_neg (by simp only [not_or]; exact ⟨hfpos.ne', hcpos.ne'⟩), if_neg (by simp only [not_or]; exact ⟨hfpos.ne', hcpos.ne'⟩)]
    congr 1
    rw [decide_eq_decide]
    constructor <;> rintro (h | h)
    · exact absurd h (not_lt.2 (hratio.trans ht))
    · exact .inr h
    · exact absurd h (not_lt.2 (hratio.trans ht'))
    · exact .inr h
  rw [hfast]

theorem addEdges_threshold {ex ex' : Explorer K} (ht : 0 ≤ ex.threshold) (ht' : 0 ≤ ex'.threshold) {mem : Addr → K}
    {sites : SiteContainer K} (hp : Positive mem sites) {v : Int} : ∀ (ns : List Int), (∀ n ∈ ns, ∃ r, rate mem sites v n = some r) →
    ∀ st : Search K, addEdges ex mem sites v st ns = addEdges ex' mem sites v st ns
  | [], _, _ => rfl
  | n :: ns, h, st => by
    obtain ⟨r, hr⟩ := h n (by simp)
    unfold addEdges
    rw [addEdge_threshold ht ht' hp hr st]
    congr 1
    funext st'
    exact addEdges_threshold ht ht' hp ns (fun m hm => h m (by simp [hm])) st'

theorem searchLoop_threshold {ex ex' : Explorer K} (ht : 0 ≤ ex.threshold) (ht' : 0 ≤ ex'.threshold) (hm : ex'.maxCount = ex.maxCount)
    {mem : Addr → K} {sites : SiteContainer K} (hp : Positive mem sites) {vis : Visitor} : ∀ (fuel : Nat) (st : Search K),
    searchLoop ex vis mem sites fuel st = searchLoop ex' vis mem sites fuel st
  | 0, _ => rfl
  | fuel + 1, st => by
    unfold searchLoop
    split
    · rfl
    · rename_i e es _
      simp only
      rw [addEdges_threshold ht ht' hp _ (fun n hn => (mem_edgesOf_rate mem).mp hn), hm]
      congr 1
      funext st'
      split
      · rfl
      · exact searchLoop_threshold ht ht' hm hp fuel st'

/-- **C101, the threshold has no effect.** With positive rates, what the search finds is the same for all thresholds from 0 on:
the first condition of `rateFastEnough_` compares the threshold with a number that is never positive. -/
theorem C101_threshold (ex : Explorer K) {t t' : K} (ht : 0 ≤ t) (ht' : 0 ≤ t') (vis : Visitor) {mem : Addr → K}
    {sites : SiteContainer K} (hp : Positive mem sites) (clusters : ClusterContainer K) (v : Int) :
    (ex.setThreshold t).findBasin vis mem sites clusters v = (ex.setThreshold t').findBasin vis mem sites clusters v := by
  unfold findBasin
  congr 1
  funext fastest
  congr 1
  funext slowest
  rw [addEdges_threshold (ex := ex.setThreshold t) (ex' := ex.setThreshold t') ht ht' hp _
    (fun n hn => (mem_edgesOf_rate mem).mp hn)]
  congr 1
  funext st
  exact searchLoop_threshold (ex := ex.setThreshold t) (ex' := ex.setThreshold t') ht ht' rfl hp _ st

/-! ## The number of sites -/

theorem searchLoop_gives_up {ex : Explorer K} {vis : Visitor} {mem : Addr → K} {sites : SiteContainer K} {v : Int} :
    ∀ (fuel : Nat) (st : Search K), Inv mem sites v st → searchLoop ex vis mem sites fuel st = .ok [] →
    ∃ st', Inv mem sites v st' ∧ ex.maxCount < st'.explored.length
  | 0, _, _, h => by cases h
  | fuel + 1, st, hi, h => by
    by_cases ho : st.opn = []
    · rw [searchLoop_nil ho] at h
      have := vis.out_perm st.explored
      rw [Except.ok.inj h] at this
      have hs := hi.start
      rw [← this.mem_iff] at hs
      cases hs
    · obtain ⟨e, he, heq⟩ := searchLoop_cons (ex := ex) (vis := vis) (mem := mem) (sites := sites) (fuel := fuel) ho
      rw [heq] at h
      obtain ⟨st', h1, h⟩ := bind_eq_ok.mp h
      have hi' := (addEdges_inv _ (explore_inv hi he) (by simp [explore]) h1).1
      split at h
      · rename_i hl; exact ⟨st', hi', hl⟩
      · exact searchLoop_gives_up fuel st' hi' h

theorem searchLoop_short {ex : Explorer K} {vis : Visitor} {mem : Addr → K} {sites : SiteContainer K} : ∀ (fuel : Nat) (st : Search K)
    (l : List Int), st.explored.length ≤ max ex.maxCount 1 → searchLoop ex vis mem sites fuel st = .ok l →
    l.length ≤ max ex.maxCount 1
  | 0, _, _, _, h => by cases h
  | fuel + 1, st, l, hl, h => by
    by_cases ho : st.opn = []
    · rw [searchLoop_nil ho] at h
      rw [← Except.ok.inj h, (vis.out_perm st.explored).length_eq]
      exact hl
    · obtain ⟨e, he, heq⟩ := searchLoop_cons (ex := ex) (vis := vis) (mem := mem) (sites := sites) (fuel := fuel) ho
      rw [heq] at h
      obtain ⟨st', h1, h⟩ := bind_eq_ok.mp h
      split at h
      · rw [← Except.ok.inj h]; exact Nat.zero_le _
      · rename_i hm
        exact searchLoop_short fuel st' l ((not_lt.mp hm).trans (le_max_left _ _)) h

/-- **C101, the number of sites.** After `setMaxExplorationCount(n)` for `n ≥ 0` a basin has at most `n` sites (one, if `n` is 0);
nothing is returned only if more than `n` sites were reached along rates from the start. -/
theorem C101_count (ex : Explorer K) {n : Int} (hn : 0 ≤ n) (hn' : n ≤ INT_MAX) (vis : Visitor) (mem : Addr → K)
    (sites : SiteContainer K) (clusters : ClusterContainer K) (v : Int) (l : List Int)
    (h : (ex.setMaxExplorationCount n).findBasin vis mem sites clusters v = .ok l) :
    (l.length : Int) ≤ max n 1 ∧
      (l = [] → ∃ l' : List Int, l'.Nodup ∧ n < l'.length ∧ v ∈ l' ∧ ∀ x ∈ l', Reach mem sites l' v x) := by
  have hc : ((ex.setMaxExplorationCount n).maxCount : Int) = n := by
    show (((n % 2 ^ 64).toNat : Nat) : Int) = n
    have h1 : n ≤ 2147483647 := hn'
    rw [Int.emod_eq_of_lt hn (by norm_num; omega)]
    omega
  unfold findBasin at h
  obtain ⟨fastest, -, h⟩ := bind_eq_ok.mp h
  obtain ⟨slowest, -, h⟩ := bind_eq_ok.mp h
  obtain ⟨st, h1, h⟩ := bind_eq_ok.mp h
  obtain ⟨hi, he⟩ := addEdges_inv _ (inv_start mem sites v fastest slowest fastest) (by simp) h1
  constructor
  · have := searchLoop_short _ st l (by rw [he]; simp) h
    omega
  · rintro rfl
    obtain ⟨st', hi', hl⟩ := searchLoop_gives_up _ st hi h
    exact ⟨_, hi'.nodup, by omega, hi'.start, hi'.reach⟩

theorem reach_known {mem : Addr → K} {sites : SiteContainer K} {l : List Int} {v x : Int} (h : Reach mem sites l v x) :
    x ∈ v :: sites.flatMap fun is => is.2.neigh.keys := by
  cases h with
  | start => simp
  | hop _ _ r hr =>
    obtain ⟨s, a, hs, ha, -⟩ := rate_some hr
    refine List.mem_cons_of_mem _ (List.mem_flatMap.2 ⟨_, IMap.mem_of_get? hs, IMap.mem_keys_iff_get?.mpr ⟨a, ha⟩⟩)

/-- **C101, negative numbers mean no limit.** After `setMaxExplorationCount(n)` for a negative `n` the search gives up only if the
sites have 2^63 - 1 neighbours or more: the number is converted to an unsigned one. -/
theorem C101_unlimited (ex : Explorer K) {n : Int} (hn : n < 0) (hn' : INT_MIN ≤ n) (vis : Visitor) (mem : Addr → K)
    (sites : SiteContainer K) (clusters : ClusterContainer K) (v : Int) (l : List Int)
    (hsize : (sites.flatMap fun is => is.2.neigh.keys).length + 1 < 2 ^ 63)
    (h : (ex.setMaxExplorationCount n).findBasin vis mem sites clusters v = .ok l) : v ∈ l := by
  have hc : 2 ^ 63 ≤ (ex.setMaxExplorationCount n).maxCount := by
    show 2 ^ 63 ≤ (n % 2 ^ 64).toNat
    have h1 : -2147483648 ≤ n := hn'
    have : n % 2 ^ 64 = n + 2 ^ 64 := by
      rw [← Int.add_emod_right, Int.emod_eq_of_lt (by norm_num; omega) (by norm_num; omega)]
    rw [this]; norm_num; omega
  rcases C49_basin (ex.setMaxExplorationCount n) (by have : 1 ≤ 2 ^ 63 := by norm_num
                                                     omega) vis mem sites clusters v l h with rfl | hl
  · exfalso
    unfold findBasin at h
    obtain ⟨fastest, -, h⟩ := bind_eq_ok.mp h
    obtain ⟨slowest, -, h⟩ := bind_eq_ok.mp h
    obtain ⟨st, h1, h⟩ := bind_eq_ok.mp h
    obtain ⟨hi, he⟩ := addEdges_inv _ (inv_start mem sites v fastest slowest fastest) (by simp) h1
    obtain ⟨st', hi', hlt⟩ := searchLoop_gives_up _ st hi h
    have hsub : st'.explored ⊆ v :: sites.flatMap fun is => is.2.neigh.keys := fun x hx => reach_known (hi'.reach x hx)
    have := (hi'.nodup.subperm hsub).length_le
    rw [List.length_cons] at this
    omega
  · exact hl.2.2.1

/-! ## The order of the edges -/

/-- The rates 1, 0.9999 and 0.9999 times 0.9999. -/
def nearMem : Addr → ℚ
  | 0 => 1
  | 1 => 9999 / 10000
  | _ => 9999 / 10000 * (9999 / 10000)

/-- A site with three neighbours and slightly different rates to them; they have no rates of their own except back. -/
def nearSites : SiteContainer ℚ :=
  [(1, exSite 1 unassignedId [(2, 0), (3, 1), (4, 2)]), (2, exSite 2 unassignedId []), (3, exSite 3 unassignedId []),
   (4, exSite 4 unassignedId [])]

theorem nearSites_positive : Positive nearMem nearSites := by
  have hget : ∀ i s, IMap.get? nearSites i = some s → s = exSite 1 unassignedId [(2, 0), (3, 1), (4, 2)] ∨
      s = exSite 2 unassignedId [] ∨ s = exSite 3 unassignedId [] ∨ s = exSite 4 unassignedId [] := by
    intro i s h
    have := IMap.mem_of_get? h
    simp only [nearSites, List.mem_cons, Prod.mk.injEq, List.not_mem_nil, or_false] at this
    tauto
  refine ⟨?_, ?_⟩
  · intro i s h
    rcases hget i s h with rfl | rfl | rfl | rfl <;> simp [exSite, IMap.WF]
  · intro i j r h
    obtain ⟨s, a, hs, ha, rfl⟩ := rate_some h
    unfold nearMem
    split <;> norm_num

/-- **C101, the order shows.** Which sites make up the basin depends on the order in which the hash table offers the edges: the
same site, with the same rates, has a basin of four sites in one order and of three in another. -/
theorem C101_order_counterexample : ∃ (vis vis' : Visitor) (mem : Addr → ℚ) (sites : SiteContainer ℚ) (v x : Int) (l l' : List Int),
    Positive mem sites ∧ Explorer.default.findBasin vis mem sites [] v = .ok l ∧
    Explorer.default.findBasin vis' mem sites [] v = .ok l' ∧ x ∈ l ∧ l' ≠ [] ∧ x ∉ l' := by
  refine ⟨exVis, exVis2, nearMem, nearSites, 1, 4, [1, 2, 3, 4], [3, 2, 1], nearSites_positive, ?_, ?_, by simp, by simp, by simp⟩ <;>
    decide +kernel

/-! ## Concrete cases -/

/-- For thresholds below 0 the setting does have an effect: with -1 the slow rates are followed too. -/
example : (Explorer.default.setThreshold (-1)).findBasin exVis exMem exSites [] 1 = .ok [1, 2, 3, 4] ∧
    (Explorer.default.setThreshold 1000).findBasin exVis exMem exSites [] 1 = .ok [1, 2] := by decide +kernel

example : (Explorer.default.setThreshold 0).findBasin exVis exMem exSites [] 1 =
    (Explorer.default.setThreshold 1000).findBasin exVis exMem exSites [] 1 :=
  C101_threshold _ (by norm_num) (by norm_num) _ exSites_positive _ _

/-- Two sites are too many for a limit of 1, a limit of 0 still allows the start site alone, and -1 is no limit. -/
example : (Explorer.default.setMaxExplorationCount 1).findBasin exVis exMem exSites [] 1 = .ok [] ∧
    (Explorer.default.setMaxExplorationCount 0).findBasin exVis exMem exSites [] 4 = .ok [4] ∧
    (Explorer.default.setMaxExplorationCount 2).findBasin exVis exMem exSites [] 1 = .ok [1, 2] ∧
    (Explorer.default.setMaxExplorationCount (-1)).findBasin exVis exMem
    [(1, exSite 1 unassignedId [(2, 0)]), (2, exSite 2 unassignedId [(3, 0)]), (3, exSite 3 unassignedId [(4, 0)]),
     (4, exSite 4 unassignedId [(5, 0)]), (5, exSite 5 unassignedId [(6, 0)]), (6, exSite 6 unassignedId [(1, 0)])] [] 1 =
    .ok [1, 2, 3, 4, 5, 6] := by decide +kernel

example : ∀ l, (Explorer.default.setMaxExplorationCount 1).findBasin exVis exMem exSites [] 1 = .ok l → (l.length : Int) ≤ 1 :=
  fun l h => (C101_count _ (by norm_num) (by decide) _ _ _ _ _ l h).1

example : ∀ l, (Explorer.default.setMaxExplorationCount (-1)).findBasin exVis exMem exSites [] 1 = .ok l → 1 ∈ l :=
  fun l h => C101_unlimited _ (by norm_num) (by decide) _ _ _ _ _ l (by decide) h

end Mythical.Basin
