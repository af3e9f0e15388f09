import Verif.Props.ClusterProb

/-! # Cluster properties C39, C40: which site is picked -/

set_option linter.unusedSectionVars false

namespace Mythical
open Cluster ClusterSpec SiteSpec
variable {K : Type} [Field K] [LinearOrder K] [IsStrictOrderedRing K] [FloorRing K]
variable {env : Env K} {mem : Addr → K} {c c1 c2 c3 : Cluster K} {id : Int} {evs evs' : List (Event K)}

/-- The tables that all picks after the first update are made from. -/
theorem pick_tables (ht : Trace env (Cluster.new id) evs c) (hn : NotUpdated evs) (hs : Sound mem c) (hm : Mutual mem c)
    (hx : HasExit mem c) (hu : c.update env mem = (.ok (), c1)) (ht' : Trace env c1 evs' c2) :
    Table c1.probInternal (ids c1) (inWeight mem c1) ∧ Table c1.probNeigh (exits c1) (exitWeight mem c1) ∧
    ∀ u, Draw u → pickCum u c2.cumInternal = Site.pickLoop u 0 c1.probInternal ∧
      pickCum u c2.cumNeigh = Site.pickLoop u 0 c1.probNeigh := by
  obtain ⟨e, hs', -, hd, freqs, c0, hv, hr⟩ := after_update ht hs hm hu
  have T := hr.internal hs' hd
  have X := hr.exit hs' hd (hx.congr e)
  obtain ⟨-, h1, h2⟩ := trace_first ht rfl hn
  have e0 : c0.cumInternal = c.cumInternal ∧ c0.cumNeigh = c.cumNeigh := by
    obtain ⟨⟨v, p, rfl⟩, -⟩ := hv; exact ⟨rfl, rfl⟩
  obtain ⟨x, hx⟩ := ht'.extends.cumInternal
  obtain ⟨y, hy⟩ := ht'.extends.cumNeigh
  refine ⟨T, X, fun u hdr => ⟨?_, ?_⟩⟩
  · rw [hx, hr.cumInternal, e0.1, h1]
    show pickCum u (([] ++ cumulate 0 c1.probInternal) ++ x) = _
    rw [List.nil_append]
    exact pickCum_append (fun np h => (T.pos np h).le) hdr.1 (by rw [T.one, zero_add]; exact hdr.2) x
  · rw [hy, hr.cumNeigh, e0.2, h2]
    show pickCum u (([] ++ cumulate 0 c1.probNeigh) ++ y) = _
    rw [List.nil_append]
    exact pickCum_append (fun np h => (X.pos np h).le) hdr.1 (by rw [X.one, zero_add]; exact hdr.2) y

/-- **C39 (partial).** Whatever happens to a cluster after its first update (further sites, updates, merges, walkers), and
for every draw: a walker whose remaining dwell time is positive is moved to a site of the cluster; a walker whose
remaining time is used up is released to a site that was outside the cluster and adjacent to it at the first update.
Missing: the released walker can land on a site that has been taken into the cluster since (`C39_counterexample`). -/
theorem C39_partial (ht : Trace env (Cluster.new id) evs c) (hn : NotUpdated evs) (hs : Sound mem c) (hm : Mutual mem c)
    (hx : HasExit mem c) (hu : c.update env mem = (.ok (), c1)) (ht' : Trace env c1 evs' c2) {w n : Int} {u r : K} (hdr : Draw u)
    (hr : c2.remaining.get? w = some r) (hp : c2.pickNewSiteId w u = .ok (n, c3)) :
    (0 < r → n ∈ ids c2) ∧
    (r ≤ 0 → n ∉ ids c1 ∧ ∃ i ∈ ids c1, 0 < rate mem c1 i n) ∧
    (r ≤ 0 → ids c2 = ids c1 → n ∉ ids c2) := by
  obtain ⟨T, X, ht2⟩ := pick_tables ht hn hs hm hx hu ht'
  obtain ⟨-, hs', -, -, -⟩ := after_update ht hs hm hu
  obtain ⟨h1, h2⟩ := ht2 u hdr
  obtain ⟨r', hr', h⟩ := pickNewSiteId_ok hp
  rw [hr] at hr'
  cases hr'
  have hx : r ≤ 0 → n ∉ ids c1 ∧ ∃ i ∈ ids c1, 0 < rate mem c1 i n := by
    intro h0
    rcases h with ⟨hpos, -, -⟩ | ⟨-, rfl, -⟩
    · exact absurd hpos (not_lt.2 h0)
    · rw [h2]
      exact hs'.mem_exits.1 ((X.keys _).1 (Site.pickLoop_mem X.pos hdr.1 (by rw [X.one, zero_add]; exact hdr.2)))
  refine ⟨fun h0 => ?_, hx, fun h0 he => by rw [he]; exact (hx h0).1⟩
  rcases h with ⟨-, rfl, -⟩ | ⟨hneg, -, -⟩
  · rw [h1]
    have := (T.keys _).1 (Site.pickLoop_mem T.pos hdr.1 (by rw [T.one, zero_add]; exact hdr.2))
    exact List.mem_toFinset.2 (ht'.extends.sites _ (List.mem_toFinset.1 this))
  · exact absurd h0 (not_lt.2 hneg)

/-- A walker on the twice updated concrete cluster whose dwell time is used up by the first step. -/
def witC4 : Cluster ℚ := (runOps witEnv witRates witC3 [.getDwellTime 7 (1/100)]).2

/-- **C39, negation of the full statement.** After a second update the walker is released to site 3, which is inside. -/
theorem C39_counterexample :
    ∃ (evs : List (Event ℚ)) (c c' : Cluster ℚ) (w n : Int) (u r : ℚ), Trace witEnv (Cluster.new 0) evs c ∧
      Sound witRates c ∧ Mutual witRates c ∧ Draw u ∧ c.remaining.get? w = some r ∧ r ≤ 0 ∧
      c.pickNewSiteId w u = .ok (n, c') ∧ n ∈ ids c := by
  refine ⟨(runOps witEnv witRates (Cluster.new 0) (witOps ++ [.update, .addSite wit3, .update, .getDwellTime 7 (1/100)])).1,
    (runOps witEnv witRates (Cluster.new 0) (witOps ++ [.update, .addSite wit3, .update, .getDwellTime 7 (1/100)])).2,
    { witC4 with remaining := [] }, 7, 3, 1/2, (witC4.remaining.get? 7).getD 0,
    runOps_trace (by decide +kernel), sound_of (by decide +kernel) (by decide +kernel), ?_, ⟨by norm_num, by norm_num⟩,
    by decide +kernel, by decide +kernel, by decide +kernel, by decide +kernel⟩
  unfold Mutual; decide +kernel

theorem table_interval {l : List (Int × K)} {S : Finset Int} {w : Int → K} (T : Table l S w) {k : Int} (hk : k ∈ S) :
    ∃ lo hi : K, 0 ≤ lo ∧ hi ≤ 1 ∧ hi - lo = w k ∧ ∀ u, Draw u → (Site.pickLoop u 0 l = k ↔ lo ≤ u ∧ u < hi) := by
  have hg := T.get k hk
  have hp0 : ∀ np ∈ l, 0 ≤ np.2 := fun np h => (T.pos np h).le
  refine ⟨Site.before k l, Site.before k l + w k, Site.before_nonneg hp0, ?_, by ring, fun u hu => ?_⟩
  · have := Site.before_add_le hp0 hg
    rwa [T.one] at this
  · have := Site.pickLoop_eq_iff T.pos T.wf hu.1 hg
    rw [T.one, zero_add, zero_add] at this
    rw [← this]
    exact ⟨fun h => ⟨h, hu.2⟩, fun h => h.1⟩

/-- **C40 (partial).** Whatever happens to the cluster after its first update, the draws for which a walker with time left
moves to site `i` form an interval in `[0,1)` whose length is the share `p_i tau_i / sum p tau` of `i` *at the first
update*; the draws that release a walker to exit `n` form an interval whose length is the exit probability of `n` at
the first update.
Missing: after a second update the shares are not those of the cluster as it is then (`C40_frozen`,
`C40_counterexample`). -/
theorem C40_partial (ht : Trace env (Cluster.new id) evs c) (hn : NotUpdated evs) (hs : Sound mem c) (hm : Mutual mem c)
    (hx : HasExit mem c) (hu : c.update env mem = (.ok (), c1)) (ht' : Trace env c1 evs' c2) {w : Int} {r : K}
    (hr : c2.remaining.get? w = some r) :
    (0 < r → ∀ i ∈ ids c1, ∃ lo hi : K, 0 ≤ lo ∧ hi ≤ 1 ∧ 0 < hi - lo ∧
      hi - lo = occ c1 i * siteTime mem c1 i / meanTime mem c1 ∧
      ∀ u, Draw u → ((∃ c3, c2.pickNewSiteId w u = .ok (i, c3)) ↔ lo ≤ u ∧ u < hi)) ∧
    (r ≤ 0 → ∀ n ∈ c1.getSiteIdsNeighboringCluster, ∃ lo hi : K, 0 ≤ lo ∧ hi ≤ 1 ∧ 0 < hi - lo ∧
      c1.getProbabilityOfHoppingToNeighbor n = .ok (hi - lo) ∧
      ∀ u, Draw u → ((∃ c3, c2.pickNewSiteId w u = .ok (n, c3)) ↔ lo ≤ u ∧ u < hi)) := by
  obtain ⟨T, X, ht2⟩ := pick_tables ht hn hs hm hx hu ht'
  have hpick : ∀ u n, (∃ c3, c2.pickNewSiteId w u = .ok (n, c3)) ↔
      n = if 0 < r then pickCum u c2.cumInternal else pickCum u c2.cumNeigh := by
    intro u n
    unfold pickNewSiteId
    rw [hr]
    simp only [gt_iff_lt]
    split
    · exact ⟨fun ⟨_, h⟩ => by cases h; rfl, fun h => ⟨c2, by rw [h]⟩⟩
    · exact ⟨fun ⟨_, h⟩ => by cases h; rfl, fun h => ⟨_, by rw [h]⟩⟩
  constructor
  · intro h0 i hi
    obtain ⟨lo, hi', h1, h2, h3, h4⟩ := table_interval T hi
    have hpos := T.pos _ (IMap.mem_of_get? (T.get i hi))
    refine ⟨lo, hi', h1, h2, by rw [h3]; exact hpos, ?_, fun u hdr => ?_⟩
    · rw [h3, occ_eq hi, meanTime_eq]; rfl
    · rw [hpick, if_pos h0, (ht2 u hdr).1, eq_comm]
      exact h4 u hdr
  · intro h0 n hn'
    have hn'' := (X.keys n).1 hn'
    obtain ⟨lo, hi', h1, h2, h3, h4⟩ := table_interval X hn''
    have hg := X.get n hn''
    have hpos := X.pos _ (IMap.mem_of_get? hg)
    refine ⟨lo, hi', h1, h2, by rw [h3]; exact hpos, ?_, fun u hdr => ?_⟩
    · unfold getProbabilityOfHoppingToNeighbor
      rw [hg, h3]
    · rw [hpick, if_neg (not_lt.2 h0), (ht2 u hdr).2, eq_comm]
      exact h4 u hdr

/-- **C40, negation of the full statement.** A site that was taken into the cluster after the first update is never picked
for a walker with time left, however often the cluster has been updated since and whatever the draw. -/
theorem C40_frozen (ht : Trace env (Cluster.new id) evs c) (hn : NotUpdated evs) (hs : Sound mem c) (hm : Mutual mem c)
    (hx : HasExit mem c) (hu : c.update env mem = (.ok (), c1)) (ht' : Trace env c1 evs' c2) {w n : Int} {u r : K} (hdr : Draw u)
    (hr : c2.remaining.get? w = some r) (h0 : 0 < r) (hp : c2.pickNewSiteId w u = .ok (n, c3)) : n ∈ ids c1 := by
  obtain ⟨T, -, ht2⟩ := pick_tables ht hn hs hm hx hu ht'
  obtain ⟨r', hr', h⟩ := pickNewSiteId_ok hp
  rw [hr] at hr'
  cases hr'
  rcases h with ⟨-, rfl, -⟩ | ⟨hneg, -, -⟩
  · rw [(ht2 u hdr).1]
    exact (T.keys _).1 (Site.pickLoop_mem T.pos hdr.1 (by rw [T.one, zero_add]; exact hdr.2))
  · exact absurd h0 (not_lt.2 hneg)

/-- The concrete history: sites 1 and 2, an update; then site 3 added, an update, and two walkers, one with a long and one
with a short dwell time. -/
def pickOps : List (Op ℚ) := [.addSite wit3, .update, .getDwellTime 7 1, .getDwellTime 8 (1/100)]

/-- **C40, a concrete case.** The cluster of sites 1, 2, 3 after its second update: site 3 has a positive occupation
probability, but no draw moves a walker with time left to it; and every draw releases a walker to site 3, although its
only exit is site 4. -/
theorem C40_counterexample :
    ∃ (evs : List (Event ℚ)) (c2 : Cluster ℚ), Trace witEnv witC1 evs c2 ∧
      3 ∈ ids c2 ∧ 0 < occ c2 3 ∧ c2.getSiteIdsNeighboringCluster = [4] ∧
      (∃ r, c2.remaining.get? 7 = some r ∧ 0 < r) ∧ (∃ r, c2.remaining.get? 8 = some r ∧ r ≤ 0) ∧
      (∀ u, Draw u → ∀ c3, c2.pickNewSiteId 7 u ≠ .ok (3, c3)) ∧
      ∀ u, Draw u → ∃ c3, c2.pickNewSiteId 8 u = .ok (3, c3) := by
  have ht : Trace witEnv witC1 (runOps witEnv witRates witC1 pickOps).1 (runOps witEnv witRates witC1 pickOps).2 :=
    runOps_trace (by decide +kernel)
  have hn : NotUpdated witEvs := by
    intro ev hev; simp [witEvs, runOps, witOps] at hev; rw [hev]; trivial
  have e7 : (runOps witEnv witRates witC1 pickOps).2.remaining.get? 7 =
      some (((runOps witEnv witRates witC1 pickOps).2.remaining.get? 7).getD 0) := by decide +kernel
  have h7 : 0 < (((runOps witEnv witRates witC1 pickOps).2.remaining.get? 7).getD 0) := by decide +kernel
  have e8 : (runOps witEnv witRates witC1 pickOps).2.remaining.get? 8 =
      some (((runOps witEnv witRates witC1 pickOps).2.remaining.get? 8).getD 0) := by decide +kernel
  have h8 : (((runOps witEnv witRates witC1 pickOps).2.remaining.get? 8).getD 0) ≤ 0 := by decide +kernel
  refine ⟨_, _, ht, by decide +kernel, by decide +kernel, by decide +kernel, ⟨_, e7, h7⟩, ⟨_, e8, h8⟩, fun u hu c3 h => ?_,
    fun u hu => ?_⟩
  · have := C40_frozen witC0_trace hn witC0_sound witC0_mutual witC0_exit witC1_update ht hu e7 h7 h
    revert this
    decide +kernel
  · obtain ⟨lo, hi, h0, h1, -, h2, h3⟩ := (C40_partial witC0_trace hn witC0_sound witC0_mutual witC0_exit witC1_update ht e8).2 h8 3
      (by decide +kernel)
    rw [show witC1.getProbabilityOfHoppingToNeighbor 3 = .ok 1 by decide +kernel] at h2
    simp only [Except.ok.injEq] at h2
    exact (h3 u hu).2 ⟨by linarith [hu.1], by linarith [hu.2]⟩

end Mythical
