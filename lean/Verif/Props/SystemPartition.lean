import Verif.Lemmas.SystemSolid
import Verif.Props.SystemTime

/-! # Clusters partition the coarse-grained sites, and no site is stranded (C55, C56) -/

set_option linter.unusedSectionVars false
set_option linter.unusedVariables false

namespace Mythical
open World SystemSpec
variable {K : Type} [Field K] [LinearOrder K] [IsStrictOrderedRing K] [FloorRing K]

theorem World.listed {w : World K} {env : Env K} (hst : Struct env w) {c : Int} {l : List Int} (h : (c, l) ∈ w.getClusters) :
    ∃ x, w.clusters.get? c = some x ∧ l = x.sites.keys := by
  unfold World.getClusters ClusterContainer.getSiteIdsOfClusters at h
  obtain ⟨⟨k, x⟩, hx, e⟩ := List.mem_map.1 h
  simp only [Prod.mk.injEq] at e
  obtain ⟨rfl, rfl⟩ := e
  exact ⟨x, IMap.get?_of_mem hst.clustersWF hx, rfl⟩

theorem World.listed_of {w : World K} {c : Int} {x : Cluster K} (h : w.clusters.get? c = some x) :
    (c, x.sites.keys) ∈ w.getClusters := by
  unfold World.getClusters ClusterContainer.getSiteIdsOfClusters
  exact List.mem_map.2 ⟨(c, x), IMap.mem_of_get? h, rfl⟩

theorem World.idOf {w : World K} {i c : Int} : w.getClusterIdOfSite i = .ok c ↔ ∃ s, w.sites.get? i = some s ∧ s.clusterId = c := by
  show w.sites.getClusterIdOfSite i = .ok c ↔ _
  constructor
  · intro h
    cases e : w.sites.get? i with
    | none =>
      unfold SiteContainer.getClusterIdOfSite SiteContainer.getSite at h
      have e' : IMap.get? w.sites i = none := e
      rw [e'] at h
      cases h
    | some s =>
      rw [getClusterIdOfSite_of e] at h
      cases h
      exact ⟨s, rfl, rfl⟩
  · rintro ⟨s, hs, rfl⟩
    exact getClusterIdOfSite_of hs

/-- **C55, for every history** whose hops return (any rates, any performance ratio): `getClusters()` lists every cluster id
once, every cluster as a list of different known sites, and no site in two clusters. -/
theorem C55_disjoint (env : Env K) (n : Nat) (evs : List (Event K)) (w : World K) (ht : Trace env (World.new n) evs w)
    (hu : HopsReturn evs) :
    (w.getClusters.map Prod.fst).Nodup ∧
    (∀ c l, (c, l) ∈ w.getClusters → l.Nodup ∧ ∀ i ∈ l, Known w i) ∧
    ∀ c l c' l', (c, l) ∈ w.getClusters → (c', l') ∈ w.getClusters → ∀ i, i ∈ l → i ∈ l' → c = c' := by
  have hst := ht.struct hu
  refine ⟨?_, ?_, ?_⟩
  · have : w.getClusters.map Prod.fst = w.clusters.keys := by
      unfold World.getClusters ClusterContainer.getSiteIdsOfClusters IMap.keys
      rw [List.map_map]; rfl
    rw [this]; exact hst.clustersWF
  · intro c l h
    obtain ⟨x, hx, rfl⟩ := listed hst h
    refine ⟨(hst.cinv hx).sites, fun i hi => ?_⟩
    obtain ⟨s, hs⟩ := IMap.mem_keys_iff_get?.1 hi
    obtain ⟨-, t, ht, -⟩ := hst.member c x i s hx hs
    exact ⟨_, idOf.2 ⟨t, ht, rfl⟩⟩
  · intro c l c' l' h h' i hi hi'
    obtain ⟨x, hx, rfl⟩ := listed hst h
    obtain ⟨x', hx', rfl⟩ := listed hst h'
    obtain ⟨s, hs⟩ := IMap.mem_keys_iff_get?.1 hi
    obtain ⟨s', hs'⟩ := IMap.mem_keys_iff_get?.1 hi'
    exact hst.disjoint c x c' x' i hx hx' (by rw [hs]; simp) (by rw [hs']; simp)

/-- **C55_partial.** In every history whose hops return, with constant positive rates, in which the performance ratio is
never set below 1/2, `getClusters()` lists disjoint clusters of two to five different known sites each, and
`getClusterIdOfSite(s) = c`, with `c` not the id for sites in no cluster, exactly when `s` is listed in cluster `c`.
What is missing: performance ratios below 1/2, for which it is false (`C55_counterexample`); rates that the user changes. -/
theorem C55_partial (env : Env K) (mem : Addr → K) (n : Nat) (evs : List (Event K)) (w : World K)
    (ht : Trace env (World.new n) evs w) (hu : HopsReturn evs) (hf : RatesFixed mem evs) (hp : RatesPositive mem evs)
    (hh : RatioHalf evs) (hc : TimesCover evs) :
    (w.getClusters.map Prod.fst).Nodup ∧
    (∀ c l, (c, l) ∈ w.getClusters → l.Nodup ∧ 2 ≤ l.length ∧ l.length ≤ 5 ∧ ∀ i ∈ l, Known w i) ∧
    (∀ c l c' l', (c, l) ∈ w.getClusters → (c', l') ∈ w.getClusters → ∀ i, i ∈ l → i ∈ l' → c = c') ∧
    ∀ i c, c ≠ unassignedId → (w.getClusterIdOfSite i = .ok c ↔ ∃ l, (c, l) ∈ w.getClusters ∧ i ∈ l) := by
  have hst := ht.struct hu
  have hs := ht.solid hu hf hp hh hc
  obtain ⟨h1, h2, h3⟩ := C55_disjoint env n evs w ht hu
  refine ⟨h1, ?_, h3, ?_⟩
  · intro c l h
    obtain ⟨x, hx, rfl⟩ := listed hst h
    have hl : (IMap.keys x.sites).length = x.sites.length := List.length_map ..
    refine ⟨(h2 c _ h).1, ?_, ?_, (h2 c _ h).2⟩
    · rw [hl]; exact (ht.settled hu hf hp c x hx).size
    · rw [hl]; exact hs.small c x hx
  · intro i c hne
    rw [idOf]
    constructor
    · rintro ⟨s, hs', rfl⟩
      obtain ⟨x, hx⟩ := hs.exist i s hs' hne
      obtain ⟨t, ht⟩ := Option.ne_none_iff_exists'.1 ((hst.joined i s hs' hne).2.2.2 x hx)
      exact ⟨_, listed_of hx, IMap.mem_keys_iff_get?.2 ⟨t, ht⟩⟩
    · rintro ⟨l, h, hi⟩
      obtain ⟨x, hx, rfl⟩ := listed hst h
      exact hs.own c x i hx hi

/-- **C56_partial.** In every history whose hops return, with constant positive rates, in which the performance ratio is
never set below 1/2, no site belongs to a cluster that does not exist, and no pointer of a site leads to one.
What is missing: performance ratios below 1/2, for which it is false (`C56_counterexample`). -/
theorem C56_partial (env : Env K) (mem : Addr → K) (n : Nat) (evs : List (Event K)) (w : World K)
    (ht : Trace env (World.new n) evs w) (hu : HopsReturn evs) (hf : RatesFixed mem evs) (hp : RatesPositive mem evs)
    (hh : RatioHalf evs) (hc : TimesCover evs) (i c : Int) :
    (w.getClusterIdOfSite i = .ok c → c = unassignedId ∨ SystemSpec.Exists w c) ∧
    (w.feat i = .cluster c → SystemSpec.Exists w c) := by
  have hst := ht.struct hu
  have hs := ht.solid hu hf hp hh hc
  have key : w.getClusterIdOfSite i = .ok c → c = unassignedId ∨ SystemSpec.Exists w c := by
    rw [idOf]
    rintro ⟨s, hs', rfl⟩
    by_cases hne : s.clusterId = unassignedId
    · exact .inl hne
    · exact .inr (exists_iff.2 (hs.exist i s hs' hne))
  refine ⟨key, fun h => ?_⟩
  rcases hst.feat_cases i with ⟨e, -⟩ | ⟨s, e, -⟩ | ⟨s, e, hs', hne, -⟩
  · rw [e] at h; cases h
  · rw [e] at h; cases h
  · rw [e] at h
    cases h
    exact exists_iff.2 (hs.exist i s hs' hne)

/-- **C56, the reason.** Under the same assumptions: whenever a hop makes an attempt at coarse graining, and the basin `B`
found at the site of the walker passes the test, then each cluster that exists has no site in `B`, or is contained in `B`, or
contains `B`. -/
theorem C56_basin_partial (env : Env K) (mem : Addr → K) (n : Nat) (evs : List (Event K)) (w : World K)
    (ht : Trace env (World.new n) evs w) (hu : HopsReturn evs) (hf : RatesFixed mem evs) (hp : RatesPositive mem evs)
    (hh : RatioHalf evs) (hc : TimesCover evs) (before after : List (Event K)) (ev : Event K)
    (he : evs = before ++ ev :: after) (wid h : Int) (a : Choices K) (hop : ev.op = .hop wid h a)
    (hth : ev.pre.iteration + 1 > ev.pre.threshold) (hon : ev.pre.thresholdMin ≠ infIterations)
    (v : Int) (w1 : World K) (B : List Int) (hm : ev.pre.hopMove wid h a = .ok (v, w1))
    (hB : Explorer.default.findBasin a.vis mem w1.sites w1.clusters v = .ok B)
    (hsat : w1.satisfies mem B (maxTime a.times) = .ok true) (c : Int) (l : List Int) (hl : (c, l) ∈ ev.pre.getClusters) :
    (∀ i ∈ l, i ∉ B) ∨ (∀ i ∈ l, i ∈ B) ∨ ∀ i ∈ B, i ∈ l := by
  obtain ⟨h1, hstep, hgo, -⟩ := ht.prefix he
  have hev : ev ∈ evs := by rw [he]; simp
  have hsub : ∀ e ∈ before, e ∈ evs := fun e hm => by rw [he]; exact List.mem_append_left _ hm
  have hub : HopsReturn before := fun e hm => hu e (hsub e hm)
  have hfb : RatesFixed mem before := fun e hm => hf e (hsub e hm)
  have hpb : RatesPositive mem before := fun e hm => hp e (hsub e hm)
  have hhb : RatioHalf before := fun e hm => hh e (hsub e hm)
  have hcb : TimesCover before := fun e hm => hc e (hsub e hm)
  have hmem : ev.mem = mem := hf ev hev
  have hst := h1.struct hub
  have hs := h1.solid hub hfb hpb hhb hcb
  obtain ⟨x, hx, rfl⟩ := listed hst hl
  obtain ⟨m, hres⟩ := hu ev hev wid h a hop
  rw [hop, hres, hmem] at hstep
  obtain ⟨j, w1', hm', hk, -, hcases⟩ := hop_event hst hstep
  rw [hm] at hm'
  simp only [Except.ok.injEq, Prod.mk.injEq] at hm'
  obtain ⟨rfl, rfl⟩ := hm'
  have hk2 : Keep env ev.pre { w1 with iteration := ev.pre.iteration + 1 } := hk.trans (.of_eq rfl rfl rfl le_rfl)
  have st2 := hst.keep hk2
  have hs2 := hs.keep hk2
  obtain ⟨y, hy, hr⟩ := rel_some' (hx ▸ hk2.cluster c)
  rw [← hr.keys]
  rcases hcases with ⟨h, -⟩ | ⟨-, h, -⟩ | ⟨-, -, hfalse, -⟩ | ⟨-, -, w3, basin, -, hgr, -⟩
  · exact absurd hth (not_lt.2 h)
  · exact absurd h hon
  · obtain ⟨k, hk0, hin⟩ := coarseGrain_inside st2 hB hsat hfalse
    by_cases hkc : k = c
    · subst hkc
      refine .inr (.inr fun i hi => ?_)
      obtain ⟨s, hs', e⟩ := hin i hi
      obtain ⟨t, ht⟩ := Option.ne_none_iff_exists'.1 ((st2.joined i s hs' (by rw [e]; exact hk0)).2.2.2 y (by rw [e]; exact hy))
      exact IMap.mem_keys_iff_get?.2 ⟨t, ht⟩
    · refine .inl fun i hi hiB => ?_
      obtain ⟨s, hs', e⟩ := hs2.own c y i hy hi
      obtain ⟨s', hs'', e'⟩ := hin i hiB
      rw [hs'] at hs''; cases hs''
      exact hkc (e'.symm.trans e)
  · have hg2 := (h1.good hub hfb hpb).keep hk2
    have ha2 := (h1.settled hub hfb hpb).keep hk2
    have ht2 := (h1.static hub).2.keep hst hk2
    have hρ : 1 / 2 ≤ w1.perfRatio := by
      have : w1.perfRatio = ev.pre.perfRatio := by obtain ⟨S, C, W, rfl⟩ := hopMove_outer hm; rfl
      rw [this]; exact h1.ratio hub hhb
    have hBe : basin = B := by
      have := hgr.found
      change Explorer.default.findBasin a.vis mem w1.sites w1.clusters v = .ok basin at this
      rw [hB] at this
      exact (Except.ok.inj this).symm
    subst hBe
    obtain ⟨htight, -⟩ := hs2.grained st2 ht2 hg2 ha2 hρ hgr (by
      have := hc ev hev wid h a v w1 basin hop hm
      rw [hmem] at this
      exact this hB)
    by_cases hd : ∃ p ∈ basin, p ∈ y.sites.keys
    · obtain ⟨p, hpb, hpy⟩ := hd
      obtain ⟨ρ', hρ', hty⟩ := hs2.tight c y hy
      exact .inr (hty.nested hg2 htight hρ' hρ hpy hpb)
    · refine .inl fun i hi hiB => hd ⟨i, hiB, hi⟩

/-- Clusters are never split: in every history whose hops return, the sites of a cluster that is listed before a call are
listed together after it, in a cluster of the same or of another id. -/
theorem C55_coarsen (env : Env K) (n : Nat) (evs : List (Event K)) (w : World K) (ht : Trace env (World.new n) evs w)
    (hu : HopsReturn evs) (before after : List (Event K)) (ev : Event K) (he : evs = before ++ ev :: after) (c : Int)
    (l : List Int) (hl : (c, l) ∈ ev.pre.getClusters) : ∃ c' l', (c', l') ∈ ev.post.getClusters ∧ ∀ i ∈ l, i ∈ l' := by
  obtain ⟨h1, hstep, hgo, -⟩ := ht.prefix he
  have hev : ev ∈ evs := by rw [he]; simp
  have hub : HopsReturn before := fun e hm => hu e (by rw [he]; exact List.mem_append_left _ hm)
  have hst := h1.struct hub
  obtain ⟨x, hx, rfl⟩ := listed hst hl
  rcases step_cases hst hstep hgo (fun wid k a e => hu ev hev wid k a e) with
    hk | ⟨m, e, ha⟩ | ⟨wid, k, a, j, w1, w2, w3, basin, e, hm, hk, rfl, hg, hp⟩
  · obtain ⟨y, hy, hr⟩ := rel_some' (hx ▸ hk.cluster c)
    exact ⟨c, _, listed_of hy, fun i hi => hr.keys ▸ hi⟩
  · exact ⟨c, _, listed_of (by rw [ha.clusters]; exact hx), fun i hi => hi⟩
  · have hk2 : Keep env ev.pre { w1 with iteration := w1.iteration + 1 } := hk.trans (.of_eq rfl rfl rfl le_rfl)
    obtain ⟨y, hy, hr⟩ := rel_some' (hx ▸ hk2.cluster c)
    rw [hp]
    cases hg.grew with
    | created c0 hb hc =>
      refine ⟨c, _, listed_of (x := y) ?_, fun i hi => hr.keys ▸ hi⟩
      show w3.clusters.get? c = some y
      rw [hc.cluster, if_neg, hy]
      have := ((hst.keep hk2).cid c y hy).2.2
      exact ne_of_lt this
    | merged sc fav c0 d erased _ _ _ _ hmg =>
      have hd : w3.clusters.get? fav = some d := by rw [hmg.cluster, if_pos rfl]
      by_cases h1 : c = fav
      · subst h1
        refine ⟨c, _, listed_of hd, fun i hi => ?_⟩
        rw [← hr.keys] at hi
        obtain ⟨s, hs⟩ := IMap.mem_keys_iff_get?.1 hi
        have := hmg.target
        rw [hy] at this; cases this
        exact IMap.mem_keys_iff_get?.2 ⟨s, (hmg.sites i s).2 (.inl hs)⟩
      · by_cases h2 : c ∈ erased
        · refine ⟨fav, _, listed_of hd, fun i hi => ?_⟩
          rw [← hr.keys] at hi
          obtain ⟨s, hs⟩ := IMap.mem_keys_iff_get?.1 hi
          exact IMap.mem_keys_iff_get?.2 ⟨_, (hmg.sites i _).2 (.inr (.inr ⟨c, h2, y, s, hy, hs, rfl⟩))⟩
        · refine ⟨c, _, listed_of (x := y) ?_, fun i hi => hr.keys ▸ hi⟩
          show w3.clusters.get? c = some y
          rw [hmg.cluster, if_neg h1, if_neg h2, hy]

/-- The calls of the merge history, with traversal times of the whole basins. -/
def World.coverOps : List (Op ℚ) := mergeOps.take 11 ++ [
  .hop 0 10 (witChoice (1 / 3) [12 / 100]), .hop 0 10 (witChoice (1 / 3) [12 / 100]), .hop 1 11 (witChoice (1 / 3) [12 / 100])]

/-- Their history. -/
def World.coverEvs : List (Event ℚ) := (runOps Cluster.witEnv mergeRates (World.new 0) coverOps).1

/-- The world it leads to. -/
def World.coverWorld : World ℚ := (runOps Cluster.witEnv mergeRates (World.new 0) coverOps).2

theorem World.coverTrace : Trace Cluster.witEnv (World.new 0) coverEvs coverWorld := runOps_trace (by decide +kernel)

theorem World.coverUsage : Usage coverEvs := usageB_iff (by decide +kernel)

theorem World.coverRatesFixed : RatesFixed mergeRates coverEvs := by
  intro ev hev
  have : coverEvs.map (·.mem) = List.replicate coverEvs.length mergeRates := rfl
  have hm := List.mem_map_of_mem (f := fun e : Event ℚ => e.mem) hev
  rw [this] at hm
  exact (List.mem_replicate.1 hm).2

theorem World.coverRatesPositive : RatesPositive mergeRates coverEvs :=
  ratesPositive_of (fun a => by unfold mergeRates; split <;> (try split) <;> norm_num) _

theorem World.coverHalf : RatioHalf coverEvs := ratioHalf_of (by decide +kernel)

theorem World.coverCover : TimesCover coverEvs := timesCover_of (by decide +kernel)

/-- The history meets the assumptions and ends with one cluster of four sites, of which site 3 is one. -/
example : coverWorld.getClusters = [(0, [2, 1, 3, 4])] ∧ coverWorld.getClusterIdOfSite 3 = .ok 0 :=
  ⟨by decide +kernel, ((C55_partial _ _ 0 _ _ coverTrace coverUsage.hopsReturn coverRatesFixed coverRatesPositive coverHalf
    coverCover).2.2.2 3 0 (by decide)).2 ⟨[2, 1, 3, 4], by decide +kernel, by decide⟩⟩

/-- There, the pointer of site 3 leads to a cluster, which exists. -/
example : coverWorld.feat 3 = .cluster 0 ∧ SystemSpec.Exists coverWorld 0 :=
  ⟨by decide +kernel, (C56_partial _ _ 0 _ _ coverTrace coverUsage.hopsReturn coverRatesFixed coverRatesPositive coverHalf
    coverCover 3 0).2 (by decide +kernel)⟩

/-- Its third hop meets the assumptions of `C56_basin_partial`: the clusters 0 and 2 exist before, and the basin contains
both. -/
example : ∃ before ev after wid h a v w1 B, coverEvs = before ++ ev :: after ∧ ev.op = .hop wid h a ∧
    ev.pre.iteration + 1 > ev.pre.threshold ∧ ev.pre.thresholdMin ≠ infIterations ∧ ev.pre.hopMove wid h a = .ok (v, w1) ∧
    Explorer.default.findBasin a.vis mergeRates w1.sites w1.clusters v = .ok B ∧
    w1.satisfies mergeRates B (maxTime a.times) = .ok true ∧ ev.pre.getClusters = [(0, [2, 1]), (2, [3, 4])] := by
  refine ⟨coverEvs.take 11, coverEvs[11]'(by decide +kernel), coverEvs.drop 12, 0, 10, witChoice (1 / 3) [12 / 100],
    (((coverEvs[11]'(by decide +kernel)).pre.hopMove 0 10 (witChoice (1 / 3) [12 / 100])).toOption.get (by decide +kernel)).1,
    (((coverEvs[11]'(by decide +kernel)).pre.hopMove 0 10 (witChoice (1 / 3) [12 / 100])).toOption.get (by decide +kernel)).2,
    [1, 2, 3, 4], ?_, rfl, by decide +kernel, by decide +kernel, by decide +kernel, by decide +kernel, by decide +kernel,
    by decide +kernel⟩
  rw [List.getElem_cons_drop, List.take_append_drop]

/-! ## Small performance ratios -/

/-- Rates: 100 at address 0, 15 at address 1, 9 at address 3, otherwise 1. -/
def World.strandRates (a : Addr) : ℚ := if a = 0 then 100 else if a = 1 then 15 else if a = 3 then 9 else 1

/-- Sites 1 and 2 with fast rates between them, 3 and 4 with slower ones; 1 leads to 3 and, slowly, back. -/
def World.strandMap : IMap (IMap Addr) :=
  [(1, [(2, 0), (3, 1)]), (2, [(1, 0)]), (3, [(1, 2), (4, 3)]), (4, [(3, 3), (5, 4)]), (5, [(4, 4)])]

/-- Calls that lead to the clusters 1, 2 and 3, 4 in hops 1 and 2, and to a merge of 1, 2 and 3 in hop 3. -/
def World.strandOps : List (Op ℚ) := [
  .setTimeResolution 10, .setMinThreshold 0, .setPerformanceRatio (1 / 20), .initializeSystem strandMap,
  .newWalker 10, .newWalker 11, .walkerOccupy 10 1, .walkerOccupy 11 3,
  .initializeWalkers [⟨0, 10, 1, 1 / 2⟩, ⟨1, 11, 1, 3 / 4⟩],
  .hop 0 10 (witChoice (1 / 2) [1 / 100]), .hop 1 11 (witChoice (1 / 4) [1 / 9]),
  .hop 0 10 (witChoice (1 / 4) [1 + 1 / 100])]

/-- The history of these calls. -/
def World.strandEvs : List (Event ℚ) := (runOps Cluster.witEnv strandRates (World.new 0) strandOps).1

/-- The world it leads to. -/
def World.strandWorld : World ℚ := (runOps Cluster.witEnv strandRates (World.new 0) strandOps).2

theorem World.strandTrace : Trace Cluster.witEnv (World.new 0) strandEvs strandWorld := runOps_trace (by decide +kernel)

theorem World.strandUsage : Usage strandEvs := usageB_iff (by decide +kernel)

theorem World.strandRatesFixed : RatesFixed strandRates strandEvs := by
  intro ev hev
  have : strandEvs.map (·.mem) = List.replicate strandEvs.length strandRates := rfl
  have hm := List.mem_map_of_mem (f := fun e : Event ℚ => e.mem) hev
  rw [this] at hm
  exact (List.mem_replicate.1 hm).2

theorem World.strandRatesPositive : RatesPositive strandRates strandEvs :=
  ratesPositive_of (fun a => by unfold strandRates; split <;> (try split) <;> (try split) <;> norm_num) _

theorem World.hopMove_fails {w : World K} {h i j : Int} {x : Walker K} {b : Bool} {e : Fault} (wid : Int) (a : Choices K)
    (h1 : w.walkerOf h = .ok x) (h2 : walkerSite x = .ok i) (h3 : walkerPot x = .ok j)
    (h4 : w.isOccupiedAt (w.feat j) j = .ok b) (h5 : w.vacateAt (w.feat i) i = .error e) :
    w.hopMove wid h a = .error e := by
  unfold hopMove
  rw [h1, ok_bind, h2, ok_bind, h3, ok_bind]
  simp only [h4, ok_bind]
  cases b <;> simp [h5]

/-- C55 is false for small performance ratios: with constant positive rates, proper calls and correct traversal times, the
performance ratio 1/20 leads to a state in which site 4 is listed in cluster 0, but is said to be in cluster 2, which does
not exist. -/
theorem C55_counterexample :
    ∃ (env : Env ℚ) (mem : Addr → ℚ) (evs : List (Event ℚ)) (w : World ℚ), Trace env (World.new 0) evs w ∧ Usage evs ∧
      RatesFixed mem evs ∧ RatesPositive mem evs ∧ TimesCover evs ∧ w.perfRatio = 1 / 20 ∧
      w.getClusters = [(0, [2, 1, 4, 3])] ∧ w.getClusterIdOfSite 4 = .ok 2 ∧ ¬ SystemSpec.Exists w 2 :=
  ⟨Cluster.witEnv, strandRates, strandEvs, strandWorld, strandTrace, strandUsage, strandRatesFixed, strandRatesPositive,
    timesCover_of (by decide +kernel), by decide +kernel, by decide +kernel, by decide +kernel,
    by unfold SystemSpec.Exists; decide +kernel⟩

/-- C56 is false for small performance ratios: in that state a walker is on site 4, and its next hop, whatever the draws,
follows a pointer to a cluster that was erased. -/
theorem C56_counterexample :
    ∃ (env : Env ℚ) (mem : Addr → ℚ) (evs : List (Event ℚ)) (w : World ℚ), Trace env (World.new 0) evs w ∧ Usage evs ∧
      RatesFixed mem evs ∧ RatesPositive mem evs ∧ TimesCover evs ∧ On w 11 4 ∧ w.feat 4 = .cluster 2 ∧
      ¬ SystemSpec.Exists w 2 ∧
      ∀ a, (w.step env mem (.hop 1 11 a)).1 = .error (.ub .danglingDeref) :=
  ⟨Cluster.witEnv, strandRates, strandEvs, strandWorld, strandTrace, strandUsage, strandRatesFixed, strandRatesPositive,
    timesCover_of (by decide +kernel), on_of (by decide +kernel) (by decide), by decide +kernel,
    by unfold SystemSpec.Exists; decide +kernel, fun a => by
      rw [show World.step Cluster.witEnv strandRates strandWorld (.hop 1 11 a) =
        ((strandWorld.hop Cluster.witEnv strandRates 1 11 a).1.map fun _ => 0,
          (strandWorld.hop Cluster.witEnv strandRates 1 11 a).2) from rfl]
      simp only [World.hop, hopMove_fails (i := 4) (j := 3) (e := .ub .danglingDeref) (b := false)
        (x := ⟨4, 3, 1 / 10⟩) (w := strandWorld) (h := 11) 1 a (by decide +kernel) (by decide +kernel) (by decide +kernel)
        (by decide +kernel) (by decide +kernel)]
      rfl⟩

end Mythical
