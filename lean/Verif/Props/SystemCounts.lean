import Verif.Lemmas.SystemCounts
import Verif.Props.SystemPartition

/-! # Coarse graining keeps the reported visit counts (C45, system level) -/

set_option linter.unusedSectionVars false
set_option linter.unusedVariables false

namespace Mythical
open World SystemSpec
variable {K : Type} [Field K] [LinearOrder K] [IsStrictOrderedRing K] [FloorRing K]

/-- The counting and coarse graining in a hop keeps the reported counts of sites whose cluster is not lost. -/
theorem World.hop_counts {env : Env K} {n : Nat} {evs : List (Event K)} {w : World K} (ht : Trace env (World.new n) evs w)
    (hu : HopsReturn evs) {before after : List (Event K)} {ev : Event K} (he : evs = before ++ ev :: after) {wid h : Int}
    {a : Choices K} (hop : ev.op = .hop wid h a) {v : Int} {w1 : World K} (hm : ev.pre.hopMove wid h a = .ok (v, w1))
    {i m : Int} (hr : (w1.getVisitFrequencyOfSite i).1 = .ok m)
    (hex : ∀ s, ev.post.sites.get? i = some s → s.clusterId ≠ unassignedId → ev.post.clusters.get? s.clusterId ≠ none) :
    (ev.post.getVisitFrequencyOfSite i).1 = .ok m := by
  obtain ⟨h1, hstep, hgo, -⟩ := ht.prefix he
  have hev : ev ∈ evs := by rw [he]; simp
  have hub : HopsReturn before := fun e hm => hu e (by rw [he]; exact List.mem_append_left _ hm)
  have hst := h1.struct hub
  obtain ⟨r, hres⟩ := hu ev hev wid h a hop
  rw [hop, hres] at hstep
  obtain ⟨j, w1', hm', hk, -, hcases⟩ := hop_event hst hstep
  rw [hm] at hm'
  simp only [Except.ok.injEq, Prod.mk.injEq] at hm'
  obtain ⟨rfl, rfl⟩ := hm'
  rcases hcases with ⟨-, e⟩ | ⟨-, -, e⟩ | ⟨-, -, -, -, e⟩ | ⟨-, -, w3, basin, -, hgr, e⟩
  · rw [visitsOf_congr (w := w1) (by rw [e]) (by rw [e])]; exact hr
  · rw [visitsOf_congr (w := w1) (by rw [e]) (by rw [e])]; exact hr
  · rw [visitsOf_congr (w := w1) (by rw [e]) (by rw [e])]; exact hr
  · have hk2 : Keep env ev.pre { w1 with iteration := ev.pre.iteration + 1 } := hk.trans (.of_eq rfl rfl rfl le_rfl)
    have hf1 : Fit w1 := (h1.fit hub).hopMove hm
    rw [e] at hex
    rw [visitsOf_congr (w := w3) (by rw [e]) (by rw [e])]
    exact grew_reports (hst.keep hk2) ((h1.counted hub).keep hk2) (hf1.of_eq rfl) a.order_perm hgr.grew
      ((visitsOf_congr (w := w1) (w' := { w1 with iteration := ev.pre.iteration + 1 }) rfl rfl i).trans hr) hex

/-- **C45** (performance ratios of at least 1/2): in every history with constant positive rates in which the time samples of
the graph library cover the basins, a hop, whether or not it creates a cluster, adds sites to one, or merges clusters after
it has moved the walker, leaves the visit count reported for every site as it is after the move. -/
theorem C45_partial (env : Env K) (mem : Addr → K) (n : Nat) (evs : List (Event K)) (w : World K)
    (ht : Trace env (World.new n) evs w) (hu : HopsReturn evs) (hf : RatesFixed mem evs) (hp : RatesPositive mem evs)
    (hh : RatioHalf evs) (hc : TimesCover evs) (before after : List (Event K)) (ev : Event K)
    (he : evs = before ++ ev :: after) (wid h : Int) (a : Choices K) (hop : ev.op = .hop wid h a) (v : Int) (w1 : World K)
    (hm : ev.pre.hopMove wid h a = .ok (v, w1)) (i m : Int) (hr : (w1.getVisitFrequencyOfSite i).1 = .ok m) :
    (ev.post.getVisitFrequencyOfSite i).1 = .ok m := by
  refine hop_counts ht hu he hop hm hr fun s hs hs' => ?_
  obtain ⟨-, -, -, h2⟩ := ht.prefix he
  have hsub : ∀ e ∈ before ++ [ev], e ∈ evs := fun e hm => by rw [he]; simp only [List.mem_append, List.mem_cons] at *; tauto
  obtain ⟨x, hx⟩ := (h2.solid (fun e hm => hu e (hsub e hm)) (fun e hm => hf e (hsub e hm)) (fun e hm => hp e (hsub e hm))
    (fun e hm => hh e (hsub e hm)) (fun e hm => hc e (hsub e hm))).exist i s hs hs'
  rw [hx]; simp

/-- **C45** (all ratios): in every history, a hop that coarse-grains never makes the system report another visit count for a
site: after it, the count is the same, or none can be reported. -/
theorem C45_agree_partial (env : Env K) (n : Nat) (evs : List (Event K)) (w : World K) (ht : Trace env (World.new n) evs w)
    (hu : HopsReturn evs) (before after : List (Event K)) (ev : Event K) (he : evs = before ++ ev :: after) (wid h : Int)
    (a : Choices K) (hop : ev.op = .hop wid h a) (v : Int) (w1 : World K) (hm : ev.pre.hopMove wid h a = .ok (v, w1))
    (i m m' : Int) (hr : (w1.getVisitFrequencyOfSite i).1 = .ok m) (hr' : (ev.post.getVisitFrequencyOfSite i).1 = .ok m') :
    m' = m := by
  have h2 := (ht.prefix he).2.2.2
  have hst := h2.struct fun e hm => hu e (by rw [he]; simp only [List.mem_append, List.mem_cons] at *; tauto)
  have := hop_counts ht hu he hop hm hr fun s hs hs' hnone => by
    rw [visitsOf_none hs (hst.joined i s hs hs').2.1 hnone] at hr'
    cases hr'
  rw [hr'] at this
  exact Except.ok.inj this

/-- **C45** is false for small performance ratios: in a history with constant positive rates whose calls all return, a hop
after whose move site 4 has one visit merges the cluster of site 4 away and leaves site 4 behind. The system then refuses to
report the visits of site 4. -/
theorem C45_counterexample : ∃ (evs : List (Event ℚ)) (w : World ℚ), Trace Cluster.witEnv (World.new 0) evs w ∧ Usage evs ∧
    RatesFixed strandRates evs ∧ RatesPositive strandRates evs ∧
    ∃ before ev after wid h a v w1, evs = before ++ ev :: after ∧ ev.op = .hop wid h a ∧
      ev.pre.hopMove wid h a = .ok (v, w1) ∧ (w1.getVisitFrequencyOfSite 4).1 = .ok 1 ∧
      (ev.post.getVisitFrequencyOfSite 4).1 = .error .invalidArgument := by
  refine ⟨strandEvs, strandWorld, strandTrace, strandUsage, strandRatesFixed, strandRatesPositive,
    strandEvs.take 11, strandEvs[11]'(by decide +kernel), strandEvs.drop 12, 0, 10, witChoice (1 / 4) [1 + 1 / 100],
    (((strandEvs[11]'(by decide +kernel)).pre.hopMove 0 10 (witChoice (1 / 4) [1 + 1 / 100])).toOption.get (by decide +kernel)).1,
    (((strandEvs[11]'(by decide +kernel)).pre.hopMove 0 10 (witChoice (1 / 4) [1 + 1 / 100])).toOption.get (by decide +kernel)).2,
    ?_, rfl, ?_, ?_, ?_⟩
  · rw [List.getElem_cons_drop, List.take_append_drop]
  · decide +kernel
  · decide +kernel
  · decide +kernel

/-- A history that meets the assumptions of `C45_partial`: its third hop merges the clusters 1, 2 and 3, 4; site 3 had one
visit when the walker had moved, and has one visit after the merge. -/
example : ∃ before ev after wid h a v w1, coverEvs = before ++ ev :: after ∧ ev.op = .hop wid h a ∧
    ev.pre.hopMove wid h a = .ok (v, w1) ∧ w1.getClusters = [(0, [2, 1]), (2, [3, 4])] ∧
    ev.post.getClusters = [(0, [2, 1, 3, 4])] ∧ (w1.getVisitFrequencyOfSite 3).1 = .ok 1 ∧
    (ev.post.getVisitFrequencyOfSite 3).1 = .ok 1 := by
  have he : coverEvs = coverEvs.take 11 ++ coverEvs[11]'(by decide +kernel) :: coverEvs.drop 12 := by
    rw [List.getElem_cons_drop, List.take_append_drop]
  have hm : (coverEvs[11]'(by decide +kernel)).pre.hopMove 0 10 (witChoice (1 / 3) [12 / 100]) =
      .ok ((((coverEvs[11]'(by decide +kernel)).pre.hopMove 0 10 (witChoice (1 / 3) [12 / 100])).toOption.get (by decide +kernel)).1,
        (((coverEvs[11]'(by decide +kernel)).pre.hopMove 0 10 (witChoice (1 / 3) [12 / 100])).toOption.get (by decide +kernel)).2) := by
    decide +kernel
  exact ⟨_, _, _, 0, 10, _, _, _, he, rfl, hm, by decide +kernel, by decide +kernel, by decide +kernel,
    C45_partial _ _ 0 _ _ coverTrace coverUsage.hopsReturn coverRatesFixed coverRatesPositive coverHalf coverCover _ _ _ he
      0 10 _ rfl _ _ hm 3 1 (by decide +kernel)⟩

/-- In the history of the counterexample the counts of sites 1, 2, 3 and 5 survive, as `C45_agree_partial` demands. -/
example : ((strandEvs[11]'(by decide +kernel)).post.getVisitFrequencyOfSite 3).1 = .ok 1 ∧
    ((strandEvs[11]'(by decide +kernel)).post.getVisitFrequencyOfSite 5).1 = .ok 0 := by
  decide +kernel

end Mythical
