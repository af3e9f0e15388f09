import Verif.Lemmas.SystemSound
import Verif.Lemmas.SystemWitness
import Verif.Props.SystemGrain

/-! # Resolution and time increment of the clusters in a system (C48) -/

set_option linter.unusedSectionVars false
set_option linter.unusedVariables false

namespace Mythical
open World SystemSpec
variable {K : Type} [Field K] [LinearOrder K] [IsStrictOrderedRing K] [FloorRing K]

/-- **C48.** In every history whose hops return, with positive rates that do not change: when cluster `c` appears, its
resolution is at least 2, and its time increment is positive, at most half its escape time constant `t` and at most the time
resolution of the system. In fact it is the smaller one of these two bounds. -/
theorem C48 (env : Env K) (n : Nat) (evs : List (Event K)) (w : World K) (ht : Trace env (World.new n) evs w)
    (hu : HopsReturn evs) (mem : Addr → K) (hf : RatesFixed mem evs) (hpos : RatesPositive mem evs)
    (before after : List (Event K)) (ev : Event K) (he : evs = before ++ ev :: after) (c : Int)
    (hnew : ¬ SystemSpec.Exists ev.pre c) (x : Cluster K) (hx : ev.post.clusters.get? c = some x) :
    ∃ t inc res, x.tau = some t ∧ x.getTimeIncrement = .ok inc ∧ ev.pre.timeRes = some res ∧
      2 ≤ x.resolution ∧ 0 < inc ∧ inc ≤ t / 2 ∧ inc ≤ res ∧ inc = min (t / 2) res := by
  obtain ⟨hst, wid, h, a, j, w1, w2, w3, basin, hop, hm, hk, st2, rfl, hg, hp, hw⟩ :=
    grain_event ht hu he (.inr ⟨c, exists_iff.2 ⟨x, hx⟩, hnew⟩)
  obtain ⟨h1, -, -, hpost⟩ := ht.prefix he
  have hin : ∀ e ∈ before ++ [ev], e ∈ evs := by
    intro e hm
    rw [he]
    rcases List.mem_append.1 hm with hm | hm
    · exact List.mem_append_left _ hm
    · rw [List.mem_singleton] at hm; subst hm; simp
  have hset := hpost.settled (fun e hm => hu e (hin e hm)) (mem := mem) (fun e hm => hf e (hin e hm))
    (fun e hm => hpos e (hin e hm)) c x hx
  obtain ⟨t, e1, e2, e3⟩ := hset.tau
  obtain ⟨res, s1, s2, -⟩ := satisfies_true hw hg.sat
  have hres : ev.pre.timeRes = some res := by
    obtain ⟨S, C, W, hw1⟩ := hopMove_outer hm
    rw [hw1] at s1
    exact s1
  rw [hp] at hx
  change IMap.get? w3.clusters c = some x at hx
  have hold : ∀ x, w1.clusters.get? c ≠ some x := by
    intro x hx
    apply hnew
    obtain ⟨y, hy, -⟩ := rel_some (hx ▸ hk.cluster c)
    exact exists_iff.2 ⟨y, hy⟩
  cases hg.grew with
  | merged sc fav x' d erased _ _ _ _ hmg =>
    exfalso
    rw [hmg.cluster] at hx
    split at hx
    · next e => subst e; exact hold _ hmg.target
    · split at hx
      · cases hx
      · exact hold _ hx
  | created c0 hb hc =>
    rw [hc.cluster] at hx
    split at hx
    · cases hx
      obtain ⟨-, -, -, tau, res', b1, b2, b3, b4⟩ := build_upd hb
      have hse := seedCluster_eq ({ w1 with iteration := w1.iteration + 1 } : World K) c0
      rw [hse] at e1 e3
      change c0.tau = some t at e1
      change c0.timeInc = some (t / c0.resolution) at e3
      rw [e1] at b1; cases b1
      rw [s1] at b2; cases b2
      have hM := maxTime_nonneg a.times
      have hres0 : 0 < res := by linarith
      have hr : c0.resolution = if t / res < 2 then 2 else t / res := by
        unfold chosenResolution at b3
        rw [if_neg (by push Not; exact fun _ => e2)] at b3
        simp only [Except.ok.injEq] at b3
        have hc : maxTime a.times = 0 ∨ t / res < t / (2 * maxTime a.times) := by
          rcases hM.eq_or_lt with h0 | h0
          · exact .inl h0.symm
          · exact .inr (div_lt_div_of_pos_left e2 (by linarith) s2)
        rw [if_pos hc] at b3
        exact b3.symm
      have hinc : t / c0.resolution = min (t / 2) res := by
        rw [hr]
        split
        · next hlt =>
          rw [div_lt_iff₀ hres0] at hlt
          rw [min_eq_left]; linarith
        · next hge =>
          rw [not_lt, le_div_iff₀ hres0] at hge
          rw [min_eq_right (by linarith)]
          have := e2.ne'
          have := hres0.ne'
          field_simp
      refine ⟨t, t / c0.resolution, res, ?_, ?_, hres, ?_, ?_, ?_, ?_, hinc⟩
      · rw [hse]; exact e1
      · rw [hse]; unfold Cluster.getTimeIncrement; simp only [e3]
      · rw [hse]; exact hset.res.trans_eq (by rw [hse])
      · rw [hinc]; exact lt_min (by linarith) hres0
      · rw [hinc]; exact min_le_left _ _
      · rw [hinc]; exact min_le_right _ _
    · exact absurd hx (hold x)

/-- At any time, all clusters have a positive escape time constant `t`, a resolution of at least 2 and a time increment that
is `t` over the resolution. -/
theorem C48_always (env : Env K) (n : Nat) (evs : List (Event K)) (w : World K) (ht : Trace env (World.new n) evs w)
    (hu : HopsReturn evs) (mem : Addr → K) (hf : RatesFixed mem evs) (hpos : RatesPositive mem evs) (c : Int) (x : Cluster K)
    (hx : w.clusters.get? c = some x) :
    ∃ t, x.tau = some t ∧ 0 < t ∧ 2 ≤ x.resolution ∧ x.getTimeIncrement = .ok (t / x.resolution) ∧
      0 < t / x.resolution ∧ t / x.resolution ≤ t / 2 := by
  have hset := ht.settled hu hf hpos c x hx
  obtain ⟨t, e1, e2, e3⟩ := hset.tau
  have h2 := hset.res
  refine ⟨t, e1, e2, h2, ?_, div_pos e2 (by show 0 < x.resolution; linarith), ?_⟩
  · unfold Cluster.getTimeIncrement; simp only [e3]
  · exact div_le_div_of_nonneg_left e2.le (by norm_num) h2

theorem ratesPositive_of {mem : Addr → K} (h : ∀ a, 0 < mem a) (evs : List (Event K)) : RatesPositive mem evs :=
  fun _ _ _ _ _ _ _ _ => h _

theorem World.sysRatesFixed : RatesFixed sysRates sysEvs := by
  intro ev hev
  have : sysEvs.map (·.mem) = List.replicate sysEvs.length sysRates := rfl
  have hm := List.mem_map_of_mem (f := fun e : Event ℚ => e.mem) hev
  rw [this] at hm
  exact (List.mem_replicate.1 hm).2

theorem World.sysRatesPositive : RatesPositive sysRates sysEvs :=
  ratesPositive_of (fun a => by unfold sysRates; split <;> norm_num) _

/-- The witness history: cluster 0 appears in its first hop. -/
example : RatesFixed sysRates sysEvs ∧ RatesPositive sysRates sysEvs ∧ HopsReturn sysEvs ∧
    ∃ before ev after, sysEvs = before ++ ev :: after ∧ ¬ SystemSpec.Exists ev.pre 0 ∧
      ∃ x, ev.post.clusters.get? 0 = some x ∧ x.tau = some (13122728808 / 13057603201) := by
  refine ⟨sysRatesFixed, sysRatesPositive, sysUsage.hopsReturn, sysEvs.take 9, sysEvs[9]'(by decide +kernel), sysEvs.drop 10, ?_,
    by unfold SystemSpec.Exists; decide +kernel, ((sysEvs[9]'(by decide +kernel)).post.clusters.get? 0).get (by decide +kernel),
    by simp, by decide +kernel⟩
  rw [List.getElem_cons_drop, List.take_append_drop]

/-- The calls of the merge history, with a smaller time resolution. -/
def World.fineOps : List (Op ℚ) := .setTimeResolution (1 / 4) :: mergeOps.tail

/-- Their history. -/
def World.fineEvs : List (Event ℚ) := (runOps Cluster.witEnv mergeRates (World.new 0) fineOps).1

/-- The world it leads to. -/
def World.fineWorld : World ℚ := (runOps Cluster.witEnv mergeRates (World.new 0) fineOps).2

/-- The bound by the time resolution holds for new clusters only: a merge keeps the resolution while the escape time constant
grows. In this history the time increment of cluster 0 is more than twice the time resolution of the system after the
merge. -/
theorem C48_merge_counterexample :
    ∃ (evs : List (Event ℚ)) (w : World ℚ) (x : Cluster ℚ) (inc : ℚ), Trace Cluster.witEnv (World.new 0) evs w ∧ Usage evs ∧
      RatesFixed mergeRates evs ∧ RatesPositive mergeRates evs ∧ w.clusters.get? 0 = some x ∧
      x.getTimeIncrement = .ok inc ∧ w.timeRes = some (1 / 4) ∧ 1 / 2 < inc := by
  refine ⟨fineEvs, fineWorld, (fineWorld.clusters.get? 0).get (by decide +kernel), 794105528172 / 1580703701821,
    runOps_trace (by decide +kernel), usageB_iff (by decide +kernel), ?_,
    ratesPositive_of (fun a => by unfold mergeRates; split; norm_num; split <;> norm_num) _, by simp, by decide +kernel,
    by decide +kernel, by norm_num⟩
  intro ev hev
  have : fineEvs.map (·.mem) = List.replicate fineEvs.length mergeRates := rfl
  have hm := List.mem_map_of_mem (f := fun e : Event ℚ => e.mem) hev
  rw [this] at hm
  exact (List.mem_replicate.1 hm).2

end Mythical
