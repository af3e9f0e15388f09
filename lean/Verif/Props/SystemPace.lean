import Verif.Lemmas.SystemPace
import Verif.Lemmas.SystemLong

/-! # System properties C57, C58: when coarse graining is attempted -/

set_option linter.unusedSectionVars false
set_option linter.unusedVariables false

namespace Mythical
open World SystemSpec
variable {K : Type} [Field K] [LinearOrder K] [IsStrictOrderedRing K] [FloorRing K]

/-- **C58** (partial): In every history whose hops return, `coarseGrain_` is run in a hop exactly when the specified pace
(`SystemSpec.pace`: a failed attempt doubles the threshold, a successful one resets it) says that an attempt is due. It is
run for the site to which the walker wanted to hop, after the walker has been moved, and has succeeded exactly if the hop
changed the cluster of some site. Without an attempt the hop only moves the walker.

Missing: that the doubling never overflows, which is false (`C58_counterexample`); see `C58_fits_partial`. -/
theorem C58_partial (env : Env K) (n : Nat) (evs : List (Event K)) (w : World K) (ht : Trace env (World.new n) evs w)
    (hu : HopsReturn evs) (before after : List (Event K)) (ev : Event K) (he : evs = before ++ ev :: after) (wid h : Int)
    (a : Choices K) (hop : ev.op = .hop wid h a) :
    ∃ x w1, ev.pre.walkers.get? h = some x ∧ ev.pre.hopMove wid h a = .ok (x.pot, w1) ∧
      (¬ (pace before).Due → ev.post.sites = w1.sites ∧ ev.post.clusters = w1.clusters ∧ ev.post.walkers = w1.walkers ∧
        ¬ Regrouped ev ∧ ev.post.getClusters = ev.pre.getClusters) ∧
      ((pace before).Due → ∃ b w2 w3, w2 = { w1 with iteration := (pace before).since + 1 } ∧
        coarseGrain env ev.mem w2 a x.pot = (.ok b, w3) ∧ (b = true ↔ Regrouped ev) ∧
        ev.post.sites = w3.sites ∧ ev.post.clusters = w3.clusters ∧ ev.post.walkers = w1.walkers) := by
  obtain ⟨hpre, hstep, hgo, hpost⟩ := ht.prefix he
  have hu0 : HopsReturn before := fun e h => hu e (by rw [he]; exact List.mem_append_left _ h)
  have hst := hpre.struct hu0
  obtain ⟨p1, p2, p3⟩ := hpre.pace hu0
  obtain ⟨m, hm⟩ := hu ev (by rw [he]; simp) wid h a hop
  rw [hop, hm] at hstep
  obtain ⟨j, w1, hmv, hk, -, hc⟩ := hop_event hst hstep
  obtain ⟨x, b, n', t, w4, hx, h0, h0', hj, -, -, -, -⟩ := hst.hopMove hmv
  subst hj
  have hsame : ∀ u : World K, u.sites = w1.sites → u.clusters = w1.clusters → ev.post = u → ¬ Regrouped ev := by
    rintro u h1 h2 h3 ⟨i, hi⟩
    apply hi
    rw [h3]
    have := hk.ids i
    unfold World.getClusterIdOfSite at this ⊢
    rw [h1, this]
  refine ⟨x, w1, hx, hmv, ?_, ?_⟩
  · intro hnd
    unfold Pace.Due at hnd
    rw [← p1, ← p2, ← p3] at hnd
    have hg := hk.getClusters hst
    rcases hc with ⟨h1, e⟩ | ⟨h1, h2, e⟩ | ⟨h1, h2, -⟩ | ⟨h1, h2, -⟩
    · exact ⟨by rw [e], by rw [e], by rw [e], hsame ev.post (by rw [e]) (by rw [e]) rfl, by rw [e]; exact hg⟩
    · exact ⟨by rw [e], by rw [e], by rw [e], hsame ev.post (by rw [e]) (by rw [e]) rfl, by rw [e]; exact hg⟩
    · exact absurd ⟨h1, h2⟩ hnd
    · exact absurd ⟨h1, h2⟩ hnd
  · intro hd
    unfold Pace.Due at hd
    rw [← p1, ← p2, ← p3] at hd
    rw [← p1]
    rcases hc with ⟨h1, e⟩ | ⟨h1, h2, e⟩ | ⟨h1, h2, h3, -, e⟩ | ⟨h1, h2, w3, basin, h3, hg, e⟩
    · omega
    · exact absurd h2 hd.2
    · refine ⟨false, _, _, rfl, h3, ?_, by rw [e], by rw [e], by rw [e]⟩
      have := hsame ev.post (by rw [e]) (by rw [e]) rfl
      simp [this]
    · refine ⟨true, _, w3, rfl, h3, ?_, by rw [e], by rw [e], ?_⟩
      · have : Regrouped ev := by
          unfold Regrouped
          rw [e]
          exact hop_regroups hst hk hg
        simp [this]
      · rw [e]
        cases hg.grew with
        | created c0 hb h => rw [h.eq]
        | merged sc fav c d erased _ _ _ _ h => rw [h.eq]

/-- The first hop of the witness history is followed by a successful attempt (the minimum is 0), the second one by a failed
one, after which the threshold is 0 again. -/
example : (sysEvs[9]?.map fun ev => (ev.pre.getClusters, ev.post.getClusters)) = some ([], [(0, [2, 1])]) ∧
    (sysEvs[10]?.map fun ev => decide (ev.pre.getClusters = ev.post.getClusters)) = some true := by decide +kernel

example (ev : Event ℚ) (before after : List (Event ℚ)) (he : sysEvs = before ++ ev :: after) (wid h : Int) (a : Choices ℚ)
    (hop : ev.op = .hop wid h a) : ∃ x, ev.pre.walkers.get? h = some x := by
  obtain ⟨x, w1, hx, -⟩ := C58_partial _ 0 _ _ sysTrace sysUsage.hopsReturn before after ev he wid h a hop
  exact ⟨x, hx⟩

/-- C58, the part about overflow: with thresholds that are not negative and fewer than 2^30 hops so far, the counters of the
next hop do not overflow. It fails only if its move or the attempt itself fails. -/
theorem C58_fits_partial (env : Env K) (n : Nat) (evs : List (Event K)) (w : World K) (ht : Trace env (World.new n) evs w)
    (hu : HopsReturn evs) (hm : ∀ ev ∈ evs, ∀ n, ev.op = .setMinThreshold n → 0 ≤ n) (hn : hopsIn evs < 2 ^ 30)
    (mem : Addr → K) (wid h : Int) (a : Choices K) (e : Fault) (w' : World K)
    (hf : w.hop env mem wid h a = (.error e, w')) :
    w.hopMove wid h a = .error e ∨ ∃ j w1, w.hopMove wid h a = .ok (j, w1) ∧ (pace evs).Due ∧
      coarseGrain env mem { w1 with iteration := (pace evs).since + 1 } a j = (.error e, w') := by
  have hst := ht.struct hu
  obtain ⟨p1, p2, p3⟩ := ht.pace hu
  obtain ⟨b1, b2, b3, b4⟩ := pace_bounds hm
  unfold World.hop at hf
  split at hf
  · next e' he' => simp only [Prod.mk.injEq, Except.error.injEq] at hf; rw [he', hf.1]; exact .inl rfl
  · next j w1 hmv =>
    right
    have hk := hst.hopMove_keep hmv
    obtain ⟨s1, s2, s3, -⟩ := hopMove_scalars hmv
    have hn' : ((hopsIn evs : Nat) : Int) < 2 ^ 30 := by exact_mod_cast hn
    obtain ⟨q1, q2, q3⟩ := hopCount_fails (hst.keep hk) hf (fitsInt_of (by omega) (by omega))
      (fun _ _ => fitsInt_of (by omega) (by omega))
    refine ⟨j, w1, hmv, ⟨by omega, by rw [← p3, ← s3]; exact q2⟩, ?_⟩
    rw [← p1, ← s1]
    exact q3

/-- **C57** (partial): After `setMinCoarseGrainIterationThreshold(inf_iterations)`, as long as no other threshold is set, no
hop that returns changes the cluster of a site, the clusters or their resolutions and time increments. A hop fails only if
its move fails, as long as there have been fewer than 2^31 - 1 hops.

Missing: that hops never fail because of the iteration counter, which is false (`C57_counterexample`). -/
theorem C57_partial (env : Env K) (n : Nat) (evs : List (Event K)) (w : World K) (ht : Trace env (World.new n) evs w)
    (hu : HopsReturn evs) (before after : List (Event K)) (ev : Event K) (he : evs = before ++ ev :: after)
    (hoff : ev.op = .setMinThreshold infIterations) (hno : ∀ e ∈ after, ∀ m, e.op ≠ .setMinThreshold m) :
    (∀ mid e rest, after = mid ++ e :: rest → isHop e.op = true →
      ¬ Regrouped e ∧ e.post.getClusters = e.pre.getClusters ∧
      e.post.getResolutionOfClusters = e.pre.getResolutionOfClusters ∧
      e.post.getTimeIncrementOfClusters = e.pre.getTimeIncrementOfClusters) ∧
    ((∀ e ∈ before, ∀ m, e.op = .setMinThreshold m → 0 ≤ m) → hopsIn evs < 2 ^ 31 - 1 → ∀ mem wid h a e w',
      w.hop env mem wid h a = (.error e, w') → w.hopMove wid h a = .error e) := by
  have hmin : ∀ mid rest, after = mid ++ rest → (pace (before ++ ev :: mid)).min = infIterations := by
    intro mid
    induction mid using List.reverseRecOn with
    | nil =>
      intro rest _
      rw [pace_snoc]
      unfold Pace.after
      rw [hoff]
    | append_singleton mid x ih =>
      intro rest hr
      have h1 := ih (x :: rest) (by rw [hr]; simp)
      have hx : x ∈ after := by rw [hr]; simp
      rw [← List.cons_append, ← List.append_assoc, pace_snoc]
      unfold Pace.after
      cases hop : x.op with
      | setMinThreshold m => exact absurd hop (hno x hx m)
      | hop wid k a =>
        simp only
        split
        · exact h1
        · exact h1
      | _ => exact h1
  constructor
  · intro mid e rest hr hhop
    have he' : evs = (before ++ ev :: mid) ++ e :: rest := by rw [he, hr]; simp
    obtain ⟨hpre, hstep, hgo, hpost⟩ := ht.prefix he'
    have hu0 : HopsReturn (before ++ ev :: mid) := fun x h => hu x (by rw [he']; exact List.mem_append_left _ h)
    have hst := hpre.struct hu0
    obtain ⟨p1, p2, p3⟩ := hpre.pace hu0
    rw [hmin mid (e :: rest) hr] at p3
    obtain ⟨wid, k, a, hop⟩ : ∃ wid k a, e.op = .hop wid k a := by
      cases h : e.op <;> first | exact ⟨_, _, _, rfl⟩ | (rw [h] at hhop; cases hhop)
    obtain ⟨m, hm⟩ := hu e (by rw [he']; simp) wid k a hop
    rw [hop, hm] at hstep
    obtain ⟨j, w1, hmv, hk, -, hc⟩ := hop_event hst hstep
    have hk' : Keep env e.pre e.post := by
      rcases hc with ⟨h1, e1⟩ | ⟨h1, h2, e1⟩ | ⟨h1, h2, -⟩ | ⟨h1, h2, -⟩
      · rw [e1]; exact hk.scalars
      · rw [e1]; exact hk.scalars
      · exact absurd p3 h2
      · exact absurd p3 h2
    exact ⟨fun ⟨i, hi⟩ => hi (hk'.ids i).symm, hk'.getClusters hst, hk'.getResolution hst, hk'.getIncrements hst⟩
  · intro hm hn mem wid h a e w' hf
    have hst := ht.struct hu
    obtain ⟨p1, p2, p3⟩ := ht.pace hu
    obtain ⟨b1, b2, b3, b4⟩ := pace_bounds (evs := evs) (by
      intro x hx m hxm
      rw [he] at hx
      rcases List.mem_append.1 hx with hx | hx
      · exact hm x hx m hxm
      · rcases List.mem_cons.1 hx with rfl | hx
        · rw [hoff] at hxm; cases hxm; decide
        · exact absurd hxm (hno x hx m))
    have hmin' := hmin after [] (by simp)
    rw [← he] at hmin'
    unfold World.hop at hf
    split at hf
    · next e' he' => simp only [Prod.mk.injEq, Except.error.injEq] at hf; rw [he', hf.1]
    · next j w1 hmv =>
      exfalso
      have hk := hst.hopMove_keep hmv
      obtain ⟨s1, s2, s3, -⟩ := hopMove_scalars hmv
      have hn' : ((hopsIn evs : Nat) : Int) < 2 ^ 31 - 1 := by omega
      obtain ⟨-, q2, -⟩ := hopCount_fails (hst.keep hk) hf (fitsInt_of (by omega) (by omega))
        (fun _ q => absurd (by rw [s3, p3, hmin']) q)
      exact q2 (by rw [s3, p3, hmin'])

/-- The witness history of `C57_counterexample`, as far as any number of hops below 2^31, meets the hypotheses. -/
example (k : Nat) (hk : k < 2 ^ 31 - 1) : ∃ evs w before ev after, Trace Cluster.witEnv (World.new 0) evs w ∧ HopsReturn evs ∧
    evs = before ++ ev :: after ∧ ev.op = .setMinThreshold infIterations ∧ (∀ e ∈ after, ∀ m, e.op ≠ .setMinThreshold m) ∧
    hopsIn evs = k := by
  have h1 : Idle (fun m => m = infIterations)
      (idleEvs ++ [⟨idleAt 0 1000 1000 0, sysRates, .setMinThreshold infIterations, .ok 0, idleAt 0 infIterations infIterations 0⟩])
      (idleAt 0 infIterations infIterations 0) := idle_off
  obtain ⟨l, hl, hc, hh⟩ := h1.run le_rfl (by decide) k (by omega) (by unfold infIterations INT_MAX; omega)
  refine ⟨_, _, idleEvs, _, l, hl.trace, hl.usage.hopsReturn, by rw [List.append_assoc]; rfl, rfl, ?_, ?_⟩
  · intro e he m hm
    have := hh e he
    rw [hm] at this
    cases this
  · rw [hc]
    have : hopsIn (idleEvs ++ [⟨idleAt 0 1000 1000 0, sysRates, .setMinThreshold infIterations, .ok 0,
      idleAt 0 infIterations infIterations 0⟩]) = 0 := by decide +kernel
    rw [this, zero_add]

/-- C58: the doubling can overflow, also with the default threshold and proper calls. One walker hops to and fro between two
sites; after 22 failed attempts (4194303021 hops) the threshold 1000 * 2^21 is doubled in the next hop. -/
theorem C58_counterexample : ∃ evs w, Trace Cluster.witEnv (World.new 0) evs w ∧ Usage evs ∧ HopsReturn evs ∧
    (∀ ev ∈ evs, ∀ m, ev.op ≠ .setMinThreshold m) ∧ hopsIn evs = 4194303021 ∧
    ∃ j w1 w2, w.hopMove 0 10 idleChoice = .ok (j, w1) ∧ (∀ i s, w1.sites.get? i = some s → s.visits < 2 ^ 31 - 2) ∧
      coarseGrain Cluster.witEnv sysRates { w1 with iteration := w1.iteration + 1 } idleChoice j = (.ok false, w2) ∧
      (w.step Cluster.witEnv sysRates (.hop 0 10 idleChoice)).1 = .error (.ub .intOverflow) := by
  obtain ⟨evs, h, hc⟩ := idle_phases (fun _ => False) 21 le_rfl
  obtain ⟨l, hl, hc'⟩ := idle_wait (by omega) h
  refine ⟨evs ++ l, _, hl.trace, hl.usage, ?_, hl.mins, ?_, ?_⟩
  · exact hl.usage.hopsReturn
  · rw [hc', hc]; decide +kernel
  · refine ⟨1, idleAt (phase 21).1 (phase 21).1 1000 ((phase 21).2 + (phase 21).1.toNat + 1), _, ?_, ?_, phase_try, phase_end⟩
    · decide +kernel
    · intro i s hs
      have hm := IMap.mem_of_get? hs
      have : ∀ x ∈ (idleAt (phase 21).1 (phase 21).1 1000 ((phase 21).2 + (phase 21).1.toNat + 1)).sites,
        x.2.visits < 2 ^ 31 - 2 := by decide +kernel
      exact this _ hm

/-- C57: with coarse graining switched off, the iteration counter is never reset, so that it overflows in hop number 2^31. -/
theorem C57_counterexample : ∃ evs w, Trace Cluster.witEnv (World.new 0) evs w ∧ Usage evs ∧ HopsReturn evs ∧
    (∃ before ev after, evs = before ++ ev :: after ∧ ev.op = .setMinThreshold infIterations ∧
      (∀ e ∈ after, ∀ m, e.op ≠ .setMinThreshold m) ∧ ∀ e ∈ before, isHop e.op = false) ∧ hopsIn evs = 2 ^ 31 - 1 ∧
    ∃ j w1, w.hopMove 0 10 idleChoice = .ok (j, w1) ∧
      (w.step Cluster.witEnv sysRates (.hop 0 10 idleChoice)).1 = .error (.ub .intOverflow) := by
  have h1 := idle_off
  obtain ⟨l, hl, hc, hh⟩ := h1.run le_rfl (by decide) (2 ^ 31 - 1) (by decide) (by decide)
  refine ⟨_, _, hl.trace, hl.usage, hl.usage.hopsReturn, ⟨idleEvs, _, l, by rw [List.append_assoc]; rfl, rfl, ?_, ?_⟩, ?_, 1,
    idleAt (2 ^ 31 - 1) infIterations infIterations (2 ^ 31), ?_, ?_⟩
  · intro e he m hm
    have := hh e he
    rw [hm] at this
    cases this
  · decide +kernel
  · rw [hc]; decide +kernel
  · decide +kernel
  · decide +kernel

end Mythical
