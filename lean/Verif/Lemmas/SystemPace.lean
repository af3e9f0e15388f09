import Verif.Lemmas.SystemInvariant

/-! # The pace of the coarse-graining attempts -/

set_option linter.unusedSectionVars false
set_option linter.unusedVariables false

namespace Mythical.World
open Mythical SystemSpec
variable {K : Type} [Field K] [LinearOrder K] [IsStrictOrderedRing K] [FloorRing K]
variable {w w' w1 w2 : World K} {env : Env K} {mem : Addr → K} {act act' : List Int}

theorem getClusterIdOfSite_none {S : SiteContainer K} {i : Int} (h : IMap.get? S i = none) :
    S.getClusterIdOfSite i = .error .invalidArgument := by
  unfold SiteContainer.getClusterIdOfSite SiteContainer.getSite; rw [h]; rfl

theorem clusterIds_congr {S S' : SiteContainer K} {i : Int}
    (h : (IMap.get? S' i).map (·.clusterId) = (IMap.get? S i).map (·.clusterId)) :
    S'.getClusterIdOfSite i = S.getClusterIdOfSite i := by
  cases e : IMap.get? S i with
  | none =>
    rw [e] at h
    rw [getClusterIdOfSite_none e, getClusterIdOfSite_none (Option.map_eq_none_iff.1 h)]
  | some s =>
    rw [e] at h
    obtain ⟨t, ht, hc⟩ := Option.map_eq_some_iff.1 h
    rw [getClusterIdOfSite_of e, getClusterIdOfSite_of ht, hc]

theorem Keep.ids (h : Keep env w w') (i : Int) : w'.getClusterIdOfSite i = w.getClusterIdOfSite i :=
  clusterIds_congr (h.clusterId i)

theorem map_congr_keys {V W : Type} {m m' : IMap V} {f : V → W} (hw : m.WF) (hk : m'.keys = m.keys)
    (h : ∀ k, (m'.get? k).map f = (m.get? k).map f) :
    (m'.map fun x => (x.1, f x.2)) = m.map fun x => (x.1, f x.2) := by
  induction m generalizing m' with
  | nil =>
    cases m' with
    | nil => rfl
    | cons a m' => simp at hk
  | cons a m ih =>
    cases m' with
    | nil => simp at hk
    | cons b m' =>
      obtain ⟨a, av⟩ := a
      obtain ⟨b, bv⟩ := b
      simp only [IMap.keys_cons, List.cons.injEq] at hk
      obtain ⟨h1, h2⟩ := IMap.wf_cons.1 hw
      have ha := h a
      simp only [IMap.get?_cons, hk.1, if_true, Option.map_some, Option.some.injEq] at ha
      simp only [List.map_cons, hk.1, ha]
      congr 1
      refine ih h2 hk.2 ?_
      intro k
      by_cases e : a = k
      · subst e
        rw [IMap.get?_eq_none_iff.2 h1, IMap.get?_eq_none_iff.2 (hk.2 ▸ h1)]
      · have := h k
        simp only [IMap.get?_cons, hk.1, if_neg e] at this
        exact this

theorem Keep.of_clusters {W : Type} (h : Keep env w w') (hst : Struct env w) (f : Cluster K → W)
    (hf : ∀ x x', ClusterKeep env Any x x' → f x' = f x) :
    (List.map (fun x : Int × Cluster K => (x.1, f x.2)) w'.clusters) = List.map (fun x => (x.1, f x.2)) w.clusters := by
  refine map_congr_keys hst.clustersWF h.clusterKeys ?_
  intro k
  have hr := h.cluster k
  cases e : w.clusters.get? k with
  | none => rw [(rel_none hr).1 e]
  | some x =>
    obtain ⟨x', hx', hk⟩ := rel_some' (e ▸ hr)
    rw [hx']
    simp [hf x x' hk]

theorem Keep.getClusters (h : Keep env w w') (hst : Struct env w) : w'.getClusters = w.getClusters :=
  h.of_clusters hst Cluster.getSiteIdsInCluster fun x x' hk => hk.keys

theorem Keep.getResolution (h : Keep env w w') (hst : Struct env w) :
    w'.getResolutionOfClusters = w.getResolutionOfClusters :=
  h.of_clusters hst (·.resolution) fun x x' hk => by rw [hk.eq]

/-- The time increment in a cluster's table entry. -/
def incOf (x : Int × Option K) : Except Fault (Int × K) :=
  match x.2 with
  | some t => .ok (x.1, t)
  | none => .error (.ub .uninitRead)

theorem increments_eq (m : ClusterContainer K) :
    m.getTimeIncrementOfClusters = (List.map (fun x : Int × Cluster K => (x.1, x.2.timeInc)) m).mapM incOf := by
  unfold ClusterContainer.getTimeIncrementOfClusters
  rw [List.mapM_map]
  congr 1
  funext x
  show (do let t ← x.2.getTimeIncrement; Except.ok (x.1, t)) = incOf (x.1, x.2.timeInc)
  unfold Cluster.getTimeIncrement incOf
  generalize x.2.timeInc = o
  cases o <;> rfl

theorem Keep.getIncrements (h : Keep env w w') (hst : Struct env w) :
    w'.getTimeIncrementOfClusters = w.getTimeIncrementOfClusters := by
  unfold World.getTimeIncrementOfClusters
  rw [increments_eq, increments_eq, h.of_clusters hst (·.timeInc) fun x x' hk => by rw [hk.eq]]

theorem favored_nil : favoredClusterId [] = unassignedId := rfl

/-- A successful attempt changes the cluster of some site. -/
theorem Grew.changes {basin : List Int} {M : K} {order : List Int → List Int} (hst : Struct env w)
    (h : Grew env mem w w' basin M order) : ∃ i, w.getClusterIdOfSite i ≠ w'.getClusterIdOfSite i := by
  cases h with
  | created c0 hb h =>
    obtain ⟨i, hi⟩ := List.exists_mem_of_ne_nil _ h.nonempty
    obtain ⟨s, hs, hc⟩ := h.lone i hi
    refine ⟨i, ?_⟩
    have h1 : w.getClusterIdOfSite i = .ok s.clusterId := getClusterIdOfSite_of hs
    have h2 : w'.getClusterIdOfSite i = .ok w.nextId := by
      refine getClusterIdOfSite_of (s := World.member w.nextId s) ?_
      rw [h.site, if_pos hi, hs]; rfl
    rw [h1, h2, hc]
    intro e
    have := ok_inj.1 e
    have h0 := hst.next
    have := unassigned_neg
    omega
  | merged sc fav c d erased hsc hf hu hm h =>
    obtain ⟨hw, hget, -⟩ := clustersOfSites_ok hst (acc := []) List.nodup_nil hsc
    have hfav := hst.cid fav c h.target
    by_cases hall : ∀ ic ∈ sc, ic.2 = fav
    · exfalso
      apply hu
      unfold countUniqueClusters
      have : sc.map Prod.snd = List.replicate sc.length fav :=
        List.eq_replicate_iff.2 ⟨by simp, fun b hb => by
          obtain ⟨ic, hic, rfl⟩ := List.mem_map.1 hb
          exact hall ic hic⟩
      rw [this]
      cases hl : sc.length with
      | zero =>
        exfalso
        rw [List.length_eq_zero_iff] at hl
        rw [hl, favored_nil] at hf
        have := unassigned_neg
        omega
      | succ n => simp [List.replicate_dedup]
    · push Not at hall
      obtain ⟨⟨i, k⟩, hik, hne⟩ := hall
      have hi := IMap.get?_of_mem hw hik
      rw [hget] at hi
      split at hi
      · next hb =>
        obtain ⟨s, hs, hc⟩ := Option.map_eq_some_iff.1 hi
        refine ⟨i, ?_⟩
        have h1 : w.getClusterIdOfSite i = .ok s.clusterId := getClusterIdOfSite_of hs
        have h2 : w'.getClusterIdOfSite i = .ok fav := by
          refine getClusterIdOfSite_of (s := World.member fav s) ?_
          rw [h.site, if_pos hb, hs]; rfl
        rw [h1, h2, hc]
        intro e
        exact hne (ok_inj.1 e)
      · cases hi

/-- What is left alone by the move of a hop. -/
theorem hopMove_scalars {wid h j : Int} {a : Choices K} (e : w.hopMove wid h a = .ok (j, w')) :
    w'.iteration = w.iteration ∧ w'.threshold = w.threshold ∧ w'.thresholdMin = w.thresholdMin ∧ w'.timeRes = w.timeRes ∧
    w'.perfRatio = w.perfRatio ∧ w'.seed = w.seed ∧ w'.nextId = w.nextId ∧ w'.feats = w.feats := by
  obtain ⟨S, C, W, rfl⟩ := hopMove_outer e
  exact ⟨rfl, rfl, rfl, rfl, rfl, rfl, rfl, rfl⟩

/-- What a hop that returns did. -/
theorem hop_event (hst : Struct env w) {wid h n : Int} {a : Choices K} (e : w.step env mem (.hop wid h a) = (.ok n, w')) :
    ∃ j w1, w.hopMove wid h a = .ok (j, w1) ∧ Keep env w w1 ∧ FitsInt (w.iteration + 1) ∧
    ((w.iteration + 1 ≤ w.threshold ∧ w' = { w1 with iteration := w.iteration + 1 }) ∨
     (w.iteration + 1 > w.threshold ∧ w.thresholdMin = infIterations ∧ w' = { w1 with iteration := 0 }) ∨
     (w.iteration + 1 > w.threshold ∧ w.thresholdMin ≠ infIterations ∧
       coarseGrain env mem { w1 with iteration := w.iteration + 1 } a j = (.ok false, { w1 with iteration := w.iteration + 1 }) ∧
       FitsInt (w.threshold * 2) ∧ w' = { w1 with threshold := w.threshold * 2, iteration := 0 }) ∨
     (w.iteration + 1 > w.threshold ∧ w.thresholdMin ≠ infIterations ∧
       ∃ w3 basin, coarseGrain env mem { w1 with iteration := w.iteration + 1 } a j = (.ok true, w3) ∧
        Grained' env mem { w1 with iteration := w.iteration + 1 } w3 a j basin ∧
        w' = { w3 with threshold := w.thresholdMin, iteration := 0 })) := by
  simp only [step, Prod.mk.injEq] at e
  obtain ⟨h1, h2⟩ := e
  obtain ⟨u, hu⟩ : ∃ u, (w.hop env mem wid h a).1 = .ok u := by
    cases hh : (w.hop env mem wid h a).1 with
    | error e => rw [hh] at h1; cases h1
    | ok u => exact ⟨u, rfl⟩
  have hhop : w.hop env mem wid h a = (.ok u, w') := by rw [← hu, ← h2]
  obtain ⟨j, w1, hm, hc⟩ := hop_ok hhop
  have hk := hst.hopMove_keep hm
  obtain ⟨hf, hc⟩ := hopCount_ok (hst.keep hk) hc
  obtain ⟨S, C, W, rfl⟩ := hopMove_outer hm
  exact ⟨j, _, hm, hk, hf, hc⟩

/-- The attempt at the end of a hop, if it is a successful one, changes clusters. -/
theorem hop_regroups (hst : Struct env w) {j : Int} {a : Choices K} {w3 : World K} {basin : List Int} {it t i3 : Int}
    (hk : Keep env w w1) (hg : Grained' env mem { w1 with iteration := it } w3 a j basin) :
    ∃ i, w.getClusterIdOfSite i ≠ ({ w3 with threshold := t, iteration := i3 } : World K).getClusterIdOfSite i := by
  have st1 : Struct env { w1 with iteration := it } := (hst.keep hk).keep (.of_eq rfl rfl rfl le_rfl)
  obtain ⟨i, hi⟩ := hg.grew.changes st1
  refine ⟨i, ?_⟩
  have := hk.ids i
  rw [← this]
  exact hi

theorem pace_snoc {evs : List (Event K)} {ev : Event K} : pace (evs ++ [ev]) = (pace evs).after ev := by
  unfold pace; rw [List.foldl_append]; rfl

theorem hopsReturn_snoc {evs : List (Event K)} {ev : Event K} (h : HopsReturn (evs ++ [ev])) :
    HopsReturn evs ∧ ∀ wid h a, ev.op = .hop wid h a → ∃ n, ev.res = .ok n :=
  ⟨fun e he => h e (List.mem_append_left _ he), fun wid k a e => h _ (List.mem_append_right _ (List.mem_singleton_self _)) wid k a e⟩

theorem Adds.scalars {m : IMap (IMap Addr)} (h : Adds mem m w w') :
    w'.iteration = w.iteration ∧ w'.threshold = w.threshold ∧ w'.thresholdMin = w.thresholdMin := by
  induction h with
  | refl => exact ⟨rfl, rfl, rfl⟩
  | seed _ ih => exact ih
  | add _ _ _ _ _ _ ih => exact ih

/-- Calls other than hops and `setMinThreshold` leave the pace alone. -/
theorem step_scalars {op : Op K} {res : Except Fault Int} (h : w.step env mem op = (res, w'))
    (h1 : ∀ n, op ≠ .setMinThreshold n) (h2 : isHop op = false) :
    w'.iteration = w.iteration ∧ w'.threshold = w.threshold ∧ w'.thresholdMin = w.thresholdMin := by
  have triv : w.iteration = w.iteration ∧ w.threshold = w.threshold ∧ w.thresholdMin = w.thresholdMin := ⟨rfl, rfl, rfl⟩
  cases op with
  | setTimeResolution t =>
    simp only [step, Prod.mk.injEq] at h
    rw [← h.2]; unfold World.setTimeResolution; split <;> exact triv
  | setMinThreshold n => exact absurd rfl (h1 n)
  | setRandomSeed n =>
    simp only [step, Prod.mk.injEq] at h
    rw [← h.2]; unfold World.setRandomSeed; split <;> exact triv
  | setPerformanceRatio r => simp only [step, Prod.mk.injEq] at h; rw [← h.2]; exact triv
  | initializeSystem m =>
    simp only [step, Prod.mk.injEq] at h
    rw [← h.2]; exact initializeSystem_adds.scalars
  | newWalker k => simp only [step, Prod.mk.injEq] at h; rw [← h.2]; exact triv
  | walkerOccupy k i =>
    simp only [step, simple] at h
    split at h
    · next w1 e =>
      obtain ⟨x, -, e⟩ := bind_eq_ok.1 e
      cases e
      simp only [Prod.mk.injEq] at h; rw [← h.2]; exact triv
    · simp only [Prod.mk.injEq] at h; rw [← h.2]; exact triv
  | walkerSetPotential k i =>
    simp only [step, simple] at h
    split at h
    · next w1 e =>
      obtain ⟨x, -, e⟩ := bind_eq_ok.1 e
      cases e
      simp only [Prod.mk.injEq] at h; rw [← h.2]; exact triv
    · simp only [Prod.mk.injEq] at h; rw [← h.2]; exact triv
  | walkerSetDwell k i =>
    simp only [step, simple] at h
    split at h
    · next w1 e =>
      obtain ⟨x, -, e⟩ := bind_eq_ok.1 e
      cases e
      simp only [Prod.mk.injEq] at h; rw [← h.2]; exact triv
    · simp only [Prod.mk.injEq] at h; rw [← h.2]; exact triv
  | initializeWalkers l =>
    simp only [step, Prod.mk.injEq] at h
    obtain ⟨S, C, W, e⟩ := initializeWalkers_outer (w := w) (l := l)
    rw [← h.2, e]; exact triv
  | hop wid k a => cases h2
  | removeWalker wid k =>
    simp only [step, simple] at h
    split at h
    · next w1 e =>
      obtain ⟨S, C, rfl⟩ := removeWalker_inner e
      simp only [Prod.mk.injEq] at h; rw [← h.2]; exact triv
    · simp only [Prod.mk.injEq] at h; rw [← h.2]; exact triv
  | getVisitFrequencyOfSite i =>
    simp only [step] at h
    unfold World.getVisitFrequencyOfSite at h
    split at h
    · cases h; exact triv
    · split at h
      · split at h
        · cases h; exact triv
        · split at h
          · simp only [Prod.mk.injEq] at h; rw [← h.2]; exact triv
          · simp only [Prod.mk.injEq] at h; rw [← h.2]; exact triv
      · cases h; exact triv
  | elsewhere n =>
    simp only [step] at h
    split at h
    · simp only [Prod.mk.injEq] at h; rw [← h.2]; exact triv
    · simp only [Prod.mk.injEq] at h; rw [← h.2]; exact triv

/-- The fields of the system follow the pace. -/
def OnPace (w : World K) (p : Pace) : Prop := w.iteration = p.since ∧ w.threshold = p.thr ∧ w.thresholdMin = p.min

theorem OnPace.call {p : Pace} (hp : OnPace w p) (hst : Struct env w) {op : Op K} {res : Except Fault Int}
    (h : w.step env mem op = (res, w')) (hhop : ∀ wid h a, op = .hop wid h a → ∃ n, res = .ok n) :
    OnPace w' (p.after ⟨w, mem, op, res, w'⟩) := by
  obtain ⟨p1, p2, p3⟩ := hp
  by_cases hm : ∃ n, op = .setMinThreshold n
  · obtain ⟨n, rfl⟩ := hm
    simp only [step, Prod.mk.injEq] at h
    rw [← h.2]
    exact ⟨p1, rfl, rfl⟩
  · by_cases hh : isHop op = true
    · obtain ⟨wid, k, a, rfl⟩ : ∃ wid k a, op = .hop wid k a := by
        cases op <;> first | exact ⟨_, _, _, rfl⟩ | cases hh
      obtain ⟨n, rfl⟩ := hhop wid k a rfl
      obtain ⟨j, w1, hmv, hk, -, hc⟩ := hop_event hst h
      obtain ⟨s1, s2, s3, -⟩ := hopMove_scalars hmv
      simp only [Pace.after]
      rcases hc with ⟨h1, rfl⟩ | ⟨h1, h2, rfl⟩ | ⟨h1, h2, h3, h4, rfl⟩ | ⟨h1, h2, w3, basin, h3, hg, rfl⟩
      · rw [if_pos (by omega)]
        exact ⟨by show w.iteration + 1 = p.since + 1; omega, by show w1.threshold = p.thr; omega, by show w1.thresholdMin = p.min; omega⟩
      · rw [if_neg (by omega), if_pos (by omega)]
        exact ⟨rfl, by show w1.threshold = p.thr; omega, by show w1.thresholdMin = p.min; omega⟩
      · have hn : ¬ Regrouped (K := K) ⟨w, mem, .hop wid k a, .ok n, { w1 with threshold := w.threshold * 2, iteration := 0 }⟩ := by
          rintro ⟨i, hi⟩
          exact hi (hk.ids i).symm
        rw [if_neg (by omega), if_neg (by omega), if_neg hn]
        exact ⟨rfl, by show w.threshold * 2 = 2 * p.thr; omega, by show w1.thresholdMin = p.min; omega⟩
      · have hy : Regrouped (K := K) ⟨w, mem, .hop wid k a, .ok n, { w3 with threshold := w.thresholdMin, iteration := 0 }⟩ :=
          hop_regroups hst hk hg
        rw [if_neg (by omega), if_neg (by omega), if_pos hy]
        have hmin : w3.thresholdMin = w1.thresholdMin := by
          cases hg.grew with
          | created c0 hb h => rw [h.eq]
          | merged sc fav c d erased _ _ _ _ h => rw [h.eq]
        exact ⟨rfl, p3, by show w3.thresholdMin = p.min; omega⟩
    · have hh : isHop op = false := by simpa using hh
      obtain ⟨e1, e2, e3⟩ := step_scalars h (fun n e => hm ⟨n, e⟩) hh
      have : p.after ⟨w, mem, op, res, w'⟩ = p := by
        unfold Pace.after
        cases op <;> first | rfl | exact absurd ⟨_, rfl⟩ hm | cases hh
      rw [this]
      exact ⟨by omega, by omega, by omega⟩

theorem Trace.pace {n : Nat} {evs : List (Event K)} (ht : Trace env (World.new n) evs w) (hu : HopsReturn evs) :
    OnPace w (pace evs) := by
  generalize hw0 : (World.new n : World K) = w0 at ht
  induction ht with
  | nil => subst hw0; exact ⟨rfl, rfl, rfl⟩
  | snoc mem ht h hr ih =>
    obtain ⟨hu1, hh⟩ := hopsReturn_snoc hu
    rw [pace_snoc]
    subst hw0
    exact (ih hu1).call (ht.struct hu1) h hh

/-- The number of hops since the last attempt is at most the number of hops, and with thresholds that are not negative it is
not negative either. -/
theorem pace_bounds {evs : List (Event K)} (hm : ∀ ev ∈ evs, ∀ n, ev.op = .setMinThreshold n → 0 ≤ n) :
    0 ≤ (pace evs).since ∧ (pace evs).since ≤ hopsIn evs ∧ 0 ≤ (pace evs).thr ∧ 0 ≤ (pace evs).min := by
  induction evs using List.reverseRecOn with
  | nil => simp [pace, hopsIn]
  | append_singleton evs ev ih =>
    obtain ⟨h1, h2, h3, h4⟩ := ih fun e he => hm e (List.mem_append_left _ he)
    rw [pace_snoc]
    have hc : (hopsIn (evs ++ [ev]) : Int) = hopsIn evs + if isHop ev.op then 1 else 0 := by
      unfold hopsIn
      rw [List.countP_append]
      simp [List.countP_cons]
    rw [hc]
    unfold Pace.after
    have hm' := hm ev (List.mem_append_right _ (List.mem_singleton_self _))
    cases hop : ev.op with
    | hop wid k a =>
      simp only [isHop, if_true]
      split
      · exact ⟨by simp only; omega, by simp only; omega, h3, h4⟩
      · split
        · exact ⟨by simp only; omega, by simp only; omega, h3, h4⟩
        · split
          · exact ⟨by simp only; omega, by simp only; omega, h4, h4⟩
          · exact ⟨by simp only; omega, by simp only; omega, by simp only; omega, h4⟩
    | setMinThreshold n =>
      have := hm' n hop
      simp [isHop, h1, h2, this]
    | _ => simp [isHop, h1, h2, h3, h4]

/-- The counting part of a hop fails only if the attempt itself fails, unless a counter overflows. -/
theorem hopCount_fails (hst : Struct env w) {a : Choices K} {j : Int} {e : Fault}
    (h : hopCount env mem w a j = (.error e, w')) (h1 : FitsInt (w.iteration + 1))
    (h2 : w.iteration + 1 > w.threshold → w.thresholdMin ≠ infIterations → FitsInt (w.threshold * 2)) :
    w.iteration + 1 > w.threshold ∧ w.thresholdMin ≠ infIterations ∧
      coarseGrain env mem { w with iteration := w.iteration + 1 } a j = (.error e, w') := by
  unfold hopCount at h
  rw [chk_ok h1] at h
  simp only at h
  split at h
  · next hgt =>
    split at h
    · next hmin =>
      split at h
      · next e' w2 hc =>
        simp only [Prod.mk.injEq, Except.error.injEq] at h
        rw [hc, h.1, h.2]
        exact ⟨hgt, hmin, rfl⟩
      · simp at h
      · next w2 hc =>
        have hst' : Struct env { w with iteration := w.iteration + 1 } := hst.keep (.of_eq rfl rfl rfl le_rfl)
        have := coarseGrain_false hst' hc
        subst this
        simp only at h
        rw [chk_ok (h2 hgt hmin)] at h
        simp at h
    · simp at h
  · simp at h

end Mythical.World
