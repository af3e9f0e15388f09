import Verif.Lemmas.SystemOcc

/-! # One call of a history -/

set_option linter.unusedSectionVars false
set_option linter.unusedVariables false

namespace Mythical.World
open Mythical SystemSpec
variable {K : Type} [Field K] [LinearOrder K] [IsStrictOrderedRing K] [FloorRing K]
variable {w w' w1 w2 : World K} {env : Env K} {mem : Addr → K} {act act' : List Int}

/-- No condition on the counts. -/
def Any (_ _ _ : Int) : Prop := True

/-- The sites and clusters change only in their counters; walkers and settings may change, and cluster ids may be used
up. -/
structure Keep (env : Env K) (w w' : World K) : Prop where
  feats : w'.feats = w.feats
  nextId : w.nextId ≤ w'.nextId
  siteKeys : w'.sites.keys = w.sites.keys
  clusterKeys : w'.clusters.keys = w.clusters.keys
  site : ∀ j, Option.Rel Same (w.sites.get? j) (w'.sites.get? j)
  cluster : ∀ c, Option.Rel (ClusterKeep env Any) (w.clusters.get? c) (w'.clusters.get? c)

theorem rel_imp {α β : Type} {r s : α → β → Prop} {a : Option α} {b : Option β} (h : ∀ x y, r x y → s x y)
    (h1 : Option.Rel r a b) : Option.Rel s a b := by
  cases h1 with
  | none => exact .none
  | some h1 => exact .some (h _ _ h1)

theorem ClusterKeep.any {R : Int → Int → Int → Prop} {x x' : Cluster K} (h : ClusterKeep env R x x') :
    ClusterKeep env Any x x' :=
  ⟨h.trace, h.eq, h.visitKeys, h.keys, fun j => rel_imp (fun _ _ h => ⟨h.1, trivial⟩) (h.site j)⟩

theorem Keep.of_eq (h1 : w'.feats = w.feats) (h2 : w'.sites = w.sites) (h3 : w'.clusters = w.clusters)
    (h4 : w.nextId ≤ w'.nextId) : Keep env w w' where
  feats := h1
  nextId := h4
  siteKeys := by rw [h2]
  clusterKeys := by rw [h3]
  site j := by rw [h2]; exact rel_self Same.refl _
  cluster c := by rw [h3]; exact rel_self (ClusterKeep.refl fun _ _ => trivial) _

theorem Keep.refl (w : World K) : Keep env w w := .of_eq rfl rfl rfl le_rfl

theorem Step.keep {R : Int → Int → Int → Prop} (h : Step env R w w') : Keep env w w' where
  feats := h.inner.feats
  nextId := h.inner.nextId.ge
  siteKeys := h.siteKeys
  clusterKeys := h.clusterKeys
  site j := rel_imp (fun _ _ h => h.1) (h.site j)
  cluster c := rel_imp (fun _ _ h => h.any) (h.cluster c)

theorem Keep.trans (h1 : Keep env w w1) (h2 : Keep env w1 w2) : Keep env w w2 where
  feats := h2.feats.trans h1.feats
  nextId := h1.nextId.trans h2.nextId
  siteKeys := h2.siteKeys.trans h1.siteKeys
  clusterKeys := h2.clusterKeys.trans h1.clusterKeys
  site j := rel_trans (r := Same) (s := Same) (fun _ _ _ a b => Same.trans a b) (h1.site j) (h2.site j)
  cluster c := rel_trans (fun _ _ _ a b => a.trans (fun _ _ _ _ _ _ => trivial) b) (h1.cluster c) (h2.cluster c)

theorem Struct.keep (h : Struct env w) (hk : Keep env w w') : Struct env w' := by
  have hs : Step env Any w { w with sites := w'.sites, clusters := w'.clusters } :=
    { inner := ⟨_, _, rfl⟩
      siteKeys := hk.siteKeys
      clusterKeys := hk.clusterKeys
      site := fun j => rel_imp (fun _ _ h => ⟨h, fun _ => trivial⟩) (hk.site j)
      cluster := hk.cluster }
  have st := h.step hs
  have hf := hk.feats
  have hn := hk.nextId
  refine ⟨st.sitesWF, hf ▸ st.featsWF, st.clustersWF, st.next.trans hn, st.siteId, fun i => by rw [hf]; exact st.known i, ?_,
    st.trace, st.member, st.disjoint, fun i s => by rw [hf]; exact st.lone i s, ?_⟩
  · intro c x hx
    obtain ⟨a, b, d⟩ := st.cid c x hx
    exact ⟨a, b, d.trans_le hn⟩
  · intro i s e e'
    obtain ⟨a, b, d, f⟩ := st.joined i s e e'
    exact ⟨by rw [hf]; exact a, b, d.trans_le hn, f⟩

/-- Only walkers, settings, seed and counters differ. -/
theorem Keep.scalars {W : IMap (Walker K)} {p : K} {sd : Option Nat} {tr : Option K} {it th tm : Int} (h : Keep env w w') :
    Keep env w { w' with
      walkers := W, perfRatio := p, seed := sd, timeRes := tr, iteration := it, threshold := th, thresholdMin := tm } :=
  h.trans (.of_eq rfl rfl rfl le_rfl)

theorem Struct.occupyFeat_any (h : Struct env w) {i : Int} (e : w.occupyFeat (w.feat i) = .ok w') : Keep env w w' := by
  rcases h.feat_cases i with ⟨a, -⟩ | ⟨s, a, b, c⟩ | ⟨s, a, b, c, d⟩
  · rw [a] at e; cases e
  · exact (h.occupyFeat a e).keep
  · rcases occupyFeat_ok e with ⟨id, hp, -⟩ | ⟨id, hp, x, x', hx, hv, rfl⟩
    · rw [a] at hp; cases hp
    · exact (h.clusterStep_same hx (occupy_keep hv)).keep

theorem Struct.initWalker_keep (hst : Struct env w) {a : Entry K} (e : w.initWalker a = .ok w') : Keep env w w' := by
  obtain ⟨x, w1, t, w2, n, w3, hx, h0, hk, h1, h2, h3, rfl⟩ := initWalker_ok e
  have s1 := hst.occupyFeat_any h1
  have st1 := hst.keep s1
  have s2 := st1.dwellAt h2
  have s3 := (st1.step s2).pickAt h3
  exact ((s1.trans s2.keep).trans s3.keep).trans (.of_eq rfl rfl rfl le_rfl)

theorem Struct.initWalkers_keep (hst : Struct env w) {l : List (Entry K)} : Keep env w (w.initWalkers l).2 := by
  induction l generalizing w with
  | nil => exact .refl w
  | cons a l ih =>
    unfold World.initWalkers
    split
    · exact .refl w
    · next w1 h1 =>
      have hk := hst.initWalker_keep h1
      exact hk.trans (ih (hst.keep hk))

theorem Struct.initializeWalkers_keep (hst : Struct env w) {l : List (Entry K)} : Keep env w (w.initializeWalkers l).2 := by
  unfold World.initializeWalkers
  split
  · exact .refl w
  · exact hst.initWalkers_keep

theorem Struct.removeWalker_keep (hst : Struct env w) {wid h : Int} (e : w.removeWalker wid h = .ok w') : Keep env w w' := by
  obtain ⟨x, hx, h0, hr⟩ := removeWalker_ok e
  exact (hst.removeAt hr).keep

theorem Struct.hopMove_keep (hst : Struct env w) {wid h j : Int} {a : Choices K} (e : w.hopMove wid h a = .ok (j, w')) :
    Keep env w w' := by
  obtain ⟨x, b, n, t, w4, hx, h0, h0', hj, hb, hk, hs, rfl⟩ := hst.hopMove e
  exact hs.keep.trans (.of_eq rfl rfl rfl le_rfl)

theorem clusterKeep_visitsOnly {x x' : Cluster K} (h : Cluster.VisitsOnly x x') (ht : ∃ evs, Cluster.Trace env x evs x') :
    ClusterKeep env Equal x x' := by
  obtain ⟨⟨v, p, rfl⟩, hk⟩ := h
  exact ⟨ht, rfl, hk, rfl, fun j => rel_self (fun s => ⟨.refl s, rfl⟩) _⟩

theorem Struct.getVisitFrequencyOfSite_step (hst : Struct env w) {i : Int} {res : Except Fault Int}
    (e : w.getVisitFrequencyOfSite i = (res, w')) (hr : Cluster.GoesOn res) : Step env Equal w w' := by
  unfold World.getVisitFrequencyOfSite at e
  split at e
  · cases e; exact Step.refl equal_self w
  · next s hs =>
    split at e
    · split at e
      · cases e; exact Step.refl equal_self w
      · next x hx =>
        have hx := getCluster_ok hx
        have hv := Cluster.getVisitFrequency_visitsOnly (c := x) i
        split at e
        · next er x' hxe =>
          rw [hxe] at hv
          have hstep : x.step env (fun _ => 0) (.getVisitFrequency i) = (.error er, x') := by
            simp only [Cluster.step, hxe]
          simp only [Prod.mk.injEq] at e
          obtain ⟨rfl, rfl⟩ := e
          exact hst.clusterStep_same hx (clusterKeep_visitsOnly hv ⟨_, .cons _ hstep hr (.nil _)⟩)
        · next n x' hxe =>
          rw [hxe] at hv
          have hstep : x.step env (fun _ => 0) (.getVisitFrequency i) = (.ok (.num n), x') := by
            simp only [Cluster.step, hxe]
          simp only [Prod.mk.injEq] at e
          obtain ⟨-, rfl⟩ := e
          exact hst.clusterStep_same hx (clusterKeep_visitsOnly hv ⟨_, .cons _ hstep trivial (.nil _)⟩)
    · cases e; exact Step.refl equal_self w

/-- A new cluster, or a merge. -/
inductive Grew (env : Env K) (mem : Addr → K) (w w' : World K) (basin : List Int) (M : K) (order : List Int → List Int) :
    Prop where
  | created (c0 : Cluster K) (hb : buildCluster env mem w w.nextId basin M = .ok c0)
      (h : Created env w w' basin (w.seedCluster c0))
  | merged (sc : IMap Int) (fav : Int) (c d : Cluster K) (erased : List Int) (hsc : w.clustersOfSites basin [] = .ok sc)
      (hf : fav = favoredClusterId sc) (hu : countUniqueClusters sc ≠ 1)
      (hm : merge env mem w order sc fav = (.ok (), w'))
      (h : Merged env w w' basin fav c d erased)

/-- What a successful attempt at coarse graining at site `v` did. -/
structure Grained' (env : Env K) (mem : Addr → K) (w w' : World K) (a : Choices K) (v : Int) (basin : List Int) : Prop where
  found : Explorer.default.findBasin a.vis mem w.sites w.clusters v = .ok basin
  sat : w.satisfies mem basin (maxTime a.times) = .ok true
  grew : Grew env mem w w' basin (maxTime a.times) a.order

theorem coarseGrain_false (hst : Struct env w) {a : Choices K} {v : Int}
    (h : coarseGrain env mem w a v = (.ok false, w')) : w' = w := by
  obtain ⟨basin, sat, -, -, h⟩ := coarseGrain_ok hst h
  rcases h with ⟨-, rfl⟩ | ⟨h, -⟩ | ⟨h, -⟩
  · rfl
  · cases h
  · cases h

theorem coarseGrain_true (hst : Struct env w) {a : Choices K} {v : Int}
    (h : coarseGrain env mem w a v = (.ok true, w')) : ∃ basin, Grained' env mem w w' a v basin := by
  obtain ⟨basin, sat, hb, hs, h⟩ := coarseGrain_ok hst h
  rcases h with ⟨h, -⟩ | ⟨-, rfl, hne, hl, hc⟩ | ⟨-, rfl, sc, hsc, hu, hm⟩
  · cases h
  · obtain ⟨c, hb', hc⟩ := created_of hst hne hl hc
    exact ⟨basin, hb, hs, .created c hb' hc⟩
  · obtain ⟨c, d, erased, hm'⟩ := merge_ok hst a.order_perm hsc hm
    exact ⟨basin, hb, hs, .merged sc _ c d erased hsc rfl hu hm hm'⟩

theorem Struct.grew {basin : List Int} {M : K} {order : List Int → List Int} (hst : Struct env w)
    (h : Grew env mem w w' basin M order) : Struct env w' := by
  cases h with
  | created c0 hb h => exact hst.created h
  | merged sc fav c d erased _ _ _ _ h => exact hst.merged h

theorem Occup.grew {basin : List Int} {M : K} {order : List Int → List Int} (ho : Occup w act) (hst : Struct env w)
    (h : Grew env mem w w' basin M order) : Occup w' act := by
  cases h with
  | created c0 hb h => exact ho.created hst h
  | merged sc fav c d erased _ _ _ _ h => exact ho.merged hst h

/-- The four outcomes of the counting part of a hop that returns. -/
theorem hopCount_ok (hst : Struct env w) {a : Choices K} {j : Int} {r : Unit} (h : hopCount env mem w a j = (.ok r, w')) :
    FitsInt (w.iteration + 1) ∧
    ((w.iteration + 1 ≤ w.threshold ∧ w' = { w with iteration := w.iteration + 1 }) ∨
     (w.iteration + 1 > w.threshold ∧ w.thresholdMin = infIterations ∧ w' = { w with iteration := 0 }) ∨
     (w.iteration + 1 > w.threshold ∧ w.thresholdMin ≠ infIterations ∧
       coarseGrain env mem { w with iteration := w.iteration + 1 } a j = (.ok false, { w with iteration := w.iteration + 1 }) ∧
       FitsInt (w.threshold * 2) ∧ w' = { w with threshold := w.threshold * 2, iteration := 0 }) ∨
     (w.iteration + 1 > w.threshold ∧ w.thresholdMin ≠ infIterations ∧
       ∃ w3 basin, coarseGrain env mem { w with iteration := w.iteration + 1 } a j = (.ok true, w3) ∧
        Grained' env mem { w with iteration := w.iteration + 1 } w3 a j basin ∧
        w' = { w3 with threshold := w.thresholdMin, iteration := 0 })) := by
  unfold hopCount at h
  have hst' : Struct env { w with iteration := w.iteration + 1 } := hst.keep (.of_eq rfl rfl rfl le_rfl)
  cases hc : chk (w.iteration + 1) with
  | error e => rw [hc] at h; simp at h
  | ok it =>
    rw [hc] at h
    obtain ⟨hfit, rfl⟩ : FitsInt (w.iteration + 1) ∧ it = w.iteration + 1 := by
      have := chk_eq_ok.1 hc
      exact ⟨this.2, this.1⟩
    refine ⟨hfit, ?_⟩
    simp only at h
    by_cases h1 : w.iteration + 1 > w.threshold
    · rw [if_pos h1] at h
      by_cases h2 : w.thresholdMin ≠ infIterations
      · rw [if_pos h2] at h
        cases hg : coarseGrain env mem { w with iteration := w.iteration + 1 } a j with
        | mk r3 w3 =>
          rw [hg] at h
          cases r3 with
          | error e => simp at h
          | ok b =>
            cases b with
            | true =>
              obtain ⟨basin, hb⟩ := coarseGrain_true hst' hg
              simp only [Prod.mk.injEq] at h
              have hmin : w3.thresholdMin = w.thresholdMin := by
                cases hb.grew with
                | created c0 hb h => rw [h.eq]
                | merged sc fav c d erased _ _ _ _ h => rw [h.eq]
              exact .inr (.inr (.inr ⟨h1, h2, w3, basin, rfl, hb, by rw [← h.2, ← hmin]⟩))
            | false =>
              have := coarseGrain_false hst' hg
              subst this
              simp only at h
              cases hc2 : chk (w.threshold * 2) with
              | error e => rw [hc2] at h; simp at h
              | ok t =>
                rw [hc2] at h
                have := chk_eq_ok.1 hc2
                simp only [Prod.mk.injEq] at h
                refine .inr (.inr (.inl ⟨h1, h2, rfl, ?_, ?_⟩))
                · exact this.2
                · rw [← h.2, this.1]
      · rw [if_neg h2] at h
        simp only [Prod.mk.injEq] at h
        exact .inr (.inl ⟨h1, not_not.1 h2, h.2.symm⟩)
    · rw [if_neg h1] at h
      simp only [Prod.mk.injEq] at h
      exact .inl ⟨not_lt.1 h1, h.2.symm⟩

theorem hop_ok {wid h : Int} {a : Choices K} {r : Unit} (e : w.hop env mem wid h a = (.ok r, w')) :
    ∃ j w1, w.hopMove wid h a = .ok (j, w1) ∧ hopCount env mem w1 a j = (.ok r, w') := by
  unfold hop at e
  split at e
  · simp at e
  · next j w1 h1 => exact ⟨j, w1, h1, e⟩

/-- What a call that may be followed by others does to the sites and clusters. -/
theorem step_cases (hst : Struct env w) {op : Op K} {res : Except Fault Int} (h : w.step env mem op = (res, w'))
    (hr : Cluster.GoesOn res) (hhop : ∀ wid h a, op = .hop wid h a → ∃ n, res = .ok n) :
    Keep env w w' ∨ (∃ m, op = .initializeSystem m ∧ Adds mem m w w') ∨
    ∃ wid h a j w1 w2 w3 basin, op = .hop wid h a ∧ w.hopMove wid h a = .ok (j, w1) ∧ Keep env w w1 ∧
      w2 = { w1 with iteration := w1.iteration + 1 } ∧ Grained' env mem w2 w3 a j basin ∧
      w' = { w3 with threshold := w3.thresholdMin, iteration := 0 } := by
  cases op with
  | setTimeResolution t =>
    simp only [step, Prod.mk.injEq] at h
    left
    rw [← h.2]
    unfold World.setTimeResolution
    split
    · exact .refl w
    · exact .of_eq rfl rfl rfl le_rfl
  | setMinThreshold n =>
    simp only [step, Prod.mk.injEq] at h
    left; rw [← h.2]; exact .of_eq rfl rfl rfl le_rfl
  | setRandomSeed n =>
    simp only [step, Prod.mk.injEq] at h
    left
    rw [← h.2]
    unfold World.setRandomSeed
    split
    · exact .refl w
    · exact .of_eq rfl rfl rfl le_rfl
  | setPerformanceRatio r =>
    simp only [step, Prod.mk.injEq] at h
    left; rw [← h.2]; exact .of_eq rfl rfl rfl le_rfl
  | initializeSystem m =>
    simp only [step, Prod.mk.injEq] at h
    right; left
    exact ⟨m, rfl, h.2 ▸ initializeSystem_adds⟩
  | newWalker k =>
    simp only [step, Prod.mk.injEq] at h
    left; rw [← h.2]; exact .of_eq rfl rfl rfl le_rfl
  | walkerOccupy k i =>
    left
    simp only [step, simple] at h
    split at h
    · next w1 h1 =>
      simp only [Prod.mk.injEq] at h
      obtain ⟨x, -, h1⟩ := bind_eq_ok.1 h1
      cases h1
      rw [← h.2]; exact .of_eq rfl rfl rfl le_rfl
    · simp only [Prod.mk.injEq] at h; rw [← h.2]; exact .refl w
  | walkerSetPotential k i =>
    left
    simp only [step, simple] at h
    split at h
    · next w1 h1 =>
      simp only [Prod.mk.injEq] at h
      obtain ⟨x, -, h1⟩ := bind_eq_ok.1 h1
      cases h1
      rw [← h.2]; exact .of_eq rfl rfl rfl le_rfl
    · simp only [Prod.mk.injEq] at h; rw [← h.2]; exact .refl w
  | walkerSetDwell k t =>
    left
    simp only [step, simple] at h
    split at h
    · next w1 h1 =>
      simp only [Prod.mk.injEq] at h
      obtain ⟨x, -, h1⟩ := bind_eq_ok.1 h1
      cases h1
      rw [← h.2]; exact .of_eq rfl rfl rfl le_rfl
    · simp only [Prod.mk.injEq] at h; rw [← h.2]; exact .refl w
  | initializeWalkers l =>
    simp only [step, Prod.mk.injEq] at h
    left; rw [← h.2]; exact hst.initializeWalkers_keep
  | hop wid k a =>
    obtain ⟨n, rfl⟩ := hhop wid k a rfl
    simp only [step, Prod.mk.injEq] at h
    obtain ⟨h1, h2⟩ := h
    obtain ⟨u, hu, -⟩ : ∃ u, (w.hop env mem wid k a).1 = .ok u ∧ n = 0 := by
      cases hh : (w.hop env mem wid k a).1 with
      | error e => rw [hh] at h1; cases h1
      | ok u => rw [hh] at h1; cases h1; exact ⟨u, rfl, rfl⟩
    have hhop : w.hop env mem wid k a = (.ok u, w') := by rw [← hu, ← h2]
    obtain ⟨j, w1, hm, hc⟩ := hop_ok hhop
    have hk := hst.hopMove_keep hm
    obtain ⟨-, hc⟩ := hopCount_ok (hst.keep hk) hc
    rcases hc with ⟨-, rfl⟩ | ⟨-, -, rfl⟩ | ⟨-, -, -, -, rfl⟩ | ⟨-, -, w3, basin, -, hg, rfl⟩
    · left; exact hk.trans (.of_eq rfl rfl rfl le_rfl)
    · left; exact hk.trans (.of_eq rfl rfl rfl le_rfl)
    · left; exact hk.trans (.of_eq rfl rfl rfl le_rfl)
    · right; right
      refine ⟨wid, k, a, j, w1, _, w3, basin, rfl, hm, hk, rfl, hg, ?_⟩
      have hmin : w3.thresholdMin = w1.thresholdMin := by
        cases hg.grew with
        | created c0 hb h => rw [h.eq]
        | merged sc fav c d erased _ _ _ _ h => rw [h.eq]
      simp only [hmin]
  | removeWalker wid k =>
    left
    simp only [step, simple] at h
    split at h
    · next w1 h1 =>
      simp only [Prod.mk.injEq] at h
      rw [← h.2]; exact hst.removeWalker_keep h1
    · simp only [Prod.mk.injEq] at h; rw [← h.2]; exact .refl w
  | getVisitFrequencyOfSite i =>
    left
    exact (hst.getVisitFrequencyOfSite_step h hr).keep
  | elsewhere n =>
    left
    simp only [step] at h
    split at h
    · simp only [Prod.mk.injEq] at h; rw [← h.2]; exact .refl w
    · next m hm =>
      simp only [Prod.mk.injEq] at h
      rw [← h.2]
      have hm := (chk_eq_ok.1 hm).1
      refine .of_eq rfl rfl rfl ?_
      show w.nextId ≤ m
      omega

theorem Struct.call (hst : Struct env w) {op : Op K} {res : Except Fault Int} (h : w.step env mem op = (res, w'))
    (hr : Cluster.GoesOn res) (hhop : ∀ wid h a, op = .hop wid h a → ∃ n, res = .ok n) : Struct env w' := by
  rcases step_cases hst h hr hhop with hk | ⟨m, -, ha⟩ | ⟨wid, k, a, j, w1, w2, w3, basin, -, -, hk, rfl, hg, rfl⟩
  · exact hst.keep hk
  · exact hst.adds ha
  · have st2 : Struct env { w1 with iteration := w1.iteration + 1 } := (hst.keep hk).keep (.of_eq rfl rfl rfl le_rfl)
    exact (st2.grew hg.grew).keep (.of_eq rfl rfl rfl le_rfl)

end Mythical.World
