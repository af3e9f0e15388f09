import Verif.Lemmas.SystemOverflow

/-! # Counters of a system do not overflow: coarse graining -/

set_option linter.unusedSectionVars false
set_option linter.unusedVariables false

namespace Mythical
variable {K : Type} [Field K] [LinearOrder K] [IsStrictOrderedRing K] [FloorRing K]
variable {env env0 : Env K} {mem : Addr → K}

namespace Cluster
variable {c c' src src' : Cluster K} {lo up : Int} {κ : K}

/-- Adding sites does not change the shares of the visits. -/
theorem Shares.addSites (h : Shares κ c) (hk : ∀ i ∈ c.siteVisits.keys, i ∈ c.sites.keys) {l : List (Site K)}
    (ha : c.addSites l = .ok c') : Shares κ c' := by
  obtain ⟨e, -, hn, hg, -⟩ := World.addSites_ok ha
  intro t d i v h1 h2 h3 h4
  rw [e] at h1 h3
  refine h t d i v h1 h2 h3 ?_
  have hs : c'.sites.get? i = c.sites.get? i := by
    rw [hg]
    cases hf : l.find? (fun s => s.id = i) with
    | none => rfl
    | some s =>
      exfalso
      have hm := List.mem_of_find?_eq_some hf
      have hi := List.find?_some hf
      simp only [decide_eq_true_eq] at hi
      have := hn s hm
      rw [hi, IMap.get?_eq_none_iff] at this
      exact this (hk i h3)
  rw [← h4]
  unfold visitShare
  rw [hs]
  have e1 : c'.internalDwell = c.internalDwell := by rw [e]
  have e2 : c'.probOn = c.probOn := by rw [e]
  have e3 : c'.resolution = c.resolution := by rw [e]
  rw [e1, e2, e3]

end Cluster

namespace World
open SystemSpec
variable {w w' w1 w2 w3 : World K} {lo up top : Int} {κ : K}

/-! ## The conditions of an attempt -/

theorem exitSum_calm (S : SiteContainer K) (all l : List Int) (x : K) : Calm (exitSum mem S all l x) := by
  induction l generalizing x with
  | nil => exact .ok _
  | cons i l ih =>
    unfold exitSum
    refine .bind (.bind (S.getSite_calm i) fun _ _ => .ok _) fun ns _ => .bind (.foldlM (fun b n _ => ?_) x) fun s _ => ih s
    split
    · exact .ok _
    · exact .bind (S.getRate_calm i n) fun r _ => .ok _

theorem satisfies_calm (w : World K) (l : List Int) (M : K) : Calm (w.satisfies mem l M) := by
  unfold satisfies
  refine .bind ?_ fun tc _ => ?_
  · unfold timeConstant
    refine .bind (exitSum_calm _ _ _ _) fun s _ => ?_
    split <;> exact .ok _
  · simp only
    split
    · exact .err soft_uninit
    · exact .ok _

theorem clustersOfSites_calm (w : World K) (l : List Int) (acc : IMap Int) : Calm (w.clustersOfSites l acc) := by
  induction l generalizing acc with
  | nil => exact .ok _
  | cons i l ih =>
    unfold clustersOfSites
    refine .bind (.bind (w.sites.getSite_calm i) fun _ _ => .ok _) fun p _ => ?_
    simp only
    split
    · exact .bind (.bind (w.sites.getSite_calm i) fun _ _ => .ok _) fun c _ => ih _
    · exact .bind (.ok _) fun c _ => ih _

theorem setClusterId_calm (S : SiteContainer K) (i c : Int) : Calm (S.setClusterId i c).1 := by
  unfold SiteContainer.setClusterId
  split
  · next e he => exact (S.getSite_calm i).of_eq he
  · exact .ok _

theorem attach_calm (w : World K) (c : Int) (l : List Int) : Calm (w.attach c l).1 := by
  induction l generalizing w with
  | nil => exact .ok _
  | cons i l ih =>
    unfold attach
    have := setClusterId_calm w.sites i c
    split
    · next e _ he => rw [he] at this; exact this.error
    · exact ih _

theorem Small.attached (h : Small lo up top κ w) {cid : Int} {l : List Int} (ha : Attached w w' cid l) : Small lo up top κ w' where
  lo0 := h.lo0
  up0 := h.up0
  site i s hs := by
    rw [ha.site] at hs
    split at hs
    · obtain ⟨t, ht, rfl⟩ := Option.map_eq_some_iff.1 hs
      exact h.site i t ht
    · exact h.site i s hs
  cluster := by
    have : w'.clusters = w.clusters := by rw [ha.eq]
    rw [this]; exact h.cluster
  ids := by
    have : w'.nextId = w.nextId := by rw [ha.eq]
    rw [this]; exact h.ids

/-! ## A new cluster -/

theorem sites_of_map {S : IMap (Site K)} {l : List Int} {sites : List (Site K)} (h : l.map (IMap.get? S) = sites.map some) :
    ∀ s ∈ sites, ∃ i, S.get? i = some s := by
  intro s hs
  have : some s ∈ l.map (IMap.get? S) := by rw [h]; exact List.mem_map_of_mem hs
  obtain ⟨i, -, hi⟩ := List.mem_map.1 this
  exact ⟨i, hi⟩

theorem Small.build (h : Small lo up top κ w) (hr : Room lo up top κ) {id : Int} {l : List Int} {M : K} :
    Calm (buildCluster env mem w id l M) ∧ ∀ c, buildCluster env mem w id l M = .ok c → Cluster.Low lo up κ c := by
  have hblank : Cluster.Low lo up κ (blank id : Cluster K) := by
    have := Cluster.Low.new h.lo0 h.up0 hr.rate id
    exact ⟨this.occ, this.vis, this.site, this.count⟩
  have hgrown : ∀ sites c1, l.map (IMap.get? w.sites) = sites.map some → (blank id : Cluster K).addSites sites = .ok c1 →
      Calm (c1.update env mem).1 ∧ ∀ u c2, c1.update env mem = (.ok u, c2) → Cluster.Low lo up κ c2 := by
    intro sites c1 hs h1
    have hl1 := Cluster.addSites_low hblank (l := sites) (fun s hs' => by
      obtain ⟨i, hi⟩ := sites_of_map hs s hs'
      exact (h.site i s hi).1) h1
    have e1 := (addSites_ok h1).1
    have hk : c1.siteVisits = [] := by rw [e1]; rfl
    have hv : c1.visits = c1.prevVisits := by rw [e1]; rfl
    have hreads : Cluster.Reads c1 := ⟨by rw [hk]; intro h; exact absurd rfl h, by rw [e1]; show (20 : K) ≠ 0; norm_num, .inl hv⟩
    obtain ⟨a, b⟩ := Cluster.update_low (env := env) (mem := mem) hreads (by rw [hk]; exact List.nodup_nil) hl1 (.inl hv) hr.rate h.up0
      (hr.fits h.up0) (hr.times h.up0) (.inr hv)
    exact ⟨a, fun u c2 e => (b u c2 e).1⟩
  constructor
  · unfold buildCluster
    refine .bind (Cluster.setConvergenceTolerance_calm _ _) fun c0 h0 => ?_
    have e0 : c0 = blank id := by
      unfold Cluster.setConvergenceTolerance at h0
      rw [if_pos (by norm_num)] at h0
      cases h0; rfl
    subst e0
    refine .bind (.mapM fun i _ => w.sites.getSite_calm i) fun sites hs => .bind (Cluster.addSites_calm _ _) fun c1 h1 => ?_
    have := (hgrown sites c1 (mapM_getSite_ok hs) h1).1
    split
    · next e _ he => rw [he] at this; exact this.error
    · split
      · refine .bind ?_ fun r _ => Cluster.setResolution_calm _ _
        unfold chosenResolution
        split
        · exact .err soft_finite
        · exact .ok _
      · exact .err soft_finite
      · exact .err soft_uninit
  · intro c hc
    obtain ⟨sites, c1, c2, tau, res, r, hs, h1, h2, -, -, -, -, rfl⟩ := buildCluster_ok hc
    have := (hgrown sites c1 hs h1).2 _ _ h2
    exact ⟨this.occ, this.vis, this.site, this.count⟩

theorem Small.create (h : Small lo up top κ w) (hr : Room lo up (top + 2) κ) {l : List Int} {M : K} :
    Calm (createCluster env mem w l M).1 ∧ ∀ u w', createCluster env mem w l M = (.ok u, w') → Small lo up (top + 2) κ w' := by
  have hr0 : Room lo up top κ := ⟨hr.rate, hr.lo, hr.sum, by have := hr.top; omega⟩
  have hb := fun id => h.build (env := env) (mem := mem) (id := id) (l := l) (M := M) hr0
  have hn := h.ids
  have ht := hr.top
  constructor
  · unfold createCluster
    rw [chk_ok (fitsInt_of (by omega) (by omega))]
    simp only
    have := (hb w.nextId).1
    split
    · next e he => exact this.of_eq he
    · next c hc =>
      have ha : Calm (w.clusters.addCluster (w.seedCluster c)).1 := by
        unfold ClusterContainer.addCluster
        split
        · exact .err soft_invalid
        · exact .ok _
      split
      · next e _ he => rw [he] at ha; exact ha.error
      · rw [chk_ok (fitsInt_of (by omega) (by omega))]
        exact attach_calm _ _ _
  · intro u w' hw
    obtain ⟨c, hc, -, -, hatt, -⟩ := createCluster_ok hw
    refine Small.attached ?_ hatt
    have hl := (hb _).2 c hc
    have hl2 : Cluster.Low lo up κ (w.seedCluster c) := by
      unfold seedCluster
      split
      · exact ⟨hl.occ, hl.vis, hl.site, hl.count⟩
      · exact hl
    have hp := h.putCluster (k := c.id) hl2
    exact ⟨hp.lo0, hp.up0, hp.site, hp.cluster, by show 0 ≤ w.nextId + 2 ∧ w.nextId + 2 ≤ top + 2; omega⟩

/-! ## A merge -/

theorem mergeCollect_calm (w : World K) (fav : Int) (iso : List (Site K)) (cids : List Int) (sc : List (Int × Int)) :
    Calm (w.mergeCollect fav iso cids sc).1 := by
  induction sc generalizing w iso cids with
  | nil => exact .ok _
  | cons ic sc ih =>
    obtain ⟨i, c⟩ := ic
    unfold mergeCollect
    split
    · split
      · next e he => exact (w.sites.getSite_calm i).of_eq he
      · split
        · next e he => exact (w.clusters.getCluster_calm fav).of_eq he
        · have := attach_calm w fav [i]
          split
          · next e _ he => rw [he] at this; exact this.error
          · split <;> exact ih _ _ _
    · exact ih _ _ _

theorem Small.mergeClusters {fav : Int} {cids : List Int} (h : Small lo up top κ w) (hr : Room lo up top κ) (hwf : w.clusters.WF)
    (hfav : ∀ c, w.clusters.get? fav = some c → c.tau.isSome ∧ c.resolution ≠ 0 ∧ Cluster.CInv c ∧ c.visits = c.prevVisits ∧
      Cluster.Seen c)
    (hsrc : ∀ k x, k ≠ fav → w.clusters.get? k = some x → Cluster.Reads x ∧ Cluster.CInv x ∧ (∀ i, i ∈ x.siteVisits.keys ↔ i ∈ x.sites.keys) ∧
      Cluster.Shares κ x) (hf : fav ∉ cids) :
    Calm (World.mergeClusters env mem fav w cids).1 ∧ ∀ u w', World.mergeClusters env mem fav w cids = (.ok u, w') →
      Small lo up top κ w' := by
  induction cids generalizing w with
  | nil =>
    unfold World.mergeClusters
    exact ⟨.ok _, fun u w' e => by cases e; exact h⟩
  | cons k cids ih =>
    rw [List.mem_cons, not_or] at hf
    unfold World.mergeClusters
    split
    · next e he => exact ⟨(w.clusters.getCluster_calm fav).of_eq he, fun u w' e => by cases e⟩
    · next e he _ => exact ⟨(w.clusters.getCluster_calm k).of_eq he, fun u w' e => by cases e⟩
    · next c src hc hs =>
      have hc := getCluster_ok hc
      have hs := getCluster_ok hs
      obtain ⟨c1, c2, c3, c4, c5⟩ := hfav c hc
      obtain ⟨s1, s2, s3, s4⟩ := hsrc k src (Ne.symm hf.1) hs
      obtain ⟨m1, m2⟩ := Cluster.migrate_low (env := env) (mem := mem) s1 s2.visits s2.sites (h.cluster k src hs) (.inr s4) hr.rate h.up0
        (hr.fits h.up0) (hr.times h.up0) s3 c1 c2 (h.cluster fav c hc) c3.visits c4
      split
      · next e _ _ he => rw [he] at m1; exact ⟨m1.error, fun u w' e => by cases e⟩
      · next c' src' he =>
        obtain ⟨l1, l2⟩ := m2 _ _ _ he
        have hget : ∀ j, (((w.clusters.put fav c').erase k : ClusterContainer K)).get? j =
            if k = j then none else if fav = j then some c' else w.clusters.get? j := by
          intro j
          show (IMap.erase (IMap.set w.clusters fav c') k).get? j = _
          rw [IMap.get?_erase (IMap.WF.set hwf _ _)]
          split
          · rfl
          · exact IMap.get?_set ..
        refine ih ⟨h.lo0, h.up0, h.site, fun j y hy => ?_, h.ids⟩ ?_ (fun y hy => ?_) (fun j y hj hy => ?_) hf.2
        · rw [hget] at hy
          split at hy
          · cases hy
          · split at hy
            · cases hy; exact l1
            · exact h.cluster j y hy
        · exact IMap.WF.erase (by exact hwf.set _ _) _
        · rw [hget, if_neg (Ne.symm hf.1), if_pos rfl] at hy
          cases hy
          obtain ⟨n1, n2⟩ := c5.migrate he
          refine ⟨Option.isSome_iff_ne_none.2 n1, ?_, ?_, l2, n2⟩
          · have := (Cluster.migrate_frame (env := env) (mem := mem) (c := c) src).resolution
            rw [he] at this
            simp only at this
            rw [this]; exact c2
          · have := c3.migrate (env := env) (mem := mem) src
            rw [he] at this
            exact this
        · rw [hget] at hy
          split at hy
          · cases hy
          rw [if_neg (Ne.symm hj)] at hy
          exact hsrc j y hj hy

theorem Small.merge (h : Small lo up top κ w) (hr : Room lo up top κ) (hst : Struct env0 w) (hall : AllSettled mem w)
    (hsh : AllShares κ w) {B : List Int} {sc : IMap Int} (hsc : w.clustersOfSites B [] = .ok sc)
    {order : List Int → List Int} (hord : ∀ l, (order l).Perm l) {fav : Int} :
    Calm (World.merge env mem w order sc fav).1 ∧ ∀ u w', World.merge env mem w order sc fav = (.ok u, w') → Small lo up top κ w' := by
  obtain ⟨hscw, -, -⟩ := clustersOfSites_ok hst (acc := []) List.nodup_nil hsc
  unfold World.merge
  have hcc := mergeCollect_calm w fav [] [] sc
  split
  · next e _ he => rw [he] at hcc; exact ⟨hcc.error, fun u w' e => by cases e⟩
  · next iso cids w1 hcol =>
    obtain ⟨hatt, ⟨l, hiso, hl⟩, hcids, hcn, -⟩ := mergeCollect_ok hscw hcol
    rw [List.nil_append] at hiso
    subst hiso
    have hcl : w1.clusters = w.clusters := by rw [hatt.eq]
    have h1 := h.attached hatt
    split
    · next e he => exact ⟨(w1.clusters.getCluster_calm fav).of_eq he, fun u w' e => by cases e⟩
    · next x hx =>
      have hx := getCluster_ok hx
      rw [hcl] at hx
      split
      · next e he => exact ⟨(Cluster.addSites_calm _ _).of_eq he, fun u w' e => by cases e⟩
      · next c1 hadd =>
        have hsx := hall fav x hx
        have hix := hst.cinv hx
        have e1 := (addSites_ok hadd).1
        have hiso : ∀ s ∈ iso, -lo ≤ s.occupied ∧ s.occupied ≤ up := by
          intro s hs
          have : some s ∈ iso.map some := List.mem_map_of_mem hs
          rw [← hl] at this
          obtain ⟨ic, -, hic⟩ := List.mem_map.1 this
          exact (h.site _ s hic).1
        have hl1 := Cluster.addSites_low (h.cluster fav x hx) hiso hadd
        have hi1 := hix.addSites hadd
        have hsh1 := (hsh fav x hx).addSites (fun i hi => (hsx.visits i).1 hi) hadd
        have hk1 : ∀ i ∈ x.sites.keys, i ∈ c1.sites.keys := (Cluster.addSites_frame hadd).sites
        have hreads1 : Cluster.Reads c1 := by
          have hr := hsx.reads
          refine ⟨by rw [e1]; exact hr.tau, by rw [e1]; exact hr.res, ?_⟩
          rcases hr.dwell with hd | hd
          · left; rw [e1]; exact hd
          · right
            intro i hi
            rw [e1] at hi
            obtain ⟨a, b⟩ := hd i hi
            exact ⟨hk1 i a, by rw [e1]; exact b⟩
        have hne1 : c1.siteVisits.keys ≠ [] := by
          have : c1.siteVisits = x.siteVisits := by rw [e1]
          rw [this]
          intro e
          have hs := hsx.size
          cases hxs : x.sites with
          | nil => rw [hxs] at hs; simp at hs
          | cons p q =>
            have : p.1 ∈ x.siteVisits.keys := (hsx.visits p.1).2 (by rw [hxs]; simp [IMap.keys])
            rw [e] at this
            cases this
        obtain ⟨u1, u2⟩ := Cluster.update_low (env := env) (mem := mem) hreads1 hi1.visits hl1 (.inr hsh1) hr.rate h.up0 (hr.fits h.up0)
          (hr.times h.up0) (.inl hne1)
        split
        · next e _ he => rw [he] at u1; exact ⟨u1.error, fun u w' e => by cases e⟩
        · next c2 hup =>
          obtain ⟨l1, l2⟩ := u2 _ _ hup
          have hget : ∀ j, (w1.clusters.put fav c2 : ClusterContainer K).get? j = if fav = j then some c2 else w.clusters.get? j := by
            intro j
            rw [hcl]
            exact IMap.get?_set ..
          refine Small.mergeClusters (h1.putCluster l1) hr ?_ (fun c hc => ?_) (fun k y hk hy => ?_) (fun hm => ?_)
          · show (w1.clusters.put fav c2 : ClusterContainer K).WF
            rw [hcl]
            exact hst.clustersWF.set _ _
          · have hc : (w1.clusters.put fav c2 : ClusterContainer K).get? fav = some c := hc
            rw [hget, if_pos rfl] at hc
            cases hc
            obtain ⟨n1, n2⟩ := (hsx.seen.addSites hadd).update hup
            refine ⟨Option.isSome_iff_ne_none.2 n1, ?_, ?_, l2, n2⟩
            · have := (Cluster.update_frame (env := env) (mem := mem) c1).resolution
              rw [hup] at this
              simp only at this
              rw [this]; exact hreads1.res
            · have := hi1.update (env := env) (mem := mem)
              rw [hup] at this
              exact this
          · have hy : (w1.clusters.put fav c2 : ClusterContainer K).get? k = some y := hy
            rw [hget, if_neg (Ne.symm hk)] at hy
            exact ⟨(hall k y hy).reads, hst.cinv hy, (hall k y hy).visits, hsh k y hy⟩
          · rcases (hcids fav).1 ((hord cids).mem_iff.1 hm) with h' | ⟨h', -⟩
            · cases h'
            · exact h' rfl

/-! ## An attempt to coarse-grain -/

theorem Small.coarseGrain (h : Small lo up top κ w) (hr : Room lo up (top + 2) κ) (hst : Struct env0 w) (hall : AllSettled mem w)
    (hsh : AllShares κ w) (a : Choices K) (v : Int) :
    Calm (coarseGrain env mem w a v).1 ∧ ∀ b w', World.coarseGrain env mem w a v = (.ok b, w') → Small lo up (top + 2) κ w' := by
  have hr0 : Room lo up top κ := ⟨hr.rate, hr.lo, hr.sum, by have := hr.top; omega⟩
  have hup : Small lo up (top + 2) κ w := h.mono hr.rate le_rfl le_rfl (by omega)
  unfold World.coarseGrain
  split
  · next e he => exact ⟨(Explorer.findBasin_calm _ _ _ _ _).of_eq he, fun u w' e => by cases e⟩
  · next basin hb =>
    split
    · next e he => exact ⟨(satisfies_calm w _ _).of_eq he, fun u w' e => by cases e⟩
    · exact ⟨.ok _, fun u w' e => by cases e; exact hup⟩
    · unfold coarseGrainBasin
      split
      · next e he => exact ⟨(clustersOfSites_calm w _ _).of_eq he, fun u w' e => by cases e⟩
      · next sc hsc =>
        split
        · obtain ⟨c1, c2⟩ := h.create (env := env) (mem := mem) (l := basin) (M := maxTime a.times) hr
          split
          · next e _ he => rw [he] at c1; exact ⟨c1.error, fun u w' e => by cases e⟩
          · next w' he => exact ⟨.ok _, fun u w' e => by cases e; exact c2 _ _ he⟩
        · split
          · obtain ⟨c1, c2⟩ := h.merge (env := env) (mem := mem) hr0 hst hall hsh hsc a.order_perm (fav := favoredClusterId sc)
            split
            · next e _ he => rw [he] at c1; exact ⟨c1.error, fun u w' e => by cases e⟩
            · next w' he => exact ⟨.ok _, fun u w' e => by cases e; exact (c2 _ _ he).mono hr.rate le_rfl le_rfl (by omega)⟩
          · exact ⟨.ok _, fun u w' e => by cases e; exact hup⟩

end World
end Mythical
