import Verif.Lemmas.SystemFrame
import Verif.Lemmas.ClusterMerge
import Verif.Lemmas.ClusterTrace

/-! # What coarse graining does to the world -/

set_option linter.unusedSectionVars false

namespace Mythical.World
open Mythical
variable {K : Type} [Field K] [LinearOrder K] [IsStrictOrderedRing K] [FloorRing K]
variable {w w' w1 w2 : World K} {env : Env K} {mem : Addr → K}

/-- The site as a member of cluster `cid`. -/
abbrev member (cid : Int) (s : Site K) : Site K := { s with clusterId := cid }

/-- What `attach` does: the sites `l` become members of `cid`. -/
structure Attached (w w' : World K) (cid : Int) (l : List Int) : Prop where
  eq : w' = { w with sites := w'.sites, feats := w'.feats }
  site : ∀ i, w'.sites.get? i = if i ∈ l then (w.sites.get? i).map (member cid) else w.sites.get? i
  feat : ∀ i, w'.feats.get? i = if i ∈ l then some (.cluster cid) else w.feats.get? i
  sitesWF : w.sites.WF → w'.sites.WF
  featsWF : w.feats.WF → w'.feats.WF

theorem Attached.nil (w : World K) (cid : Int) : Attached w w cid [] :=
  ⟨rfl, by simp, by simp, fun h => h, fun h => h⟩

theorem Attached.append {cid : Int} {l l' : List Int} (h1 : Attached w w1 cid l) (h2 : Attached w1 w2 cid l') :
    Attached w w2 cid (l ++ l') where
  eq := by rw [h2.eq, h1.eq]
  site i := by
    rw [h2.site, h1.site]
    by_cases hl : i ∈ l <;> by_cases hl' : i ∈ l' <;> simp [hl, hl', Function.comp_def]
  feat i := by
    rw [h2.feat, h1.feat]
    by_cases hl : i ∈ l <;> by_cases hl' : i ∈ l' <;> simp [hl, hl']
  sitesWF h := h2.sitesWF (h1.sitesWF h)
  featsWF h := h2.featsWF (h1.featsWF h)

theorem attached_one {cid i : Int} {s : Site K} (hs : w.sites.get? i = some s) :
    Attached w { w with sites := IMap.set w.sites i (member cid s), feats := w.feats.set i (.cluster cid) } cid [i] where
  eq := rfl
  site j := by
    simp only [List.mem_singleton]
    rw [IMap.get?_set]
    by_cases h : i = j
    · subst h; simp [hs]
    · simp [h, Ne.symm h]
  feat j := by
    simp only [List.mem_singleton]
    rw [IMap.get?_set]
    by_cases h : i = j
    · subst h; simp
    · simp [h, Ne.symm h]
  sitesWF h := h.set _ _
  featsWF h := h.set _ _

theorem setClusterId_ok {S S' : SiteContainer K} {i cid : Int} (h : S.setClusterId i cid = (.ok (), S')) :
    ∃ s, IMap.get? S i = some s ∧ S' = IMap.set S i (member cid s) := by
  unfold SiteContainer.setClusterId SiteContainer.getSite at h
  cases e : IMap.get? S i with
  | none => rw [e] at h; simp at h
  | some s => rw [e] at h; simp only [Prod.mk.injEq] at h; exact ⟨s, rfl, h.2.symm⟩

theorem setClusterId_of {S : SiteContainer K} {i cid : Int} {s : Site K} (h : IMap.get? S i = some s) :
    S.setClusterId i cid = (.ok (), IMap.set S i (member cid s)) := by
  unfold SiteContainer.setClusterId SiteContainer.getSite
  rw [h]

theorem attach_ok {cid : Int} {l : List Int} (h : w.attach cid l = (.ok (), w')) :
    Attached w w' cid l ∧ ∀ i ∈ l, w.sites.get? i ≠ none := by
  induction l generalizing w with
  | nil => cases h; exact ⟨.nil _ _, by simp⟩
  | cons i l ih =>
    unfold attach at h
    cases e : w.sites.setClusterId i cid with
    | mk r S =>
      rw [e] at h
      cases r with
      | error e => simp at h
      | ok u =>
        obtain ⟨s, hs, rfl⟩ := setClusterId_ok e
        obtain ⟨h1, h2⟩ := ih h
        have h0 := attached_one (cid := cid) hs
        refine ⟨h0.append h1, fun j hj => ?_⟩
        rcases List.mem_cons.1 hj with rfl | hj
        · rw [hs]; simp
        · have := h2 j hj
          rw [h0.site] at this
          split at this
          · next hji => rw [List.mem_singleton] at hji; subst hji; rw [hs]; simp
          · exact this

theorem attach_total {cid : Int} {l : List Int} (h : ∀ i ∈ l, w.sites.get? i ≠ none) :
    ∃ w', w.attach cid l = (.ok (), w') := by
  induction l generalizing w with
  | nil => exact ⟨w, rfl⟩
  | cons i l ih =>
    obtain ⟨s, hs⟩ := Option.ne_none_iff_exists'.1 (h i (List.mem_cons_self ..))
    unfold attach
    rw [setClusterId_of hs]
    simp only
    apply ih
    intro j hj
    have h0 := (attached_one (cid := cid) hs).site j
    simp only at h0
    show IMap.get? (IMap.set w.sites i (member cid s)) j ≠ none
    rw [h0]
    have := h j (List.mem_cons_of_mem _ hj)
    split
    · rw [Ne, Option.map_eq_none_iff]; exact this
    · exact this

theorem attach_frame {cid : Int} {l : List Int} :
    ∃ S F, (w.attach cid l).2 = { w with sites := S, feats := F } := by
  induction l generalizing w with
  | nil => exact ⟨w.sites, w.feats, rfl⟩
  | cons i l ih =>
    unfold attach
    cases e : w.sites.setClusterId i cid with
    | mk r S =>
      cases r with
      | error e => exact ⟨w.sites, w.feats, rfl⟩
      | ok u =>
        obtain ⟨S', F', h⟩ := ih (w := { w with sites := S, feats := w.feats.set i (.cluster cid) })
        exact ⟨S', F', by simp only; rw [h]⟩

/-- What `createCluster_` does. -/
theorem createCluster_ok {l : List Int} {M : K} (h : createCluster env mem w l M = (.ok (), w')) :
    ∃ c, buildCluster env mem w w.nextId l M = .ok c ∧ FitsInt (w.nextId + 2) ∧ w.clusters.get? c.id = none ∧
      Attached { w with clusters := IMap.set w.clusters c.id (w.seedCluster c), seed := w.nextSeed, nextId := w.nextId + 2 } w'
        c.id l ∧ ∀ i ∈ l, w.sites.get? i ≠ none := by
  unfold createCluster at h
  split at h
  · simp at h
  · next next hn =>
    obtain ⟨rfl, -⟩ := chk_eq_ok.1 hn
    split at h
    · simp at h
    · next c hc =>
      have hid2 : (w.seedCluster c).id = c.id := by unfold seedCluster; split <;> rfl
      unfold ClusterContainer.addCluster ClusterContainer.exist at h
      rw [hid2] at h
      by_cases hx : IMap.has w.clusters c.id = true
      · rw [if_pos hx] at h; simp at h
      · rw [if_neg hx] at h
        simp only at h
        split at h
        · simp at h
        · next n2 hn2 =>
          obtain ⟨rfl, hf⟩ := chk_eq_ok.1 hn2
          have e2 : w.nextId + 1 + 1 = w.nextId + 2 := by ring
          rw [e2] at h hf
          obtain ⟨h1, h2⟩ := attach_ok h
          refine ⟨c, hc, hf, ?_, h1, h2⟩
          rw [IMap.get?_eq_none_iff]
          exact fun hm => hx (IMap.has_iff.2 hm)

/-- The fields that coarse graining can change. -/
def Grained (w w' : World K) : Prop :=
  ∃ S C F sd n, w' = { w with sites := S, clusters := C, feats := F, seed := sd, nextId := n }

theorem Grained.refl (w : World K) : Grained w w := ⟨w.sites, w.clusters, w.feats, w.seed, w.nextId, rfl⟩

theorem Grained.trans (h1 : Grained w w1) (h2 : Grained w1 w2) : Grained w w2 := by
  obtain ⟨S, C, F, sd, n, rfl⟩ := h1
  obtain ⟨S', C', F', sd', n', rfl⟩ := h2
  exact ⟨S', C', F', sd', n', rfl⟩

theorem createCluster_grained {l : List Int} {M : K} : Grained w (createCluster env mem w l M).2 := by
  unfold createCluster
  split
  · exact .refl _
  · next next hn =>
    split
    · exact ⟨w.sites, w.clusters, w.feats, w.seed, next, rfl⟩
    · next c hc =>
      split
      · exact ⟨w.sites, w.clusters, w.feats, _, next, rfl⟩
      · next C _ =>
        split
        · exact ⟨w.sites, w.clusters, w.feats, _, next, rfl⟩
        · obtain ⟨S, F, h⟩ := attach_frame (w := { w with clusters := C, seed := w.nextSeed, nextId := _ })
            (cid := _) (l := l)
          rw [h]
          exact ⟨S, C, F, _, _, rfl⟩

/-! ## Building a cluster -/

theorem mapM_getSite_ok {S : SiteContainer K} {l : List Int} {sites : List (Site K)}
    (h : l.mapM S.getSite = .ok sites) : l.map (IMap.get? S) = sites.map some := by
  induction l generalizing sites with
  | nil => rw [List.mapM_nil] at h; cases h; rfl
  | cons i l ih =>
    rw [List.mapM_cons] at h
    obtain ⟨s, hs, h⟩ := bind_eq_ok.1 h
    obtain ⟨r, hr, h⟩ := bind_eq_ok.1 h
    cases h
    rw [List.map_cons, List.map_cons, ih hr]
    congr 1
    unfold SiteContainer.getSite at hs
    cases e : IMap.get? S i with
    | none => rw [e] at hs; cases hs
    | some t => rw [e] at hs; cases hs; rfl

theorem mapM_getSite_total {S : SiteContainer K} {l : List Int} (h : ∀ i ∈ l, IMap.get? S i ≠ none) :
    ∃ sites, l.mapM S.getSite = .ok sites := by
  induction l with
  | nil => exact ⟨[], by rw [List.mapM_nil]; rfl⟩
  | cons i l ih =>
    obtain ⟨s, hs⟩ := Option.ne_none_iff_exists'.1 (h i (List.mem_cons_self ..))
    obtain ⟨r, hr⟩ := ih fun j hj => h j (List.mem_cons_of_mem _ hj)
    refine ⟨s :: r, ?_⟩
    rw [List.mapM_cons]
    have : S.getSite i = .ok s := by unfold SiteContainer.getSite; rw [hs]
    rw [this, hr]; rfl

/-- The cluster to which the sites of a basin are added first. -/
def blank (id : Int) : Cluster K := { (Cluster.new id : Cluster K) with method := .tolerance, tol := 1 / 1000 }

theorem buildCluster_ok {id : Int} {l : List Int} {M : K} {c : Cluster K} (h : buildCluster env mem w id l M = .ok c) :
    ∃ sites c1 c2 tau res r, l.map (IMap.get? w.sites) = sites.map some ∧ (blank id).addSites sites = .ok c1 ∧
      c1.update env mem = (.ok (), c2) ∧ c2.tau = some tau ∧ w.timeRes = some res ∧ chosenResolution tau M res = .ok r ∧
      2 ≤ r ∧ c = { c2 with resolution := r, timeInc := some (tau / r) } := by
  unfold buildCluster at h
  obtain ⟨c0, h0, h⟩ := bind_eq_ok.1 h
  have e0 : c0 = blank id := by
    unfold Cluster.setConvergenceTolerance at h0
    rw [if_pos (by norm_num)] at h0
    cases h0; rfl
  subst e0
  obtain ⟨sites, hs, h⟩ := bind_eq_ok.1 h
  obtain ⟨c1, h1, h⟩ := bind_eq_ok.1 h
  split at h
  · cases h
  · next c2 h2 =>
    split at h
    · next tau res ht hr =>
      obtain ⟨r, h3, h⟩ := bind_eq_ok.1 h
      unfold Cluster.setResolution at h
      split at h
      · next h4 =>
        cases h
        exact ⟨sites, c1, c2, tau, res, r, mapM_getSite_ok hs, h1, h2, ht, hr, h3, h4, by rw [ht]; rfl⟩
      · cases h
    · cases h
    · cases h

theorem addSites_ok {c c' : Cluster K} {sites : List (Site K)} (h : c.addSites sites = .ok c') :
    c' = { c with sites := c'.sites } ∧ (sites.map (·.id)).Nodup ∧ (∀ s ∈ sites, c.sites.get? s.id = none) ∧
    (∀ i, c'.sites.get? i = match sites.find? (fun s => s.id = i) with
      | some s => some (member c.id s)
      | none => c.sites.get? i) ∧ (c.sites.WF → c'.sites.WF) := by
  induction sites generalizing c with
  | nil => cases h; exact ⟨rfl, by simp, by simp, fun i => rfl, fun h => h⟩
  | cons s sites ih =>
    unfold Cluster.addSites at h
    obtain ⟨d, h1, h⟩ := bind_eq_ok.1 h
    obtain ⟨hn, rfl⟩ := Cluster.addSite_ok h1
    obtain ⟨e1, e2, e3, e4, e5⟩ := ih h
    simp only at e1 e3 e4 e5
    have hne : ∀ t ∈ sites, t.id ≠ s.id := by
      intro t ht e
      have := e3 t ht
      rw [e, IMap.get?_set_self] at this
      cases this
    refine ⟨e1, ?_, ?_, ?_, fun h => e5 (h.set _ _)⟩
    · rw [List.map_cons, List.nodup_cons]
      refine ⟨fun hm => ?_, e2⟩
      obtain ⟨t, ht, hts⟩ := List.mem_map.1 hm
      exact hne t ht hts
    · intro t ht
      rcases List.mem_cons.1 ht with rfl | ht
      · exact IMap.get?_eq_none_iff.2 hn
      · have := e3 t ht
        rwa [IMap.get?_set_ne _ _ (Ne.symm (hne t ht))] at this
    · intro i
      rw [e4, List.find?_cons]
      by_cases hi : s.id = i
      · subst hi
        have : sites.find? (fun t => decide (t.id = s.id)) = none := by
          rw [List.find?_eq_none]; intro t ht; simpa using hne t ht
        rw [this]
        simp
      · simp only [hi, decide_false]
        cases sites.find? (fun t => decide (t.id = i)) with
        | some t => rfl
        | none => exact IMap.get?_set_ne _ _ hi

/-! ## Merging -/

/-- What the loop over the sites of the basin in `mergeSitesAndClusters_` does. -/
theorem mergeCollect_ok {fav : Int} {iso iso' : List (Site K)} {cids cids' : List Int} {sc : List (Int × Int)}
    (hsc : (sc.map Prod.fst).Nodup) (h : w.mergeCollect fav iso cids sc = (.ok (iso', cids'), w')) :
    Attached w w' fav ((sc.filter fun ic => ic.2 ≠ fav).map Prod.fst) ∧
    (∃ l, iso' = iso ++ l ∧
      ((sc.filter fun ic => ic.2 ≠ fav ∧ ic.2 = unassignedId).map fun ic => w.sites.get? ic.1) = l.map some) ∧
    (∀ c, c ∈ cids' ↔ c ∈ cids ∨ (c ≠ fav ∧ c ≠ unassignedId ∧ c ∈ sc.map Prod.snd)) ∧ (cids.Nodup → cids'.Nodup) ∧
    ((∃ ic ∈ sc, ic.2 ≠ fav) → w.clusters.get? fav ≠ none) := by
  induction sc generalizing w iso cids with
  | nil =>
    unfold mergeCollect at h
    simp only [Prod.mk.injEq, Except.ok.injEq] at h
    obtain ⟨⟨rfl, rfl⟩, rfl⟩ := h
    exact ⟨.nil _ _, ⟨[], by simp⟩, by simp, fun h => h, by simp⟩
  | cons ic sc ih =>
    obtain ⟨i, c⟩ := ic
    rw [List.map_cons, List.nodup_cons] at hsc
    unfold mergeCollect at h
    by_cases hc : c = fav
    · rw [if_neg (by simpa using hc)] at h
      obtain ⟨h1, h2, h3, h4, h5⟩ := ih hsc.2 h
      refine ⟨by simpa [hc] using h1, by simpa [hc] using h2, fun d => ?_, h4, ?_⟩
      · rw [h3]
        constructor
        · rintro (h | ⟨a, b, e⟩)
          · exact .inl h
          · exact .inr ⟨a, b, by simp [e]⟩
        · rintro (h | ⟨a, b, e⟩)
          · exact .inl h
          · rw [List.map_cons, List.mem_cons] at e
            exact .inr ⟨a, b, e.resolve_left fun e => a (e.trans hc)⟩
      · rintro ⟨x, hx, hxf⟩
        rcases List.mem_cons.1 hx with rfl | hx
        · exact absurd hc hxf
        · exact h5 ⟨x, hx, hxf⟩
    · rw [if_pos hc] at h
      split at h
      · simp at h
      · next s hs =>
        split at h
        · simp at h
        · next cf hcf =>
          have hcf' : w.clusters.get? fav ≠ none := by
            intro e
            unfold ClusterContainer.getCluster at hcf
            rw [e] at hcf; cases hcf
          split at h
          · simp at h
          · next u w1 ha =>
            have hs' : w.sites.get? i = some s := by
              unfold SiteContainer.getSite at hs
              cases e : w.sites.get? i with
              | none => rw [e] at hs; cases hs
              | some t => rw [e] at hs; cases hs; rfl
            obtain ⟨ha1, -⟩ := attach_ok ha
            have hsite : ∀ k, k ≠ i → w1.sites.get? k = w.sites.get? k := by
              intro k hk; rw [ha1.site]; simp [hk]
            have hmap : ∀ p : Int × Int → Bool,
                ((sc.filter p).map fun ic => w1.sites.get? ic.1) = (sc.filter p).map fun ic => w.sites.get? ic.1 := by
              intro p
              apply List.map_congr_left
              intro x hx
              refine hsite _ fun e => hsc.1 ?_
              have : x.1 ∈ sc.map Prod.fst := List.mem_map_of_mem (List.mem_of_mem_filter hx)
              rwa [e] at this
            by_cases hu : c = unassignedId
            · rw [if_pos hu] at h
              obtain ⟨h1, ⟨l, h2, h2'⟩, h3, h4, h5⟩ := ih hsc.2 h
              refine ⟨?_, ⟨s :: l, by simp [h2], ?_⟩, fun d => ?_, h4, fun _ => hcf'⟩
              · have := ha1.append h1
                simpa [hc] using this
              · rw [hmap] at h2'
                subst hu
                rw [List.filter_cons_of_pos (by simpa using hc), List.map_cons, h2', List.map_cons, hs']
              · rw [h3]
                constructor
                · rintro (h | ⟨a, b, e⟩)
                  · exact .inl h
                  · exact .inr ⟨a, b, by simp [e]⟩
                · rintro (h | ⟨a, b, e⟩)
                  · exact .inl h
                  · rw [List.map_cons, List.mem_cons] at e
                    exact .inr ⟨a, b, e.resolve_left fun e => b (e.trans hu)⟩
            · rw [if_neg hu] at h
              obtain ⟨h1, ⟨l, h2, h2'⟩, h3, h4, h5⟩ := ih hsc.2 h
              refine ⟨?_, ⟨l, h2, ?_⟩, fun d => ?_, fun hn => h4 ?_, fun _ => hcf'⟩
              · have := ha1.append h1
                simpa [hc] using this
              · rw [hmap] at h2'
                rw [List.filter_cons_of_neg (by simp [hu]), h2']
              · rw [h3]
                have : d ∈ (if c ∈ cids then cids else cids ++ [c]) ↔ d ∈ cids ∨ d = c := by
                  split
                  · next hm => exact ⟨.inl, fun h => h.elim (fun h => h) fun e => e ▸ hm⟩
                  · simp
                rw [this, List.map_cons, List.mem_cons]
                constructor
                · rintro ((h | rfl) | ⟨a, b, e⟩)
                  · exact .inl h
                  · exact .inr ⟨hc, hu, .inl rfl⟩
                  · exact .inr ⟨a, b, .inr e⟩
                · rintro (h | ⟨a, b, e | e⟩)
                  · exact .inl (.inl h)
                  · exact .inl (.inr e)
                  · exact .inr ⟨a, b, e⟩
              · split
                · exact hn
                · next hm =>
                  rw [List.nodup_append]
                  exact ⟨hn, by simp, fun a ha b hb => by
                    rw [List.mem_singleton] at hb; subst hb; exact fun e => hm (e ▸ ha)⟩

theorem mergeCollect_frame {fav : Int} {iso : List (Site K)} {cids : List Int} {sc : List (Int × Int)} :
    ∃ S F, (w.mergeCollect fav iso cids sc).2 = { w with sites := S, feats := F } := by
  induction sc generalizing w iso cids with
  | nil => exact ⟨w.sites, w.feats, rfl⟩
  | cons ic sc ih =>
    obtain ⟨i, c⟩ := ic
    unfold mergeCollect
    split
    · split
      · exact ⟨w.sites, w.feats, rfl⟩
      · split
        · exact ⟨w.sites, w.feats, rfl⟩
        · have hf := attach_frame (w := w) (cid := fav) (l := [i])
          split
          · next ha => rw [ha] at hf; exact hf
          · next ha =>
            rw [ha] at hf
            obtain ⟨S, F, h⟩ := hf
            simp only at h
            subst h
            split
            · obtain ⟨S', F', h⟩ := ih (w := { w with sites := S, feats := F }) (iso := iso ++ [_]) (cids := cids)
              exact ⟨S', F', h⟩
            · obtain ⟨S', F', h⟩ := ih (w := { w with sites := S, feats := F }) (iso := iso)
                (cids := if c ∈ cids then cids else cids ++ [c])
              exact ⟨S', F', h⟩
    · exact ih

theorem mergeClusters_frame {fav : Int} {cids : List Int} :
    ∃ C, (mergeClusters env mem fav w cids).2 = { w with clusters := C } := by
  induction cids generalizing w with
  | nil => exact ⟨w.clusters, rfl⟩
  | cons cid cids ih =>
    unfold mergeClusters
    split
    · exact ⟨w.clusters, rfl⟩
    · exact ⟨w.clusters, rfl⟩
    · next c src _ _ =>
      split
      · exact ⟨_, rfl⟩
      · next c' _ _ =>
        obtain ⟨C, h⟩ := ih (w := { w with clusters := (w.clusters.put fav c').erase cid })
        exact ⟨C, h⟩

theorem merge_grained {order : List Int → List Int} {sc : IMap Int} {fav : Int} :
    Grained w (merge env mem w order sc fav).2 := by
  unfold merge
  have hf := mergeCollect_frame (w := w) (fav := fav) (iso := []) (cids := []) (sc := sc)
  split
  · next ha =>
    rw [ha] at hf; obtain ⟨S, F, h⟩ := hf; simp only at h ⊢; rw [h]
    exact ⟨S, w.clusters, F, w.seed, w.nextId, rfl⟩
  · next iso cids w1 ha =>
    rw [ha] at hf; obtain ⟨S, F, h⟩ := hf; simp only at h; subst h
    have hg : Grained w { w with sites := S, feats := F } := ⟨S, w.clusters, F, w.seed, w.nextId, rfl⟩
    split
    · exact hg
    · split
      · exact hg
      · split
        · exact ⟨S, _, F, w.seed, w.nextId, rfl⟩
        · next c' _ =>
          obtain ⟨C, h⟩ := mergeClusters_frame (env := env) (mem := mem) (fav := fav) (cids := order cids)
            (w := { w with sites := S, feats := F, clusters := ClusterContainer.put w.clusters fav c' })
          simp only
          simp only at h
          rw [h]
          exact ⟨S, C, F, w.seed, w.nextId, rfl⟩

theorem coarseGrain_grained {a : Choices K} {v : Int} : Grained w (coarseGrain env mem w a v).2 := by
  unfold coarseGrain
  split
  · exact .refl _
  · split
    · exact .refl _
    · exact .refl _
    · unfold coarseGrainBasin
      split
      · exact .refl _
      · split
        · split
          · next h =>
            have := congrArg Prod.snd h
            simp only at this ⊢
            rw [← this]; exact createCluster_grained
          · next h =>
            have := congrArg Prod.snd h
            simp only at this ⊢
            rw [← this]; exact createCluster_grained
        · split
          · next sc _ _ _ =>
            have := merge_grained (env := env) (mem := mem) (w := w) (order := a.order) (sc := sc)
              (fav := favoredClusterId sc)
            split
            · next h => rw [h] at this; exact this
            · next h => rw [h] at this; exact this
          · exact .refl _

end Mythical.World
