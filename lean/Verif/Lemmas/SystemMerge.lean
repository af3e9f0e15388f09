import Verif.Lemmas.SystemInv

/-! # The world after a successful coarse-graining attempt -/

set_option linter.unusedSectionVars false
set_option linter.unusedVariables false

namespace Mythical.World
open Mythical
variable {K : Type} [Field K] [LinearOrder K] [IsStrictOrderedRing K] [FloorRing K]
variable {w w' w1 w2 : World K} {env : Env K} {mem : Addr → K}

theorem unassigned_neg : unassignedId < 0 := by decide

theorem getCluster_ok {C : ClusterContainer K} {k : Int} {c : Cluster K} (h : C.getCluster k = .ok c) :
    IMap.get? C k = some c := by
  unfold ClusterContainer.getCluster at h
  cases e : IMap.get? C k with
  | none => rw [e] at h; cases h
  | some t => rw [e] at h; cases h; rfl

theorem getCluster_of {C : ClusterContainer K} {k : Int} {c : Cluster K} (h : IMap.get? C k = some c) :
    C.getCluster k = .ok c := by
  unfold ClusterContainer.getCluster; rw [h]

/-- The result of a successful merge of two clusters. -/
theorem migrate_ok {c c' src src' : Cluster K} {u : Unit} (hsrc : src.sites.WF)
    (h : c.migrateSitesFrom env mem src = (.ok u, c', src')) :
    (∃ evs, Cluster.Trace env c evs c') ∧ c'.id = c.id ∧
    ∀ k, c'.sites.get? k = match c.sites.get? k with
      | some s => some s
      | none => (src.sites.get? k).map (Cluster.mark c.id) := by
  have h1 := Cluster.migrate_sites (env := env) (mem := mem) (c := c) hsrc
  have h2 := Cluster.migrate_frame (env := env) (mem := mem) (c := c) src
  have ht : c.step env mem (.migrateSitesFrom src) = (.ok .unit, c') := by simp only [Cluster.step, h]
  rw [h] at h1 h2
  refine ⟨trace_one ht, h2.id, ?_⟩
  rcases h1 with ⟨-, h1, -⟩ | ⟨-, h1⟩
  · exact absurd rfl (h1 u)
  · exact h1

/-- What the loop over the other clusters does. -/
theorem mergeClusters_ok {fav : Int} {cids : List Int} {c : Cluster K} (hw : w.clusters.WF)
    (hs : ∀ k x, w.clusters.get? k = some x → Cluster.CInv x) (hn : cids.Nodup) (hf : fav ∉ cids)
    (hdis : ∀ k x k' x' i, w.clusters.get? k = some x → w.clusters.get? k' = some x' → x.sites.get? i ≠ none →
      x'.sites.get? i ≠ none → k = k')
    (hc : w.clusters.get? fav = some c) (hid : c.id = fav) (h : mergeClusters env mem fav w cids = (.ok (), w')) :
    ∃ d, w'.clusters.get? fav = some d ∧ (∃ evs, Cluster.Trace env c evs d) ∧ d.id = fav ∧ w'.clusters.WF ∧
      (∀ k, k ≠ fav → w'.clusters.get? k = if k ∈ cids then none else w.clusters.get? k) ∧
      (∀ k ∈ cids, w.clusters.get? k ≠ none) ∧
      (∀ i s, d.sites.get? i = some s ↔ c.sites.get? i = some s ∨
        ∃ k ∈ cids, ∃ x t, w.clusters.get? k = some x ∧ x.sites.get? i = some t ∧ s = Cluster.mark fav t) ∧
      (∃ C, w' = { w with clusters := C }) := by
  induction cids generalizing w c with
  | nil =>
    unfold mergeClusters at h
    simp only [Prod.mk.injEq, true_and] at h
    subst h
    exact ⟨c, hc, ⟨[], .nil _⟩, hid, hw, by simp, by simp, by simp, ⟨w.clusters, rfl⟩⟩
  | cons k cids ih =>
    rw [List.nodup_cons] at hn
    rw [List.mem_cons, not_or] at hf
    unfold mergeClusters at h
    split at h
    · simp at h
    · simp at h
    · next c0 src hc0 hsrc =>
      have hc0 := getCluster_ok hc0
      rw [hc] at hc0; cases hc0
      have hsrc := getCluster_ok hsrc
      split at h
      · simp at h
      · next u c' src' hm =>
        obtain ⟨ht, hid', hsites⟩ := migrate_ok (hs k src hsrc).sites hm
        have hget : ∀ j, IMap.get? ((w.clusters.put fav c').erase k) j =
            if k = j then none else if fav = j then some c' else w.clusters.get? j := by
          intro j
          have := IMap.get?_erase (IMap.WF.set hw fav c') k j
          change IMap.get? ((w.clusters.put fav c').erase k) j = _ at this
          rw [this]
          by_cases hkj : k = j
          · simp [hkj]
          · rw [if_neg hkj, if_neg hkj]; exact IMap.get?_set ..
        have hkf : k ≠ fav := Ne.symm hf.1
        have hmem : ∀ i, c'.sites.get? i ≠ none ↔ c.sites.get? i ≠ none ∨ src.sites.get? i ≠ none := by
          intro i; rw [hsites]
          cases c.sites.get? i <;> simp
        have hcw : Cluster.CInv c' := by
          have := (hs fav c hc).migrate (env := env) (mem := mem) src
          rw [hm] at this
          exact this
        obtain ⟨d, e1, e2, e3, e4, e5, e6, e7, C, e8⟩ := ih (w := { w with clusters := (w.clusters.put fav c').erase k })
          (c := c') (IMap.WF.erase (IMap.WF.set hw fav c') k) (by
            intro j x hx
            simp only at hx
            rw [hget] at hx
            split at hx
            · cases hx
            · split at hx
              · cases hx; exact hcw
              · exact hs j x hx) hn.2 hf.2 (by
            intro j x j' x' i hx hx' hi hi'
            simp only at hx hx'
            rw [hget] at hx hx'
            split at hx
            · cases hx
            · split at hx'
              · cases hx'
              · next hkj hkj' =>
                split at hx
                · next hfj =>
                  cases hx
                  split at hx'
                  · next hfj' => exact hfj.symm.trans hfj'
                  · rcases (hmem i).1 hi with hi | hi
                    · exact hfj ▸ hdis fav c j' x' i hc hx' hi hi'
                    · exact absurd (hdis k src j' x' i hsrc hx' hi hi') hkj'
                · split at hx'
                  · next hfj' =>
                    cases hx'
                    rcases (hmem i).1 hi' with hi' | hi'
                    · exact hfj' ▸ hdis j x fav c i hx hc hi hi'
                    · exact absurd (hdis j x k src i hx hsrc hi hi').symm hkj
                  · exact hdis j x j' x' i hx hx' hi hi')
          (by show IMap.get? ((w.clusters.put fav c').erase k) fav = some c'
              rw [hget, if_neg hkf, if_pos rfl]) (hid'.trans hid) h
        obtain ⟨l, hl⟩ := ht
        obtain ⟨l', hl'⟩ := e2
        refine ⟨d, e1, ⟨l ++ l', hl.append hl'⟩, e3, e4, ?_, ?_, ?_, ⟨C, by rw [e8]⟩⟩
        · intro j hj
          rw [e5 j hj]
          by_cases hjc : j ∈ cids
          · rw [if_pos hjc, if_pos (List.mem_cons_of_mem _ hjc)]
          · rw [if_neg hjc]
            show IMap.get? ((w.clusters.put fav c').erase k) j = _
            rw [hget]
            by_cases hkj : k = j
            · subst hkj; simp
            · rw [if_neg hkj, if_neg (Ne.symm hj), if_neg]
              rw [List.mem_cons]; push Not; exact ⟨Ne.symm hkj, hjc⟩
        · intro j hj
          rcases List.mem_cons.1 hj with rfl | hj
          · rw [hsrc]; simp
          · have := e6 j hj
            change IMap.get? ((w.clusters.put fav c').erase k) j ≠ none at this
            rw [hget] at this
            split at this
            · simp at this
            · split at this
              · next hfj => subst hfj; exact absurd hj hf.2
              · exact this
        · intro i s
          rw [e7, hsites]
          have hk' : ∀ j ∈ cids, IMap.get? ((w.clusters.put fav c').erase k) j = w.clusters.get? j := by
            intro j hj
            rw [hget, if_neg (fun e : k = j => hn.1 (e ▸ hj)), if_neg (fun e : fav = j => hf.2 (e ▸ hj))]
          constructor
          · rintro (h | ⟨j, hj, x, t, hx, ht, e⟩)
            · cases ec : c.sites.get? i with
              | some s0 => rw [ec] at h; exact .inl h
              | none =>
                rw [ec] at h
                simp only [Option.map_eq_some_iff] at h
                obtain ⟨t, ht, e⟩ := h
                exact .inr ⟨k, List.mem_cons_self .., src, t, hsrc, ht, by rw [← e, hid]⟩
            · simp only at hx
              rw [hk' j hj] at hx
              exact .inr ⟨j, List.mem_cons_of_mem _ hj, x, t, hx, ht, e⟩
          · rintro (h | ⟨j, hj, x, t, hx, ht, e⟩)
            · left; rw [h]
            · rcases List.mem_cons.1 hj with rfl | hj
              · rw [hsrc] at hx; cases hx
                left
                have : c.sites.get? i = none := by
                  by_contra hne
                  exact hkf (hdis j src fav c i hsrc hc (by rw [ht]; simp) hne)
                rw [this, ht, e, hid]; rfl
              · refine .inr ⟨j, hj, x, t, ?_, ht, e⟩
                simp only
                rw [hk' j hj]; exact hx

/-! ## The sites of the basin and their clusters -/

theorem getSite_ok {S : SiteContainer K} {i : Int} {s : Site K} (h : S.getSite i = .ok s) : IMap.get? S i = some s := by
  unfold SiteContainer.getSite at h
  cases e : IMap.get? S i with
  | none => rw [e] at h; cases h
  | some t => rw [e] at h; cases h; rfl

theorem getSite_of {S : SiteContainer K} {i : Int} {s : Site K} (h : IMap.get? S i = some s) : S.getSite i = .ok s := by
  unfold SiteContainer.getSite; rw [h]

theorem getClusterIdOfSite_of {S : SiteContainer K} {i : Int} {s : Site K} (h : IMap.get? S i = some s) :
    S.getClusterIdOfSite i = .ok s.clusterId := by
  unfold SiteContainer.getClusterIdOfSite; rw [getSite_of h]; rfl

theorem clustersOfSites_ok (hst : Struct env w) {l : List Int} {acc sc : IMap Int} (hw : acc.WF) (h : w.clustersOfSites l acc = .ok sc) :
    sc.WF ∧ (∀ i, sc.get? i = if i ∈ l then (w.sites.get? i).map (·.clusterId) else acc.get? i) ∧
    ∀ i ∈ l, w.sites.get? i ≠ none := by
  induction l generalizing acc with
  | nil => unfold clustersOfSites at h; cases h; exact ⟨hw, by simp, by simp⟩
  | cons i l ih =>
    unfold clustersOfSites at h
    obtain ⟨p, hp, h⟩ := bind_eq_ok.1 h
    unfold SiteContainer.partOfCluster at hp
    obtain ⟨s, hs, hp⟩ := bind_eq_ok.1 hp
    have hs := getSite_ok hs
    simp only [Except.ok.injEq] at hp
    subst hp
    rw [getClusterIdOfSite_of hs] at h
    have h : w.clustersOfSites l (acc.set i s.clusterId) = .ok sc := by
      simp only [ok_bind] at h
      split at h
      · exact h
      · next hu =>
        have : s.clusterId = unassignedId := by
          unfold Site.partOfCluster at hu
          by_contra hne
          have := (hst.joined i s hs hne).2.1
          simp only [decide_eq_true_eq] at hu
          omega
        rw [this]; exact h
    obtain ⟨h1, h2, h3⟩ := ih (IMap.WF.set hw i s.clusterId) h
    refine ⟨h1, fun j => ?_, fun j hj => ?_⟩
    · rw [h2, IMap.get?_set]
      by_cases hj : j ∈ l
      · rw [if_pos hj, if_pos (List.mem_cons_of_mem _ hj)]
      · rw [if_neg hj]
        by_cases hij : i = j
        · subst hij; simp [hs]
        · rw [if_neg hij, if_neg]
          rw [List.mem_cons]; push Not; exact ⟨Ne.symm hij, hj⟩
    · rcases List.mem_cons.1 hj with rfl | hj
      · rw [hs]; simp
      · exact h3 j hj

/-- The favoured cluster id is the smallest id of a cluster among the sites. -/
theorem favored_fold (l : List (Int × Int)) (best : Int) :
    let r := l.foldl (fun best (ic : Int × Int) =>
      if ic.2 ≠ unassignedId then (if best = unassignedId ∨ ic.2 < best then ic.2 else best) else best) best
    (r = unassignedId ↔ best = unassignedId ∧ ∀ ic ∈ l, ic.2 = unassignedId) ∧
    (r ≠ unassignedId → (r = best ∨ ∃ ic ∈ l, ic.2 = r) ∧ (best ≠ unassignedId → r ≤ best) ∧
      ∀ ic ∈ l, ic.2 ≠ unassignedId → r ≤ ic.2) := by
  induction l generalizing best with
  | nil => simp
  | cons x l ih =>
    simp only [List.foldl_cons]
    obtain ⟨h1, h2⟩ := ih (if x.2 ≠ unassignedId then (if best = unassignedId ∨ x.2 < best then x.2 else best) else best)
    constructor
    · rw [h1]
      simp only [List.forall_mem_cons]
      by_cases hx : x.2 = unassignedId
      · simp [hx]
      · rw [if_pos hx]
        by_cases hb : best = unassignedId
        · simp [hb, hx]
        · by_cases hl : x.2 < best
          · simp [hb, hl, hx]
          · simp [hb, hl, hx]
    · intro hr
      obtain ⟨a, b, c⟩ := h2 hr
      by_cases hx : x.2 = unassignedId
      · rw [if_neg (by simpa using hx)] at a b hr c h1 ⊢
        refine ⟨?_, b, ?_⟩
        · rcases a with a | ⟨y, hy, e⟩
          · exact .inl a
          · exact .inr ⟨y, List.mem_cons_of_mem _ hy, e⟩
        · intro y hy hne
          rcases List.mem_cons.1 hy with rfl | hy
          · exact absurd hx hne
          · exact c y hy hne
      · rw [if_pos hx] at a b hr c h1 ⊢
        by_cases hb : best = unassignedId ∨ x.2 < best
        · rw [if_pos hb] at a b hr c h1 ⊢
          have hb1 := b hx
          refine ⟨?_, fun hne => ?_, ?_⟩
          · rcases a with a | ⟨y, hy, e⟩
            · exact .inr ⟨x, List.mem_cons_self .., a.symm⟩
            · exact .inr ⟨y, List.mem_cons_of_mem _ hy, e⟩
          · rcases hb with hb | hb
            · exact absurd hb hne
            · exact hb1.trans hb.le
          · intro y hy hne
            rcases List.mem_cons.1 hy with rfl | hy
            · exact hb1
            · exact c y hy hne
        · rw [if_neg hb] at a b hr c h1 ⊢
          push Not at hb
          refine ⟨?_, b, ?_⟩
          · rcases a with a | ⟨y, hy, e⟩
            · exact .inl a
            · exact .inr ⟨y, List.mem_cons_of_mem _ hy, e⟩
          · intro y hy hne
            rcases List.mem_cons.1 hy with rfl | hy
            · exact (b hb.1).trans hb.2
            · exact c y hy hne

/-! ## Merging -/

/-- The steps of a successful merge. -/
theorem merge_steps {order : List Int → List Int} {sc : IMap Int} {fav : Int}
    (h : merge env mem w order sc fav = (.ok (), w')) :
    ∃ iso cids w1 c c1 c2, mergeCollect w fav [] [] sc = (.ok (iso, cids), w1) ∧ w1.clusters.get? fav = some c ∧
      c.addSites iso = .ok c1 ∧ c1.update env mem = (.ok (), c2) ∧
      mergeClusters env mem fav { w1 with clusters := IMap.set w1.clusters fav c2 } (order cids) = (.ok (), w') := by
  unfold merge at h
  split at h
  · simp at h
  · next iso cids w1 hm =>
    split at h
    · simp at h
    · next c hc =>
      split at h
      · simp at h
      · next c1 h1 =>
        split at h
        · simp at h
        · next u c2 h2 => exact ⟨iso, cids, w1, c, c1, c2, hm, getCluster_ok hc, h1, h2, h⟩

theorem Struct.cinv (h : Struct env w) {k : Int} {x : Cluster K} (hx : w.clusters.get? k = some x) : Cluster.CInv x := by
  obtain ⟨l, hl⟩ := h.trace k x hx
  exact (Cluster.CInv.new k).trace hl

/-- The world after a successful merge of the sites `basin` and their clusters into cluster `fav`. -/
structure Merged (env : Env K) (w w' : World K) (basin : List Int) (fav : Int) (c d : Cluster K) (erased : List Int) :
    Prop where
  target : w.clusters.get? fav = some c
  known : ∀ i ∈ basin, w.sites.get? i ≠ none
  mem : ∀ k, k ∈ erased ↔ k ≠ fav ∧ k ≠ unassignedId ∧ ∃ i ∈ basin, ∃ s, w.sites.get? i = some s ∧ s.clusterId = k
  nodup : erased.Nodup
  exist : ∀ k ∈ erased, w.clusters.get? k ≠ none
  trace : ∃ evs, Cluster.Trace env c evs d
  id : d.id = fav
  eq : w' = { w with sites := w'.sites, clusters := w'.clusters, feats := w'.feats }
  sitesWF : w'.sites.WF
  featsWF : w'.feats.WF
  clustersWF : w'.clusters.WF
  site : ∀ i, w'.sites.get? i = if i ∈ basin then (w.sites.get? i).map (World.member fav) else w.sites.get? i
  feat : ∀ i, w'.feats.get? i = if i ∈ basin then some (.cluster fav) else w.feats.get? i
  cluster : ∀ k, w'.clusters.get? k = if k = fav then some d else if k ∈ erased then none else w.clusters.get? k
  sites : ∀ i s, d.sites.get? i = some s ↔ c.sites.get? i = some s ∨
    (i ∈ basin ∧ ∃ t, w.sites.get? i = some t ∧ t.clusterId = unassignedId ∧ s = World.member fav t) ∨
    ∃ k ∈ erased, ∃ x t, w.clusters.get? k = some x ∧ x.sites.get? i = some t ∧ s = Cluster.mark fav t

theorem mem_of_wf_get? {sc : IMap Int} (hw : sc.WF) {i c : Int} : (i, c) ∈ sc ↔ sc.get? i = some c :=
  ⟨fun h => IMap.get?_of_mem hw h, fun h => IMap.mem_of_get? h⟩

theorem merge_ok (hst : Struct env w) {order : List Int → List Int} (hord : ∀ l, (order l).Perm l) {sc : IMap Int}
    {basin : List Int} {fav : Int} (hsc : w.clustersOfSites basin [] = .ok sc)
    (h : merge env mem w order sc fav = (.ok (), w')) :
    ∃ c d erased, Merged env w w' basin fav c d erased := by
  obtain ⟨iso, cids, w1, c, c1, c2, hm, hc, h1, h2, h3⟩ := merge_steps h
  obtain ⟨hscw, hget, hknown⟩ := clustersOfSites_ok hst (acc := []) List.nodup_nil hsc
  obtain ⟨ha, ⟨l, hl, hl'⟩, hcids, hcn, -⟩ := mergeCollect_ok hscw hm
  rw [List.nil_append] at hl
  subst l
  have hcl : w1.clusters = w.clusters := by rw [ha.eq]
  have hmemsc : ∀ i k, (i, k) ∈ sc ↔ i ∈ basin ∧ ∃ s, w.sites.get? i = some s ∧ s.clusterId = k := by
    intro i k
    rw [mem_of_wf_get? hscw, hget]
    by_cases hi : i ∈ basin
    · rw [if_pos hi, Option.map_eq_some_iff]; simp [hi]
    · rw [if_neg hi]; simp [hi, IMap.get?]
  rw [hcl] at hc
  obtain ⟨hcid, hfav0, hfavn⟩ := hst.cid fav c hc
  have hfu : fav ≠ unassignedId := by
    have := unassigned_neg; omega
  have hcids' : ∀ k, k ∈ cids ↔ k ≠ fav ∧ k ≠ unassignedId ∧ ∃ i ∈ basin, ∃ s, w.sites.get? i = some s ∧ s.clusterId = k := by
    intro k
    rw [hcids]
    simp only [List.not_mem_nil, false_or, List.mem_map, Prod.exists, exists_eq_right]
    constructor
    · rintro ⟨a, b, i, hi⟩
      obtain ⟨hi, s, hs⟩ := (hmemsc i k).1 hi
      exact ⟨a, b, i, hi, s, hs⟩
    · rintro ⟨a, b, i, hi, s, hs⟩
      exact ⟨a, b, i, (hmemsc i k).2 ⟨hi, s, hs⟩⟩
  -- the isolated sites
  have hiso : ∀ t, t ∈ iso ↔ ∃ i ∈ basin, w.sites.get? i = some t ∧ t.clusterId = unassignedId := by
    intro t
    have h0 : t ∈ iso ↔ some t ∈ iso.map some := by simp
    rw [h0, ← hl', List.mem_map]
    constructor
    · rintro ⟨⟨i, k⟩, hf, hs⟩
      rw [List.mem_filter] at hf
      obtain ⟨hf, hk⟩ := hf
      obtain ⟨hi, s, hs', hsk⟩ := (hmemsc i k).1 hf
      simp only [ne_eq, decide_eq_true_eq] at hk hs
      rw [hs] at hs'; cases hs'
      exact ⟨i, hi, hs, hsk.trans hk.2⟩
    · rintro ⟨i, hi, hs, hu⟩
      refine ⟨(i, unassignedId), ?_, hs⟩
      rw [List.mem_filter]
      exact ⟨(hmemsc i _).2 ⟨hi, t, hs, hu⟩, by simpa using Ne.symm hfu⟩
  obtain ⟨e1, e2, e3, e4, e5⟩ := addSites_ok h1
  have hc1 : ∀ i s, c1.sites.get? i = some s ↔ c.sites.get? i = some s ∨
      (i ∈ basin ∧ ∃ t, w.sites.get? i = some t ∧ t.clusterId = unassignedId ∧ s = World.member fav t) := by
    intro i s
    rw [e4, hcid]
    cases hfd : iso.find? (fun s => decide (s.id = i)) with
    | none =>
      simp only
      rw [List.find?_eq_none] at hfd
      constructor
      · exact .inl
      · rintro (h | ⟨hi, t, ht, hu, -⟩)
        · exact h
        · have := hfd t ((hiso t).2 ⟨i, hi, ht, hu⟩)
          simp [hst.siteId i t ht] at this
    | some t =>
      simp only [Option.some.injEq]
      have htl := List.mem_of_find?_eq_some hfd
      have hti : t.id = i := by simpa using List.find?_some hfd
      obtain ⟨j, hj, hjs, hju⟩ := (hiso t).1 htl
      have hji : j = i := by rw [← hti]; exact (hst.siteId j t hjs).symm
      subst hji
      constructor
      · rintro rfl
        exact .inr ⟨hj, t, hjs, hju, rfl⟩
      · rintro (h | ⟨-, t', ht', -, rfl⟩)
        · have := e3 t htl
          rw [hti, h] at this; cases this
        · rw [hjs] at ht'; cases ht'; rfl
  have hup := Cluster.update_sites (env := env) (mem := mem) c1
  have huf := Cluster.update_frame (env := env) (mem := mem) c1
  rw [h2] at hup huf
  simp only at hup huf
  have hid2 : c2.id = fav := by rw [huf.id, e1]; exact hcid
  have hw1 : IMap.WF w1.clusters := by rw [hcl]; exact hst.clustersWF
  have hget2 : ∀ k, IMap.get? (IMap.set w1.clusters fav c2) k = if fav = k then some c2 else w.clusters.get? k := by
    intro k; rw [IMap.get?_set, hcl]
  have hci2 : Cluster.CInv c2 := by
    have := ((hst.cinv hc).addSites h1).update (env := env) (mem := mem)
    rw [h2] at this; exact this
  -- a site of the favoured cluster is in no other cluster
  have hnot : ∀ i k x, c2.sites.get? i ≠ none → w.clusters.get? k = some x → x.sites.get? i ≠ none → k = fav := by
    intro i k x hi hx hxi
    rw [hup] at hi
    obtain ⟨s, hs⟩ := Option.ne_none_iff_exists'.1 hi
    rcases (hc1 i s).1 hs with hs | ⟨-, t, ht, hu, -⟩
    · exact (hst.disjoint fav c k x i hc hx (by rw [hs]; simp) hxi).symm
    · obtain ⟨s', hs'⟩ := Option.ne_none_iff_exists'.1 hxi
      obtain ⟨-, t', ht', hu'⟩ := hst.member k x i s' hx hs'
      rw [ht] at ht'; cases ht'
      exact absurd hu hu'
  have hfc : fav ∉ cids := fun hm => ((hcids' fav).1 hm).1 rfl
  obtain ⟨d, d1, d2, d3, d4, d5, d6, d7, C, d8⟩ := mergeClusters_ok (w := { w1 with clusters := IMap.set w1.clusters fav c2 })
    (c := c2) (IMap.WF.set hw1 fav c2) (by
      intro k x hx
      simp only at hx
      rw [hget2] at hx
      split at hx
      · cases hx; exact hci2
      · exact hst.cinv hx) ((hord cids).nodup_iff.2 (hcn List.nodup_nil)) (fun hm => hfc ((hord cids).mem_iff.1 hm)) (by
      intro k x k' x' i hx hx' hi hi'
      simp only at hx hx'
      rw [hget2] at hx hx'
      split at hx
      · next hk =>
        cases hx
        split at hx'
        · next hk' => exact hk.symm.trans hk'
        · exact hk.symm.trans (hnot i k' x' hi hx' hi').symm
      · split at hx'
        · next hk' => cases hx'; exact (hnot i k x hi' hx hi).trans hk'
        · exact hst.disjoint k x k' x' i hx hx' hi hi')
    (by simp only; rw [hget2, if_pos rfl]) hid2 h3
  simp only at d5 d6 d7
  have hcw : ∀ k, k ∈ order cids ↔ k ∈ cids := fun k => (hord cids).mem_iff
  have hsite : ∀ i, (i ∈ (sc.filter fun ic => ic.2 ≠ fav).map Prod.fst) ↔
      i ∈ basin ∧ ∃ s, w.sites.get? i = some s ∧ s.clusterId ≠ fav := by
    intro i
    rw [List.mem_map]
    constructor
    · rintro ⟨⟨j, k⟩, hf, rfl⟩
      rw [List.mem_filter] at hf
      obtain ⟨hi, s, hs, hk⟩ := (hmemsc j k).1 hf.1
      exact ⟨hi, s, hs, by rw [hk]; simpa using hf.2⟩
    · rintro ⟨hi, s, hs, hk⟩
      exact ⟨(i, s.clusterId), by rw [List.mem_filter]; exact ⟨(hmemsc i _).2 ⟨hi, s, hs, rfl⟩, by simpa using hk⟩, rfl⟩
  have hs1 : w'.sites = w1.sites := by rw [d8]
  have hf1 : w'.feats = w1.feats := by rw [d8]
  refine ⟨c, d, cids, hc, hknown, hcids', hcn List.nodup_nil, ?_, ?_, d3, ?_, ?_, ?_, d4, ?_, ?_, ?_, ?_⟩
  · intro k hk
    have := d6 k ((hcw k).2 hk)
    rw [hget2, if_neg (fun e : fav = k => hfc (e ▸ hk))] at this
    exact this
  · obtain ⟨evs, hev⟩ := d2
    have t1 : ∃ evs, Cluster.Trace env c evs c1 := trace_one (mem := mem) (op := .addSites iso) (o := .unit) (by
      show Cluster.simple _ _ = _; unfold Cluster.simple; simp only [h1])
    have t2 : ∃ evs, Cluster.Trace env c1 evs c2 := trace_one (mem := mem) (op := .update) (o := .unit) (by
      simp only [Cluster.step, h2])
    obtain ⟨l1, t1⟩ := t1
    obtain ⟨l2, t2⟩ := t2
    exact ⟨_, (t1.append t2).append hev⟩
  · rw [d8, ha.eq]
  · rw [hs1]; exact ha.sitesWF hst.sitesWF
  · rw [hf1]; exact ha.featsWF hst.featsWF
  · intro i
    rw [hs1, ha.site]
    by_cases hi : i ∈ basin
    · rw [if_pos hi]
      split
      · rfl
      · next hni =>
        obtain ⟨s, hs⟩ := Option.ne_none_iff_exists'.1 (hknown i hi)
        have hk : s.clusterId = fav := by
          by_contra hk
          exact hni ((hsite i).2 ⟨hi, s, hs, hk⟩)
        rw [hs]; subst hk; rfl
    · rw [if_neg hi, if_neg (fun hh => hi ((hsite i).1 hh).1)]
  · intro i
    rw [hf1, ha.feat]
    by_cases hi : i ∈ basin
    · rw [if_pos hi]
      split
      · rfl
      · next hni =>
        obtain ⟨s, hs⟩ := Option.ne_none_iff_exists'.1 (hknown i hi)
        have hk : s.clusterId = fav := by
          by_contra hk
          exact hni ((hsite i).2 ⟨hi, s, hs, hk⟩)
        rw [(hst.joined i s hs (by rw [hk]; exact hfu)).1, hk]
    · rw [if_neg hi, if_neg (fun hh => hi ((hsite i).1 hh).1)]
  · intro k
    by_cases hk : k = fav
    · subst hk; rw [if_pos rfl]; exact d1
    · rw [if_neg hk, d5 k hk]
      by_cases hkc : k ∈ cids
      · rw [if_pos hkc, if_pos ((hcw k).2 hkc)]
      · rw [if_neg hkc, if_neg (fun h => hkc ((hcw k).1 h)), hget2, if_neg (Ne.symm hk)]
  · intro i s
    rw [d7, hup, hc1, or_assoc]
    apply or_congr_right
    apply or_congr_right
    constructor
    · rintro ⟨k, hk, x, t, hx, ht, e⟩
      have hk := (hcw k).1 hk
      rw [hget2, if_neg (fun e : fav = k => hfc (e ▸ hk))] at hx
      exact ⟨k, hk, x, t, hx, ht, e⟩
    · rintro ⟨k, hk, x, t, hx, ht, e⟩
      refine ⟨k, (hcw k).2 hk, x, t, ?_, ht, e⟩
      rw [hget2, if_neg (fun e : fav = k => hfc (e ▸ hk))]
      exact hx

/-! ## The attempt as a whole -/

/-- What a coarse-graining attempt that returns has done. -/
theorem coarseGrain_ok (hst : Struct env w) {a : Choices K} {v : Int} {b : Bool}
    (h : coarseGrain env mem w a v = (.ok b, w')) :
    ∃ basin sat, Explorer.default.findBasin a.vis mem w.sites w.clusters v = .ok basin ∧
      w.satisfies mem basin (maxTime a.times) = .ok sat ∧
      ((b = false ∧ w' = w) ∨
       (b = true ∧ sat = true ∧ basin ≠ [] ∧
        (∀ i ∈ basin, ∃ s, w.sites.get? i = some s ∧ s.clusterId = unassignedId) ∧
        createCluster env mem w basin (maxTime a.times) = (.ok (), w')) ∨
       (b = true ∧ sat = true ∧ ∃ sc, w.clustersOfSites basin [] = .ok sc ∧ countUniqueClusters sc ≠ 1 ∧
        merge env mem w a.order sc (favoredClusterId sc) = (.ok (), w'))) := by
  unfold coarseGrain at h
  split at h
  · simp at h
  · next basin hb =>
    split at h
    · simp at h
    · next hs =>
      simp only [Prod.mk.injEq, Except.ok.injEq] at h
      exact ⟨basin, false, hb, hs, .inl ⟨h.1.symm, h.2.symm⟩⟩
    · next hs =>
      refine ⟨basin, true, hb, hs, ?_⟩
      unfold coarseGrainBasin at h
      split at h
      · simp at h
      · next sc hsc =>
        split at h
        · next hu =>
          split at h
          · simp at h
          · next w1 hc =>
            simp only [Prod.mk.injEq, Except.ok.injEq] at h
            obtain ⟨rfl, rfl⟩ := h
            obtain ⟨hw, hget, hk⟩ := clustersOfSites_ok hst (acc := []) List.nodup_nil hsc
            refine .inr (.inl ⟨rfl, rfl, ?_, ?_, hc⟩)
            · rintro rfl
              unfold clustersOfSites at hsc
              cases hsc
              simp at hu
            · intro i hi
              obtain ⟨s, hs'⟩ := Option.ne_none_iff_exists'.1 (hk i hi)
              refine ⟨s, hs', ?_⟩
              obtain ⟨hu1, hu2⟩ := hu
              unfold countUniqueClusters at hu1
              obtain ⟨x, hx⟩ := List.length_eq_one_iff.1 hu1
              have hmem : ∀ c, c ∈ sc.map Prod.snd ↔ c = x := by
                intro c; rw [← List.mem_dedup, hx, List.mem_singleton]
              have h1 : s.clusterId = x := by
                rw [← hmem, List.mem_map]
                refine ⟨(i, s.clusterId), ?_, rfl⟩
                rw [mem_of_wf_get? hw, hget, if_pos hi, hs']; rfl
              cases sc with
              | nil => simp at hu2
              | cons y sc =>
                simp only [List.head?_cons, Option.map_some, Option.some.injEq] at hu2
                have : y.2 = x := by rw [← hmem]; simp
                rw [h1, ← this, hu2]
        · split at h
          · next hu =>
            split at h
            · simp at h
            · next w1 hc =>
              simp only [Prod.mk.injEq, Except.ok.injEq] at h
              obtain ⟨rfl, rfl⟩ := h
              exact .inr (.inr ⟨rfl, rfl, sc, hsc, hu, hc⟩)
          · simp only [Prod.mk.injEq, Except.ok.injEq] at h
            exact .inl ⟨h.1.symm, h.2.symm⟩

/-! ## Structure after an attempt -/

theorem buildCluster_trace {id : Int} {l : List Int} {M : K} {c : Cluster K} (h : buildCluster env mem w id l M = .ok c) :
    ∃ evs, Cluster.Trace env (Cluster.new id) evs (w.seedCluster c) := by
  obtain ⟨sites, c1, c2, tau, res, r, -, h1, h2, h3, -, -, h4, rfl⟩ := buildCluster_ok h
  have t0 : ∃ evs, Cluster.Trace env (Cluster.new id) evs (Cluster.new id |>.setConvergenceMethod .tolerance) :=
    trace_one (mem := mem) (op := .setConvergenceMethod .tolerance) (o := .unit) rfl
  have t1 : ∃ evs, Cluster.Trace env (Cluster.new id |>.setConvergenceMethod .tolerance) evs (blank id) :=
    trace_one (mem := mem) (op := .setConvergenceTolerance (1 / 1000)) (o := .unit) (by
      show Cluster.simple _ _ = _
      unfold Cluster.simple Cluster.setConvergenceTolerance
      rw [if_pos (by norm_num)]; rfl)
  have t2 : ∃ evs, Cluster.Trace env (blank id) evs c1 :=
    trace_one (mem := mem) (op := .addSites sites) (o := .unit) (by
      show Cluster.simple _ _ = _
      unfold Cluster.simple; simp only [h1])
  have t3 : ∃ evs, Cluster.Trace env c1 evs c2 :=
    trace_one (mem := mem) (op := .update) (o := .unit) (by simp only [Cluster.step, h2])
  have t4 : ∃ evs, Cluster.Trace env c2 evs { c2 with resolution := r, timeInc := some (tau / r) } :=
    trace_one (mem := mem) (op := .setResolution r) (o := .unit) (by
      show Cluster.simple _ _ = _
      unfold Cluster.simple Cluster.setResolution
      rw [if_pos h4, h3]; rfl)
  have t5 : ∃ evs, Cluster.Trace env { c2 with resolution := r, timeInc := some (tau / r) } evs
      (w.seedCluster { c2 with resolution := r, timeInc := some (tau / r) }) := by
    unfold seedCluster
    split
    · next n _ => exact trace_one (mem := mem) (op := .setRandomSeed n) (o := .unit) rfl
    · exact ⟨[], .nil _⟩
  obtain ⟨_, t0⟩ := t0
  obtain ⟨_, t1⟩ := t1
  obtain ⟨_, t2⟩ := t2
  obtain ⟨_, t3⟩ := t3
  obtain ⟨_, t4⟩ := t4
  obtain ⟨_, t5⟩ := t5
  exact ⟨_, ((((t0.append t1).append t2).append t3).append t4).append t5⟩

/-- The new cluster: its id and its sites. -/
theorem buildCluster_sites (hst : Struct env w) {id : Int} {l : List Int} {M : K} {c : Cluster K}
    (h : buildCluster env mem w id l M = .ok c) :
    c.id = id ∧ l.Nodup ∧ ∀ i, c.sites.get? i = if i ∈ l then (w.sites.get? i).map (member id) else none := by
  obtain ⟨sites, c1, c2, tau, res, r, h0, h1, h2, h3, -, -, h4, rfl⟩ := buildCluster_ok h
  obtain ⟨e1, e2, e3, e4, e5⟩ := addSites_ok h1
  have hup := Cluster.update_sites (env := env) (mem := mem) c1
  have huf := Cluster.update_frame (env := env) (mem := mem) c1
  rw [h2] at hup huf
  simp only at hup huf
  have hids : sites.map (·.id) = l := by
    have := congrArg (List.map fun o : Option (Site K) => (o.map (·.id)).getD 0) h0
    rw [List.map_map, List.map_map] at this
    have e : (sites.map ((fun o : Option (Site K) => (o.map (·.id)).getD 0) ∘ some)) = sites.map (·.id) := by
      apply List.map_congr_left; intro s _; rfl
    rw [e] at this
    rw [← this]
    conv_rhs => rw [← List.map_id l]
    apply List.map_congr_left
    intro i hi
    have : IMap.get? w.sites i ∈ sites.map some := by rw [← h0]; exact List.mem_map_of_mem hi
    obtain ⟨s, -, hs⟩ := List.mem_map.1 this
    simp only [Function.comp_apply, ← hs, Option.map_some, Option.getD_some, _root_.id]
    exact hst.siteId i s hs.symm
  have hget : ∀ s ∈ sites, w.sites.get? s.id = some s := by
    intro s hs
    have : some s ∈ l.map (IMap.get? w.sites) := by rw [h0]; exact List.mem_map_of_mem hs
    obtain ⟨i, -, hi⟩ := List.mem_map.1 this
    rw [hst.siteId i s hi]; exact hi
  refine ⟨?_, hids ▸ e2, fun i => ?_⟩
  · show c2.id = id
    rw [huf.id, e1]; rfl
  · show c2.sites.get? i = _
    rw [hup, e4]
    cases hf : sites.find? (fun s => decide (s.id = i)) with
    | none =>
      simp only
      rw [List.find?_eq_none] at hf
      rw [if_neg]
      · rfl
      · rw [← hids, List.mem_map]
        rintro ⟨s, hs, e⟩
        exact hf s hs (by simpa using e)
    | some s =>
      have hs := List.mem_of_find?_eq_some hf
      have hsi : s.id = i := by simpa using List.find?_some hf
      rw [if_pos (by rw [← hids, ← hsi]; exact List.mem_map_of_mem hs), ← hsi, hget s hs]
      rfl

theorem seedCluster_eq (w : World K) (c : Cluster K) : w.seedCluster c = { c with seed := (w.seedCluster c).seed } := by
  unfold seedCluster
  split <;> rfl

/-- The world after the creation of a cluster from the sites `basin`. -/
structure Created (env : Env K) (w w' : World K) (basin : List Int) (c : Cluster K) : Prop where
  lone : ∀ i ∈ basin, ∃ s, w.sites.get? i = some s ∧ s.clusterId = unassignedId
  nodup : basin.Nodup
  nonempty : basin ≠ []
  id : c.id = w.nextId
  fits : FitsInt (w.nextId + 2)
  trace : ∃ evs, Cluster.Trace env (Cluster.new w.nextId) evs c
  eq : w' = { w with
    sites := w'.sites, clusters := IMap.set w.clusters w.nextId c, feats := w'.feats, seed := w.nextSeed,
    nextId := w.nextId + 2 }
  sitesWF : w'.sites.WF
  featsWF : w'.feats.WF
  clustersWF : w'.clusters.WF
  site : ∀ i, w'.sites.get? i = if i ∈ basin then (w.sites.get? i).map (World.member w.nextId) else w.sites.get? i
  feat : ∀ i, w'.feats.get? i = if i ∈ basin then some (.cluster w.nextId) else w.feats.get? i
  cluster : ∀ k, w'.clusters.get? k = if k = w.nextId then some c else w.clusters.get? k
  sites : ∀ i, c.sites.get? i = if i ∈ basin then (w.sites.get? i).map (World.member w.nextId) else none

theorem created_of (hst : Struct env w) {basin : List Int} {M : K} (hne : basin ≠ [])
    (hl : ∀ i ∈ basin, ∃ s, w.sites.get? i = some s ∧ s.clusterId = unassignedId)
    (h : createCluster env mem w basin M = (.ok (), w')) :
    ∃ c, buildCluster env mem w w.nextId basin M = .ok c ∧ Created env w w' basin (w.seedCluster c) := by
  obtain ⟨c, h1, h2, h3, h4, h5⟩ := createCluster_ok h
  obtain ⟨e1, e2, e3⟩ := buildCluster_sites hst h1
  refine ⟨c, h1, ?_⟩
  rw [e1] at h3 h4
  have hcl : w'.clusters = IMap.set w.clusters w.nextId (w.seedCluster c) := by rw [h4.eq]
  refine ⟨hl, e2, hne, by rw [seedCluster_eq]; exact e1, h2, buildCluster_trace h1, ?_, h4.sitesWF hst.sitesWF,
    h4.featsWF hst.featsWF, ?_, h4.site, h4.feat, ?_, ?_⟩
  · conv_lhs => rw [h4.eq]
  · rw [hcl]; exact IMap.WF.set hst.clustersWF _ _
  · intro k
    rw [hcl, IMap.get?_set]
    by_cases hk : w.nextId = k
    · simp [hk]
    · simp [hk, Ne.symm hk]
  · rw [seedCluster_eq]; exact e3

theorem Struct.created {basin : List Int} {c : Cluster K} (h : Struct env w) (hc : Created env w w' basin c) :
    Struct env w' := by
  have hn : w'.nextId = w.nextId + 2 := by rw [hc.eq]
  have h0 := h.next
  have hu := unassigned_neg
  refine ⟨hc.sitesWF, hc.featsWF, hc.clustersWF, by rw [hn]; omega, ?_, ?_, ?_, ?_, ?_, ?_, ?_, ?_⟩
  · intro i s hs
    rw [hc.site] at hs
    split at hs
    · rw [Option.map_eq_some_iff] at hs
      obtain ⟨t, ht, rfl⟩ := hs
      exact h.siteId i t ht
    · exact h.siteId i s hs
  · intro i
    rw [hc.site, hc.feat]
    by_cases hi : i ∈ basin
    · obtain ⟨s, hs, -⟩ := hc.lone i hi
      simp [hi, hs]
    · simp only [hi, if_false]; exact h.known i
  · intro k x hx
    rw [hc.cluster] at hx
    rw [hn]
    split at hx
    · next hk => cases hx; exact ⟨hc.id.trans hk.symm, by omega, by omega⟩
    · obtain ⟨a, b, d⟩ := h.cid k x hx
      exact ⟨a, b, by omega⟩
  · intro k x hx
    rw [hc.cluster] at hx
    split at hx
    · next hk => cases hx; rw [hk]; exact hc.trace
    · exact h.trace k x hx
  · intro k x i s hx hs
    rw [hc.cluster] at hx
    rw [hc.site]
    split at hx
    · cases hx
      rw [hc.sites] at hs
      split at hs
      · next hi =>
        rw [Option.map_eq_some_iff] at hs
        obtain ⟨t, ht, rfl⟩ := hs
        refine ⟨h.siteId i t ht, World.member w.nextId t, ?_, ?_⟩
        · rw [if_pos hi, ht]; rfl
        · show w.nextId ≠ _; omega
      · cases hs
    · obtain ⟨a, t, ht, hct⟩ := h.member k x i s hx hs
      refine ⟨a, ?_⟩
      by_cases hi : i ∈ basin
      · rw [if_pos hi, ht]
        exact ⟨_, rfl, by show w.nextId ≠ _; omega⟩
      · rw [if_neg hi]; exact ⟨t, ht, hct⟩
  · intro k x k' x' i hx hx' hi hi'
    rw [hc.cluster] at hx hx'
    have key : ∀ k x, w.clusters.get? k = some x → x.sites.get? i ≠ none → c.sites.get? i ≠ none → False := by
      intro k x hx hxi hci
      rw [hc.sites] at hci
      split at hci
      · next hb =>
        obtain ⟨s, hs, hs'⟩ := hc.lone i hb
        obtain ⟨t, ht⟩ := Option.ne_none_iff_exists'.1 hxi
        obtain ⟨-, u, hu, hu'⟩ := h.member k x i t hx ht
        rw [hs] at hu; cases hu; exact hu' hs'
      · exact hci rfl
    split at hx
    · next hk =>
      cases hx
      split at hx'
      · next hk' => exact hk.trans hk'.symm
      · exact (key k' x' hx' hi' hi).elim
    · split at hx'
      · cases hx'; exact (key k x hx hi hi').elim
      · exact h.disjoint k x k' x' i hx hx' hi hi'
  · intro i s hs hcs
    rw [hc.site] at hs
    rw [hc.feat]
    split at hs
    · rw [Option.map_eq_some_iff] at hs
      obtain ⟨t, ht, rfl⟩ := hs
      change w.nextId = _ at hcs
      omega
    · next hi => rw [if_neg hi]; exact h.lone i s hs hcs
  · intro i s hs hcs
    rw [hc.site] at hs
    rw [hc.feat, hn]
    split at hs
    · next hi =>
      obtain ⟨t, ht, rfl⟩ := Option.map_eq_some_iff.1 hs
      rw [if_pos hi]
      refine ⟨rfl, h0, by show w.nextId < _; omega, fun x hx => ?_⟩
      change w'.clusters.get? w.nextId = _ at hx
      rw [hc.cluster, if_pos rfl] at hx
      cases hx
      rw [hc.sites, if_pos hi, ht]; simp
    · next hi =>
      rw [if_neg hi]
      obtain ⟨a, b, d, e⟩ := h.joined i s hs hcs
      refine ⟨a, b, by omega, fun x hx => ?_⟩
      rw [hc.cluster, if_neg (by omega)] at hx
      exact e x hx

theorem Struct.merged {basin : List Int} {fav : Int} {c d : Cluster K} {erased : List Int} (h : Struct env w)
    (hm : Merged env w w' basin fav c d erased) : Struct env w' := by
  have hn : w'.nextId = w.nextId := by rw [hm.eq]
  have hu := unassigned_neg
  obtain ⟨hcid, hf0, hfn⟩ := h.cid fav c hm.target
  refine ⟨hm.sitesWF, hm.featsWF, hm.clustersWF, by rw [hn]; exact h.next, ?_, ?_, ?_, ?_, ?_, ?_, ?_, ?_⟩
  · intro i s hs
    rw [hm.site] at hs
    split at hs
    · rw [Option.map_eq_some_iff] at hs
      obtain ⟨t, ht, rfl⟩ := hs
      exact h.siteId i t ht
    · exact h.siteId i s hs
  · intro i
    rw [hm.site, hm.feat]
    by_cases hi : i ∈ basin
    · obtain ⟨s, hs⟩ := Option.ne_none_iff_exists'.1 (hm.known i hi)
      simp [hi, hs]
    · simp only [hi, if_false]; exact h.known i
  · intro k x hx
    rw [hm.cluster] at hx
    rw [hn]
    split at hx
    · next hk => cases hx; rw [hk]; exact ⟨hm.id, hf0, hfn⟩
    · split at hx
      · cases hx
      · exact h.cid k x hx
  · intro k x hx
    rw [hm.cluster] at hx
    split at hx
    · next hk =>
      cases hx; rw [hk]
      obtain ⟨l, hl⟩ := h.trace fav c hm.target
      obtain ⟨l', hl'⟩ := hm.trace
      exact ⟨_, hl.append hl'⟩
    · split at hx
      · cases hx
      · exact h.trace k x hx
  · intro k x i s hx hs
    rw [hm.cluster] at hx
    rw [hm.site]
    -- a site that was a member before
    have key : ∀ k x s, w.clusters.get? k = some x → x.sites.get? i = some s → s.id = i ∧
        ∃ t, (if i ∈ basin then (w.sites.get? i).map (World.member fav) else w.sites.get? i) = some t ∧
          t.clusterId ≠ unassignedId := by
      intro k x s hx hs
      obtain ⟨a, t, ht, hct⟩ := h.member k x i s hx hs
      refine ⟨a, ?_⟩
      by_cases hi : i ∈ basin
      · rw [if_pos hi, ht]
        exact ⟨_, rfl, by show fav ≠ _; omega⟩
      · rw [if_neg hi]; exact ⟨t, ht, hct⟩
    split at hx
    · cases hx
      rcases (hm.sites i s).1 hs with hs | ⟨hi, t, ht, -, rfl⟩ | ⟨k', hk', x', t, hx', ht, rfl⟩
      · exact key fav c s hm.target hs
      · refine ⟨h.siteId i t ht, World.member fav t, ?_, ?_⟩
        · rw [if_pos hi, ht]; rfl
        · show fav ≠ _; omega
      · exact key k' x' t hx' ht
    · split at hx
      · cases hx
      · exact key k x s hx hs
  · intro k x k' x' i hx hx' hi hi'
    rw [hm.cluster] at hx hx'
    have key : ∀ k x, w.clusters.get? k = some x → k ≠ fav → k ∉ erased → x.sites.get? i ≠ none →
        d.sites.get? i ≠ none → False := by
      intro k x hx hkf hke hxi hdi
      obtain ⟨s, hs⟩ := Option.ne_none_iff_exists'.1 hdi
      rcases (hm.sites i s).1 hs with hs | ⟨hi, t, ht, htu, -⟩ | ⟨k', hk', x', t, hx', ht, -⟩
      · exact hkf (h.disjoint k x fav c i hx hm.target hxi (by rw [hs]; simp))
      · obtain ⟨y, hy⟩ := Option.ne_none_iff_exists'.1 hxi
        obtain ⟨-, u, hu, hu'⟩ := h.member k x i y hx hy
        rw [ht] at hu; cases hu; exact hu' htu
      · exact hke (h.disjoint k x k' x' i hx hx' hxi (by rw [ht]; simp) ▸ hk')
    split at hx
    · next hk =>
      cases hx
      split at hx'
      · next hk' => exact hk.trans hk'.symm
      · split at hx'
        · cases hx'
        · next a b => exact (key k' x' hx' a b hi' hi).elim
    · split at hx
      · cases hx
      · next a b =>
        split at hx'
        · cases hx'; exact (key k x hx a b hi hi').elim
        · split at hx'
          · cases hx'
          · exact h.disjoint k x k' x' i hx hx' hi hi'
  · intro i s hs hcs
    rw [hm.site] at hs
    rw [hm.feat]
    split at hs
    · rw [Option.map_eq_some_iff] at hs
      obtain ⟨t, ht, rfl⟩ := hs
      change fav = _ at hcs
      omega
    · next hi => rw [if_neg hi]; exact h.lone i s hs hcs
  · intro i s hs hcs
    rw [hm.site] at hs
    rw [hm.feat, hn]
    split at hs
    · next hi =>
      obtain ⟨t, ht, rfl⟩ := Option.map_eq_some_iff.1 hs
      rw [if_pos hi]
      refine ⟨rfl, hf0, hfn, fun x hx => ?_⟩
      change w'.clusters.get? fav = _ at hx
      rw [hm.cluster, if_pos rfl] at hx
      cases hx
      by_cases htu : t.clusterId = unassignedId
      · have := (hm.sites i (World.member fav t)).2 (.inr (.inl ⟨hi, t, ht, htu, rfl⟩))
        rw [this]; simp
      · by_cases htf : t.clusterId = fav
        · obtain ⟨u, hu⟩ := Option.ne_none_iff_exists'.1
            ((h.joined i t ht htu).2.2.2 c (by rw [htf]; exact hm.target))
          rw [(hm.sites i u).2 (.inl hu)]; simp
        · have hke : t.clusterId ∈ erased := (hm.mem _).2 ⟨htf, htu, i, hi, t, ht, rfl⟩
          obtain ⟨y, hy⟩ := Option.ne_none_iff_exists'.1 (hm.exist _ hke)
          obtain ⟨u, hu⟩ := Option.ne_none_iff_exists'.1 ((h.joined i t ht htu).2.2.2 y hy)
          rw [(hm.sites i _).2 (.inr (.inr ⟨_, hke, y, u, hy, hu, rfl⟩))]; simp
    · next hi =>
      rw [if_neg hi]
      obtain ⟨a, b, e, f⟩ := h.joined i s hs hcs
      refine ⟨a, b, e, fun x hx => ?_⟩
      rw [hm.cluster] at hx
      split at hx
      · next hk =>
        cases hx
        obtain ⟨u, hu⟩ := Option.ne_none_iff_exists'.1 (f c (by rw [hk]; exact hm.target))
        rw [(hm.sites i u).2 (.inl hu)]; simp
      · split at hx
        · cases hx
        · exact f x hx

end Mythical.World
