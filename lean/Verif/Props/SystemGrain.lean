import Verif.Lemmas.SystemExit
import Verif.Lemmas.SystemWitness

/-! # Which sites are coarse grained, and into which cluster (C63, C64) -/

set_option linter.unusedSectionVars false
set_option linter.unusedVariables false

namespace Mythical
open World SystemSpec
variable {K : Type} [Field K] [LinearOrder K] [IsStrictOrderedRing K] [FloorRing K]

/-- The basin behind a call that created a cluster or changed the cluster of a site. -/
theorem World.grain_event {env : Env K} {n : Nat} {evs : List (Event K)} {w : World K} (ht : Trace env (World.new n) evs w)
    (hu : HopsReturn evs) {before after : List (Event K)} {ev : Event K} (he : evs = before ++ ev :: after)
    (hch : (∃ i, ev.pre.sites.get? i ≠ none ∧ ev.pre.getClusterIdOfSite i ≠ ev.post.getClusterIdOfSite i) ∨
      ∃ c, SystemSpec.Exists ev.post c ∧ ¬ SystemSpec.Exists ev.pre c) :
    Struct env ev.pre ∧ ∃ wid h a j w1 w2 w3 basin, ev.op = .hop wid h a ∧ ev.pre.hopMove wid h a = .ok (j, w1) ∧
      Keep env ev.pre w1 ∧ Struct env w2 ∧ w2 = { w1 with iteration := w1.iteration + 1 } ∧
      Grained' env ev.mem w2 w3 a j basin ∧ ev.post = { w3 with threshold := w3.thresholdMin, iteration := 0 } ∧
      (∀ i s, w2.sites.get? i = some s → s.neigh.WF) := by
  obtain ⟨h1, hstep, hgo, -⟩ := ht.prefix he
  have hub : HopsReturn before := fun e hm => hu e (by rw [he]; exact List.mem_append_left _ hm)
  have hst := h1.struct hub
  refine ⟨hst, ?_⟩
  have hev : ev ∈ evs := by rw [he]; simp
  rcases step_cases hst hstep hgo (fun wid k a e => hu ev hev wid k a e) with
    hk | ⟨m, e, ha⟩ | ⟨wid, k, a, j, w1, w2, w3, basin, e, hm, hk, rfl, hg, hp⟩
  · exfalso
    rcases hch with ⟨i, -, hi⟩ | ⟨c, h1, h2⟩
    · exact hi (hk.ids i).symm
    · apply h2
      unfold SystemSpec.Exists at *
      rw [← hk.getClusters hst]; exact h1
  · exfalso
    rcases hch with ⟨i, hn, hi⟩ | ⟨c, h1, h2⟩
    · obtain ⟨s, hs⟩ := Option.ne_none_iff_exists'.1 hn
      apply hi
      show ev.pre.sites.getClusterIdOfSite i = ev.post.sites.getClusterIdOfSite i
      rw [getClusterIdOfSite_of hs, getClusterIdOfSite_of (ha.old hs)]
    · rw [exists_iff] at h1 h2
      rw [ha.clusters] at h1
      exact h2 h1
  · refine ⟨wid, k, a, j, w1, _, w3, basin, e, hm, hk, ?_, rfl, hg, hp, ?_⟩
    · exact (hst.keep hk).keep (.of_eq rfl rfl rfl le_rfl)
    · intro i s hs
      obtain ⟨t, ht', hs⟩ := rel_some (hs ▸ hk.site i)
      rw [hs.neigh]
      exact h1.neighWF hub ht'

theorem World.Grained'.test {env : Env K} {mem : Addr → K} {w w1 w3 : World K} {a : Choices K} {j wid h it : Int}
    {basin : List Int} (hm : w.hopMove wid h a = .ok (j, w1)) (hk : Keep env w w1)
    (hg : Grained' env mem { w1 with iteration := it } w3 a j basin)
    (hw : ∀ i s, w1.sites.get? i = some s → s.neigh.WF) (hρ : 0 ≤ w.perfRatio) :
    exitRate mem w basin ≠ 0 ∧ 2 * maxTime a.times * w.perfRatio < 1 / exitRate mem w basin ∧
      ∃ res, w.timeRes = some res ∧ 2 * maxTime a.times < res := by
  obtain ⟨res, h1, h2, h3⟩ := satisfies_true hw hg.sat
  have e : exitRate mem ({ w1 with iteration := it } : World K) basin = exitRate mem w basin :=
    exitRate_congr (fun i => hk.rates i) basin
  change exitRate mem w1 basin = exitRate mem w basin at e
  rw [e] at h3
  obtain ⟨S, C, W, rfl⟩ := hopMove_outer hm
  simp only at h1 h3
  rcases h3 with ⟨-, h3⟩ | h3
  · exact absurd h3 (not_lt.2 (mul_nonneg (mul_nonneg (by norm_num) (maxTime_nonneg _)) hρ))
  · exact ⟨h3.1, h3.2, res, h1, h2⟩

/-- **C63.** In every history whose hops return, a new cluster only ever appears in a hop, and its set of sites `B` has at
least one rate leaving it; the escape time from `B` (one over the sum of the rates that leave it) exceeds twice the internal
traversal time `M` (the largest of the times given by the graph library) times the performance ratio, and twice `M` is below
the time resolution. The performance ratio must not be negative. -/
theorem C63 (env : Env K) (n : Nat) (evs : List (Event K)) (w : World K) (ht : Trace env (World.new n) evs w)
    (hu : HopsReturn evs) (before after : List (Event K)) (ev : Event K) (he : evs = before ++ ev :: after)
    (hρ : 0 ≤ ev.pre.perfRatio) (c : Int) (B : List Int) (hnew : ¬ SystemSpec.Exists ev.pre c)
    (hB : ev.post.getClusters.get? c = some B) :
    ∃ wid h a M, ev.op = .hop wid h a ∧ (∀ t ∈ a.times, t ≤ M) ∧ (M = 0 ∨ M ∈ a.times) ∧
      (∃ i ∈ B, ∃ na ∈ ratesOf ev.pre i, na.1 ∉ B ∧ ev.mem na.2 ≠ 0) ∧
      2 * M * ev.pre.perfRatio < 1 / exitRate ev.mem ev.pre B ∧ exitRate ev.mem ev.pre B ≠ 0 ∧
      ∃ res, ev.pre.timeRes = some res ∧ 2 * M < res := by
  have hx : SystemSpec.Exists ev.post c := by
    unfold SystemSpec.Exists
    exact IMap.mem_keys_iff_get?.2 ⟨B, hB⟩
  obtain ⟨hst, wid, h, a, j, w1, w2, w3, basin, hop, hm, hk, st2, rfl, hg, hp, hw⟩ :=
    grain_event ht hu he (.inr ⟨c, hx, hnew⟩)
  obtain ⟨t1, t2, t3⟩ := hg.test hm hk hw hρ
  have hperm : B.Perm basin := by
    cases hg.grew with
    | created c0 hb hc =>
      rw [hp] at hB
      change IMap.get? w3.getClusters c = some B at hB
      rw [getClusters_get?, hc.cluster] at hB
      split at hB
      · simp only [Option.map_some, Option.some.injEq] at hB
        rw [← hB]
        exact hc.perm st2
      · exfalso
        apply hnew
        rw [exists_iff]
        obtain ⟨x, hx', -⟩ := Option.map_eq_some_iff.1 hB
        obtain ⟨y, hy, -⟩ := rel_some (hx' ▸ hk.cluster c)
        exact ⟨y, hy⟩
    | merged sc fav x d erased _ _ _ _ hmg =>
      exfalso
      apply hnew
      rw [hp] at hB
      change IMap.get? w3.getClusters c = some B at hB
      rw [getClusters_get?, hmg.cluster] at hB
      rw [exists_iff]
      split at hB
      · next e =>
        subst e
        obtain ⟨y, hy, -⟩ := rel_some (hmg.target ▸ hk.cluster c)
        exact ⟨y, hy⟩
      · split at hB
        · cases hB
        · obtain ⟨x, hx', -⟩ := Option.map_eq_some_iff.1 hB
          obtain ⟨y, hy, -⟩ := rel_some (hx' ▸ hk.cluster c)
          exact ⟨y, hy⟩
  rw [← exitRate_perm hperm] at t1 t2
  exact ⟨wid, h, a, _, hop, (maxTime_spec _).1, (maxTime_spec _).2, exitRate_ne t1, t2, t1, t3⟩

/-- The same holds for the basin behind a merge: whenever sites that were known change their cluster, they all belong to a
set `B` that passes the test. -/
theorem C63_merge (env : Env K) (n : Nat) (evs : List (Event K)) (w : World K) (ht : Trace env (World.new n) evs w)
    (hu : HopsReturn evs) (before after : List (Event K)) (ev : Event K) (he : evs = before ++ ev :: after)
    (hρ : 0 ≤ ev.pre.perfRatio) (i : Int) (hi : ev.pre.sites.get? i ≠ none)
    (hc : ev.pre.getClusterIdOfSite i ≠ ev.post.getClusterIdOfSite i) :
    ∃ wid h a M B, ev.op = .hop wid h a ∧ (∀ t ∈ a.times, t ≤ M) ∧ (M = 0 ∨ M ∈ a.times) ∧
      (∀ j, ev.pre.getClusterIdOfSite j ≠ ev.post.getClusterIdOfSite j → j ∈ B) ∧
      (∃ i ∈ B, ∃ na ∈ ratesOf ev.pre i, na.1 ∉ B ∧ ev.mem na.2 ≠ 0) ∧
      2 * M * ev.pre.perfRatio < 1 / exitRate ev.mem ev.pre B ∧ exitRate ev.mem ev.pre B ≠ 0 ∧
      ∃ res, ev.pre.timeRes = some res ∧ 2 * M < res := by
  obtain ⟨hst, wid, h, a, j, w1, w2, w3, basin, hop, hm, hk, st2, rfl, hg, hp, hw⟩ := grain_event ht hu he (.inl ⟨i, hi, hc⟩)
  obtain ⟨t1, t2, t3⟩ := hg.test hm hk hw hρ
  refine ⟨wid, h, a, _, basin, hop, (maxTime_spec _).1, (maxTime_spec _).2, ?_, exitRate_ne t1, t2, t1, t3⟩
  intro j hj
  by_contra hb
  apply hj
  rw [← hk.ids j, hp]
  show w1.sites.getClusterIdOfSite j = w3.sites.getClusterIdOfSite j
  refine (clusterIds_congr ?_).symm
  cases hg.grew with
  | created c0 hb' h => rw [h.site, if_neg hb]
  | merged sc fav x d erased _ _ _ _ h => rw [h.site, if_neg hb]

/-- The witness history: cluster 0 appears in its first hop. The sum of the rates out of it is 2, the escape time 1/2. -/
example : ∃ before ev after, sysEvs = before ++ ev :: after ∧ 0 ≤ ev.pre.perfRatio ∧ ¬ SystemSpec.Exists ev.pre 0 ∧
    ev.post.getClusters.get? 0 = some [2, 1] ∧ exitRate ev.mem ev.pre [2, 1] ≠ 0 := by
  refine ⟨sysEvs.take 9, sysEvs[9]'(by decide +kernel), sysEvs.drop 10, ?_, by decide +kernel, by unfold SystemSpec.Exists; decide +kernel, by decide +kernel, by decide +kernel⟩
  rw [List.getElem_cons_drop, List.take_append_drop]

/-- The numbers of cluster ids used only ever grow. -/
theorem World.Trace.earlier {env : Env K} {n : Nat} {evs : List (Event K)} {w : World K}
    (ht : Trace env (World.new n) evs w) (hu : HopsReturn evs) :
    ∀ e ∈ evs, (∀ c, SystemSpec.Exists e.pre c → c < w.nextId) ∧ ∀ c, SystemSpec.Exists e.post c → c < w.nextId := by
  generalize hw0 : (World.new n : World K) = w0 at ht
  induction ht with
  | nil => intro e he; cases he
  | @snoc w1 w' evs op res mem ht h hr ih =>
    subst hw0
    obtain ⟨hu1, hu2⟩ := hopsReturn_snoc hu
    have hst := ht.struct hu1
    have hst' := hst.call h hr hu2
    have hmono : w1.nextId ≤ w'.nextId := by
      rcases step_cases hst h hr hu2 with hk | ⟨m, rfl, ha⟩ | ⟨wid, k, a, j, w1', w2, w3, basin, -, -, hk, rfl, hg, rfl⟩
      · exact hk.nextId
      · rw [ha.nextId]
      · refine hk.nextId.trans ?_
        cases hg.grew with
        | created c0 hb h => show w1'.nextId ≤ w3.nextId; rw [h.eq]; show w1'.nextId ≤ w1'.nextId + 2; omega
        | merged sc fav c d erased _ _ _ _ h => show w1'.nextId ≤ w3.nextId; rw [h.eq]
    intro e he
    rcases List.mem_append.1 he with he | he
    · obtain ⟨a, b⟩ := ih hu1 e he
      exact ⟨fun c hc => (a c hc).trans_le hmono, fun c hc => (b c hc).trans_le hmono⟩
    · rw [List.mem_singleton] at he
      subst he
      refine ⟨fun c hc => ?_, fun c hc => ?_⟩
      · obtain ⟨x, hx⟩ := exists_iff.1 hc
        exact (hst.cid c x hx).2.2.trans_le hmono
      · obtain ⟨x, hx⟩ := exists_iff.1 hc
        exact (hst'.cid c x hx).2.2

/-- **C64.** In every history whose hops return: when a call changes the cluster of known sites, there is a set `B` of sites
(the basin) which are all in one cluster `c` afterwards, and nothing else changes. If `B` touched no cluster, `c` is new;
otherwise `c` is the smallest of the ids of the clusters that `B` touched, and the others are gone. -/
theorem C64_smallest (env : Env K) (n : Nat) (evs : List (Event K)) (w : World K) (ht : Trace env (World.new n) evs w)
    (hu : HopsReturn evs) (before after : List (Event K)) (ev : Event K) (he : evs = before ++ ev :: after)
    (i : Int) (hi : ev.pre.sites.get? i ≠ none) (hc : ev.pre.getClusterIdOfSite i ≠ ev.post.getClusterIdOfSite i) :
    ∃ (B : List Int) (c : Int), i ∈ B ∧ (∀ j ∈ B, ev.post.getClusterIdOfSite j = .ok c) ∧
      (∀ j, j ∉ B → ev.post.getClusterIdOfSite j = ev.pre.getClusterIdOfSite j) ∧ SystemSpec.Exists ev.post c ∧
      (((∀ j ∈ B, ev.pre.getClusterIdOfSite j = .ok unassignedId) ∧ ¬ SystemSpec.Exists ev.pre c ∧
        ∀ k, SystemSpec.Exists ev.post k ↔ k = c ∨ SystemSpec.Exists ev.pre k) ∨
       ((∃ j ∈ B, ev.pre.getClusterIdOfSite j = .ok c) ∧ SystemSpec.Exists ev.pre c ∧
        (∀ j ∈ B, ∀ k, ev.pre.getClusterIdOfSite j = .ok k → k ≠ unassignedId → c ≤ k) ∧
        ∀ k, SystemSpec.Exists ev.post k ↔
          SystemSpec.Exists ev.pre k ∧ (k = c ∨ ∀ j ∈ B, ev.pre.getClusterIdOfSite j ≠ .ok k))) := by
  obtain ⟨hst, wid, h, a, j, w1, w2, w3, basin, hop, hm, hk, st2, rfl, hg, hp, hw⟩ := grain_event ht hu he (.inl ⟨i, hi, hc⟩)
  have hids : ∀ i, ev.pre.getClusterIdOfSite i = w1.sites.getClusterIdOfSite i := fun i => (hk.ids i).symm
  have hids' : ∀ i, ev.post.getClusterIdOfSite i = w3.sites.getClusterIdOfSite i := fun i => by rw [hp]; rfl
  have hex : ∀ k, SystemSpec.Exists ev.pre k ↔ ∃ x, w1.clusters.get? k = some x := by
    intro k
    rw [← exists_iff]
    unfold SystemSpec.Exists
    rw [hk.getClusters hst]
  have hex' : ∀ k, SystemSpec.Exists ev.post k ↔ ∃ x, w3.clusters.get? k = some x := fun k => by rw [exists_iff, hp]
  simp only [hids, hids', hex, hex'] at hc ⊢
  have hout : ∀ k, (∀ j, w3.sites.get? j = if j ∈ basin then (w1.sites.get? j).map (World.member k) else w1.sites.get? j) →
      i ∈ basin ∧ ∀ j, j ∉ basin → w3.sites.getClusterIdOfSite j = w1.sites.getClusterIdOfSite j := by
    intro k hs
    have : ∀ j, j ∉ basin → w3.sites.getClusterIdOfSite j = w1.sites.getClusterIdOfSite j := by
      intro j hj
      refine clusterIds_congr ?_
      have := hs j
      rw [if_neg hj] at this
      change Option.map _ (w3.sites.get? j) = _
      rw [this]
    refine ⟨?_, this⟩
    by_contra hi
    exact hc (this i hi).symm
  cases hg.grew with
  | created c0 hb h =>
    obtain ⟨o1, o2⟩ := hout _ h.site
    refine ⟨basin, w1.nextId, o1, ?_, o2, ⟨_, by rw [h.cluster, if_pos rfl]⟩, .inl ⟨?_, ?_, ?_⟩⟩
    · intro j hj
      obtain ⟨s, hs, -⟩ := h.lone j hj
      refine getClusterIdOfSite_of (s := World.member w1.nextId s) ?_
      have := h.site j
      rw [if_pos hj, hs] at this
      exact this
    · intro j hj
      obtain ⟨s, hs, hl⟩ := h.lone j hj
      rw [getClusterIdOfSite_of hs, hl]
    · rintro ⟨x, hx⟩
      have := (st2.cid _ x hx).2.2
      exact absurd this (lt_irrefl _)
    · intro k
      rw [h.cluster]
      by_cases e : k = w1.nextId
      · simp [e]
      · simp [e]
  | merged sc fav c d erased hsc hf hu' hm' h =>
    obtain ⟨o1, o2⟩ := hout _ h.site
    obtain ⟨hscw, hget, hknown⟩ := clustersOfSites_ok st2 (acc := []) List.nodup_nil hsc
    have hfav := st2.cid fav c h.target
    have hfu : fav ≠ unassignedId := by
      have := unassigned_neg
      rintro rfl
      exact absurd hfav.2.1 (not_le.2 this)
    have hmem : ∀ i k, (i, k) ∈ sc ↔ i ∈ basin ∧ w1.sites.getClusterIdOfSite i = .ok k := by
      intro i k
      rw [mem_of_wf_get? hscw, hget]
      by_cases hi : i ∈ basin
      · obtain ⟨s, hs⟩ := Option.ne_none_iff_exists'.1 (hknown i hi)
        rw [if_pos hi, hs, getClusterIdOfSite_of hs]
        simp [hi]
      · rw [if_neg hi]; simp [hi]
    obtain ⟨-, f2⟩ := favored_fold sc unassignedId
    rw [show sc.foldl (fun best (ic : Int × Int) =>
      if ic.2 ≠ unassignedId then (if best = unassignedId ∨ ic.2 < best then ic.2 else best) else best) unassignedId
        = fav from hf.symm] at f2
    obtain ⟨f3, -, f4⟩ := f2 hfu
    refine ⟨basin, fav, o1, ?_, o2, ⟨d, by rw [h.cluster, if_pos rfl]⟩, .inr ⟨?_, ⟨c, h.target⟩, ?_, ?_⟩⟩
    · intro j hj
      obtain ⟨s, hs⟩ := Option.ne_none_iff_exists'.1 (h.known j hj)
      refine getClusterIdOfSite_of (s := World.member fav s) ?_
      have := h.site j
      rw [if_pos hj, hs] at this
      exact this
    · rcases f3 with f3 | ⟨⟨j, k⟩, hj, e⟩
      · exact absurd f3 hfu
      · simp only at e
        subst e
        exact ⟨j, (hmem _ _).1 hj⟩
    · intro j hj k hk hku
      exact f4 (j, k) ((hmem j k).2 ⟨hj, hk⟩) hku
    · intro k
      rw [h.cluster]
      have hk : k ∈ erased ↔ k ≠ fav ∧ k ≠ unassignedId ∧ ∃ j ∈ basin, w1.sites.getClusterIdOfSite j = .ok k := by
        rw [h.mem]
        constructor
        · rintro ⟨a, b, j, hj, s, hs, rfl⟩
          exact ⟨a, b, j, hj, getClusterIdOfSite_of hs⟩
        · rintro ⟨a, b, j, hj, e⟩
          obtain ⟨s, hs⟩ := Option.ne_none_iff_exists'.1 (h.known j hj)
          rw [getClusterIdOfSite_of hs] at e
          exact ⟨a, b, j, hj, s, hs, ok_inj.1 e⟩
      by_cases e : k = fav
      · subst e; rw [if_pos rfl]; exact ⟨fun _ => ⟨⟨c, h.target⟩, .inl rfl⟩, fun _ => ⟨d, rfl⟩⟩
      · rw [if_neg e]
        by_cases hke : k ∈ erased
        · rw [if_pos hke]
          obtain ⟨-, -, j, hj, hjk⟩ := hk.1 hke
          constructor
          · rintro ⟨x, hx⟩; cases hx
          · rintro ⟨-, h | h⟩
            · exact absurd h e
            · exact absurd hjk (h j hj)
        · rw [if_neg hke]
          constructor
          · rintro ⟨x, hx⟩
            refine ⟨⟨x, hx⟩, .inr ?_⟩
            intro j hj hjk
            apply hke
            refine hk.2 ⟨e, ?_, j, hj, hjk⟩
            rintro rfl
            exact absurd (st2.cid _ x hx).2.1 (not_le.2 unassigned_neg)
          · exact fun h => h.1

/-- In the third hop of this history the clusters 0 and 2 are merged into cluster 0. -/
example : ∃ before ev after, mergeEvs = before ++ ev :: after ∧ ev.pre.sites.get? 3 ≠ none ∧
    ev.pre.getClusters = [(0, [2, 1]), (2, [3, 4])] ∧ ev.post.getClusters = [(0, [2, 1, 3, 4])] ∧
    ev.pre.getClusterIdOfSite 3 = .ok 2 ∧ ev.post.getClusterIdOfSite 3 = .ok 0 := by
  refine ⟨mergeEvs.take 11, mergeEvs[11]'(by decide +kernel), mergeEvs.drop 12, ?_, by decide +kernel, by decide +kernel,
    by decide +kernel, by decide +kernel, by decide +kernel⟩
  rw [List.getElem_cons_drop, List.take_append_drop]

/-- **C64**, ids are never reused: the id of a cluster that appears in a call is not that of any earlier cluster. -/
theorem C64_fresh (env : Env K) (n : Nat) (evs : List (Event K)) (w : World K) (ht : Trace env (World.new n) evs w)
    (hu : HopsReturn evs) (before after : List (Event K)) (ev : Event K) (he : evs = before ++ ev :: after)
    (c : Int) (hnew : ¬ SystemSpec.Exists ev.pre c) (hc : SystemSpec.Exists ev.post c) :
    ∀ e ∈ before, ¬ SystemSpec.Exists e.pre c ∧ ¬ SystemSpec.Exists e.post c := by
  obtain ⟨hst, wid, h, a, j, w1, w2, w3, basin, hop, hm, hk, st2, rfl, hg, hp, hw⟩ := grain_event ht hu he (.inr ⟨c, hc, hnew⟩)
  have hge : ev.pre.nextId ≤ c := by
    rw [exists_iff] at hc hnew
    obtain ⟨x, hx⟩ := hc
    rw [hp] at hx
    change w3.clusters.get? c = some x at hx
    have hno : w1.clusters.get? c = none := by
      have := hk.cluster c
      rw [← rel_none this]
      exact Option.eq_none_iff_forall_ne_some.2 fun y hy => hnew ⟨y, hy⟩
    cases hg.grew with
    | created c0 hb h =>
      rw [h.cluster] at hx
      split at hx
      · next e => rw [e]; exact hk.nextId
      · change w1.clusters.get? c = some x at hx
        rw [hno] at hx; cases hx
    | merged sc fav y d erased _ _ _ _ h =>
      rw [h.cluster] at hx
      split at hx
      · next e =>
        have := h.target
        rw [← e] at this
        change w1.clusters.get? c = some y at this
        rw [hno] at this; cases this
      · split at hx
        · cases hx
        · change w1.clusters.get? c = some x at hx
          rw [hno] at hx; cases hx
  obtain ⟨h1, -⟩ := ht.prefix he
  have hub : HopsReturn before := fun e hm => hu e (by rw [he]; exact List.mem_append_left _ hm)
  intro e hm
  obtain ⟨a, b⟩ := h1.earlier hub e hm
  exact ⟨fun h => absurd (a c h) (not_lt.2 hge), fun h => absurd (b c h) (not_lt.2 hge)⟩

/-- Cluster 2 appears in the second hop of the history above. -/
example : ∃ before ev after, mergeEvs = before ++ ev :: after ∧ ¬ SystemSpec.Exists ev.pre 2 ∧ SystemSpec.Exists ev.post 2 := by
  refine ⟨mergeEvs.take 10, mergeEvs[10]'(by decide +kernel), mergeEvs.drop 11, ?_, by unfold SystemSpec.Exists; decide +kernel,
    by unfold SystemSpec.Exists; decide +kernel⟩
  rw [List.getElem_cons_drop, List.take_append_drop]

end Mythical
