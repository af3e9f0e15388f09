import Verif.Lemmas.SystemVisits
import Verif.Lemmas.SystemSound

/-! # Visit counts under coarse graining -/

set_option linter.unusedSectionVars false
set_option linter.unusedVariables false

namespace Mythical.World
open Mythical SystemSpec ClusterSpec
variable {K : Type} [Field K] [LinearOrder K] [IsStrictOrderedRing K] [FloorRing K]
variable {w w' w1 w2 w3 : World K} {env : Env K} {mem : Addr → K}

/-! ## The visit counts of sites fit -/

/-- A number that a counter of an `int` may have reached. -/
def IsCount (v : Int) : Prop := FitsInt v ∧ 0 ≤ v

/-- The visit counts kept by the sites fit in an `int` and are not negative. -/
def Fit (w : World K) : Prop := ∀ i s, w.sites.get? i = some s → IsCount s.visits

theorem Fit.of_eq (h : Fit w) (e : w'.sites = w.sites) : Fit w' := by unfold Fit; rw [e]; exact h

theorem SiteCall.fit {i : Int} {f : Site K → Except Fault (Site K)} (h : SiteCall w w' i f) (hw : Fit w)
    (hf : ∀ s s', f s = .ok s' → IsCount s.visits → IsCount s'.visits) : Fit w' := by
  obtain ⟨s, s', h1, h2, rfl⟩ := h
  intro j t ht
  change IMap.get? (IMap.set w.sites i s') j = some t at ht
  rw [IMap.get?_set] at ht
  split at ht
  · cases ht; exact hf s _ h2 (hw i s h1)
  · exact hw j t ht

theorem ClusterCall.fit {i : Int} {f : Cluster K → Except Fault (Cluster K)} (h : ClusterCall w w' i f) (hw : Fit w) : Fit w' := by
  obtain ⟨s, s', h1, h2, rfl⟩ := h
  exact hw

theorem vacate_fit (s s' : Site K) (h : s.vacate = .ok s') (hs : IsCount s.visits) : IsCount s'.visits := by
  rw [vacate_visits s s' h, add_zero]; exact hs

theorem occupy_fit (s s' : Site K) (h : s.occupy = .ok s') (hs : IsCount s.visits) : IsCount s'.visits := by
  unfold Site.occupy at h
  obtain ⟨o, -, h⟩ := bind_eq_ok.1 h
  obtain ⟨v, hv, h⟩ := bind_eq_ok.1 h
  cases h
  obtain ⟨rfl, h'⟩ := chk_eq_ok.1 hv
  exact ⟨h', by have := hs.2; show 0 ≤ s.visits + 1; omega⟩

theorem Fit.dwellAt {p : FPtr} {wid : Int} {e t : K} (hw : Fit w) (h : w.dwellAt p wid e = .ok (t, w')) : Fit w' := by
  rcases dwellAt_ok h with ⟨-, -, -, -, -, rfl⟩ | ⟨-, -, -, -, -, -, rfl⟩
  · exact hw
  · exact hw

theorem Fit.pickAt {p : FPtr} {wid n : Int} {u : K} (hw : Fit w) (h : w.pickAt p wid u = .ok (n, w')) : Fit w' := by
  rcases pickAt_ok h with ⟨-, -, -, -, -, rfl⟩ | ⟨-, -, -, -, -, -, rfl⟩
  · exact hw
  · exact hw

theorem Fit.vacateAt {p : FPtr} {i : Int} (hw : Fit w) (h : w.vacateAt p i = .ok w') : Fit w' := by
  rcases vacateAt_ok h with ⟨id, -, h⟩ | ⟨id, -, h⟩
  · exact h.fit hw vacate_fit
  · exact h.fit hw

theorem Fit.hopMove {wid h j : Int} {a : Choices K} (hw : Fit w) (e : w.hopMove wid h a = .ok (j, w')) : Fit w' := by
  obtain ⟨x, b, w1, w2, t, w3, n, w4, -, -, -, -, -, h1, h2, h3, h4, rfl⟩ := hopMove_ok e
  have f1 := hw.vacateAt h1
  have f2 : Fit w2 := by
    rcases occupyAt_ok h2 with ⟨id, -, h⟩ | ⟨id, -, h⟩
    · exact h.fit f1 occupy_fit
    · exact h.fit f1
  have f4 := (f2.dwellAt h3).pickAt h4
  exact fun i s => f4 i s

theorem Fit.initWalkers {l : List (Entry K)} {r : Except Fault Unit} (hw : Fit w) (e : w.initWalkers l = (r, w')) : Fit w' := by
  induction l generalizing w with
  | nil => unfold World.initWalkers at e; simp only [Prod.mk.injEq] at e; rw [← e.2]; exact hw
  | cons a l ih =>
    unfold World.initWalkers at e
    split at e
    · simp only [Prod.mk.injEq] at e; rw [← e.2]; exact hw
    · next wa ea =>
      refine ih ?_ e
      obtain ⟨x, w1, t, w2, n, w3, -, -, -, h1, h2, h3, rfl⟩ := initWalker_ok ea
      have f1 : Fit w1 := by
        rcases occupyFeat_ok h1 with ⟨id, -, h⟩ | ⟨id, -, h⟩
        · exact h.fit hw occupy_fit
        · exact h.fit hw
      have f3 := (f1.dwellAt h2).pickAt h3
      exact fun i s => f3 i s

theorem Fit.adds {m : IMap (IMap Addr)} (hw : Fit w) (h : Adds mem m w w') : Fit w' := by
  intro i s hs
  rcases h.sites hs with hs | ⟨-, -, sd, hnew⟩
  · exact hw i s hs
  · rw [hnew.fresh.2.2]; exact ⟨by decide, le_rfl⟩

theorem Fit.grew {basin : List Int} {M : K} {order : List Int → List Int} (hw : Fit w)
    (h : Grew env mem w w' basin M order) : Fit w' := by
  intro i s hs
  cases h with
  | created c0 hb h =>
    rw [h.site] at hs
    split at hs
    · obtain ⟨t, ht, rfl⟩ := Option.map_eq_some_iff.1 hs
      exact hw i t ht
    · exact hw i s hs
  | merged sc fav c d erased hsc hf hu hm h =>
    rw [h.site] at hs
    split at hs
    · obtain ⟨t, ht, rfl⟩ := Option.map_eq_some_iff.1 hs
      exact hw i t ht
    · exact hw i s hs

theorem Trace.fit {n : Nat} {evs : List (Event K)} (ht : Trace env (World.new n) evs w) (hu : HopsReturn evs) : Fit w := by
  generalize hw0 : (World.new n : World K) = w0 at ht
  induction ht with
  | nil => subst hw0; exact fun i s h => (by cases h)
  | @snoc w1 w' evs op res mem ht h hr ih =>
    obtain ⟨hu1, hu2⟩ := hopsReturn_snoc hu
    subst hw0
    have hst := ht.struct hu1
    have hw := ih hu1
    by_cases c1 : ∃ m, op = .initializeSystem m
    · obtain ⟨m, rfl⟩ := c1
      simp only [step, Prod.mk.injEq] at h
      rw [← h.2]
      exact hw.adds (initializeSystem_adds (mem := mem) (w := w1) (m := m))
    by_cases c2 : ∃ l, op = .initializeWalkers l
    · obtain ⟨l, rfl⟩ := c2
      simp only [step, Prod.mk.injEq] at h
      obtain ⟨-, h2⟩ := h
      rw [← h2]
      unfold initializeWalkers
      split
      · exact hw
      · exact hw.initWalkers rfl
    by_cases c3 : ∃ a b c, op = .hop a b c
    · obtain ⟨wid, k, a, rfl⟩ := c3
      obtain ⟨r, rfl⟩ := hu2 wid k a rfl
      simp only [step, Prod.mk.injEq] at h
      obtain ⟨h1, h2⟩ := h
      have hret : w1.hop env mem wid k a = (.ok (), w') := by
        refine Prod.ext ?_ h2
        cases hh : (w1.hop env mem wid k a).1 with
        | ok u => rfl
        | error e => rw [hh] at h1; cases h1
      obtain ⟨j, w2, hm, hc⟩ := hop_ok hret
      have f2 := hw.hopMove hm
      obtain ⟨-, hcc⟩ := hopCount_ok (hst.keep (hst.hopMove_keep hm)) hc
      rcases hcc with ⟨-, rfl⟩ | ⟨-, -, rfl⟩ | ⟨-, -, -, -, rfl⟩ | ⟨-, -, w3, basin, -, hg, rfl⟩
      · exact fun i s => f2 i s
      · exact fun i s => f2 i s
      · exact fun i s => f2 i s
      · have f2' : Fit { w2 with iteration := w2.iteration + 1 } := fun i s => f2 i s
        have f3 := f2'.grew hg.grew
        exact fun i s => f3 i s
    by_cases c4 : ∃ a b, op = .removeWalker a b
    · obtain ⟨wid, k, rfl⟩ := c4
      simp only [step, simple] at h
      split at h
      · next w2 e =>
        simp only [Prod.mk.injEq] at h
        rw [← h.2]
        obtain ⟨x, -, -, e⟩ := removeWalker_ok e
        rcases removeAt_ok e with ⟨id, -, h⟩ | ⟨id, -, h⟩
        · exact h.fit hw vacate_fit
        · exact h.fit hw
      · simp only [Prod.mk.injEq] at h
        rw [← h.2]; exact hw
    · exact hw.of_eq (step_sites h (fun m e => c1 ⟨m, e⟩) (fun l e => c2 ⟨l, e⟩) (fun a b c e => c3 ⟨a, b, c, e⟩)
        fun a b e => c4 ⟨a, b, e⟩)

/-! ## Clusters keep visit counts for their sites -/

/-- Every cluster keeps visit counts for all its sites, and has some. -/
def Counted (w : World K) : Prop :=
  ∀ k x, w.clusters.get? k = some x → x.siteVisits.keys ≠ [] ∧ ∀ i, i ∈ x.siteVisits.keys ↔ i ∈ x.sites.keys

theorem Counted.of_eq (h : Counted w) (e : w'.clusters = w.clusters) : Counted w' := by unfold Counted; rw [e]; exact h

/-- The merges of other clusters into cluster `fav` keep the reported visit counts. -/
theorem mergeClusters_reports {fav : Int} {cids : List Int} {c : Cluster K} (hw : w.clusters.WF)
    (hs : ∀ k x, w.clusters.get? k = some x → Cluster.CInv x) (hn : cids.Nodup) (hf : fav ∉ cids)
    (hdis : ∀ k x k' x' i, w.clusters.get? k = some x → w.clusters.get? k' = some x' → x.sites.get? i ≠ none →
      x'.sites.get? i ≠ none → k = k')
    (hc : w.clusters.get? fav = some c) (h : mergeClusters env mem fav w cids = (.ok (), w'))
    (hj : ∃ j m, reports c j m) (hv : ∀ i, i ∈ c.siteVisits.keys ↔ i ∈ c.sites.keys) :
    ∃ d, w'.clusters.get? fav = some d ∧ (∀ i n, reports c i n → reports d i n) ∧
      (∀ k ∈ cids, ∀ x, w.clusters.get? k = some x → ∀ i n, reports x i n → reports d i n) ∧
      (∀ i, i ∈ d.siteVisits.keys ↔ i ∈ d.sites.keys) := by
  induction cids generalizing w c with
  | nil =>
    unfold mergeClusters at h
    simp only [Prod.mk.injEq, true_and] at h
    subst h
    exact ⟨c, hc, fun _ _ h => h, by simp, hv⟩
  | cons k cids ih =>
    rw [List.nodup_cons] at hn
    rw [List.mem_cons, not_or] at hf
    unfold mergeClusters at h
    split at h
    · simp at h
    · simp at h
    · next c0 src hc0 hsrc =>
      have hc0 := getCluster_ok hc0
      rw [hc] at hc0; cases hc0
      have hsrc := getCluster_ok hsrc
      split at h
      · simp at h
      · next u c' src' hm =>
        obtain ⟨-, -, hsites⟩ := migrate_ok (hs k src hsrc).sites hm
        have hget : ∀ j, IMap.get? ((w.clusters.put fav c').erase k) j =
            if k = j then none else if fav = j then some c' else w.clusters.get? j := by
          intro j
          have := IMap.get?_erase (IMap.WF.set hw fav c') k j
          change IMap.get? ((w.clusters.put fav c').erase k) j = _ at this
          rw [this]
          by_cases hkj : k = j
          · simp [hkj]
          · rw [if_neg hkj, if_neg hkj]; exact IMap.get?_set ..
        have hkf : k ≠ fav := Ne.symm hf.1
        have hmem : ∀ i, c'.sites.get? i ≠ none ↔ c.sites.get? i ≠ none ∨ src.sites.get? i ≠ none := by
          intro i; rw [hsites]
          cases c.sites.get? i <;> simp
        have hcw : Cluster.CInv c' := by
          have := (hs fav c hc).migrate (env := env) (mem := mem) src
          rw [hm] at this
          exact this
        have hdj : Disjoint (ids c) (ids src) := by
          rw [Finset.disjoint_left]
          intro i hi hi'
          unfold ids at hi hi'
          rw [List.mem_toFinset, IMap.mem_keys_iff_get?] at hi hi'
          obtain ⟨s, hs1⟩ := hi
          obtain ⟨s', hs2⟩ := hi'
          exact hkf (hdis fav c k src i hc hsrc (by rw [hs1]; simp) (by rw [hs2]; simp)).symm
        obtain ⟨j, m, hj⟩ := hj
        obtain ⟨r1, r2⟩ := Cluster.migrate_reports (hs fav c hc) (hs k src hsrc) hdj hm hj
        obtain ⟨d, e1, e2, e3, e4⟩ := ih (w := { w with clusters := (w.clusters.put fav c').erase k })
          (c := c') (IMap.WF.erase (IMap.WF.set hw fav c') k) (by
            intro j x hx
            simp only at hx
            rw [hget] at hx
            split at hx
            · cases hx
            · split at hx
              · cases hx; exact hcw
              · exact hs j x hx) hn.2 hf.2 (by
            intro j x j' x' i hx hx' hi hi'
            simp only at hx hx'
            rw [hget] at hx hx'
            split at hx
            · cases hx
            · split at hx'
              · cases hx'
              · next hkj hkj' =>
                split at hx
                · next hfj =>
                  cases hx
                  split at hx'
                  · next hfj' => exact hfj.symm.trans hfj'
                  · rcases (hmem i).1 hi with hi | hi
                    · exact hfj ▸ hdis fav c j' x' i hc hx' hi hi'
                    · exact absurd (hdis k src j' x' i hsrc hx' hi hi') hkj'
                · split at hx'
                  · next hfj' =>
                    cases hx'
                    rcases (hmem i).1 hi' with hi' | hi'
                    · exact hfj' ▸ hdis j x fav c i hx hc hi hi'
                    · exact absurd (hdis j x k src i hx hsrc hi hi').symm hkj
                  · exact hdis j x j' x' i hx hx' hi hi')
          (by show IMap.get? ((w.clusters.put fav c').erase k) fav = some c'
              rw [hget, if_neg hkf, if_pos rfl]) h ⟨j, m, r1 j m hj⟩ (Cluster.migrate_visitKeys hm)
        refine ⟨d, e1, fun i n hr => e2 i n (r1 i n hr), ?_, e4⟩
        intro k' hk' x hx i n hr
        rcases List.mem_cons.1 hk' with rfl | hk'
        · rw [hsrc] at hx; cases hx
          exact e2 i n (r2 i n hr)
        · have hne : k ≠ k' := fun e => hn.1 (e ▸ hk')
          have hne' : fav ≠ k' := fun e => hf.2 (e ▸ hk')
          exact e3 k' hk' x (by
            show IMap.get? ((w.clusters.put fav c').erase k) k' = some x
            rw [hget, if_neg hne, if_neg hne']; exact hx) i n hr

/-- What the merge does to the visit counts reported by clusters. -/
theorem merged_reports (hst : Struct env w) (hcd : Counted w) {order : List Int → List Int} (hord : ∀ l, (order l).Perm l)
    {basin : List Int} {fav : Int} {sc : IMap Int} {c d : Cluster K} {erased : List Int}
    (hsc : w.clustersOfSites basin [] = .ok sc) (hm : merge env mem w order sc fav = (.ok (), w'))
    (hmg : Merged env w w' basin fav c d erased) :
    (∀ i n, reports c i n → reports d i n) ∧
    (∀ k ∈ erased, ∀ x, w.clusters.get? k = some x → ∀ i n, reports x i n → reports d i n) ∧
    (∀ i ∈ basin, (∀ s, w.sites.get? i = some s → s.clusterId = unassignedId) → reports d i 0) ∧
    (∀ i, i ∈ d.siteVisits.keys ↔ i ∈ d.sites.keys) := by
  obtain ⟨iso, cids, w1, c', c1, c2, hm', hc', h1, h2, h3⟩ := merge_steps hm
  obtain ⟨hscw, hget, hknown⟩ := clustersOfSites_ok hst (acc := []) List.nodup_nil hsc
  obtain ⟨ha, ⟨l, hl, hl'⟩, hcids, hcn, -⟩ := mergeCollect_ok hscw hm'
  have hcl : w1.clusters = w.clusters := by rw [ha.eq]
  rw [hcl, hmg.target] at hc'
  cases hc'
  have hc := hmg.target
  obtain ⟨hcid, hfav0, hfavn⟩ := hst.cid fav c hc
  have hfu : fav ≠ unassignedId := by
    have := unassigned_neg; omega
  have hmemsc : ∀ i k, (i, k) ∈ sc ↔ i ∈ basin ∧ ∃ s, w.sites.get? i = some s ∧ s.clusterId = k := by
    intro i k
    rw [mem_of_wf_get? hscw, hget]
    by_cases hi : i ∈ basin
    · rw [if_pos hi, Option.map_eq_some_iff]; simp [hi]
    · rw [if_neg hi]; simp [hi, IMap.get?]
  have hcids' : ∀ k, k ∈ cids ↔ k ∈ erased := by
    intro k
    rw [hcids, hmg.mem]
    simp only [List.not_mem_nil, false_or, List.mem_map, Prod.exists, exists_eq_right]
    constructor
    · rintro ⟨a, b, i, hi⟩
      obtain ⟨hi, s, hs⟩ := (hmemsc i k).1 hi
      exact ⟨a, b, i, hi, s, hs⟩
    · rintro ⟨a, b, i, hi, s, hs⟩
      exact ⟨a, b, i, (hmemsc i k).2 ⟨hi, s, hs⟩⟩
  have hlone : ∀ i ∈ basin, (∀ s, w.sites.get? i = some s → s.clusterId = unassignedId) → ∃ t ∈ iso, t.id = i := by
    intro i hi hu
    obtain ⟨t, ht⟩ := Option.ne_none_iff_exists'.1 (hmg.known i hi)
    refine ⟨t, ?_, hst.siteId i t ht⟩
    have h0 : some t ∈ iso.map some := by
      rw [hl, List.nil_append, ← hl', List.mem_map]
      refine ⟨(i, unassignedId), ?_, ht⟩
      rw [List.mem_filter]
      exact ⟨(hmemsc i _).2 ⟨hi, t, ht, hu t ht⟩, by simpa using Ne.symm hfu⟩
    simpa using h0
  obtain ⟨e1, e2, e3, e4, e5⟩ := addSites_ok h1
  have hci := hst.cinv hc
  have hci1 := hci.addSites h1
  obtain ⟨hne, hkeys⟩ := hcd fav c hc
  have hv1 : c1.siteVisits = c.siteVisits := by rw [e1]
  obtain ⟨hfl, j, m, hj⟩ := Cluster.update_flushed hci1 h2 (by rw [hv1]; exact hne)
  have hrep : ∀ i n, reports c i n → reports c2 i n := by
    intro i n hn
    unfold reports at hn ⊢
    have hg := Cluster.getVisitFrequency_sites (c := c) (S := c1.sites) (i := i) (n := n)
      (d := (c.getVisitFrequency i).2) (fun k hk => by
        obtain ⟨s, hs⟩ := IMap.mem_keys_iff_get?.1 (hci.visitsSub k hk)
        rw [e4, hs]
        cases hfd : iso.find? (fun s => decide (s.id = k)) with
        | none => rfl
        | some t =>
          have htl := List.mem_of_find?_eq_some hfd
          have hti : t.id = k := by simpa using List.find?_some hfd
          have := e3 t htl
          rw [hti, hs] at this; cases this) (Prod.ext hn rfl)
    rw [← e1] at hg
    rw [(Cluster.update_reports hci1 h2 hg).1]
  have hup := Cluster.update_sites (env := env) (mem := mem) c1
  have huf := Cluster.update_frame (env := env) (mem := mem) c1
  rw [h2] at hup huf
  simp only at hup huf
  have hfresh : ∀ i ∈ basin, (∀ s, w.sites.get? i = some s → s.clusterId = unassignedId) → reports c2 i 0 := by
    intro i hi hu
    obtain ⟨t, ht, hti⟩ := hlone i hi hu
    unfold reports at hj
    obtain ⟨-, ⟨τ, hτ, -⟩, -, -⟩ := Cluster.getVisitFrequency_ok (c' := (c2.getVisitFrequency j).2) (Prod.ext hj rfl)
    refine Cluster.update_fresh hci1 h2 hfl hτ ?_ ?_
    · rw [hup, IMap.mem_keys_iff_get?, e4]
      cases hfd : iso.find? (fun s => decide (s.id = i)) with
      | none =>
        rw [List.find?_eq_none] at hfd
        exact absurd (by simpa using hti) (hfd t ht)
      | some t' => exact ⟨_, rfl⟩
    · rw [hv1, hkeys, ← IMap.get?_eq_none_iff]
      have := e3 t ht
      rw [hti] at this; exact this
  have hw1 : IMap.WF w1.clusters := by rw [hcl]; exact hst.clustersWF
  have hget2 : ∀ k, IMap.get? (IMap.set w1.clusters fav c2) k = if fav = k then some c2 else w.clusters.get? k := by
    intro k; rw [IMap.get?_set, hcl]
  have hci2 : Cluster.CInv c2 := by
    have := hci1.update (env := env) (mem := mem)
    rw [h2] at this; exact this
  have hnot : ∀ i k x, c2.sites.get? i ≠ none → w.clusters.get? k = some x → x.sites.get? i ≠ none → k = fav := by
    intro i k x hi hx hxi
    rw [hup, e4] at hi
    cases hfd : iso.find? (fun s => decide (s.id = i)) with
    | none =>
      rw [hfd] at hi
      exact (hst.disjoint fav c k x i hc hx hi hxi).symm
    | some t =>
      have htl := List.mem_of_find?_eq_some hfd
      have hti : t.id = i := by simpa using List.find?_some hfd
      have h0 : some t ∈ iso.map some := List.mem_map_of_mem htl
      rw [hl, List.nil_append, ← hl', List.mem_map] at h0
      obtain ⟨⟨i', k'⟩, hf, hs⟩ := h0
      rw [List.mem_filter] at hf
      obtain ⟨hi', s, hs', hsk⟩ := (hmemsc i' k').1 hf.1
      simp only [ne_eq, decide_eq_true_eq] at hf hs
      rw [hs] at hs'; cases hs'
      have : i' = i := by rw [← hti]; exact (hst.siteId i' t hs).symm
      subst this
      obtain ⟨s', hs'⟩ := Option.ne_none_iff_exists'.1 hxi
      obtain ⟨-, t', ht', hu'⟩ := hst.member k x i' s' hx hs'
      rw [hs] at ht'; cases ht'
      exact absurd (hsk.trans hf.2.2) hu'
  have hfc : fav ∉ cids := fun hm => ((hmg.mem fav).1 ((hcids' fav).1 hm)).1 rfl
  obtain ⟨d', d1, d2, d3, d4⟩ := mergeClusters_reports (w := { w1 with clusters := IMap.set w1.clusters fav c2 })
    (c := c2) (IMap.WF.set hw1 fav c2) (by
      intro k x hx
      simp only at hx
      rw [hget2] at hx
      split at hx
      · cases hx; exact hci2
      · exact hst.cinv hx) ((hord cids).nodup_iff.2 (hcn List.nodup_nil)) (fun hm => hfc ((hord cids).mem_iff.1 hm)) (by
      intro k x k' x' i hx hx' hi hi'
      simp only at hx hx'
      rw [hget2] at hx hx'
      split at hx
      · next hk =>
        cases hx
        split at hx'
        · next hk' => exact hk.symm.trans hk'
        · exact hk.symm.trans (hnot i k' x' hi hx' hi').symm
      · split at hx'
        · next hk' => cases hx'; exact (hnot i k x hi' hx hi).trans hk'
        · exact hst.disjoint k x k' x' i hx hx' hi hi')
    (by simp only; rw [hget2, if_pos rfl]) h3 ⟨j, m, hj⟩ (Cluster.update_visitKeys h2)
  rw [hmg.cluster, if_pos rfl] at d1
  cases d1
  refine ⟨fun i n h => d2 i n (hrep i n h), ?_, fun i hi hu => d2 i 0 (hfresh i hi hu), d4⟩
  intro k hk x hx i n hr
  have hkc := (hcids' k).2 hk
  refine d3 k ((hord cids).mem_iff.2 hkc) x ?_ i n hr
  simp only
  rw [hget2, if_neg (fun e : fav = k => hfc (e ▸ hkc))]
  exact hx

theorem visitsOf_congr (hs : w'.sites = w.sites) (hc : w'.clusters = w.clusters) (i : Int) :
    (w'.getVisitFrequencyOfSite i).1 = (w.getVisitFrequencyOfSite i).1 := by
  unfold getVisitFrequencyOfSite
  rw [hs, hc]
  cases w.sites.get? i with
  | none => rfl
  | some s =>
    simp only
    split
    · split
      · rfl
      · split <;> rfl
    · rfl

/-- What a site that is in no cluster, or in a cluster that exists, answers. -/
theorem visitsOf_lone {i : Int} {s : Site K} (hs : w.sites.get? i = some s) (hu : s.clusterId = unassignedId) :
    (w.getVisitFrequencyOfSite i).1 = .ok s.visits := by
  have : ¬s.partOfCluster = true := by
    unfold Site.partOfCluster
    rw [hu]
    decide
  unfold getVisitFrequencyOfSite
  rw [hs]
  simp only [if_neg this]

theorem visitsOf_joined {i : Int} {s : Site K} {c : Cluster K} (hs : w.sites.get? i = some s) (h0 : 0 ≤ s.clusterId)
    (hc : w.clusters.get? s.clusterId = some c) {n : Int} :
    (w.getVisitFrequencyOfSite i).1 = .ok n ↔ ∃ m, reports c i m ∧ chk (s.visits + m) = .ok n := by
  have h1 : s.partOfCluster = true := by
    unfold Site.partOfCluster
    simp only [decide_eq_true_eq]; omega
  have h2 : w.clusters.getCluster s.clusterId = .ok c := by
    unfold ClusterContainer.getCluster; rw [hc]
  unfold getVisitFrequencyOfSite reports
  rw [hs]
  simp only [if_pos h1, h2]
  cases hg : c.getVisitFrequency i with
  | mk r c' => cases r <;> simp

theorem visitsOf_none {i : Int} {s : Site K} (hs : w.sites.get? i = some s) (h0 : 0 ≤ s.clusterId)
    (hc : w.clusters.get? s.clusterId = none) : (w.getVisitFrequencyOfSite i).1 = .error .invalidArgument := by
  have h1 : s.partOfCluster = true := by
    unfold Site.partOfCluster
    simp only [decide_eq_true_eq]; omega
  unfold getVisitFrequencyOfSite
  rw [hs]
  simp only [if_pos h1, ClusterContainer.getCluster, hc]

/-- A new cluster reports no visits. -/
theorem created_reports (hst : Struct env w) {basin : List Int} {M : K} {c0 : Cluster K}
    (hb : buildCluster env mem w w.nextId basin M = .ok c0) (h : Created env w w' basin (w.seedCluster c0)) :
    (∀ i ∈ basin, reports (w.seedCluster c0) i 0) ∧
    ∀ i, i ∈ (w.seedCluster c0).siteVisits.keys ↔ i ∈ (w.seedCluster c0).sites.keys := by
  obtain ⟨sites, c1, c2, tau, res, r, -, h1, h2, ht, -, -, -, rfl⟩ := buildCluster_ok hb
  obtain ⟨e1, -, -, -, -⟩ := addSites_ok h1
  have hci : Cluster.CInv (blank w.nextId : Cluster K) := 
    ⟨List.nodup_nil, ⟨List.nodup_nil, by simp [blank, Cluster.new, IMap.keys]⟩, List.nodup_nil,
      by simp [blank, Cluster.new, IMap.keys], List.nodup_nil, List.nodup_nil⟩
  have hci1 := hci.addSites h1
  have hv1 : c1.siteVisits = [] := by rw [e1]; rfl
  have hv2 : c2.visits = c2.prevVisits := by
    obtain ⟨freqs, c3, h3, -, hr⟩ := Cluster.update_ok h2
    obtain ⟨-, -, -, hk, -⟩ := Cluster.visitFreqs_spec hci1.visits h3
    rw [hr.visits, hr.prevVisits, (hk (by rw [hv1]; rfl)).1, e1]
    rfl
  have hkeys := Cluster.update_visitKeys h2
  constructor
  · intro i hi
    have hs := h.sites i
    rw [if_pos hi] at hs
    obtain ⟨s, hs', -⟩ := h.lone i hi
    rw [hs', seedCluster_eq] at hs
    simp only [Option.map_some] at hs
    have hi2 : i ∈ c2.sites.keys := IMap.mem_keys_iff_get?.2 ⟨_, hs⟩
    have h0 := Cluster.update_fresh hci1 h2 hv2 ht hi2 (by rw [hv1]; simp [IMap.keys])
    unfold reports at h0 ⊢
    obtain ⟨g1, ⟨t', g2, g3⟩, g4, g5⟩ := Cluster.getVisitFrequency_ok (c' := (c2.getVisitFrequency i).2) (Prod.ext h0 rfl)
    rw [Cluster.flush_of_eq hv2] at g3
    simp only [Prod.mk.injEq, true_and] at g3
    rw [← g3] at g4
    rw [seedCluster_eq, Cluster.getVisitFrequency_of (t := tau) (by exact g1) (by exact ht) (Cluster.flush_of_eq (by exact hv2) tau)
      (by simp only; rw [← g4]; exact g5)]
    simp only
    rw [← g4]
  · rw [seedCluster_eq]; exact hkeys

/-- A new cluster or a merge keeps the reported visit counts, except for sites whose cluster is lost. -/
theorem grew_reports (hst : Struct env w) (hcd : Counted w) (hft : Fit w) {basin : List Int} {M : K} {order : List Int → List Int}
    (hord : ∀ l, (order l).Perm l) (h : Grew env mem w w' basin M order) {i n : Int}
    (hn : (w.getVisitFrequencyOfSite i).1 = .ok n)
    (hex : ∀ s, w'.sites.get? i = some s → s.clusterId ≠ unassignedId → w'.clusters.get? s.clusterId ≠ none) :
    (w'.getVisitFrequencyOfSite i).1 = .ok n := by
  obtain ⟨s, hs⟩ : ∃ s, w.sites.get? i = some s := by
    cases hs : w.sites.get? i with
    | none => unfold getVisitFrequencyOfSite at hn; rw [hs] at hn; cases hn
    | some s => exact ⟨s, rfl⟩
  have hfs := (hft i s hs).1
  cases h with
  | created c0 hb h =>
    obtain ⟨hrep, -⟩ := created_reports hst hb h
    by_cases hi : i ∈ basin
    · obtain ⟨s', hs', hu⟩ := h.lone i hi
      rw [hs] at hs'; cases hs'
      rw [visitsOf_lone hs hu] at hn
      cases hn
      have hs' : w'.sites.get? i = some (World.member w.nextId s) := by rw [h.site, if_pos hi, hs]; rfl
      refine (visitsOf_joined (c := w.seedCluster c0) hs' hst.next ?_).2 ⟨0, hrep i hi, ?_⟩
      · show w'.clusters.get? w.nextId = _
        rw [h.cluster, if_pos rfl]
      · show chk (s.visits + 0) = _
        rw [add_zero]; exact chk_ok hfs
    · have hs' : w'.sites.get? i = some s := by rw [h.site, if_neg hi, hs]
      by_cases hu : s.clusterId = unassignedId
      · rw [visitsOf_lone hs hu] at hn
        rw [visitsOf_lone hs' hu, hn]
      · obtain ⟨-, j0, j1, -⟩ := hst.joined i s hs hu
        cases hx : w.clusters.get? s.clusterId with
        | none => rw [visitsOf_none hs j0 hx] at hn; cases hn
        | some x =>
          rw [visitsOf_joined hs j0 hx] at hn
          refine (visitsOf_joined hs' j0 ?_).2 hn
          rw [h.cluster, if_neg (by omega), hx]
  | merged sc fav c d erased hsc hf hu hm h =>
    obtain ⟨r1, r2, r3, -⟩ := merged_reports hst hcd hord hsc hm h
    have hfav := (hst.cid fav c h.target).2.1
    have hd : w'.clusters.get? fav = some d := by rw [h.cluster, if_pos rfl]
    by_cases hi : i ∈ basin
    · have hs' : w'.sites.get? i = some (World.member fav s) := by rw [h.site, if_pos hi, hs]; rfl
      refine (visitsOf_joined hs' hfav hd).2 ?_
      show ∃ m, reports d i m ∧ chk (s.visits + m) = .ok n
      by_cases hu : s.clusterId = unassignedId
      · rw [visitsOf_lone hs hu] at hn
        cases hn
        refine ⟨0, r3 i hi fun s' hs' => ?_, ?_⟩
        · rw [hs] at hs'; cases hs'; exact hu
        · rw [add_zero]; exact chk_ok hfs
      · obtain ⟨-, j0, -, -⟩ := hst.joined i s hs hu
        cases hx : w.clusters.get? s.clusterId with
        | none => rw [visitsOf_none hs j0 hx] at hn; cases hn
        | some x =>
          obtain ⟨m, hm1, hm2⟩ := (visitsOf_joined hs j0 hx).1 hn
          refine ⟨m, ?_, hm2⟩
          by_cases hk : s.clusterId = fav
          · rw [hk, h.target] at hx; cases hx
            exact r1 i m hm1
          · exact r2 s.clusterId ((h.mem _).2 ⟨hk, hu, i, hi, s, hs, rfl⟩) x hx i m hm1
    · have hs' : w'.sites.get? i = some s := by rw [h.site, if_neg hi, hs]
      by_cases hu : s.clusterId = unassignedId
      · rw [visitsOf_lone hs hu] at hn
        rw [visitsOf_lone hs' hu, hn]
      · obtain ⟨-, j0, -, -⟩ := hst.joined i s hs hu
        cases hx : w.clusters.get? s.clusterId with
        | none => rw [visitsOf_none hs j0 hx] at hn; cases hn
        | some x =>
          obtain ⟨m, hm1, hm2⟩ := (visitsOf_joined hs j0 hx).1 hn
          by_cases hk : s.clusterId = fav
          · rw [hk, h.target] at hx; cases hx
            exact (visitsOf_joined hs' j0 (by rw [hk]; exact hd)).2 ⟨m, r1 i m hm1, hm2⟩
          · have hne := hex s hs' hu
            rw [h.cluster, if_neg hk] at hne
            have hke : s.clusterId ∉ erased := fun he => hne (if_pos he)
            exact (visitsOf_joined hs' j0 (by rw [h.cluster, if_neg hk, if_neg hke]; exact hx)).2 ⟨m, hm1, hm2⟩

/-! ## All clusters keep visit counts -/

theorem Counted.keep (h : Counted w) (hk : Keep env w w') : Counted w' := by
  intro k x hx
  obtain ⟨y, hy, hyx⟩ := rel_some (hx ▸ hk.cluster k)
  rw [hyx.visitKeys, hyx.keys]
  exact h k y hy

theorem Counted.grew (hst : Struct env w) (hcd : Counted w) {basin : List Int} {M : K} {order : List Int → List Int}
    (hord : ∀ l, (order l).Perm l) (h : Grew env mem w w' basin M order) : Counted w' := by
  intro k x hx
  cases h with
  | created c0 hb h =>
    obtain ⟨-, hkeys⟩ := created_reports hst hb h
    rw [h.cluster] at hx
    split at hx
    · cases hx
      refine ⟨fun e => ?_, hkeys⟩
      obtain ⟨i, l, hl⟩ := List.exists_cons_of_ne_nil h.nonempty
      have hi : i ∈ basin := by rw [hl]; exact List.mem_cons_self ..
      have : i ∈ (w.seedCluster c0).siteVisits.keys := by
        rw [hkeys, IMap.mem_keys_iff_get?, h.sites, if_pos hi]
        obtain ⟨s, hs, -⟩ := h.lone i hi
        rw [hs]; exact ⟨_, rfl⟩
      rw [e] at this; cases this
    · exact hcd k x hx
  | merged sc fav c d erased hsc hf hu hm h =>
    obtain ⟨-, -, -, hkeys⟩ := merged_reports hst hcd hord hsc hm h
    rw [h.cluster] at hx
    split at hx
    · obtain rfl := Option.some.inj hx
      refine ⟨fun e => ?_, hkeys⟩
      obtain ⟨hne, hk⟩ := hcd fav c h.target
      obtain ⟨i, l, hl⟩ := List.exists_cons_of_ne_nil hne
      have hi : i ∈ c.sites.keys := by rw [← hk, hl]; exact List.mem_cons_self ..
      obtain ⟨s, hs⟩ := IMap.mem_keys_iff_get?.1 hi
      have : i ∈ IMap.keys d.siteVisits := by
        rw [hkeys, IMap.mem_keys_iff_get?]
        exact ⟨s, (h.sites i s).2 (.inl hs)⟩
      rw [e] at this; cases this
    · split at hx
      · cases hx
      · exact hcd k x hx

theorem Trace.counted {n : Nat} {evs : List (Event K)} (ht : Trace env (World.new n) evs w) (hu : HopsReturn evs) : Counted w := by
  generalize hw0 : (World.new n : World K) = w0 at ht
  induction ht with
  | nil => subst hw0; exact fun i s h => (by cases h)
  | @snoc w1 w' evs op res mem ht h hr ih =>
    obtain ⟨hu1, hu2⟩ := hopsReturn_snoc hu
    subst hw0
    have hst := ht.struct hu1
    have hw := ih hu1
    rcases step_cases hst h hr hu2 with hk | ⟨m, rfl, hadd⟩ | ⟨wid, k, a, j, w1', w2, w3, basin, rfl, hm, hk, rfl, hgr, rfl⟩
    · exact hw.keep hk
    · exact hw.of_eq hadd.clusters
    · have hk2 : Keep env w1 { w1' with iteration := w1'.iteration + 1 } := hk.trans (.of_eq rfl rfl rfl le_rfl)
      have := (hw.keep hk2).grew (hst.keep hk2) a.order_perm hgr.grew
      exact this.of_eq rfl

end Mythical.World
