import Verif.Lemmas.SystemTwoWay
import Verif.Lemmas.ClusterReady
import Verif.Props.Basin

/-! # Coarse graining ends, on systems whose rates go both ways -/

set_option linter.unusedSectionVars false
set_option linter.unusedVariables false

namespace Mythical.World
open Mythical SystemSpec
variable {K : Type} [Field K] [LinearOrder K] [IsStrictOrderedRing K] [FloorRing K]
variable {w w' w1 w2 : World K} {env : Env K} {mem : Addr → K}

/-- There is a rate from `i` to `j`. -/
def Tied (mem : Addr → K) (w : World K) (i j : Int) : Prop := ∃ r, BasinSpec.rate mem w.sites i j = some r

theorem tied_iff {i j : Int} {s : Site K} (hs : w.sites.get? i = some s) : Tied mem w i j ↔ j ∈ s.neigh.keys := by
  unfold Tied BasinSpec.rate
  rw [hs, IMap.mem_keys_iff_get?]
  simp only [Option.bind_some]
  cases s.neigh.get? j <;> simp

theorem Tied.known {i j : Int} (h : Tied mem w i j) : ∃ s, w.sites.get? i = some s := by
  obtain ⟨r, hr⟩ := h
  unfold BasinSpec.rate at hr
  cases hs : w.sites.get? i with
  | none => rw [hs] at hr; cases hr
  | some s => exact ⟨s, rfl⟩

theorem BothWays.back (h : BothWays w) {i j : Int} (ht : Tied mem w i j) : Tied mem w j i ∧ j ≠ i := by
  obtain ⟨s, hs⟩ := ht.known
  obtain ⟨h1, t, h2, h3⟩ := (h i s hs).2 j ((tied_iff hs).1 ht)
  exact ⟨(tied_iff h2).2 h3, h1⟩

/-- The sites of the cluster are those of the system, up to counters. -/
def Mirror (w : World K) (c : Cluster K) : Prop := ∀ i s, c.sites.get? i = some s → ∃ t, w.sites.get? i = some t ∧ Twin s t

/-- The sites are connected, except for sites without rates to them; and there is a rate to a site outside. -/
structure Shape (mem : Addr → K) (w : World K) (S : List Int) : Prop where
  core : ∃ L : List Int, (∀ i ∈ L, i ∈ S) ∧ (∃ u ∈ L, ∃ v ∈ L, u ≠ v) ∧ (∀ u ∈ L, ∀ v ∈ L, BasinSpec.Reach mem w.sites L u v) ∧
    ∀ i ∈ S, i ∉ L → ∀ j ∈ S, ¬ Tied mem w i j
  exit : ∃ i ∈ S, ∃ j, j ∉ S ∧ Tied mem w i j

theorem Shape.congr {S S' : List Int} (h : Shape mem w S) (e : ∀ i, i ∈ S' ↔ i ∈ S) : Shape mem w S' := by
  obtain ⟨⟨L, h1, h2, h3, h4⟩, i, hi, j, hj, ht⟩ := h
  exact ⟨⟨L, fun i hi => (e i).2 (h1 i hi), h2, h3, fun i hi hn j hj => h4 i ((e i).1 hi) hn j ((e j).1 hj)⟩,
    i, (e i).2 hi, j, fun h => hj ((e j).1 h), ht⟩

theorem fit_of {c : Cluster K} (hg : Good mem w) (hb : BothWays w) (hm : Mirror w c) (hsh : Shape mem w c.sites.keys)
    (hw : c.sites.WF) (hp : Cluster.ProbSub c) (hmet : c.method = .tolerance) (htol : 0 < c.tol) (hr : Cluster.Reads c) :
    Cluster.Fit mem c := by
  have hsound : ClusterSpec.Sound mem c := by
    refine ⟨hw, ?_, ?_, ?_⟩
    · intro i s hs
      obtain ⟨t, ht, h⟩ := hm i s hs
      rw [h.neigh]; exact (hg i t ht).1
    · intro i s hs
      obtain ⟨t, ht, h⟩ := hm i s hs
      rw [h.neigh]; exact (hg i t ht).2.1
    · intro i s hs
      obtain ⟨t, ht, h⟩ := hm i s hs
      rcases (hg i t ht).2.2 with h0 | h0
      · exact absurd h0 (hb i t ht).1
      · exact h.fresh h0
  have hin : ∀ i, i ∈ ClusterSpec.ids c ↔ i ∈ c.sites.keys := fun i => List.mem_toFinset
  have hpos : ∀ i ∈ c.sites.keys, ∀ j, 0 < ClusterSpec.rate mem c i j ↔ Tied mem w i j := by
    intro i hi j
    obtain ⟨s, hs⟩ := IMap.mem_keys_iff_get?.1 hi
    obtain ⟨t, ht, h⟩ := hm i s hs
    rw [hsound.rate_pos_iff hs j, tied_iff ht, h.neigh]
  have hzero : ∀ i ∈ c.sites.keys, ∀ j, ¬ Tied mem w i j → ClusterSpec.rate mem c i j = 0 := by
    intro i hi j hn
    obtain ⟨s, hs⟩ := IMap.mem_keys_iff_get?.1 hi
    obtain ⟨t, ht, h⟩ := hm i s hs
    rw [tied_iff ht, ← h.neigh, ← IMap.get?_eq_none_iff] at hn
    unfold ClusterSpec.rate
    rw [hs]
    simp only
    rw [hn]
  obtain ⟨⟨L, hL, ⟨u, hu, v, hv, huv⟩, hconn, hdust⟩, i, hi, j, hj, hij⟩ := hsh
  refine ⟨hsound, ?_, ⟨L.toFinset, ⟨u, List.mem_toFinset.2 hu⟩, ⟨?_, ?_, ?_⟩, ?_, ?_⟩, ?_, hp, ?_, hmet, htol, hr⟩
  · intro i hi j hj h
    rw [hin] at hi hj
    rw [hpos i hi] at h
    rw [hpos j hj]
    exact (hb.back h).1
  · intro i hi
    exact (hin i).2 (hL i (List.mem_toFinset.1 hi))
  · intro i hi hn j hj
    rw [hin] at hi hj
    exact hzero i hi j (hdust i hi (fun h => hn (List.mem_toFinset.2 h)) j hj)
  · intro i hi hn j hj
    rw [hin] at hi hj
    exact hzero j hj i fun h => hdust i hi (fun h => hn (List.mem_toFinset.2 h)) j hj (hb.back h).1
  · intro i hi
    rw [List.mem_toFinset] at hi
    have : ∃ k ∈ L, k ≠ i := by
      by_cases h : u = i
      · exact ⟨v, hv, fun e => huv (h.trans e.symm)⟩
      · exact ⟨u, hu, h⟩
    obtain ⟨k, hk, hne⟩ := this
    obtain ⟨j, hj, r, hr⟩ := reach_first (hconn i hi k hk) hne
    exact ⟨j, List.mem_toFinset.2 hj, (hpos i (hL i hi) j).2 ⟨r, hr⟩⟩
  · intro i hi j hj
    rw [List.mem_toFinset] at hi hj
    have := hconn i hi j hj
    clear hj
    induction this with
    | start => exact .refl _
    | hop h1 h2 r h3 ih =>
      exact .step ih ((hin _).2 (hL _ h2)) ((hpos _ (hL _ (reach_mem h1 hi)) _).2 ⟨r, h3⟩)
  · exact ⟨i, (hin i).2 hi, j, fun h => hj ((hin j).1 h), (hpos i hi j).2 hij⟩
  · by_contra hl
    push Not at hl
    have hu' := hL u hu
    have hv' := hL v hv
    have : c.sites.keys.length ≤ 1 := by rw [IMap.keys, List.length_map]; exact hl
    match hk : c.sites.keys with
    | [] => rw [hk] at hu'; cases hu'
    | [a] =>
      rw [hk, List.mem_singleton] at hu' hv'
      exact huv (hu'.trans hv'.symm)
    | a :: b :: r => rw [hk] at this; simp at this

/-! ## The searched basin -/

/-- What a world that calls may lead to satisfies. -/
structure Sane (env : Env K) (mem : Addr → K) (w : World K) : Prop where
  st : Struct env w
  tw : Twins w
  good : Good mem w
  settled : AllSettled mem w
  solid : Solid mem w
  both : BothWays w
  res : ∀ i s, w.sites.get? i = some s → w.timeRes ≠ none
  ratio : 1 / 2 ≤ w.perfRatio

theorem Sane.keep (h : Sane env mem w) (hk : Keep env w w') (h1 : w'.timeRes = w.timeRes) (h2 : w'.perfRatio = w.perfRatio) :
    Sane env mem w' where
  st := h.st.keep hk
  tw := h.tw.keep h.st hk
  good := h.good.keep hk
  settled := h.settled.keep hk
  solid := h.solid.keep hk
  both := h.both.same hk.neigh
  res i s hs := by
    obtain ⟨t, ht, -⟩ := hk.twin hs
    rw [h1]; exact h.res i t ht
  ratio := h2 ▸ h.ratio

theorem Good.positive (h : Good mem w) : BasinSpec.Positive mem w.sites where
  neighWF i s hs := (h i s hs).1
  pos i j r hr := h.rate_pos hr

theorem Sane.find (h : Sane env mem w) {v : Int} (hv : w.sites.get? v ≠ none) (vis : Visitor) :
    ∃ B, Explorer.default.findBasin vis mem w.sites w.clusters v = .ok B := by
  obtain ⟨s, hs⟩ := Option.ne_none_iff_exists'.1 hv
  refine Basin.C49_total Explorer.default (by unfold Explorer.default; norm_num) vis mem w.sites h.good.positive w.clusters v s hs ?_
  intro hc
  refine h.solid.exist v s hs fun e => ?_
  have := unassigned_neg
  omega

/-- The basin that was found is a connected set of at most 5 known sites. -/
theorem Sane.basin (h : Sane env mem w) {v : Int} (hv : w.sites.get? v ≠ none) {vis : Visitor} {B : List Int}
    (hf : Explorer.default.findBasin vis mem w.sites w.clusters v = .ok B) :
    (∀ i ∈ B, w.sites.get? i ≠ none) ∧ B.Nodup ∧ B.length ≤ 5 ∧ (B ≠ [] → v ∈ B) ∧
      ∀ x ∈ B, ∀ y ∈ B, BasinSpec.Reach mem w.sites B x y := by
  rcases Basin.C49_basin Explorer.default (by show 1 ≤ 5; decide) vis mem w.sites w.clusters v B hf with rfl | ⟨h1, h2, h3, h4⟩
  · simp
  · have hback : ∀ x ∈ B, BasinSpec.Reach mem w.sites B x v := fun x hx =>
      reach_back (h4 x hx) h3 fun i _ j _ hr => (h.both.back hr).1
    refine ⟨fun i hi => ?_, h1, h2, fun _ => h3, fun x hx y hy => reach_trans (hback x hx) (h4 y hy)⟩
    by_cases hiv : i = v
    · rw [hiv]; exact hv
    · obtain ⟨j, -, hr⟩ := reach_last (h4 i hi) hiv h3
      obtain ⟨s, hs⟩ := Tied.known (h.both.back (mem := mem) hr).1
      rw [hs]; simp

theorem exitSum_total (hw : ∀ i s, w.sites.get? i = some s → s.neigh.WF) (all : List Int) {l : List Int}
    (hl : ∀ i ∈ l, w.sites.get? i ≠ none) (sum : K) : ∃ r, exitSum mem w.sites all l sum = .ok r := by
  induction l generalizing sum with
  | nil => exact ⟨sum, rfl⟩
  | cons i l ih =>
    obtain ⟨s, hs⟩ := Option.ne_none_iff_exists'.1 (hl i (List.mem_cons_self ..))
    unfold exitSum
    have e : w.sites.getSiteIdsOfNeighbors i = .ok s.neigh.keys := by
      unfold SiteContainer.getSiteIdsOfNeighbors SiteContainer.getSite
      rw [hs]; rfl
    rw [e, ok_bind, exitFold_eq hs (hw i s hs) all s.neigh (fun _ h => h) sum, ok_bind]
    exact ih (fun j hj => hl j (List.mem_cons_of_mem _ hj)) _

theorem satisfies_total (hw : ∀ i s, w.sites.get? i = some s → s.neigh.WF) {B : List Int}
    (hB : ∀ i ∈ B, w.sites.get? i ≠ none) (hr : w.timeRes ≠ none) (M : K) : ∃ b, w.satisfies mem B M = .ok b := by
  obtain ⟨r, hs⟩ := exitSum_total (mem := mem) hw B hB 0
  obtain ⟨res, hres⟩ := Option.ne_none_iff_exists'.1 hr
  unfold satisfies timeConstant
  rw [hs, ok_bind]
  by_cases h : r = 0
  · rw [if_pos h, ok_bind, hres]; exact ⟨_, rfl⟩
  · rw [if_neg h, ok_bind, hres]; exact ⟨_, rfl⟩

theorem clustersOfSites_total {l : List Int} (hl : ∀ i ∈ l, w.sites.get? i ≠ none) (acc : IMap Int) :
    ∃ sc, w.clustersOfSites l acc = .ok sc := by
  induction l generalizing acc with
  | nil => exact ⟨acc, rfl⟩
  | cons i l ih =>
    obtain ⟨s, hs⟩ := Option.ne_none_iff_exists'.1 (hl i (List.mem_cons_self ..))
    unfold clustersOfSites SiteContainer.partOfCluster SiteContainer.getClusterIdOfSite SiteContainer.getSite
    rw [hs]
    simp only [ok_bind]
    split
    · exact ih (fun j hj => hl j (List.mem_cons_of_mem _ hj)) _
    · exact ih (fun j hj => hl j (List.mem_cons_of_mem _ hj)) _

/-- A basin that passes the test has a rate to a site outside. -/
theorem Sane.exit (h : Sane env mem w) {B : List Int} {l : List K} (hs : w.satisfies mem B (maxTime l) = .ok true) :
    ∃ i ∈ B, ∃ j, j ∉ B ∧ Tied mem w i j := by
  obtain ⟨res, -, -, h1 | ⟨h1, -⟩⟩ := satisfies_true (fun i s hs => (h.good i s hs).1) hs
  · have h2 := maxTime_nonneg l
    have h3 := h.ratio
    have : 0 ≤ 2 * maxTime l * w.perfRatio := by
      have : (0 : K) ≤ w.perfRatio := le_trans (by norm_num) h3
      positivity
    exact absurd h1.2 (not_lt.2 this)
  · obtain ⟨i, hi, na, hna, hn, -⟩ := exitRate_ne h1
    refine ⟨i, hi, na.1, hn, ?_⟩
    unfold ratesOf at hna
    split at hna
    · cases hna
    · next s hs => exact (tied_iff hs).2 (List.mem_map_of_mem (f := Prod.fst) hna)

/-- From a connected set of sites there is a rate out of every part of it. -/
theorem leave {l S : List Int} {u x : Int} (h : BasinSpec.Reach mem w.sites l u x) (hu : u ∈ S) (hx : x ∉ S) :
    ∃ i ∈ S, ∃ j, j ∉ S ∧ j ∈ l ∧ Tied mem w i j := by
  induction h with
  | start => exact absurd hu hx
  | @hop i j h hj r hr ih =>
    by_cases hi : i ∈ S
    · exact ⟨i, hi, j, hx, hj, r, hr⟩
    · exact ih hi

theorem Shape.whole {B : List Int} (hc : ∀ x ∈ B, ∀ y ∈ B, BasinSpec.Reach mem w.sites B x y) (h2 : ∃ u ∈ B, ∃ v ∈ B, u ≠ v)
    (he : ∃ i ∈ B, ∃ j, j ∉ B ∧ Tied mem w i j) : Shape mem w B :=
  ⟨⟨B, fun _ h => h, h2, hc, fun i hi hn => absurd hi hn⟩, he⟩

/-- The basin of a site in no cluster has another site. -/
theorem Sane.two (h : Sane env mem w) {v : Int} {s : Site K} (hv : w.sites.get? v = some s) (hs : s.clusterId = unassignedId)
    {vis : Visitor} {B : List Int} (hf : Explorer.default.findBasin vis mem w.sites w.clusters v = .ok B) (hne : B ≠ []) :
    ∃ u ∈ B, u ≠ v := by
  have hB := (h.basin (by rw [hv]; simp) hf).2.2.2.1 hne
  have hw := (h.good v s hv).1
  have hn : s.neigh.toFinset.Nonempty := by
    obtain ⟨na, hna⟩ := List.exists_mem_of_ne_nil _ (h.both v s hv).1
    exact ⟨na, List.mem_toFinset.2 hna⟩
  obtain ⟨na, hna, hmax⟩ := Finset.exists_max_image s.neigh.toFinset (fun na => mem na.2) hn
  rw [List.mem_toFinset] at hna
  have hr : BasinSpec.rate mem w.sites v na.1 = some (mem na.2) := by
    unfold BasinSpec.rate
    rw [hv, Option.bind_some, IMap.get?_of_mem hw (show (na.1, na.2) ∈ s.neigh from hna)]
    rfl
  refine ⟨na.1, ?_, ((h.both v s hv).2 na.1 (List.mem_map_of_mem (f := Prod.fst) hna)).1⟩
  refine Basin.C50_partial Explorer.default (by unfold Explorer.default; norm_num) (by show 1 ≤ 5; decide) vis mem w.sites
    h.good.positive w.clusters v na.1 B hf hne (mem na.2) ⟨⟨na.1, hr⟩, ?_⟩ hr ?_
  · intro j r' hr'
    unfold BasinSpec.rate at hr'
    rw [hv, Option.bind_some] at hr'
    obtain ⟨a, ha, rfl⟩ := Option.map_eq_some_iff.1 hr'
    exact hmax (j, a) (List.mem_toFinset.2 (IMap.mem_of_get? ha))
  · intro t c ht hc
    rw [hv] at ht
    obtain rfl := Option.some.inj ht
    rw [hs] at hc
    have := unassigned_neg
    omega

/-! ## A new cluster -/

theorem addSites_total {c : Cluster K} {sites : List (Site K)} (hn : (sites.map (·.id)).Nodup)
    (hnew : ∀ s ∈ sites, c.sites.get? s.id = none) : ∃ c', c.addSites sites = .ok c' := by
  induction sites generalizing c with
  | nil => exact ⟨c, rfl⟩
  | cons s sites ih =>
    rw [List.map_cons, List.nodup_cons] at hn
    unfold Cluster.addSites Cluster.addSite
    have h := hnew s (List.mem_cons_self ..)
    rw [if_neg (fun h' => IMap.get?_eq_none_iff.1 h (IMap.has_iff.1 h')), ok_bind]
    refine ih hn.2 fun t ht => ?_
    show IMap.get? (c.sites.set s.id _) t.id = none
    rw [IMap.get?_set_ne _ _ (fun e : s.id = t.id => hn.1 (List.mem_map.2 ⟨t, ht, e.symm⟩))]
    exact hnew t (List.mem_cons_of_mem _ ht)

theorem ids_eq (hst : Struct env w) {l : List Int} {sites : List (Site K)} (h : l.map (IMap.get? w.sites) = sites.map some) :
    sites.map (·.id) = l := by
  induction l generalizing sites with
  | nil => cases sites with
    | nil => rfl
    | cons s r => cases h
  | cons i l ih =>
    cases sites with
    | nil => cases h
    | cons s r =>
      rw [List.map_cons, List.map_cons, List.cons.injEq] at h
      rw [List.map_cons, ih h.2, hst.siteId i s h.1]

theorem addSites_mirror (hst : Struct env w) {c c' : Cluster K} (hm : Mirror w c) {l : List Int} {sites : List (Site K)}
    (h : l.map (IMap.get? w.sites) = sites.map some) (ha : c.addSites sites = .ok c') :
    Mirror w c' ∧ ∀ i, i ∈ c'.sites.keys ↔ i ∈ c.sites.keys ∨ i ∈ l := by
  obtain ⟨-, -, -, hg, -⟩ := addSites_ok ha
  have hid := ids_eq hst h
  have hs : ∀ s ∈ sites, w.sites.get? s.id = some s := by
    intro s hs
    have : some s ∈ l.map (IMap.get? w.sites) := h ▸ List.mem_map_of_mem (f := some) hs
    obtain ⟨i, -, e⟩ := List.mem_map.1 this
    rw [hst.siteId i s e]; exact e
  constructor
  · intro i t ht
    rw [hg] at ht
    split at ht
    · next s hf =>
      cases ht
      have e := List.find?_some hf
      simp only [decide_eq_true_eq] at e
      rw [← e]
      exact ⟨s, hs s (List.mem_of_find?_eq_some hf), member_twin _ _⟩
    · exact hm i t ht
  · intro i
    rw [IMap.mem_keys_iff_get?, hg]
    split
    · next s hf =>
      have e := List.find?_some hf
      simp only [decide_eq_true_eq] at e
      have hil : i ∈ l := by
        rw [← hid, ← e]; exact List.mem_map_of_mem (f := Site.id) (List.mem_of_find?_eq_some hf)
      exact ⟨fun _ => .inr hil, fun _ => ⟨_, rfl⟩⟩
    · next hf =>
      rw [← IMap.mem_keys_iff_get?]
      have hil : i ∉ l := by
        rw [← hid]
        intro hm
        obtain ⟨s, hs, e⟩ := List.mem_map.1 hm
        have := List.find?_eq_none.1 hf s hs
        simp [e] at this
      exact ⟨.inl, fun h => h.resolve_right hil⟩

theorem linked_of {c : Cluster K} (hs : ClusterSpec.Sound mem c) (hm : Mirror w c)
    (h : ∀ i ∈ c.sites.keys, ∃ j ∈ c.sites.keys, Tied mem w i j) : ClusterSpec.Linked mem c := by
  intro i hi
  obtain ⟨j, hj, ht⟩ := h i (List.mem_toFinset.1 hi)
  obtain ⟨s, hsi⟩ := IMap.mem_keys_iff_get?.1 (List.mem_toFinset.1 hi)
  obtain ⟨t, ht', e⟩ := hm i s hsi
  rw [tied_iff ht', ← e.neigh] at ht
  exact ⟨j, List.mem_toFinset.2 hj, (hs.rate_pos_iff hsi j).2 ht⟩

theorem chosenResolution_total {tau M res : K} (h : 0 < tau) : ∃ r, chosenResolution tau M res = .ok r ∧ 2 ≤ r := by
  unfold chosenResolution
  rw [if_neg (fun h' => h'.2 h)]
  simp only
  refine ⟨_, rfl, ?_⟩
  generalize (if M = 0 ∨ tau / res < tau / (2 * M) then tau / res else tau / (2 * M)) = x
  split
  · exact le_rfl
  · next h => exact not_lt.1 h

theorem build_settles (h : Sane env mem w) {B : List Int} (hsh : Shape mem w B)
    (hc : ∀ x ∈ B, ∀ y ∈ B, BasinSpec.Reach mem w.sites B x y) (hB : ∀ i ∈ B, w.sites.get? i ≠ none) (hn : B.Nodup) (id : Int) (M : K) :
    ∃ N r, Fair r ∧ ∀ f ≥ N, buildCluster (env.rounds f) mem w id B M = r := by
  obtain ⟨sites, hsites⟩ := mapM_getSite_total hB
  have hmap := mapM_getSite_ok hsites
  have hid := ids_eq h.st hmap
  obtain ⟨c1, h1⟩ := addSites_total (c := (blank id : Cluster K)) (sites := sites) (by rw [hid]; exact hn) fun _ _ => rfl
  have hm0 : Mirror w (blank id : Cluster K) := fun i s hs => by cases hs
  obtain ⟨hm, hk⟩ := addSites_mirror h.st hm0 hmap h1
  have hk' : ∀ i, i ∈ c1.sites.keys ↔ i ∈ B := fun i => (hk i).trans ⟨fun h => h.resolve_left (by intro h; cases h), .inr⟩
  have hi : Cluster.CInv c1 := by
    have : Cluster.CInv (blank id : Cluster K) := by
      have := Cluster.CInv.new (K := K) id
      exact ⟨this.sites, this.prob, this.visits, this.visitsSub, this.remaining, this.dwell⟩
    exact this.addSites h1
  have e1 := (addSites_ok h1).1
  have hfit : Cluster.Fit mem c1 := by
    refine fit_of h.good h.both hm (hsh.congr hk') hi.sites hi.prob ?_ ?_ ⟨?_, ?_, .inl ?_⟩
    · rw [e1]; rfl
    · rw [e1]; show (0 : K) < 1 / 1000; norm_num
    · intro _; rw [e1]; rfl
    · rw [e1]; show (20 : K) ≠ 0; norm_num
    · rw [e1]; rfl
  have hlink : ∀ i ∈ c1.sites.keys, ∃ j ∈ c1.sites.keys, Tied mem w i j := by
    intro i hi
    rw [hk'] at hi
    obtain ⟨⟨L, hL, ⟨u, hu, v, hv, huv⟩, -⟩, -⟩ := hsh
    have : ∃ k ∈ B, k ≠ i := by
      by_cases h : u = i
      · exact ⟨v, hL v hv, fun e => huv (h.trans e.symm)⟩
      · exact ⟨u, hL u hu, h⟩
    obtain ⟨k, hk, hne⟩ := this
    obtain ⟨j, hj, hr⟩ := reach_first (hc i hi k hk) hne
    exact ⟨j, (hk' j).2 hj, hr⟩
  have hbuild : ∀ f, buildCluster (env.rounds f) mem w id B M = (match c1.update (env.rounds f) mem with
      | (.error e, _) => .error e
      | (.ok _, c) =>
        match c.tau, w.timeRes with
        | some tau, some res => do
          let r ← chosenResolution tau M res
          c.setResolution r
        | none, _ => .error .nonFinite
        | _, none => .error (.ub .uninitRead)) := by
    intro f
    unfold buildCluster
    have e0 : ((Cluster.new id : Cluster K).setConvergenceMethod .tolerance).setConvergenceTolerance (1 / 1000) = .ok (blank id) := by
      unfold Cluster.setConvergenceTolerance
      rw [if_pos (by norm_num)]; rfl
    rw [e0, ok_bind, hsites, ok_bind, h1, ok_bind]
    rfl
  obtain ⟨N, ⟨r, c2⟩, hr, hN⟩ := Cluster.update_settles (env := env) hfit
  simp only at hN
  have hu := hN N le_rfl
  rcases hr with ⟨u, hr⟩ | hr | hr
  · change r = .ok u at hr
    subst hr
    obtain ⟨freqs, d, -, hv, hreb⟩ := Cluster.update_ok hu
    obtain ⟨a1, -⟩ := hfit.after hu
    have hs2 : ClusterSpec.Sound mem c2 := hfit.sound.congr a1
    have hm2 : ClusterSpec.Mutual mem c2 := Cluster.Mutual.congr a1 hfit.mutual_
    have hl2 : ClusterSpec.Linked mem c2 := by
      refine linked_of (w := w) hs2 ?_ ?_
      · intro i s hs; rw [a1] at hs; exact hm i s hs
      · rw [a1]; exact hlink
    obtain ⟨tau, ht, htp, -⟩ := hreb.tau_pos (hi.visitsOnly hv) hs2 hm2 hl2 (hfit.exit.congr a1)
    obtain ⟨i, hiB, -⟩ := hsh.exit
    obtain ⟨s, hs⟩ := Option.ne_none_iff_exists'.1 (hB i hiB)
    obtain ⟨res, hres⟩ := Option.ne_none_iff_exists'.1 (h.res i s hs)
    obtain ⟨ρ, h3, h4⟩ := chosenResolution_total (M := M) (res := res) htp
    refine ⟨N, .ok { c2 with resolution := ρ, timeInc := c2.tau.map fun t => t / ρ }, .ok _, fun f hf => ?_⟩
    rw [hbuild, hN f hf]
    simp only [ht, hres, h3, ok_bind]
    unfold Cluster.setResolution
    rw [if_pos h4, ht]
  · change r = _ at hr
    subst hr
    exact ⟨N, .error (.ub .intOverflow), .inr (.inl rfl), fun f hf => by rw [hbuild, hN f hf]⟩
  · change r = _ at hr
    subst hr
    exact ⟨N, .error (.ub .floatToInt), .inr (.inr rfl), fun f hf => by rw [hbuild, hN f hf]⟩

theorem create_settles (h : Sane env mem w) {B : List Int} (hsh : Shape mem w B)
    (hc : ∀ x ∈ B, ∀ y ∈ B, BasinSpec.Reach mem w.sites B x y) (hB : ∀ i ∈ B, w.sites.get? i ≠ none) (hn : B.Nodup) (M : K) :
    Settles fun f => createCluster (env.rounds f) mem w B M := by
  obtain ⟨N, r, hr, hN⟩ := build_settles h hsh hc hB hn w.nextId M
  refine ⟨N, createCluster (env.rounds N) mem w B M, ?_, fun f hf => ?_⟩
  · unfold createCluster
    have hf1 := Fair.chk (w.nextId + 1)
    split
    · next e he => rw [he] at hf1; exact hf1.error
    · next next _ =>
      have hb := hN N le_rfl
      split
      · next e he => rw [he] at hb; rw [← hb] at hr; exact hr.error
      · next c he =>
        have hid : c.id = w.nextId := by
          obtain ⟨sites, c1, c2, tau, res, r, -, b2, b3, -, -, -, -, rfl⟩ := buildCluster_ok he
          show c2.id = _
          have f := Cluster.update_frame (env := env.rounds N) (mem := mem) c1
          rw [b3] at f
          rw [f.id, (Cluster.addSites_frame b2).id]; rfl
        split
        · next e C hC =>
          exfalso
          unfold ClusterContainer.addCluster at hC
          split at hC
          · next hx =>
            have : (w.seedCluster c).id = w.nextId := by rw [seedCluster_eq]; exact hid
            rw [this] at hx
            unfold ClusterContainer.exist at hx
            obtain ⟨x, hx⟩ := IMap.mem_keys_iff_get?.1 (IMap.has_iff.1 hx)
            exact absurd (h.st.cid _ x hx).2.2 (lt_irrefl _)
          · cases hC
        · next C hC =>
          have hf2 := Fair.chk (next + 1)
          split
          · next e he => rw [he] at hf2; exact hf2.error
          · next next2 _ =>
            obtain ⟨w2, hw2⟩ := attach_total (w := { w with seed := w.nextSeed, nextId := next2, clusters := C }) (cid := c.id) hB
            rw [hw2]
            exact .ok _
  · show createCluster (env.rounds f) mem w B M = createCluster (env.rounds N) mem w B M
    unfold createCluster
    rw [hN f hf, hN N le_rfl]

/-! ## A merge -/

theorem mergeCollect_total {fav : Int} {x : Cluster K} (hx : w.clusters.get? fav = some x) {sc : List (Int × Int)}
    (hsc : ∀ ic ∈ sc, w.sites.get? ic.1 ≠ none) (iso : List (Site K)) (cids : List Int) :
    ∃ r w', w.mergeCollect fav iso cids sc = (.ok r, w') := by
  induction sc generalizing w iso cids with
  | nil => exact ⟨_, w, rfl⟩
  | cons ic sc ih =>
    obtain ⟨i, c⟩ := ic
    unfold mergeCollect
    have hi := hsc (i, c) (List.mem_cons_self ..)
    have hrest : ∀ ic ∈ sc, w.sites.get? ic.1 ≠ none := fun ic h => hsc ic (List.mem_cons_of_mem _ h)
    split
    · obtain ⟨s, hs⟩ := Option.ne_none_iff_exists'.1 hi
      have e1 : w.sites.getSite i = .ok s := by unfold SiteContainer.getSite; rw [hs]
      have e2 : w.clusters.getCluster fav = .ok x := by unfold ClusterContainer.getCluster; rw [hx]
      obtain ⟨w1, h1⟩ := attach_total (w := w) (cid := fav) (l := [i]) (fun j hj => by rw [List.mem_singleton.1 hj]; exact hi)
      obtain ⟨ha, -⟩ := attach_ok h1
      have hx1 : w1.clusters.get? fav = some x := by rw [ha.eq]; exact hx
      have hr1 : ∀ ic ∈ sc, w1.sites.get? ic.1 ≠ none := by
        intro ic hic
        rw [ha.site]
        split
        · simpa using hrest ic hic
        · exact hrest ic hic
      rw [e1, e2, h1]
      simp only
      split
      · exact ih hx1 hr1 _ _
      · exact ih hx1 hr1 _ _
    · exact ih hx hrest _ _

theorem Settled.reads {x : Cluster K} (h : Settled mem w x) : Cluster.Reads x where
  tau _ := by obtain ⟨t, ht, -⟩ := h.tau; rw [ht]; rfl
  res := (lt_of_lt_of_le (by norm_num : (0 : K) < 2) h.res).ne'
  dwell := .inr fun i hi => by
    obtain ⟨d, hd, e⟩ := h.dwell i ((h.visits i).1 hi)
    exact ⟨(h.visits i).1 hi, d, hd.ne', e⟩

/-- A cluster and at most one further site. -/
theorem Shape.part (hb : BothWays w) {F l S : List Int} (hF : ∀ u ∈ F, ∀ v ∈ F, BasinSpec.Reach mem w.sites F u v)
    (h2 : ∃ u ∈ F, ∃ v ∈ F, u ≠ v) (hl : l.length ≤ 1) (hS : ∀ i, i ∈ S ↔ i ∈ F ∨ i ∈ l)
    (he : ∃ i ∈ S, ∃ j, j ∉ S ∧ Tied mem w i j) : Shape mem w S := by
  refine ⟨?_, he⟩
  match l, hl with
  | [], _ => exact ⟨F, fun i hi => (hS i).2 (.inl hi), h2, hF, fun i hi hn => absurd (((hS i).1 hi).resolve_right (by simp)) hn⟩
  | [x], _ =>
    by_cases hx : ∃ j ∈ F, Tied mem w x j
    · obtain ⟨j, hj, ht⟩ := hx
      obtain ⟨u, hu, v, hv, huv⟩ := h2
      refine ⟨F ++ [x], fun i hi => ?_, ⟨u, by simp [hu], v, by simp [hv], huv⟩, ?_, fun i hi hn => ?_⟩
      · rw [hS]
        simpa using hi
      · have hsub : ∀ i ∈ F, i ∈ F ++ [x] := fun i hi => List.mem_append_left _ hi
        have hto : ∀ a ∈ F ++ [x], BasinSpec.Reach mem w.sites (F ++ [x]) a j := by
          intro a ha
          rcases List.mem_append.1 ha with ha | ha
          · exact reach_mono (hF a ha j hj) hsub
          · rw [List.mem_singleton.1 ha]
            obtain ⟨r, hr⟩ := ht
            exact .hop .start (hsub j hj) r hr
        have hfrom : ∀ b ∈ F ++ [x], BasinSpec.Reach mem w.sites (F ++ [x]) j b := by
          intro b hb'
          rcases List.mem_append.1 hb' with hb' | hb'
          · exact reach_mono (hF j hj b hb') hsub
          · rw [List.mem_singleton.1 hb']
            obtain ⟨r, hr⟩ := (hb.back ht).1
            exact .hop .start (by simp) r hr
        exact fun a ha b hb' => reach_trans (hto a ha) (hfrom b hb')
      · rw [hS] at hi
        exact absurd (by simpa using hi) hn
    · refine ⟨F, fun i hi => (hS i).2 (.inl hi), h2, hF, fun i hi hn j hj ht => ?_⟩
      have hix : i = x := by simpa using ((hS i).1 hi).resolve_left hn
      subst hix
      rcases (hS j).1 hj with hj | hj
      · exact hx ⟨j, hj, ht⟩
      · rw [List.mem_singleton.1 hj] at ht
        exact (hb.back ht).2 rfl
  | _ :: _ :: _, h => simp at h

theorem two_of_length {l : List Int} (hn : l.Nodup) (h : 2 ≤ l.length) : ∃ u ∈ l, ∃ v ∈ l, u ≠ v := by
  match l with
  | [] => simp at h
  | [a] => simp at h
  | a :: b :: r =>
    rw [List.nodup_cons] at hn
    exact ⟨a, by simp, b, by simp, fun e => hn.1 (by simp [e])⟩

theorem merge_settles (h : Sane env mem w) {B : List Int} (hsh : ∃ i ∈ B, ∃ j, j ∉ B ∧ Tied mem w i j)
    (hc : ∀ x ∈ B, ∀ y ∈ B, BasinSpec.Reach mem w.sites B x y) (hB : ∀ i ∈ B, w.sites.get? i ≠ none) (hn : B.Nodup)
    (h5 : B.length ≤ 5) (ht : Tight mem w w.perfRatio B) {sc : IMap Int} (hsc : w.clustersOfSites B [] = .ok sc)
    (hu : countUniqueClusters sc ≠ 1) {order : List Int → List Int} (hord : ∀ l, (order l).Perm l) :
    Settles fun f => merge (env.rounds f) mem w order sc (favoredClusterId sc) := by
  obtain ⟨hscw, hget, -⟩ := clustersOfSites_ok h.st (acc := []) List.nodup_nil hsc
  have hentry : ∀ i c, (i, c) ∈ sc ↔ i ∈ B ∧ ∃ s, w.sites.get? i = some s ∧ s.clusterId = c := by
    intro i c
    rw [mem_of_wf_get? hscw, hget]
    split
    · next hi =>
      rw [Option.map_eq_some_iff]
      exact ⟨fun ⟨s, a, b⟩ => ⟨hi, s, a, b⟩, fun ⟨_, s, a, b⟩ => ⟨s, a, b⟩⟩
    · next hi => exact ⟨fun h => (by cases h), fun h => absurd h.1 hi⟩
  have hBne : B ≠ [] := by obtain ⟨i, hi, -⟩ := hsh; exact List.ne_nil_of_mem hi
  -- the surviving cluster
  obtain ⟨hfav, i0, hi0, s0, hs0, hi0c⟩ : favoredClusterId sc ≠ unassignedId ∧ ∃ i ∈ B, ∃ s, w.sites.get? i = some s ∧
      s.clusterId = favoredClusterId sc := by
    have hff := favored_fold sc unassignedId
    simp only at hff
    change (favoredClusterId sc = unassignedId ↔ _) ∧
      (favoredClusterId sc ≠ unassignedId → (favoredClusterId sc = unassignedId ∨ _) ∧ _) at hff
    obtain ⟨h1, h2⟩ := hff
    have hne : favoredClusterId sc ≠ unassignedId := by
      intro e
      refine hu (unique_one (k := unassignedId) ?_ (h1.1 e).2)
      rintro rfl
      obtain ⟨i, hi⟩ := List.exists_mem_of_ne_nil _ hBne
      obtain ⟨s, hs⟩ := Option.ne_none_iff_exists'.1 (hB i hi)
      have := (hentry i s.clusterId).2 ⟨hi, s, hs, rfl⟩
      cases this
    refine ⟨hne, ?_⟩
    rcases (h2 hne).1 with h' | ⟨⟨i, c⟩, hic, he⟩
    · exact absurd h' hne
    · obtain ⟨hi, s, hs, e⟩ := (hentry i c).1 hic
      exact ⟨i, hi, s, hs, e.trans he⟩
  generalize favoredClusterId sc = fav at *
  obtain ⟨x, hx⟩ := h.solid.exist i0 s0 hs0 (by rw [hi0c]; exact hfav)
  rw [hi0c] at hx
  have hin : ∀ k y, w.clusters.get? k = some y → ∀ p ∈ B, p ∈ y.sites.keys → ∀ i ∈ y.sites.keys, i ∈ B :=
    fun k y hy p hp hpy => h.solid.contains h.st h.good h.ratio hBne ht hsc hu hy hp hpy
  have hmem : ∀ i s y, w.sites.get? i = some s → w.clusters.get? s.clusterId = some y → i ∈ y.sites.keys := by
    intro i s y hs hy
    have hne : s.clusterId ≠ unassignedId := by
      have := (h.st.cid _ y hy).2.1
      have := unassigned_neg
      omega
    obtain ⟨t, ht⟩ := Option.ne_none_iff_exists'.1 ((h.st.joined i s hs hne).2.2.2 y hy)
    exact IMap.mem_keys_iff_get?.2 ⟨t, ht⟩
  have hxB : ∀ i ∈ x.sites.keys, i ∈ B := hin fav x hx i0 hi0 (hmem i0 s0 x hs0 (by rw [hi0c]; exact hx))
  have hmirror : ∀ k y, w.clusters.get? k = some y → Mirror w y := by
    intro k y hy i s hs
    obtain ⟨-, t, ht, -⟩ := h.st.member k y i s hy hs
    exact ⟨t, ht, h.tw k y i s t hy hs ht⟩
  have hsx := h.settled fav x hx
  have hxn : x.sites.keys.Nodup := (h.st.cinv hx).sites
  have hx2 : 2 ≤ x.sites.keys.length := by rw [IMap.keys, List.length_map]; exact hsx.size
  -- the loop over the sites
  obtain ⟨⟨iso, cids⟩, w1, hcol⟩ := mergeCollect_total hx (sc := sc) (fun ic hic => by
    obtain ⟨hi, -⟩ := (hentry ic.1 ic.2).1 hic
    exact hB _ hi) [] []
  obtain ⟨hatt, ⟨l, hiso, hl⟩, hcids, hcn, -⟩ := mergeCollect_ok hscw hcol
  rw [List.nil_append] at hiso
  subst hiso
  have hcl : w1.clusters = w.clusters := by rw [hatt.eq]
  generalize hlid : (sc.filter fun ic => ic.2 ≠ fav ∧ ic.2 = unassignedId).map Prod.fst = lid
  have hl' : lid.map (IMap.get? w.sites) = iso.map some := by rw [← hlid, List.map_map, ← hl]; rfl
  have hidl := ids_eq h.st hl'
  have hlidn : lid.Nodup := by
    rw [← hlid]
    exact List.Nodup.sublist (List.Sublist.map _ List.filter_sublist) hscw
  have hlmem : ∀ i, i ∈ lid ↔ i ∈ B ∧ ∃ s, w.sites.get? i = some s ∧ s.clusterId = unassignedId := by
    intro i
    rw [← hlid, List.mem_map]
    constructor
    · rintro ⟨⟨j, c⟩, hjc, rfl⟩
      rw [List.mem_filter] at hjc
      simp only [ne_eq, decide_eq_true_eq] at hjc
      obtain ⟨a, -, b⟩ := hjc
      rw [← b]
      exact (hentry j c).1 a
    · rintro ⟨hi, s, hs, e⟩
      refine ⟨(i, unassignedId), ?_, rfl⟩
      rw [List.mem_filter]
      refine ⟨(hentry i _).2 ⟨hi, s, hs, e⟩, ?_⟩
      simp only [ne_eq, decide_eq_true_eq]
      exact ⟨fun e => hfav e.symm, trivial⟩
  have hlx : ∀ i ∈ lid, i ∉ x.sites.keys := by
    intro i hi hix
    obtain ⟨-, s, hs, e⟩ := (hlmem i).1 hi
    obtain ⟨s', hs', e'⟩ := h.solid.own fav x i hx hix
    rw [hs] at hs'
    obtain rfl := Option.some.inj hs'
    exact hfav (e'.symm.trans e)
  -- the other clusters
  have hother : ∀ k ∈ cids, k ≠ fav ∧ ∃ y, w.clusters.get? k = some y ∧ (∀ i ∈ y.sites.keys, i ∈ B) ∧ y.sites.keys.Nodup ∧
      2 ≤ y.sites.keys.length := by
    intro k hk
    rcases (hcids k).1 hk with h' | ⟨hkf, hku, hks⟩
    · cases h'
    · obtain ⟨⟨i, c⟩, hic, rfl⟩ := List.mem_map.1 hks
      obtain ⟨hi, s, hs, e⟩ := (hentry i c).1 hic
      change c ≠ unassignedId at hku
      obtain ⟨y, hy⟩ := h.solid.exist i s hs (by rw [e]; exact hku)
      rw [e] at hy
      refine ⟨hkf, y, hy, hin c y hy i hi (hmem i s y hs (by rw [e]; exact hy)), (h.st.cinv hy).sites, ?_⟩
      rw [IMap.keys, List.length_map]; exact (h.settled c y hy).size
  have hdisj : ∀ k y k' y', w.clusters.get? k = some y → w.clusters.get? k' = some y' → k ≠ k' → ∀ i ∈ y.sites.keys,
      i ∉ y'.sites.keys := by
    intro k y k' y' hy hy' hne i hi hi'
    obtain ⟨s, hs⟩ := IMap.mem_keys_iff_get?.1 hi
    obtain ⟨s', hs'⟩ := IMap.mem_keys_iff_get?.1 hi'
    exact hne (h.st.disjoint k y k' y' i hy hy' (by rw [hs]; simp) (by rw [hs']; simp))
  have hcover : ∀ i ∈ B, i ∈ x.sites.keys ∨ i ∈ lid ∨ ∃ k ∈ cids, ∃ y, w.clusters.get? k = some y ∧ i ∈ y.sites.keys := by
    intro i hi
    obtain ⟨s, hs⟩ := Option.ne_none_iff_exists'.1 (hB i hi)
    by_cases e1 : s.clusterId = unassignedId
    · exact .inr (.inl ((hlmem i).2 ⟨hi, s, hs, e1⟩))
    · obtain ⟨y, hy⟩ := h.solid.exist i s hs e1
      have hiy := hmem i s y hs hy
      by_cases e2 : s.clusterId = fav
      · rw [e2, hx] at hy
        obtain rfl := Option.some.inj hy
        exact .inl hiy
      · exact .inr (.inr ⟨s.clusterId, (hcids _).2 (.inr ⟨e2, e1, List.mem_map.2 ⟨(i, s.clusterId), (hentry i _).2 ⟨hi, s, hs, rfl⟩, rfl⟩⟩), y, hy, hiy⟩)
  -- the sites that are added
  obtain ⟨c1, h1⟩ := addSites_total (c := x) (sites := iso) (by rw [hidl]; exact hlidn) (fun s hs => by
    rw [IMap.get?_eq_none_iff]
    refine hlx s.id ?_
    rw [← hidl]; exact List.mem_map_of_mem (f := Site.id) hs)
  obtain ⟨hm1, hk1⟩ := addSites_mirror h.st (hmirror fav x hx) hl' h1
  have hi1 := (h.st.cinv hx).addSites h1
  have e1 := (addSites_ok h1).1
  have hreads1 : Cluster.Reads c1 := by
    have hr := hsx.reads
    refine ⟨by rw [e1]; exact hr.tau, by rw [e1]; exact hr.res, ?_⟩
    rcases hr.dwell with hd | hd
    · left; rw [e1]; exact hd
    · right
      intro i hi
      rw [e1] at hi
      obtain ⟨a, b⟩ := hd i hi
      exact ⟨(hk1 i).2 (.inl a), by rw [e1]; exact b⟩
  -- at most one other cluster
  have hcount : cids = [] ∨ ∃ k, cids = [k] ∧ lid.length ≤ 1 := by
    match hcs : cids with
    | [] => exact .inl rfl
    | [k] =>
      right
      refine ⟨k, rfl, ?_⟩
      obtain ⟨hkf, y, hy, hyB, hyn, hy2⟩ := hother k (by simp)
      have hnd : (x.sites.keys ++ y.sites.keys ++ lid).Nodup := by
        rw [List.nodup_append, List.nodup_append]
        refine ⟨⟨hxn, hyn, fun a ha b hb e => hdisj fav x k y hx hy (Ne.symm hkf) a ha (e ▸ hb)⟩, hlidn, fun a ha b hb e => ?_⟩
        subst e
        rcases List.mem_append.1 ha with ha | ha
        · exact hlx a hb ha
        · obtain ⟨-, s, hs, e⟩ := (hlmem a).1 hb
          obtain ⟨s', hs', e'⟩ := h.solid.own k y a hy ha
          rw [hs] at hs'
          obtain rfl := Option.some.inj hs'
          have := (h.st.cid k y hy).2.1
          have := unassigned_neg
          omega
      have hle := (List.subperm_of_subset hnd (l₂ := B) (by
        intro i hi
        rcases List.mem_append.1 hi with hi | hi
        · rcases List.mem_append.1 hi with hi | hi
          · exact hxB i hi
          · exact hyB i hi
        · exact ((hlmem i).1 hi).1)).length_le
      rw [List.length_append, List.length_append] at hle
      omega
    | k :: k' :: r =>
      exfalso
      obtain ⟨hkf, y, hy, hyB, hyn, hy2⟩ := hother k (by simp)
      obtain ⟨hkf', y', hy', hyB', hyn', hy2'⟩ := hother k' (by simp)
      have hkk : k ≠ k' := by
        have := hcn List.nodup_nil
        rw [List.nodup_cons] at this
        exact fun e => this.1 (by simp [e])
      have hnd : (x.sites.keys ++ y.sites.keys ++ y'.sites.keys).Nodup := by
        rw [List.nodup_append, List.nodup_append]
        refine ⟨⟨hxn, hyn, fun a ha b hb e => hdisj fav x k y hx hy (Ne.symm hkf) a ha (e ▸ hb)⟩, hyn', fun a ha b hb e => ?_⟩
        subst e
        rcases List.mem_append.1 ha with ha | ha
        · exact hdisj fav x k' y' hx hy' (Ne.symm hkf') a ha hb
        · exact hdisj k y k' y' hy hy' hkk a ha hb
      have hle := (List.subperm_of_subset hnd (l₂ := B) (by
        intro i hi
        rcases List.mem_append.1 hi with hi | hi
        · rcases List.mem_append.1 hi with hi | hi
          · exact hxB i hi
          · exact hyB i hi
        · exact hyB' i hi)).length_le
      rw [List.length_append, List.length_append] at hle
      omega
  have hBshape : Shape mem w B := by
    obtain ⟨u, hu', v, hv', huv⟩ := two_of_length hxn hx2
    exact Shape.whole hc ⟨u, hxB u hu', v, hxB v hv', huv⟩ hsh
  have hfit : Cluster.Fit mem c1 := by
    refine fit_of h.good h.both hm1 ?_ hi1.sites hi1.prob (by rw [e1]; exact hsx.method) (by rw [e1]; exact hsx.tol) hreads1
    rcases hcount with hcs | ⟨k, hcs, hl1⟩
    · refine hBshape.congr fun i => ?_
      rw [hk1]
      refine ⟨fun h => h.elim (hxB i) fun h => ((hlmem i).1 h).1, fun hi => ?_⟩
      rcases hcover i hi with h | h | ⟨k, hk, -⟩
      · exact .inl h
      · exact .inr h
      · rw [hcs] at hk; cases hk
    · obtain ⟨hkf, y, hy, hyB, hyn, hy2⟩ := hother k (by rw [hcs]; simp)
      refine Shape.part h.both hsx.conn (two_of_length hxn hx2) hl1 hk1 ?_
      obtain ⟨p, hp, -⟩ := two_of_length hyn hy2
      have hpS : p ∉ c1.sites.keys := by
        rw [hk1]
        rintro (h' | h')
        · exact hdisj fav x k y hx hy (Ne.symm hkf) p h' hp
        · obtain ⟨-, s, hs, e⟩ := (hlmem p).1 h'
          obtain ⟨s', hs', e'⟩ := h.solid.own k y p hy hp
          rw [hs] at hs'
          obtain rfl := Option.some.inj hs'
          have := (h.st.cid k y hy).2.1
          have := unassigned_neg
          omega
      obtain ⟨u, hu', -⟩ := two_of_length hxn hx2
      obtain ⟨i, hi, j, hj, -, hij⟩ := leave (hc u (hxB u hu') p (hyB p hp)) ((hk1 u).2 (.inl hu')) hpS
      exact ⟨i, hi, j, hj, hij⟩
  have hmerge : ∀ f, merge (env.rounds f) mem w order sc fav = (match c1.update (env.rounds f) mem with
      | (.error e, c) => (.error e, { w1 with clusters := w1.clusters.put fav c })
      | (.ok _, c) => mergeClusters (env.rounds f) mem fav { w1 with clusters := w1.clusters.put fav c } (order cids)) := by
    intro f
    unfold merge
    have hg : w1.clusters.getCluster fav = .ok x := by unfold ClusterContainer.getCluster; rw [hcl, hx]
    simp only [hcol, hg, h1]
    rfl
  refine Settles.of_eq ?_ hmerge
  refine Settles.bind (Cluster.update_settles (env := env) hfit) (G := fun f p => match p with
      | (.error e, c) => (.error e, { w1 with clusters := w1.clusters.put fav c })
      | (.ok _, c) => mergeClusters (env.rounds f) mem fav { w1 with clusters := w1.clusters.put fav c } (order cids)) ?_ ?_
  · intro e b hf
    exact Settles.const hf.error
  · intro u c2 N hN
    simp only
    have hup := hN N le_rfl
    obtain ⟨a1, a2, a3, a4, a5, a6, a7, a8⟩ := hfit.after hup
    rcases hcount with hcs | ⟨k, hcs, hl1⟩
    · have ho : order cids = [] := List.perm_nil.1 (hcs ▸ hord [])
      rw [ho]
      exact Settles.const (.ok _)
    · have ho : order cids = [k] := List.perm_singleton.1 (hcs ▸ hord [k])
      rw [ho]
      obtain ⟨hkf, y, hy, hyB, hyn, hy2⟩ := hother k (by rw [hcs]; simp)
      have g1 : ClusterContainer.getCluster (w1.clusters.put fav c2) fav = .ok c2 := by
        unfold ClusterContainer.getCluster ClusterContainer.put
        rw [IMap.get?_set_self]
      have g2 : ClusterContainer.getCluster (w1.clusters.put fav c2) k = .ok y := by
        unfold ClusterContainer.getCluster ClusterContainer.put
        rw [IMap.get?_set_ne _ _ (Ne.symm hkf), hcl, hy]
      have hi2 : Cluster.CInv c2 := by
        have := hi1.update (env := env.rounds N) (mem := mem)
        rw [hup] at this; exact this
      have hreads2 : Cluster.Reads c2 := a8 (by
        rw [e1]
        show x.siteVisits.keys ≠ []
        obtain ⟨u, hu', -⟩ := two_of_length hxn hx2
        exact List.ne_nil_of_mem ((hsx.visits u).2 hu'))
      have hsy := h.settled k y hy
      have hmig : Settles fun f => c2.migrateSitesFrom (env.rounds f) mem y := by
        refine Cluster.migrate_settles hsy.reads (fun i hi => (hsy.visits i).2 hi) hyn ?_ hi2.sites
        intro sites hsw hsg
        have hkeys : ∀ i, i ∈ sites.keys ↔ i ∈ c2.sites.keys ∨ i ∈ y.sites.keys := by
          intro i
          rw [IMap.mem_keys_iff_get?, hsg, IMap.mem_keys_iff_get?, IMap.mem_keys_iff_get?]
          cases c2.sites.get? i with
          | some s => simp
          | none => cases y.sites.get? i <;> simp
        refine fit_of (c := { c2 with sites := sites }) h.good h.both ?_ ?_ hsw ?_ ?_ ?_ ?_
        · intro i s hs
          change IMap.get? sites i = some s at hs
          rw [hsg] at hs
          cases hc2 : c2.sites.get? i with
          | some t =>
            rw [hc2] at hs
            obtain rfl := Option.some.inj hs
            rw [a1] at hc2
            exact hm1 i t hc2
          | none =>
            rw [hc2] at hs
            obtain ⟨t, ht', rfl⟩ := Option.map_eq_some_iff.1 hs
            obtain ⟨t', h1', h2'⟩ := hmirror k y hy i t ht'
            exact ⟨t', h1', (show Twin (Cluster.mark c2.id t) t from ⟨rfl, rfl, rfl, rfl, rfl⟩).trans h2'⟩
        · refine hBshape.congr fun i => ?_
          show i ∈ sites.keys ↔ i ∈ B
          rw [hkeys, a1, hk1]
          constructor
          · rintro ((h' | h') | h')
            · exact hxB i h'
            · exact ((hlmem i).1 h').1
            · exact hyB i h'
          · intro hi
            rcases hcover i hi with h' | h' | ⟨k', hk', y', hy', h'⟩
            · exact .inl (.inl h')
            · exact .inl (.inr h')
            · rw [hcs, List.mem_singleton] at hk'
              subst hk'
              rw [hy] at hy'
              obtain rfl := Option.some.inj hy'
              exact .inr h'
        · exact ⟨hi2.prob.1, fun i hi => (hkeys i).2 (.inl (hi2.prob.2 i hi))⟩
        · show c2.method = _
          rw [a3, e1]; exact hsx.method
        · show 0 < c2.tol
          rw [a4, e1]; exact hsx.tol
        · refine ⟨hreads2.tau, hreads2.res, ?_⟩
          rcases hreads2.dwell with hd | hd
          · exact .inl hd
          · exact .inr fun i hi => ⟨(hkeys i).2 (.inl (hd i hi).1), (hd i hi).2⟩
      have hmc : ∀ f, mergeClusters (env.rounds f) mem fav { w1 with clusters := w1.clusters.put fav c2 } [k] =
          (match c2.migrateSitesFrom (env.rounds f) mem y with
          | (.error e, c, src) => (.error e, { w1 with clusters := ((w1.clusters.put fav c2).put fav c).put k src })
          | (.ok _, c, _) => (.ok (), { w1 with clusters := ((w1.clusters.put fav c2).put fav c).erase k })) := by
        intro f
        unfold mergeClusters
        simp only [g1, g2]
        rfl
      refine Settles.of_eq ?_ hmc
      refine Settles.bind hmig (G := fun f p => match p with
          | (.error e, c, src) => (.error e, { w1 with clusters := ((w1.clusters.put fav c2).put fav c).put k src })
          | (.ok _, c, _) => (.ok (), { w1 with clusters := ((w1.clusters.put fav c2).put fav c).erase k })) ?_ ?_
      · intro e b hf
        exact Settles.const hf.error
      · intro u b N' _
        exact Settles.const (.ok _)

/-! ## The attempt and the hop -/

theorem coarseGrainBasin_settles (h : Sane env mem w) {v : Int} {a : Choices K} {B : List Int} (hv : w.sites.get? v ≠ none)
    (hf : Explorer.default.findBasin a.vis mem w.sites w.clusters v = .ok B)
    (hs : w.satisfies mem B (maxTime a.times) = .ok true) (hcov : CoversTimes mem w v a) :
    Settles fun f => coarseGrainBasin (env.rounds f) mem w a B := by
  obtain ⟨hB, hn, h5, hvB, hc⟩ := h.basin hv hf
  have hex := h.exit hs
  have hne : B ≠ [] := by obtain ⟨i, hi, -⟩ := hex; exact List.ne_nil_of_mem hi
  have ht : Tight mem w w.perfRatio B := tight_basin h.good h.ratio hs fun x hx y hy hxy => hcov B hf x hx y hy hxy (hc x hx y hy)
  obtain ⟨sc, hsc⟩ := clustersOfSites_total hB []
  have hgen : ∀ f, coarseGrainBasin (env.rounds f) mem w a B =
      if countUniqueClusters sc = 1 ∧ (sc.head?.map Prod.snd) = some unassignedId then
        match createCluster (env.rounds f) mem w B (maxTime a.times) with
        | (.error e, w) => (.error e, w)
        | (.ok _, w) => (.ok true, w)
      else if countUniqueClusters sc ≠ 1 then
        match merge (env.rounds f) mem w a.order sc (favoredClusterId sc) with
        | (.error e, w) => (.error e, w)
        | (.ok _, w) => (.ok true, w)
      else (.ok false, w) := by
    intro f
    unfold coarseGrainBasin
    rw [hsc]
    rfl
  refine Settles.of_eq ?_ hgen
  by_cases h1 : countUniqueClusters sc = 1 ∧ (sc.head?.map Prod.snd) = some unassignedId
  · simp only [if_pos h1]
    obtain ⟨s, hs'⟩ := Option.ne_none_iff_exists'.1 hv
    have hsv : s.clusterId = unassignedId := by
      obtain ⟨hscw, hget, -⟩ := clustersOfSites_ok h.st (acc := []) List.nodup_nil hsc
      have hg := hget v
      rw [if_pos (hvB hne), hs'] at hg
      have hm := IMap.mem_of_get? hg
      obtain ⟨hu1, hu2⟩ := h1
      unfold countUniqueClusters at hu1
      obtain ⟨y, hy⟩ := List.length_eq_one_iff.1 hu1
      have hall : ∀ c ∈ sc.map Prod.snd, c = y := by
        intro c hc'
        rw [← List.mem_dedup, hy, List.mem_singleton] at hc'
        exact hc'
      have e1 := hall s.clusterId (List.mem_map.2 ⟨_, hm, rfl⟩)
      obtain ⟨q, hq, hq2⟩ := Option.map_eq_some_iff.1 hu2
      have e2 := hall q.2 (List.mem_map.2 ⟨q, List.mem_of_mem_head? hq, rfl⟩)
      rw [e1, ← e2, hq2]
    obtain ⟨u, hu, huv⟩ := h.two hs' hsv hf hne
    refine Settles.bind (create_settles h (Shape.whole hc ⟨u, hu, v, hvB hne, huv⟩ hex) hc hB hn (maxTime a.times))
      (G := fun f p => match p with
        | (.error e, w) => (.error e, w)
        | (.ok _, w) => (.ok true, w)) ?_ ?_
    · intro e b hf
      exact Settles.const hf.error
    · intro u b N _
      exact Settles.const (.ok _)
  · simp only [if_neg h1]
    by_cases h2 : countUniqueClusters sc ≠ 1
    · simp only [if_pos h2]
      refine Settles.bind (merge_settles h hex hc hB hn h5 ht hsc h2 a.order_perm)
        (G := fun f p => match p with
          | (.error e, w) => (.error e, w)
          | (.ok _, w) => (.ok true, w)) ?_ ?_
      · intro e b hf
        exact Settles.const hf.error
      · intro u b N _
        exact Settles.const (.ok _)
    · simp only [if_neg h2]
      exact Settles.const (.ok _)

theorem coarseGrain_settles (h : Sane env mem w) {v : Int} {a : Choices K} (hv : w.sites.get? v ≠ none)
    (hcov : CoversTimes mem w v a) : Settles fun f => coarseGrain (env.rounds f) mem w a v := by
  obtain ⟨B, hf⟩ := h.find hv a.vis
  obtain ⟨s, hs⟩ := Option.ne_none_iff_exists'.1 hv
  obtain ⟨b, hb⟩ := satisfies_total (mem := mem) (fun i s hs => (h.good i s hs).1) (h.basin hv hf).1 (h.res v s hs) (maxTime a.times)
  cases b with
  | false =>
    refine Settles.of_eq (Settles.const (r := (.ok false, w)) (.ok _)) fun f => ?_
    unfold coarseGrain
    simp only [hf, hb]
  | true =>
    refine Settles.of_eq (coarseGrainBasin_settles h hv hf hb hcov) fun f => ?_
    unfold coarseGrain
    simp only [hf, hb]

theorem hopCount_settles (h : Sane env mem w) {v : Int} {a : Choices K} (hv : w.sites.get? v ≠ none)
    (hcov : CoversTimes mem w v a) : Settles fun f => hopCount (env.rounds f) mem w a v := by
  have hf1 := Fair.chk (w.iteration + 1)
  cases hc : chk (w.iteration + 1) with
  | error e =>
    rw [hc] at hf1
    refine Settles.of_eq (Settles.const (r := (.error e, w)) hf1.error) fun f => ?_
    unfold hopCount
    simp only [hc]
  | ok it =>
    have hgen : ∀ f, hopCount (env.rounds f) mem w a v = if it > w.threshold then
        if w.thresholdMin ≠ infIterations then
          match coarseGrain (env.rounds f) mem { w with iteration := it } a v with
          | (.error e, w) => (.error e, w)
          | (.ok true, w) => (.ok (), { w with threshold := w.thresholdMin, iteration := 0 })
          | (.ok false, w) =>
            match chk (w.threshold * 2) with
            | .error e => (.error e, w)
            | .ok t => (.ok (), { w with threshold := t, iteration := 0 })
        else (.ok (), { w with iteration := 0 })
      else (.ok (), { w with iteration := it }) := by
      intro f
      unfold hopCount
      rw [hc]
      rfl
    refine Settles.of_eq ?_ hgen
    by_cases h1 : it > w.threshold
    · simp only [if_pos h1]
      by_cases h2 : w.thresholdMin ≠ infIterations
      · simp only [if_pos h2]
        have h' : Sane env mem { w with iteration := it } := h.keep (Keep.of_eq rfl rfl rfl le_rfl) rfl rfl
        refine Settles.bind (coarseGrain_settles h' hv hcov) (G := fun f p => match p with
          | (.error e, w) => (.error e, w)
          | (.ok true, w) => (.ok (), { w with threshold := w.thresholdMin, iteration := 0 })
          | (.ok false, w) =>
            match chk (w.threshold * 2) with
            | .error e => (.error e, w)
            | .ok t => (.ok (), { w with threshold := t, iteration := 0 })) ?_ ?_
        · intro e b hf
          exact Settles.const hf.error
        · intro b w2 N _
          cases b with
          | true => exact Settles.const (.ok _)
          | false =>
            have hf2 := Fair.chk (w2.threshold * 2)
            simp only
            cases hc2 : chk (w2.threshold * 2) with
            | error e => rw [hc2] at hf2; exact Settles.const hf2.error
            | ok t => exact Settles.const (.ok _)
      · simp only [if_neg h2]
        exact Settles.const (.ok _)
    · simp only [if_neg h1]
      exact Settles.const (.ok _)

end Mythical.World
