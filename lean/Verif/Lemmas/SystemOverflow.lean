import Verif.Lemmas.ClusterOverflow
import Verif.Lemmas.SystemStays
import Verif.Lemmas.SystemTotal
import Verif.Lemmas.SystemPace

/-! # Counters of a system do not overflow: lemmas -/

set_option linter.unusedSectionVars false
set_option linter.unusedVariables false

namespace Mythical
variable {K : Type} [Field K] [LinearOrder K] [IsStrictOrderedRing K] [FloorRing K]
variable {env : Env K} {mem : Addr → K}

/-! ## Faults of the searches -/

theorem SiteContainer.getSite_calm (m : SiteContainer K) (i : Int) : Calm (m.getSite i) := by
  unfold SiteContainer.getSite
  split
  · exact .err soft_invalid
  · exact .ok _

theorem ClusterContainer.getCluster_calm (m : ClusterContainer K) (i : Int) : Calm (m.getCluster i) := by
  unfold ClusterContainer.getCluster
  split
  · exact .err soft_invalid
  · exact .ok _

theorem SiteContainer.getRate_calm (m : SiteContainer K) (i n : Int) : Calm (m.getRateToNeighborOfSite mem i n) := by
  refine .bind (m.getSite_calm i) fun s _ => ?_
  unfold Site.getRateToNeighbor
  split
  · exact .err soft_assert
  · exact .ok _

namespace Explorer

theorem addEdge_calm (ex : Explorer K) (sites : SiteContainer K) (v : Int) (st : Search K) (n : Int) :
    Calm (addEdge ex mem sites v st n) := by
  unfold addEdge
  split
  · exact .ok _
  · refine .bind (sites.getRate_calm v n) fun r _ => ?_
    simp only
    refine .bind (.bind (sites.getSite_calm v) fun _ _ => .ok _) fun c _ => ?_
    refine .bind ?_ fun b _ => ?_
    · unfold rateFastEnough
      split
      · exact .err soft_finite
      · exact .ok _
    · split <;> exact .ok _

theorem addEdges_calm (ex : Explorer K) (sites : SiteContainer K) (v : Int) (l : List Int) (st : Search K) :
    Calm (addEdges ex mem sites v st l) := by
  induction l generalizing st with
  | nil => exact .ok _
  | cons n l ih => exact .bind (addEdge_calm ex sites v st n) fun st' _ => ih st'

theorem searchLoop_calm (ex : Explorer K) (vis : Visitor) (sites : SiteContainer K) (n : Nat) (st : Search K) :
    Calm (searchLoop ex vis mem sites n st) := by
  induction n generalizing st with
  | zero => exact .err soft_fuel
  | succ n ih =>
    unfold searchLoop
    split
    · exact .ok _
    · simp only
      refine .bind (addEdges_calm _ _ _ _ _) fun st' _ => ?_
      split
      · exact .ok _
      · exact ih _

theorem findBasin_calm (ex : Explorer K) (vis : Visitor) (sites : SiteContainer K) (clusters : ClusterContainer K) (v : Int) :
    Calm (findBasin ex vis mem sites clusters v) := by
  refine .bind (.bind (sites.getSite_calm v) fun _ _ => .ok _) fun f _ => ?_
  refine .bind ?_ fun s _ => .bind (addEdges_calm _ _ _ _ _) fun st _ => searchLoop_calm _ _ _ _ _
  refine .bind (.bind (sites.getSite_calm v) fun _ _ => .ok _) fun b _ => ?_
  split
  · exact .bind (.bind (sites.getSite_calm v) fun _ _ => .ok _) fun c _ => .bind (clusters.getCluster_calm c) fun _ _ => .ok _
  · exact .ok _

end Explorer

/-! ## Single calls -/

theorem Site.occupy_calm {s : Site K} {lo up : Int} (h : (-lo ≤ s.occupied ∧ s.occupied ≤ up) ∧ 0 ≤ s.visits ∧ s.visits ≤ up)
    (hlo : lo ≤ 2147483647) (hup : up + 1 ≤ 2147483647) :
    Calm s.occupy ∧ ∀ s', s.occupy = .ok s' → (-lo ≤ s'.occupied ∧ s'.occupied ≤ up + 1) ∧ 0 ≤ s'.visits ∧ s'.visits ≤ up + 1 := by
  obtain ⟨⟨h1, h2⟩, h3, h4⟩ := h
  unfold Site.occupy
  rw [chk_ok (fitsInt_of (by omega) (by omega)), ok_bind, chk_ok (fitsInt_of (by omega) (by omega)), ok_bind]
  refine ⟨.ok _, fun s' e => ?_⟩
  cases e
  exact ⟨⟨by show -lo ≤ s.occupied + 1; omega, by show s.occupied + 1 ≤ up + 1; omega⟩, by show 0 ≤ s.visits + 1; omega,
    by show s.visits + 1 ≤ up + 1; omega⟩

theorem Site.vacate_calm {s : Site K} {lo up : Int} (h : -lo ≤ s.occupied ∧ s.occupied ≤ up)
    (hlo : lo + 1 ≤ 2147483647) (hup : up ≤ 2147483647) :
    Calm s.vacate ∧ ∀ s', s.vacate = .ok s' → (-(lo + 1) ≤ s'.occupied ∧ s'.occupied ≤ up) ∧ s'.visits = s.visits := by
  obtain ⟨h1, h2⟩ := h
  unfold Site.vacate
  rw [chk_ok (fitsInt_of (by omega) (by omega)), ok_bind]
  refine ⟨.ok _, fun s' e => ?_⟩
  cases e
  exact ⟨⟨by show -(lo + 1) ≤ s.occupied - 1; omega, by show s.occupied - 1 ≤ up; omega⟩, rfl⟩

namespace Cluster
variable {c : Cluster K} {lo up : Int} {κ : K}

theorem Low.visit (h : Low lo up κ c) (i : Int) : ∃ z : Int, c.siteVisits.at0 i = z ∧ 0 ≤ z ∧
    (z : K) + ((c.visits + 1 - c.prevVisits : Int) : K) * κ ≤ ((up + 1 : Int) : K) * κ := by
  obtain ⟨z, a, b, e⟩ := h.count i
  refine ⟨z, a, b, ?_⟩
  push_cast at e ⊢
  linear_combination e

theorem occupy_low (h : Low lo up κ c) (hlo : lo ≤ 2147483647) (hup : up + 1 ≤ 2147483647) :
    Calm c.occupy ∧ ∀ c', c.occupy = .ok c' → Low lo (up + 1) κ c' := by
  obtain ⟨o1, o2⟩ := h.occ
  obtain ⟨v1, v2, v3⟩ := h.vis
  unfold Cluster.occupy
  rw [chk_ok (fitsInt_of (by omega) (by omega)), ok_bind, chk_ok (fitsInt_of (by omega) (by omega)), ok_bind]
  refine ⟨.ok _, fun c' e => ?_⟩
  cases e
  exact ⟨⟨by show -lo ≤ c.occupied + 1; omega, by show c.occupied + 1 ≤ up + 1; omega⟩,
    ⟨v1, by show c.prevVisits ≤ c.visits + 1; omega, by show c.visits + 1 ≤ up + 1; omega⟩,
    fun i s hs => by have := h.site i s hs; omega, fun i => h.visit i⟩

theorem occupySite_low (h : Low lo up κ c) (hlo0 : 0 ≤ lo) (hup0 : 0 ≤ up) (hup : up + 1 ≤ 2147483647) (i : Int) :
    Calm (c.occupySite i) ∧ ∀ c', c.occupySite i = .ok c' → Low lo (up + 1) κ c' := by
  obtain ⟨o1, o2⟩ := h.occ
  obtain ⟨v1, v2, v3⟩ := h.vis
  unfold Cluster.occupySite
  split
  · rw [chk_ok (fitsInt_of (by omega) (by omega)), ok_bind]
    refine ⟨.ok _, fun c' e => ?_⟩
    cases e
    refine ⟨⟨o1, by show c.occupied ≤ up + 1; omega⟩,
      ⟨v1, by show c.prevVisits ≤ c.visits + 1; omega, by show c.visits + 1 ≤ up + 1; omega⟩, fun j s hs => ?_, fun i => h.visit i⟩
    have hs : (c.sites.set i (c.siteAt i).setToOccupiedStatus).get? j = some s := hs
    rw [IMap.get?_set] at hs
    split at hs
    · cases hs
      show -lo ≤ 1 ∧ 1 ≤ up + 1
      omega
    · have := h.site j s hs; omega
  · exact ⟨.err soft_assert, fun c' e => by cases e⟩

theorem vacateSite_low (h : Low lo up κ c) (hκ : 0 ≤ κ) (hlo0 : 0 ≤ lo) (hup0 : 0 ≤ up) (hlo : lo + 1 ≤ 2147483647)
    (hup : up ≤ 2147483647) (i : Int) :
    Calm (c.vacateSite i) ∧ ∀ c', c.vacateSite i = .ok c' → Low (lo + 1) up κ c' := by
  obtain ⟨o1, o2⟩ := h.occ
  have hsi : -lo ≤ (c.siteAt i).occupied ∧ (c.siteAt i).occupied ≤ up := by
    unfold siteAt
    cases e : c.sites.get? i with
    | some s => exact h.site i s e
    | none =>
      show -lo ≤ 0 ∧ 0 ≤ up
      omega
  obtain ⟨k1, k2⟩ := Site.vacate_calm hsi hlo hup
  unfold vacateSite
  refine ⟨.bind k1 fun s _ => .bind (.chk (fitsInt_of (by omega) (by omega))) fun _ _ => .ok _, fun c' e => ?_⟩
  obtain ⟨s, hs, e⟩ := bind_eq_ok.1 e
  obtain ⟨o, ho, e⟩ := bind_eq_ok.1 e
  obtain ⟨rfl, -⟩ := chk_eq_ok.1 ho
  cases e
  refine ⟨⟨by show -(lo + 1) ≤ c.occupied - 1; omega, by show c.occupied - 1 ≤ up; omega⟩, h.vis, fun j t ht => ?_, h.count⟩
  have ht : (c.sites.set i s).get? j = some t := ht
  rw [IMap.get?_set] at ht
  split at ht
  · cases ht; exact (k2 s hs).1
  · have := h.site j t ht; omega

theorem getDwellTime_low (h : Low lo up κ c) {wid : Int} {e t : K} {c' : Cluster K} (hd : c.getDwellTime wid e = .ok (t, c')) :
    Low lo up κ c' := by
  unfold getDwellTime at hd
  split at hd
  · cases hd
  · cases hd
  · simp only at hd
    split at hd
    · cases hd; exact ⟨h.occ, h.vis, h.site, h.count⟩
    · split at hd
      · cases hd; exact ⟨h.occ, h.vis, h.site, h.count⟩
      · cases hd

theorem pickNewSiteId_low (h : Low lo up κ c) {wid n : Int} {u : K} {c' : Cluster K} (hd : c.pickNewSiteId wid u = .ok (n, c')) :
    Low lo up κ c' := by
  unfold pickNewSiteId at hd
  split at hd
  · cases hd
  · split at hd
    · cases hd; exact h
    · cases hd; exact ⟨h.occ, h.vis, h.site, h.count⟩

theorem addSites_low (h : Low lo up κ c) {l : List (Site K)} (hl : ∀ s ∈ l, -lo ≤ s.occupied ∧ s.occupied ≤ up) {c' : Cluster K}
    (ha : c.addSites l = .ok c') : Low lo up κ c' := by
  induction l generalizing c with
  | nil => cases ha; exact h
  | cons s l ih =>
    unfold addSites at ha
    obtain ⟨c1, h1, h2⟩ := bind_eq_ok.1 ha
    obtain ⟨-, rfl⟩ := addSite_ok h1
    refine ih (c := { c with sites := c.sites.set s.id { s with clusterId := c.id } }) ⟨h.occ, h.vis, fun i t ht => ?_, h.count⟩
      (fun t ht => hl t (List.mem_cons_of_mem _ ht)) h2
    have ht : (c.sites.set s.id { s with clusterId := c.id }).get? i = some t := ht
    rw [IMap.get?_set] at ht
    split at ht
    · cases ht; exact hl s (List.mem_cons_self ..)
    · exact h.site i t ht

end Cluster

namespace World
open SystemSpec
variable {w w' w1 w2 w3 : World K} {lo up top : Int} {κ : K}

/-! ## Counters of a world -/

/-- All counters are within the bounds. -/
structure Small (lo up top : Int) (κ : K) (w : World K) : Prop where
  lo0 : 0 ≤ lo
  up0 : 0 ≤ up
  site : ∀ i s, w.sites.get? i = some s → (-lo ≤ s.occupied ∧ s.occupied ≤ up) ∧ 0 ≤ s.visits ∧ s.visits ≤ up
  cluster : ∀ k x, w.clusters.get? k = some x → Cluster.Low lo up κ x
  ids : 0 ≤ w.nextId ∧ w.nextId ≤ top

/-- The bounds fit. -/
structure Room (lo up top : Int) (κ : K) : Prop where
  rate : 0 ≤ κ
  lo : lo ≤ 2147483647
  sum : (up : K) + up * κ ≤ 2147483647
  top : top ≤ 2147483647

theorem Room.fits (h : Room lo up top κ) (h0 : 0 ≤ up) : up ≤ 2147483647 := by
  have h1 : (0 : K) ≤ up * κ := mul_nonneg (by exact_mod_cast h0) h.rate
  have h2 := h.sum
  have : (up : K) ≤ ((2147483647 : Int) : K) := by push_cast; linarith
  exact_mod_cast this

theorem Room.times (h : Room lo up top κ) (h0 : 0 ≤ up) : (up : K) * κ ≤ 2147483647 := by
  have h1 : (0 : K) ≤ up := by exact_mod_cast h0
  linarith [h.sum]

theorem Small.mono (h : Small lo up top κ w) (hκ : 0 ≤ κ) {lo' up' top' : Int} (h1 : lo ≤ lo') (h2 : up ≤ up') (h3 : top ≤ top') :
    Small lo' up' top' κ w where
  lo0 := h.lo0.trans h1
  up0 := h.up0.trans h2
  site i s hs := by have := h.site i s hs; omega
  cluster k x hx := (h.cluster k x hx).mono hκ h1 h2
  ids := ⟨h.ids.1, h.ids.2.trans h3⟩

theorem Small.of_eq (h : Small lo up top κ w) (h1 : w'.sites = w.sites) (h2 : w'.clusters = w.clusters) (h3 : w'.nextId = w.nextId) :
    Small lo up top κ w' where
  lo0 := h.lo0
  up0 := h.up0
  site := by rw [h1]; exact h.site
  cluster := by rw [h2]; exact h.cluster
  ids := by rw [h3]; exact h.ids

theorem Small.putSite (h : Small lo up top κ w) {i : Int} {s : Site K}
    (hs : (-lo ≤ s.occupied ∧ s.occupied ≤ up) ∧ 0 ≤ s.visits ∧ s.visits ≤ up) :
    Small lo up top κ { w with sites := w.sites.put i s } where
  lo0 := h.lo0
  up0 := h.up0
  site j t ht := by
    have ht : (IMap.set w.sites i s).get? j = some t := ht
    rw [IMap.get?_set] at ht
    split at ht
    · cases ht; exact hs
    · exact h.site j t ht
  cluster := h.cluster
  ids := h.ids

theorem Small.putCluster (h : Small lo up top κ w) {k : Int} {x : Cluster K} (hx : Cluster.Low lo up κ x) :
    Small lo up top κ { w with clusters := w.clusters.put k x } where
  lo0 := h.lo0
  up0 := h.up0
  site := h.site
  cluster j y hy := by
    have hy : (IMap.set w.clusters k x).get? j = some y := hy
    rw [IMap.get?_set] at hy
    split at hy
    · cases hy; exact hx
    · exact h.cluster j y hy
  ids := h.ids

theorem siteOf_calm (w : World K) (i : Int) : Calm (w.siteOf i) := by
  unfold siteOf; split
  · exact .err soft_dangling
  · exact .ok _

theorem clusterOf_calm (w : World K) (i : Int) : Calm (w.clusterOf i) := by
  unfold clusterOf; split
  · exact .err soft_dangling
  · exact .ok _

theorem walkerOf_calm (w : World K) (i : Int) : Calm (w.walkerOf i) := by
  unfold walkerOf; split
  · exact .err soft_null
  · exact .ok _

theorem walkerSite_calm (x : Walker K) : Calm (walkerSite x) := by
  unfold walkerSite; split
  · exact .err soft_runtime
  · exact .ok _

theorem walkerPot_calm (x : Walker K) : Calm (walkerPot x) := by
  unfold walkerPot; split
  · exact .err soft_runtime
  · exact .ok _

theorem isOccupiedAt_calm (w : World K) (p : FPtr) (i : Int) : Calm (w.isOccupiedAt p i) := by
  unfold isOccupiedAt
  split
  · exact .err soft_null
  · exact .bind (w.siteOf_calm _) fun _ _ => .ok _
  · refine .bind (w.clusterOf_calm _) fun c _ => ?_
    unfold Cluster.isOccupiedSite
    split
    · exact .ok _
    · exact .err soft_assert

theorem Small.occupyFeat (h : Small lo up top κ w) (hr : Room lo (up + 1) top κ) (p : FPtr) :
    Calm (w.occupyFeat p) ∧ ∀ w', w.occupyFeat p = .ok w' → Small lo (up + 1) top κ w' := by
  have hup := hr.fits (by have := h.up0; omega)
  have hm : Small lo (up + 1) top κ w := h.mono hr.rate le_rfl (by omega) le_rfl
  cases p with
  | null => exact ⟨.err soft_null, fun w' e => by cases e⟩
  | site id =>
    refine ⟨.bind (w.siteOf_calm id) fun s hs => .bind (Site.occupy_calm (h.site id s (siteOf_ok hs)) hr.lo hup).1 fun _ _ => .ok _,
      fun w' e => ?_⟩
    obtain ⟨s, s', h1, h2, rfl⟩ := siteCall_of e
    exact hm.putSite ((Site.occupy_calm (h.site id s h1) hr.lo hup).2 s' h2)
  | cluster id =>
    refine ⟨.bind (w.clusterOf_calm id) fun c hc => .bind (Cluster.occupy_low (h.cluster id c (clusterOf_ok hc)) hr.lo hup).1 fun _ _ => .ok _,
      fun w' e => ?_⟩
    obtain ⟨s, s', h1, h2, rfl⟩ := clusterCall_of e
    exact hm.putCluster ((Cluster.occupy_low (h.cluster id s h1) hr.lo hup).2 s' h2)

theorem Small.occupyAt (h : Small lo up top κ w) (hr : Room lo (up + 1) top κ) (p : FPtr) (i : Int) :
    Calm (w.occupyAt p i) ∧ ∀ w', w.occupyAt p i = .ok w' → Small lo (up + 1) top κ w' := by
  have hup := hr.fits (by have := h.up0; omega)
  have hm : Small lo (up + 1) top κ w := h.mono hr.rate le_rfl (by omega) le_rfl
  cases p with
  | null => exact ⟨.err soft_null, fun w' e => by cases e⟩
  | site id =>
    refine ⟨.bind (w.siteOf_calm id) fun s hs => .bind (Site.occupy_calm (h.site id s (siteOf_ok hs)) hr.lo hup).1 fun _ _ => .ok _,
      fun w' e => ?_⟩
    obtain ⟨s, s', h1, h2, rfl⟩ := siteCall_of e
    exact hm.putSite ((Site.occupy_calm (h.site id s h1) hr.lo hup).2 s' h2)
  | cluster id =>
    refine ⟨.bind (w.clusterOf_calm id) fun c hc =>
      .bind (Cluster.occupySite_low (h.cluster id c (clusterOf_ok hc)) h.lo0 h.up0 hup i).1 fun _ _ => .ok _, fun w' e => ?_⟩
    obtain ⟨s, s', h1, h2, rfl⟩ := clusterCall_of (f := fun c => c.occupySite i) e
    exact hm.putCluster ((Cluster.occupySite_low (h.cluster id s h1) h.lo0 h.up0 hup i).2 s' h2)

theorem Small.vacateAt (h : Small lo up top κ w) (hr : Room (lo + 1) up top κ) (p : FPtr) (i : Int) :
    Calm (w.vacateAt p i) ∧ ∀ w', w.vacateAt p i = .ok w' → Small (lo + 1) up top κ w' := by
  have hup := hr.fits h.up0
  have hm : Small (lo + 1) up top κ w := h.mono hr.rate (by omega) le_rfl le_rfl
  cases p with
  | null => exact ⟨.err soft_null, fun w' e => by cases e⟩
  | site id =>
    refine ⟨.bind (w.siteOf_calm id) fun s hs => .bind (Site.vacate_calm (h.site id s (siteOf_ok hs)).1 hr.lo hup).1 fun _ _ => .ok _,
      fun w' e => ?_⟩
    obtain ⟨s, s', h1, h2, rfl⟩ := siteCall_of e
    obtain ⟨a, b⟩ := (Site.vacate_calm (h.site id s h1).1 hr.lo hup).2 s' h2
    exact hm.putSite ⟨a, by rw [b]; exact (h.site id s h1).2⟩
  | cluster id =>
    refine ⟨.bind (w.clusterOf_calm id) fun c hc =>
      .bind (Cluster.vacateSite_low (h.cluster id c (clusterOf_ok hc)) hr.rate h.lo0 h.up0 hr.lo hup i).1 fun _ _ => .ok _, fun w' e => ?_⟩
    obtain ⟨s, s', h1, h2, rfl⟩ := clusterCall_of (f := fun c => c.vacateSite i) e
    exact hm.putCluster ((Cluster.vacateSite_low (h.cluster id s h1) hr.rate h.lo0 h.up0 hr.lo hup i).2 s' h2)

theorem removeAt_vacateAt (w : World K) (p : FPtr) (wid i : Int) : w.removeAt p wid i = w.vacateAt p i := by
  cases p <;> rfl

theorem dwellAt_calm (w : World K) (p : FPtr) (wid : Int) (e : K) : Calm (w.dwellAt p wid e) := by
  unfold dwellAt
  split
  · exact .err soft_null
  · exact .bind (w.siteOf_calm _) fun _ _ => .ok _
  · exact .bind (w.clusterOf_calm _) fun c _ => .bind (Cluster.getDwellTime_calm c wid e) fun _ _ => .ok _

theorem pickAt_calm (w : World K) (p : FPtr) (wid : Int) (u : K) : Calm (w.pickAt p wid u) := by
  unfold pickAt
  split
  · exact .err soft_null
  · exact .bind (w.siteOf_calm _) fun _ _ => .ok _
  · exact .bind (w.clusterOf_calm _) fun c _ => .bind (Cluster.pickNewSiteId_calm c wid u) fun _ _ => .ok _

theorem Small.dwellAt (h : Small lo up top κ w) {p : FPtr} {wid : Int} {e t : K} (hd : w.dwellAt p wid e = .ok (t, w')) :
    Small lo up top κ w' := by
  rcases dwellAt_ok hd with ⟨_, _, _, _, _, rfl⟩ | ⟨id, c, c', -, hc, h1, rfl⟩
  · exact h
  · exact h.putCluster (Cluster.getDwellTime_low (h.cluster id c hc) h1)

theorem Small.pickAt (h : Small lo up top κ w) {p : FPtr} {wid n : Int} {u : K} (hd : w.pickAt p wid u = .ok (n, w')) :
    Small lo up top κ w' := by
  rcases pickAt_ok hd with ⟨_, _, _, _, _, rfl⟩ | ⟨id, c, c', -, hc, h1, rfl⟩
  · exact h
  · exact h.putCluster (Cluster.pickNewSiteId_low (h.cluster id c hc) h1)

theorem Small.initWalker (h : Small lo up top κ w) (hr : Room lo (up + 1) top κ) (a : Entry K) :
    Calm (w.initWalker a) ∧ ∀ w', w.initWalker a = .ok w' → Small lo (up + 1) top κ w' := by
  constructor
  · unfold World.initWalker
    refine .bind (w.walkerOf_calm _) fun x _ => .bind (walkerSite_calm x) fun i _ => ?_
    split
    · exact .bind (h.occupyFeat hr _).1 fun w1 _ => .bind (w1.dwellAt_calm _ _ _) fun p _ => .bind (p.2.pickAt_calm _ _ _) fun _ _ => .ok _
    · exact .err soft_runtime
  · intro w' e
    obtain ⟨x, w1, t, w2, n, w3, -, -, -, h1, h2, h3, rfl⟩ := initWalker_ok e
    exact ((((h.occupyFeat hr _).2 w1 h1).dwellAt h2).pickAt h3).of_eq rfl rfl rfl

theorem Small.initWalkers (h : Small lo up top κ w) (l : List (Entry K)) (hr : Room lo (up + l.length) top κ) :
    Calm (w.initWalkers l).1 ∧ Small lo (up + l.length) top κ (w.initWalkers l).2 := by
  induction l generalizing w up with
  | nil => exact ⟨.ok _, h.mono hr.rate le_rfl (by simp) le_rfl⟩
  | cons a l ih =>
    unfold World.initWalkers
    rw [List.length_cons] at hr ⊢
    push_cast at hr ⊢
    have hr1 : Room lo (up + 1) top κ := ⟨hr.rate, hr.lo, by
      have h1 : ((up + 1 : Int) : K) ≤ ((up + (l.length + 1 : Int) : Int) : K) := by exact_mod_cast (by omega)
      have := mul_le_mul_of_nonneg_right h1 hr.rate
      linarith [hr.sum], hr.top⟩
    obtain ⟨h1, h2⟩ := h.initWalker hr1 a
    split
    · next e he => exact ⟨h1.of_eq he, h.mono hr.rate le_rfl (by omega) le_rfl⟩
    · next w1 he =>
      have e : up + (l.length + 1 : Int) = up + 1 + l.length := by ring
      rw [e] at hr ⊢
      exact ih (h2 w1 he) hr

theorem Small.removeWalker (h : Small lo up top κ w) (hr : Room (lo + 1) up top κ) (wid k : Int) :
    Calm (w.removeWalker wid k) ∧ ∀ w', w.removeWalker wid k = .ok w' → Small (lo + 1) up top κ w' := by
  constructor
  · unfold World.removeWalker
    refine .bind (w.walkerOf_calm _) fun x _ => .bind (walkerSite_calm x) fun i _ => ?_
    rw [removeAt_vacateAt]
    exact (h.vacateAt hr _ _).1
  · intro w' e
    obtain ⟨x, -, -, h1⟩ := removeWalker_ok e
    rw [removeAt_vacateAt] at h1
    exact (h.vacateAt hr _ _).2 w' h1

theorem Small.hopMove (h : Small lo up top κ w) (hr : Room (lo + 1) (up + 1) top κ) (wid k : Int) (a : Choices K) :
    Calm (w.hopMove wid k a) ∧ ∀ j w', w.hopMove wid k a = .ok (j, w') → Small (lo + 1) (up + 1) top κ w' := by
  have hr1 : Room (lo + 1) up top κ := ⟨hr.rate, hr.lo, by
    have h1 : (up : K) ≤ ((up + 1 : Int) : K) := by exact_mod_cast (by omega)
    have := mul_le_mul_of_nonneg_right h1 hr.rate
    linarith [hr.sum], hr.top⟩
  constructor
  · unfold World.hopMove
    refine .bind (w.walkerOf_calm _) fun x _ => .bind (walkerSite_calm x) fun i _ => .bind (walkerPot_calm x) fun j _ => ?_
    refine .bind (w.isOccupiedAt_calm _ _) fun b _ => ?_
    have key : ∀ (q : FPtr) (m : Int) (f : K × World K → Int × World K → Int × World K), Calm (do
        let w ← w.vacateAt (w.feat i) i
        let w ← w.occupyAt q m
        let r ← w.dwellAt q wid a.e
        let s ← r.2.pickAt q wid a.u
        .ok (f r s)) := by
      intro q m f
      refine .bind (h.vacateAt hr1 _ _).1 fun w1 h1 => ?_
      refine .bind (((h.vacateAt hr1 _ _).2 w1 h1).occupyAt hr q m).1 fun w2 _ => ?_
      exact .bind (w2.dwellAt_calm _ _ _) fun r _ => .bind (r.2.pickAt_calm _ _ _) fun _ _ => .ok _
    split
    · exact key (w.feat i) i fun r s => (j, { s.2 with walkers := s.2.walkers.set k { x with dwell := r.1, pot := s.1 } })
    · exact key (w.feat j) j fun r s => (j, { s.2 with walkers := s.2.walkers.set k ⟨j, s.1, r.1⟩ })
  · intro j w' e
    obtain ⟨x, b, w1, w2, t, w3, n, w4, -, -, -, -, -, h1, h2, h3, h4, rfl⟩ := hopMove_ok e
    exact ((((((h.vacateAt hr1 _ _).2 w1 h1).occupyAt hr _ _).2 w2 h2).dwellAt h3).pickAt h4).of_eq rfl rfl rfl

/-! ## Shares of the visits -/

/-- The clusters pass on at most `κ` visits per visit. -/
def AllShares (κ : K) (w : World K) : Prop := ∀ k x, w.clusters.get? k = some x → Cluster.Shares κ x

theorem AllShares.keep (h : AllShares κ w) (hk : Keep env w w') : AllShares κ w' := by
  intro k y hy
  obtain ⟨x, hx, hr⟩ := rel_some (hy ▸ hk.cluster k)
  intro t d i v h1 h2 h3 h4
  have e := hr.eq
  rw [hr.visitKeys] at h3
  refine h k x hx t d i v (by rw [e] at h1; exact h1) h2 h3 ?_
  rw [← h4]
  unfold Cluster.visitShare
  have hs := hr.site i
  have e1 : y.internalDwell = x.internalDwell := by rw [e]
  have e2 : y.resolution = x.resolution := by rw [e]
  have e3 : y.probOn = x.probOn := by rw [e]
  rw [e1, e2, e3]
  cases hxi : x.sites.get? i with
  | none =>
    rw [hxi] at hs
    cases hyi : y.sites.get? i with
    | none => rfl
    | some s' => rw [hyi] at hs; cases hs
  | some s =>
    rw [hxi] at hs
    obtain ⟨s', hs', hsame, -⟩ := rel_some' hs
    have : s'.tau = s.tau := by rw [hsame]
    rw [hs']
    cases x.internalDwell.get? i with
    | none => rfl
    | some q => show (if _ then _ else _) = (if _ then _ else _); rw [this]

theorem shares_of (hst : Struct env w) (htw : Twins w) (hg : Good mem w) {k : Int} {x : Cluster K}
    (hx : w.clusters.get? k = some x) (hset : Settled mem w x) (hu : Cluster.Upd env mem x) {r R : K} (hr0 : 0 < r)
    (hw : Within mem r R w) : Cluster.Shares ((R / (r * r) + 1) / 2) x := by
  obtain ⟨t, t1, -, t3⟩ := bounded_of hst htw hg hx hset hu hr0 hw
  obtain ⟨t', t1', t4, -⟩ := hset.tau
  rw [t1] at t1'; cases t1'
  obtain ⟨c1, freqs, c2, hi, hm, ht, hreb, e1, e2, e9, e10, e3, e4, e5, e6, e7, e8⟩ := hu
  have hwf := (hst.cinv hx).sites
  have hlink : ∀ i ∈ x.sites.keys, ∃ j ∈ x.sites.keys, ∃ r, BasinSpec.rate mem w.sites i j = some r := by
    intro i hi'
    obtain ⟨y, hy, hne⟩ := other_of_length hwf hset.size i
    exact reach_first (hset.conn i hi' y hy) hne
  obtain ⟨hs, hl⟩ := sound_of_conn hst htw hg hx hlink
  have hmut : ClusterSpec.Mutual mem x := by
    intro i hi' j hj hr
    unfold ClusterSpec.ids at hi' hj
    rw [List.mem_toFinset] at hi' hj
    obtain ⟨s, hs'⟩ := IMap.mem_keys_iff_get?.1 hi'
    obtain ⟨t, ht'⟩ := IMap.mem_keys_iff_get?.1 hj
    rw [hs.rate_pos_iff hs'] at hr
    rw [hs.rate_pos_iff ht']
    exact (rate_member_iff (mem := mem) hst htw hx ht').1 (hset.back i hi' j hj ((rate_member_iff hst htw hx hs').2 hr))
  exact hreb.shares hi (hs.congr e1.symm) (Cluster.Mutual.congr e1.symm hmut) (hl.congr e1.symm) e1 e9 e10 hset.res t1 t4.le t3

theorem AllShares.grained {r R : K} (hst : Struct env w) (htw : Twins w) (hg : Good mem w) (hall : AllSettled mem w)
    (hz : AllShares ((R / (r * r) + 1) / 2) w) {a : Choices K} {v : Int} {basin : List Int} (h : Grained' env mem w w' a v basin)
    (hr0 : 0 < r) (hw : Within mem r R w') : AllShares ((R / (r * r) + 1) / 2) w' := by
  have hst' := hst.grew h.grew
  have htw' := htw.grew hst h.grew
  have hg' := hg.grew h.grew
  have hall' := hall.grained hst htw hg h
  intro k x hx
  have hx0 := hx
  cases h.grew with
  | created c0 hb hc =>
    rw [hc.cluster] at hx
    split at hx
    · cases hx
      have hse := seedCluster_eq w c0
      exact shares_of hst' htw' hg' hx0 (hall' k _ hx0) (by rw [hse]; exact (build_upd hb).1) hr0 hw
    · exact hz k x hx
  | merged sc fav c d erased hsc hf hu hm hmg =>
    rw [hmg.cluster] at hx
    split at hx
    · next e =>
      subst e
      cases hx
      have hcs := hall k c hmg.target
      obtain ⟨d', hd', hu, -⟩ := merge_upd hst a.order_perm hsc hmg.target hcs.method hcs.tol hcs.seen hm
      rw [hx0] at hd'; cases hd'
      exact shares_of hst' htw' hg' hx0 (hall' k _ hx0) hu hr0 hw
    · split at hx
      · cases hx
      · exact hz k x hx

theorem Trace.shares {n : Nat} {evs : List (Event K)} (ht : Trace env (World.new n) evs w) (hu : HopsReturn evs)
    (hf : RatesFixed mem evs) (hp : RatesPositive mem evs) {r R : K} (hr0 : 0 < r) (hw : Within mem r R w) :
    AllShares ((R / (r * r) + 1) / 2) w := by
  generalize hw0 : (World.new n : World K) = w0 at ht
  induction ht with
  | nil => subst hw0; intro k x hx; cases hx
  | @snoc w1 w' evs op res mem' ht h hr ih =>
    obtain ⟨hu1, hu2⟩ := hopsReturn_snoc hu
    have hf1 : RatesFixed mem evs := fun ev he => hf ev (List.mem_append_left _ he)
    have hp1 : RatesPositive mem evs := fun ev he => hp ev (List.mem_append_left _ he)
    have hmem : mem' = mem := hf _ (List.mem_append_right _ (List.mem_singleton_self _))
    subst hmem
    subst hw0
    have hst := ht.struct hu1
    obtain ⟨h1, h2⟩ := ht.static hu1
    have hg := ht.good hu1 hf1 hp1
    have hall := ht.settled hu1 hf1 hp1
    have ha := ih hu1 hf1 hp1 (hw.step hst h hr hu2)
    rcases step_cases hst h hr hu2 with hk | ⟨m, rfl, hadd⟩ | ⟨wid, k, a, j, w1', w2, w3, basin, -, hm, hk, rfl, hgr, rfl⟩
    · exact ha.keep hk
    · intro k x hx
      rw [hadd.clusters] at hx
      exact ha k x hx
    · have hk2 : Keep env w1 { w1' with iteration := w1'.iteration + 1 } := hk.trans (.of_eq rfl rfl rfl le_rfl)
      have := (ha.keep hk2).grained (hst.keep hk2) (h2.keep hst hk2) (hg.keep hk2) (hall.keep hk2) hgr hr0 (fun i s hs => hw i s hs)
      exact fun k x hx => this k x hx

/-! ## Reading a visit frequency -/

theorem Small.visitFrequency (h : Small lo up top κ w) (hr : Room lo up top κ) (hst : Struct env w) (hall : AllSettled mem w)
    (hsh : AllShares κ w) (i : Int) :
    Calm (w.getVisitFrequencyOfSite i).1 ∧ Small lo up top κ (w.getVisitFrequencyOfSite i).2 := by
  unfold World.getVisitFrequencyOfSite
  split
  · exact ⟨.err soft_invalid, h⟩
  · next s hs =>
    split
    · split
      · next e he => exact ⟨(w.clusters.getCluster_calm _).of_eq he, h⟩
      · next c hc =>
        have hc := getCluster_ok hc
        by_cases hi : i ∈ c.siteVisits.keys
        · obtain ⟨n, c', h1, h2, -, -, -, -, h3, h4⟩ := Cluster.getVisitFrequency_low (hall _ c hc).reads (hst.cinv hc).visits
            (h.cluster _ c hc) (.inr (hsh _ c hc)) hr.rate (hr.fits h.up0) (hr.times h.up0) hi
          rw [h1]
          refine ⟨.chk ?_, h.putCluster h2⟩
          obtain ⟨-, v1, v2⟩ := h.site i s hs
          refine fitsInt_of (by omega) ?_
          have h5 : (s.visits : K) ≤ up := by exact_mod_cast v2
          have : ((s.visits + n : Int) : K) ≤ ((2147483647 : Int) : K) := by
            push_cast; linarith [hr.sum]
          exact_mod_cast this
        · have : c.getVisitFrequency i = (.error .assertFail, c) := by
            unfold Cluster.getVisitFrequency
            rw [if_neg (by rw [IMap.has_iff]; exact hi)]
          rw [this]
          exact ⟨.err soft_assert, h.putCluster (h.cluster _ c hc)⟩
    · exact ⟨.ok _, h⟩

/-! ## Initialisation -/

theorem setRates_calm {id : Int} {rates : IMap Addr} (hw : rates.WF) (hpos : ∀ na ∈ rates, 0 < mem na.2) :
    Calm ((Site.new id : Site K).setRatesToNeighbors mem rates) := by
  by_cases hne : rates = []
  · subst hne
    exact .err soft_assert
  · obtain ⟨s, hs⟩ := setRates_total (id := id) hw hne hpos
    rw [hs]; exact .ok _

theorem addSite_calm (m : SiteContainer K) (s : Site K) : Calm (m.addSite s).1 := by
  unfold SiteContainer.addSite
  split
  · exact .err soft_invalid
  · exact .ok _

theorem initializeSystem_calm {m : IMap (IMap Addr)} (hm : ∀ ir ∈ m, ir.2.WF ∧ ∀ na ∈ ir.2, 0 < mem na.2) :
    Calm (w.initializeSystem mem m).1 := by
  have h1 : ∀ (l : List (Int × IMap Addr)) (w : World K), (∀ ir ∈ l, ir.2.WF ∧ ∀ na ∈ ir.2, 0 < mem na.2) →
      Calm (w.initSites mem l).1 := by
    intro l
    induction l with
    | nil => intro w _; exact .ok _
    | cons a l ih =>
      intro w hl
      obtain ⟨id, rates⟩ := a
      unfold initSites
      obtain ⟨r1, r2⟩ := hl (id, rates) (List.mem_cons_self ..)
      have hc : Calm (w.initSite mem id rates).1 := by
        unfold initSite
        have := setRates_calm (id := id) r1 r2
        split
        · next e he => exact this.of_eq he
        · next s hs =>
          have := addSite_calm w.sites (w.seedSite s)
          split
          · next e _ he => rw [he] at this; exact this.error
          · exact .ok _
      split
      · next e _ he => rw [he] at hc; exact hc.error
      · exact ih _ fun ir hir => hl ir (List.mem_cons_of_mem _ hir)
  have h2 : ∀ (l : List Int) (w : World K), Calm (w.initDrains l).1 := by
    intro l
    induction l with
    | nil => intro w; exact .ok _
    | cons a l ih =>
      intro w
      unfold initDrains
      have := addSite_calm w.sites (Site.new a)
      split
      · next e _ he => rw [he] at this; exact this.error
      · exact ih _
  unfold initializeSystem
  split
  · exact .err soft_runtime
  · have := h1 m w hm
    split
    · next e _ he => rw [he] at this; exact this.error
    · exact h2 _ _

theorem Small.adds (h : Small lo up top κ w) {m : IMap (IMap Addr)} (ha : Adds mem m w w') : Small lo up top κ w' := by
  induction ha with
  | refl => exact h
  | seed _ ih => exact ih (h.of_eq rfl rfl rfl)
  | @add w w' s sd hs hsd hnew _ ih =>
    have hz : s.occupied = 0 ∧ s.visits = 0 := by
      rcases hs with ⟨rates, s0, -, h0, rfl⟩ | ⟨e, -⟩
      · have := setRates_keep h0
        constructor
        · show s0.occupied = 0
          rw [this]; rfl
        · show s0.visits = 0
          rw [this]; rfl
      · rw [e]; exact ⟨rfl, rfl⟩
    refine ih ⟨h.lo0, h.up0, fun j t ht => ?_, h.cluster, h.ids⟩
    have ht : (IMap.set w.sites s.id s).get? j = some t := ht
    rw [IMap.get?_set] at ht
    split at ht
    · cases ht
      rw [hz.1, hz.2]
      have := h.lo0; have := h.up0
      omega
    · exact h.site j t ht

end World
end Mythical
