import Verif.Lemmas.UnitsSystem

/-! # The unit of time: the calls on the system -/

set_option linter.unusedSectionVars false

namespace Mythical.Units
open Mythical
variable {K : Type} [Field K] [LinearOrder K] [IsStrictOrderedRing K] [FloorRing K]
variable {k : K} (hk : 0 < k)

/-! ## Changes of a part of the world -/

theorem Same.withClusters {w w' : World K} (h : Same k w w') {c c' : ClusterContainer K} (hc : SameMap (SameCluster k) c c') :
    Same k { w with clusters := c } { w' with clusters := c' } :=
  ⟨h.perfRatio, h.seed, h.timeRes, h.iteration, h.threshold, h.thresholdMin, h.feats, h.sites, hc, h.nextId, h.walkers⟩

theorem Same.withSites {w w' : World K} (h : Same k w w') (s : SiteContainer K) :
    Same k { w with sites := s } { w' with sites := sitesK k s } :=
  ⟨h.perfRatio, h.seed, h.timeRes, h.iteration, h.threshold, h.thresholdMin, h.feats, rfl, h.clusters, h.nextId, h.walkers⟩

theorem Same.withSitesFeats {w w' : World K} (h : Same k w w') (s : SiteContainer K) (f : IMap FPtr) :
    Same k { w with sites := s, feats := f } { w' with sites := sitesK k s, feats := f } :=
  ⟨h.perfRatio, h.seed, h.timeRes, h.iteration, h.threshold, h.thresholdMin, rfl, rfl, h.clusters, h.nextId, h.walkers⟩

theorem Same.withWalkers {w w' : World K} (h : Same k w w') {m m' : IMap (Walker K)} (hm : SameMap (SameWalker k) m m') :
    Same k { w with walkers := m } { w' with walkers := m' } :=
  ⟨h.perfRatio, h.seed, h.timeRes, h.iteration, h.threshold, h.thresholdMin, h.feats, h.sites, h.clusters, h.nextId, hm⟩

theorem Same.withSeed {w w' : World K} (h : Same k w w') (s : Option Nat) :
    Same k { w with seed := s } { w' with seed := s } :=
  ⟨h.perfRatio, rfl, h.timeRes, h.iteration, h.threshold, h.thresholdMin, h.feats, h.sites, h.clusters, h.nextId, h.walkers⟩

theorem Same.withId {w w' : World K} (h : Same k w w') (n : Int) :
    Same k { w with nextId := n } { w' with nextId := n } :=
  ⟨h.perfRatio, h.seed, h.timeRes, h.iteration, h.threshold, h.thresholdMin, h.feats, h.sites, h.clusters, rfl, h.walkers⟩

theorem Same.withIteration {w w' : World K} (h : Same k w w') (n : Int) :
    Same k { w with iteration := n } { w' with iteration := n } :=
  ⟨h.perfRatio, h.seed, h.timeRes, rfl, h.threshold, h.thresholdMin, h.feats, h.sites, h.clusters, h.nextId, h.walkers⟩

theorem Same.withThreshold {w w' : World K} (h : Same k w w') (t n : Int) :
    Same k { w with threshold := t, iteration := n } { w' with threshold := t, iteration := n } :=
  ⟨h.perfRatio, h.seed, h.timeRes, rfl, rfl, h.thresholdMin, h.feats, h.sites, h.clusters, h.nextId, h.walkers⟩

/-- Worlds that are put together from parts of related worlds. -/
macro "same" h:term : tactic => `(tactic| (constructor <;> first
  | rfl | exact ($h).perfRatio | exact ($h).seed | exact ($h).timeRes | exact ($h).iteration | exact ($h).threshold
  | exact ($h).thresholdMin | exact ($h).feats | exact ($h).sites | exact ($h).clusters | exact ($h).nextId
  | exact ($h).walkers | assumption))

/-! ## Calls through a feature pointer -/

theorem siteOf_units {w w' : World K} (h : Same k w w') (i : Int) : w'.siteOf i = (w.siteOf i).map (site k) := by
  unfold World.siteOf
  rw [h.sites]
  show (match IMap.get? (IMap.mapVal (fun _ => site k) w.sites) i with
    | none => _
    | some s => _) = _
  rw [get?_mapVal]
  cases IMap.get? w.sites i <;> rfl

theorem clusterOf_units {w w' : World K} (h : Same k w w') (i : Int) :
    Agree (SameCluster k) (w.clusterOf i) (w'.clusterOf i) := by
  unfold World.clusterOf
  rcases h.clusters.get? i with ⟨h1, h2⟩ | ⟨a, b, h1, h2, hab⟩
  · rw [h1, h2]; exact Agree.error _
  · rw [h1, h2]; exact Agree.ok hab

theorem feat_units {w w' : World K} (h : Same k w w') (i : Int) : w'.feat i = w.feat i := by
  unfold World.feat; rw [h.feats]

theorem site_occupy_units (s : Site K) : (site k s).occupy = s.occupy.map (site k) := by
  unfold Site.occupy
  show (chk (s.occupied + 1) >>= fun o => chk (s.visits + 1) >>= _) = _
  cases chk (s.occupied + 1) with
  | error e => rfl
  | ok o =>
    simp only [ok_bind]
    cases chk (s.visits + 1) <;> rfl

theorem isOccupiedAt_units {w w' : World K} (h : Same k w w') (p : FPtr) (i : Int) :
    Agree (fun a b => b = a) (w.isOccupiedAt p i) (w'.isOccupiedAt p i) := by
  unfold World.isOccupiedAt
  cases p with
  | null => exact Agree.error _
  | site id =>
    simp only
    rw [siteOf_units h]
    cases w.siteOf id with
    | error e => exact Agree.error e
    | ok s => exact Agree.ok rfl
  | cluster id =>
    refine Agree.bind (clusterOf_units h id) fun a b hab => ?_
    rw [isOccupiedSite_units a b hab]
    cases a.isOccupiedSite i with
    | error e => exact Agree.error e
    | ok s => exact Agree.ok rfl

theorem siteChange_units {w w' : World K} (h : Same k w w') (id : Int) {f : Site K → Except Fault (Site K)}
    (hf : ∀ s, f (site k s) = (f s).map (site k)) :
    Agree (Same k) (do
      let s ← f (← w.siteOf id)
      .ok { w with sites := w.sites.put id s }) (do
      let s ← f (← w'.siteOf id)
      .ok { w' with sites := w'.sites.put id s }) := by
  rw [siteOf_units h]
  cases w.siteOf id with
  | error e => exact Agree.error e
  | ok s =>
    simp only [Except.map, ok_bind]
    rw [hf]
    cases f s with
    | error e => exact Agree.error e
    | ok s =>
      refine Agree.ok ?_
      rw [h.sites]
      have := h.withSites (w.sites.put id s)
      rw [← put_units] at this
      exact this

theorem clusterChange_units {w w' : World K} (h : Same k w w') (id : Int) {f : Cluster K → Except Fault (Cluster K)}
    (hf : ∀ c c', SameCluster k c c' → Agree (SameCluster k) (f c) (f c')) :
    Agree (Same k) (do
      let c ← f (← w.clusterOf id)
      .ok { w with clusters := w.clusters.put id c }) (do
      let c ← f (← w'.clusterOf id)
      .ok { w' with clusters := w'.clusters.put id c }) :=
  Agree.bind (clusterOf_units h id) fun a b hab => Agree.bind (hf a b hab) fun _ _ hc =>
    Agree.ok (h.withClusters (h.clusters.set id hc))

theorem vacateAt_units {w w' : World K} (h : Same k w w') (p : FPtr) (i : Int) :
    Agree (Same k) (w.vacateAt p i) (w'.vacateAt p i) := by
  unfold World.vacateAt
  cases p with
  | null => exact Agree.error _
  | site id => exact siteChange_units h id site_vacate_units
  | cluster id => exact clusterChange_units h id fun a b hab => vacateSite_units a b hab i

theorem removeAt_units {w w' : World K} (h : Same k w w') (p : FPtr) (wid i : Int) :
    Agree (Same k) (w.removeAt p wid i) (w'.removeAt p wid i) := by
  unfold World.removeAt
  cases p with
  | null => exact Agree.error _
  | site id => exact siteChange_units h id site_vacate_units
  | cluster id => exact clusterChange_units h id fun a b hab => vacateSite_units a b hab i

theorem occupyAt_units {w w' : World K} (h : Same k w w') (p : FPtr) (i : Int) :
    Agree (Same k) (w.occupyAt p i) (w'.occupyAt p i) := by
  unfold World.occupyAt
  cases p with
  | null => exact Agree.error _
  | site id => exact siteChange_units h id site_occupy_units
  | cluster id => exact clusterChange_units h id fun a b hab => occupySite_units a b hab i

theorem occupyFeat_units {w w' : World K} (h : Same k w w') (p : FPtr) :
    Agree (Same k) (w.occupyFeat p) (w'.occupyFeat p) := by
  unfold World.occupyFeat
  cases p with
  | null => exact Agree.error _
  | site id => exact siteChange_units h id site_occupy_units
  | cluster id => exact clusterChange_units h id fun a b hab => occupy_units a b hab

include hk in
theorem dwellAt_units {w w' : World K} (h : Same k w w') (p : FPtr) (wid : Int) (e : K) :
    Agree (fun a b => b.1 = k * a.1 ∧ Same k a.2 b.2) (w.dwellAt p wid e) (w'.dwellAt p wid e) := by
  unfold World.dwellAt
  cases p with
  | null => exact Agree.error _
  | site id =>
    simp only
    rw [siteOf_units h]
    cases w.siteOf id with
    | error e => exact Agree.error e
    | ok s => exact Agree.ok ⟨mul_left_comm .., h⟩
  | cluster id =>
    refine Agree.bind (clusterOf_units h id) fun a b hab => ?_
    refine Agree.bind (getDwellTime_units hk a b hab wid e) fun x y hxy => ?_
    exact Agree.ok ⟨hxy.1, h.withClusters (h.clusters.set id hxy.2)⟩

include hk in
theorem pickAt_units {w w' : World K} (h : Same k w w') (p : FPtr) (wid : Int) (u : K) :
    Agree (fun a b => b.1 = a.1 ∧ Same k a.2 b.2) (w.pickAt p wid u) (w'.pickAt p wid u) := by
  unfold World.pickAt
  cases p with
  | null => exact Agree.error _
  | site id =>
    simp only
    rw [siteOf_units h]
    cases w.siteOf id with
    | error e => exact Agree.error e
    | ok s => exact Agree.ok ⟨rfl, h⟩
  | cluster id =>
    refine Agree.bind (clusterOf_units h id) fun a b hab => ?_
    refine Agree.bind (pick_units hk a b hab wid u) fun x y hxy => ?_
    exact Agree.ok ⟨hxy.1, h.withClusters (h.clusters.set id hxy.2)⟩

/-! ## Walkers -/

theorem walkerOf_units {w w' : World K} (h : Same k w w') (i : Int) :
    Agree (SameWalker k) (w.walkerOf i) (w'.walkerOf i) := by
  unfold World.walkerOf
  rcases h.walkers.get? i with ⟨h1, h2⟩ | ⟨a, b, h1, h2, hab⟩
  · rw [h1, h2]; exact Agree.error _
  · rw [h1, h2]; exact Agree.ok hab

theorem walkerSite_units {x x' : Walker K} (h : SameWalker k x x') :
    Agree (fun a b => b = a) (World.walkerSite x) (World.walkerSite x') := by
  unfold World.walkerSite
  rw [h.1]
  split
  · exact Agree.error _
  · exact Agree.ok rfl

theorem walkerPot_units {x x' : Walker K} (h : SameWalker k x x') :
    Agree (fun a b => b = a) (World.walkerPot x) (World.walkerPot x') := by
  unfold World.walkerPot
  rw [h.2.1]
  split
  · exact Agree.error _
  · exact Agree.ok rfl

include hk in
theorem initWalker_units {w w' : World K} (h : Same k w w') (a : Entry K) :
    Agree (Same k) (w.initWalker a) (w'.initWalker a) := by
  unfold World.initWalker
  refine Agree.bind (walkerOf_units h a.handle) fun x x' hx => ?_
  refine Agree.bind (walkerSite_units hx) fun i i' hi => ?_
  subst hi
  simp only
  rw [h.feats, feat_units h]
  split
  · refine Agree.bind (occupyFeat_units h _) fun w w' h => ?_
    refine Agree.bind (dwellAt_units hk h _ a.wid a.e) fun p p' hp => ?_
    obtain ⟨t, w⟩ := p
    obtain ⟨t', w'⟩ := p'
    obtain ⟨ht, h⟩ := hp
    simp only at ht h
    subst ht
    refine Agree.bind (pickAt_units hk h _ a.wid a.u) fun p p' hp => ?_
    obtain ⟨n, w⟩ := p
    obtain ⟨n', w'⟩ := p'
    obtain ⟨hn, h⟩ := hp
    simp only at hn h
    subst hn
    exact Agree.ok (h.withWalkers (h.walkers.set _ ⟨hx.1, rfl, Or.inl rfl⟩))
  · exact Agree.error _

include hk in
theorem initWalkers_units (l : List (Entry K)) : ∀ {w w' : World K}, Same k w w' →
    AgreeS (fun _ _ => True) (Same k) (w.initWalkers l) (w'.initWalkers l) := by
  induction l with
  | nil => intro w w' h; exact AgreeS.ok trivial h
  | cons a l ih =>
    intro w w' h
    unfold World.initWalkers
    rcases initWalker_units hk h a with ⟨x, y, e1, e2, hxy⟩ | ⟨e, e1, e2⟩ | hb | hb
    · rw [e1, e2]; exact ih hxy
    · rw [e1, e2]; exact AgreeS.error h
    · rw [hb]; exact AgreeS.badL rfl
    · rw [hb]; exact AgreeS.badR rfl

/-! ## Initialisation -/

theorem seedSite_units {w w' : World K} (h : Same k w w') (s : Site K) : w'.seedSite (site k s) = site k (w.seedSite s) := by
  unfold World.seedSite
  rw [h.seed]
  cases w.seed <;> rfl

theorem nextSeed_units {w w' : World K} (h : Same k w w') : w'.nextSeed = w.nextSeed := by
  unfold World.nextSeed; rw [h.seed]

include hk in
theorem initSite_units (mem : Addr → K) {w w' : World K} (h : Same k w w') (id : Int) (m : IMap Addr) :
    AgreeS (fun _ _ => True) (Same k) (w.initSite mem id m) (w'.initSite (rates k mem) id m) := by
  unfold World.initSite
  have e := setRates_units hk mem m (Site.new id)
  rw [new_units hk] at e
  rw [e]
  cases (Site.new id).setRatesToNeighbors mem m with
  | error e => exact AgreeS.error h
  | ok s =>
    simp only [Except.map]
    rw [seedSite_units h, h.sites, nextSeed_units h, h.feats]
    have e2 := addSiteC_units (k := k) w.sites (w.seedSite s)
    unfold sitesK at e2
    rw [e2]
    generalize w.sites.addSite (w.seedSite s) = x
    obtain ⟨r, ss⟩ := x
    cases r with
    | error e => exact AgreeS.error (by same h)
    | ok _ => exact AgreeS.ok trivial (by same h)

include hk in
theorem initSites_units (mem : Addr → K) (l : List (Int × IMap Addr)) : ∀ {w w' : World K}, Same k w w' →
    AgreeS (fun _ _ => True) (Same k) (w.initSites mem l) (w'.initSites (rates k mem) l) := by
  induction l with
  | nil => intro w w' h; exact AgreeS.ok trivial h
  | cons a l ih =>
    intro w w' h
    obtain ⟨id, m⟩ := a
    unfold World.initSites
    refine AgreeS.elim (initSite_units hk mem h id m) ?_ ?_ ?_ ?_
    · intro _ _ s t _ h; exact ih h
    · intro e s t h; exact AgreeS.error h
    · intro s y; exact AgreeS.badL rfl
    · intro x t; exact AgreeS.badR rfl

include hk in
theorem initDrains_units (l : List Int) : ∀ {w w' : World K}, Same k w w' →
    AgreeS (fun _ _ => True) (Same k) (w.initDrains l) (w'.initDrains l) := by
  induction l with
  | nil => intro w w' h; exact AgreeS.ok trivial h
  | cons id l ih =>
    intro w w' h
    unfold World.initDrains
    have e2 := addSiteC_units (k := k) w.sites (Site.new id)
    rw [new_units hk] at e2
    unfold sitesK at e2
    rw [h.sites, e2, h.feats]
    generalize w.sites.addSite (Site.new id) = x
    obtain ⟨r, ss⟩ := x
    cases r with
    | error e => exact AgreeS.error h
    | ok _ => exact ih (h.withSitesFeats ss (w.feats.set id (.site id)))

include hk in
theorem initializeSystem_units (mem : Addr → K) {w w' : World K} (h : Same k w w') (m : IMap (IMap Addr)) :
    AgreeS (fun _ _ => True) (Same k) (w.initializeSystem mem m) (w'.initializeSystem (rates k mem) m) := by
  unfold World.initializeSystem
  rw [h.timeRes]
  cases w.timeRes with
  | none => exact AgreeS.error h
  | some t =>
    simp only [Option.map]
    refine AgreeS.elim (initSites_units hk mem m h) ?_ ?_ ?_ ?_
    · intro _ _ s t _ h; exact initDrains_units hk _ h
    · intro e s t h; exact AgreeS.error h
    · intro s y; exact AgreeS.badL rfl
    · intro x t; exact AgreeS.badR rfl

/-! ## Coarse graining -/

include hk in
theorem maxTime_units (l : List K) : World.maxTime (l.map (k * ·)) = k * World.maxTime l := by
  unfold World.maxTime
  have : ∀ (l : List K) (t : K), (l.map (k * ·)).foldl (fun m t => if t > m then t else m) (k * t) =
      k * l.foldl (fun m t => if t > m then t else m) t := by
    intro l
    induction l with
    | nil => intro t; rfl
    | cons a l ih =>
      intro t
      simp only [List.map_cons, List.foldl_cons]
      rw [← ih]
      congr 1
      have g : k * a > k * t ↔ a > t := by simp only [gt_iff_lt]; exact mul_lt_mul_iff_right₀ hk
      by_cases h : a > t
      · rw [if_pos h, if_pos (g.2 h)]
      · rw [if_neg h, if_neg (fun h' => h (g.1 h'))]
  have h := this l 0
  rw [mul_zero] at h
  exact h

include hk in
theorem exitSum_units (mem : Addr → K) (m : SiteContainer K) (all : List Int) : ∀ (l : List Int) (t : K),
    World.exitSum (rates k mem) (sitesK k m) all l (t / k) = (World.exitSum mem m all l t).map (· / k) := by
  intro l
  induction l with
  | nil => intro t; rfl
  | cons i l ih =>
    intro t
    unfold World.exitSum
    rw [neighborsOf_units]
    cases m.getSiteIdsOfNeighbors i with
    | error e => rfl
    | ok ns =>
      simp only [ok_bind]
      have inner : ∀ (ns : List Int) (t : K), ns.foldlM (fun sum n => if n ∈ all then Except.ok sum else do
          let r ← (sitesK k m).getRateToNeighborOfSite (rates k mem) i n
          .ok (sum + r)) (t / k) = (ns.foldlM (fun sum n => if n ∈ all then Except.ok sum else do
          let r ← m.getRateToNeighborOfSite mem i n
          .ok (sum + r)) t).map (· / k) := by
        intro ns
        induction ns with
        | nil => intro t; rfl
        | cons n ns ihn =>
          intro t
          rw [List.foldlM_cons, List.foldlM_cons]
          split
          · exact ihn t
          · rw [rateToC_units hk]
            cases m.getRateToNeighborOfSite mem i n with
            | error e => rfl
            | ok r =>
              have := ihn (t + r)
              rw [add_div] at this
              exact this
      rw [inner]
      cases ns.foldlM (fun sum n => if n ∈ all then Except.ok sum else do
          let r ← m.getRateToNeighborOfSite mem i n
          .ok (sum + r)) t with
      | error e => rfl
      | ok s => exact ih s

include hk in
theorem timeConstant_units (mem : Addr → K) {w w' : World K} (h : Same k w w') (l : List Int) :
    World.timeConstant (rates k mem) w' l = (World.timeConstant mem w l).map (k * ·) := by
  unfold World.timeConstant
  rw [h.sites]
  have := exitSum_units hk mem w.sites l l 0
  rw [zero_div] at this
  unfold sitesK at this
  rw [this]
  cases World.exitSum mem w.sites l l 0 with
  | error e => rfl
  | ok s =>
    simp only [Except.map, ok_bind, div_eq_zero_units hk]
    split
    · simp
    · simp only [one_div_div, mul_one_div]

include hk in
theorem satisfies_units (mem : Addr → K) {w w' : World K} (h : Same k w w') (l : List Int) (t : K) :
    World.satisfies (rates k mem) w' l (k * t) = World.satisfies mem w l t := by
  unfold World.satisfies
  rw [timeConstant_units hk mem h, h.timeRes, h.perfRatio]
  cases World.timeConstant mem w l with
  | error e => rfl
  | ok tc =>
    simp only [Except.map, ok_bind]
    cases w.timeRes with
    | none => rfl
    | some res =>
      simp only [Option.map]
      congr 1
      apply decide_eq_decide.2
      have g1 : k * tc > k * t * 2 * w.perfRatio ↔ tc > t * 2 * w.perfRatio := by
        rw [mul_assoc, mul_assoc, ← mul_assoc t]; simp only [gt_iff_lt]; exact mul_lt_mul_iff_right₀ hk
      have g2 : k * t * 2 < k * res ↔ t * 2 < res := by
        rw [mul_assoc]; exact mul_lt_mul_iff_right₀ hk
      rw [g1, g2]

theorem clustersOfSites_units {w w' : World K} (h : Same k w w') : ∀ (l : List Int) (acc : IMap Int),
    w'.clustersOfSites l acc = w.clustersOfSites l acc := by
  intro l
  induction l with
  | nil => intro acc; rfl
  | cons i l ih =>
    intro acc
    unfold World.clustersOfSites
    have e1 := partOf_units (k := k) w.sites i
    have e2 := clusterIdOf_units (k := k) w.sites i
    unfold sitesK at e1 e2
    rw [h.sites, e1, e2]
    cases w.sites.partOfCluster i with
    | error e => rfl
    | ok p =>
      cases p
      · exact ih _
      · show (w.sites.getClusterIdOfSite i >>= _) = (w.sites.getClusterIdOfSite i >>= _)
        cases w.sites.getClusterIdOfSite i with
        | error e => rfl
        | ok c => exact ih _

include hk in
theorem chosenResolution_units (tau t res : K) :
    World.chosenResolution (k * tau) (k * t) (k * res) = World.chosenResolution tau t res := by
  unfold World.chosenResolution
  have g0 : k * t = 0 ↔ t = 0 := by simp [hk.ne']
  have g1 : 0 < k * tau ↔ 0 < tau := mul_pos_iff_of_pos_left hk
  have g2 : k * tau / (k * res) = tau / res := mul_div_mul_left _ _ hk.ne'
  have g3 : k * tau / (2 * (k * t)) = tau / (2 * t) := by rw [mul_left_comm, mul_div_mul_left _ _ hk.ne']
  simp only [g0, g1, g2, g3]

include hk in
theorem buildCluster_units (env : Env K) (mem : Addr → K) {w w' : World K} (h : Same k w w') (id : Int) (l : List Int) (t : K) :
    Agree (SameCluster k) (w.buildCluster env mem id l t) (w'.buildCluster env (rates k mem) id l (k * t)) := by
  unfold World.buildCluster
  refine Agree.bind (P := SameCluster k) ?_ fun c c' hc => ?_
  · unfold Cluster.setConvergenceTolerance
    split
    · refine Agree.ok ⟨[], rfl, ?_⟩
      unfold cluster Cluster.setConvergenceMethod Cluster.new
      simp only [Option.map, mul_zero]
      rfl
    · exact Agree.error _
  have hm : l.mapM w'.sites.getSite = (l.mapM w.sites.getSite).map (List.map (site k)) := by
    rw [h.sites]
    induction l with
    | nil => rfl
    | cons i l ih =>
      rw [List.mapM_cons, List.mapM_cons, ih]
      have e := getSite_units (k := k) w.sites i
      unfold sitesK at e
      rw [e]
      cases w.sites.getSite i with
      | error e => rfl
      | ok s =>
        simp only [Except.map, ok_bind]
        cases l.mapM w.sites.getSite <;> rfl
  rw [hm]
  cases l.mapM w.sites.getSite with
  | error e => exact Agree.error e
  | ok sites =>
    simp only [Except.map, ok_bind]
    refine Agree.bind (addSites_units sites c c' hc) fun c c' hc => ?_
    refine AgreeS.elim (update_units hk env mem c c' hc) ?_ ?_ ?_ ?_
    · rintro _ _ c _ _ ⟨sv, hsv, rfl⟩
      simp only
      have ht : (cluster k sv c).tau = c.tau.map (k * ·) := rfl
      rw [ht, h.timeRes]
      cases c.tau with
      | none => exact Agree.error _
      | some tau =>
        cases w.timeRes with
        | none => exact Agree.error _
        | some res =>
          simp only [Option.map]
          rw [chosenResolution_units hk]
          cases World.chosenResolution tau t res with
          | error e => exact Agree.error e
          | ok r => exact setResolution_units _ _ ⟨sv, hsv, rfl⟩ r
    · intro e s t h; exact Agree.error e
    · intro s y; exact Or.inr (Or.inr (Or.inl rfl))
    · intro x t; exact Or.inr (Or.inr (Or.inr rfl))

theorem attach_units (cid : Int) (l : List Int) : ∀ {w w' : World K}, Same k w w' →
    AgreeS (fun _ _ => True) (Same k) (w.attach cid l) (w'.attach cid l) := by
  induction l with
  | nil => intro w w' h; exact AgreeS.ok trivial h
  | cons i l ih =>
    intro w w' h
    unfold World.attach
    have e := setClusterId_units (k := k) w.sites i cid
    unfold sitesK at e
    rw [h.sites, e, h.feats]
    generalize w.sites.setClusterId i cid = x
    obtain ⟨r, ss⟩ := x
    cases r with
    | error e => exact AgreeS.error h
    | ok _ => exact ih (h.withSitesFeats ss (w.feats.set i (.cluster cid)))

theorem seedCluster_units {w w' : World K} (h : Same k w w') (c c' : Cluster K) (hc : SameCluster k c c') :
    SameCluster k (w.seedCluster c) (w'.seedCluster c') := by
  unfold World.seedCluster
  rw [h.seed]
  obtain ⟨sv, hsv, rfl⟩ := hc
  cases w.seed with
  | none => exact ⟨sv, hsv, rfl⟩
  | some n => exact ⟨sv, hsv, rfl⟩

include hk in
theorem createCluster_units (env : Env K) (mem : Addr → K) {w w' : World K} (h : Same k w w') (l : List Int) (t : K) :
    AgreeS (fun _ _ => True) (Same k) (w.createCluster env mem l t) (w'.createCluster env (rates k mem) l (k * t)) := by
  unfold World.createCluster
  rw [h.nextId]
  cases chk (w.nextId + 1) with
  | error e => exact AgreeS.error h
  | ok next =>
    simp only
    rcases buildCluster_units hk env mem h w.nextId l t with ⟨c, c', e1, e2, hc⟩ | ⟨e, e1, e2⟩ | hb | hb
    · rw [e1, e2]
      simp only
      have hs := seedCluster_units h c c' hc
      have hid : (w'.seedCluster c').id = (w.seedCluster c).id := by obtain ⟨sv, _, hs⟩ := hs; rw [hs]; rfl
      have hid' : c'.id = c.id := by obtain ⟨sv, _, rfl⟩ := hc; rfl
      unfold ClusterContainer.addCluster ClusterContainer.exist
      rw [hid, h.clusters.has, nextSeed_units h]
      cases w.clusters.has (w.seedCluster c).id
      · simp only [Bool.false_eq_true, if_false]
        cases chk (next + 1) with
        | error e => exact AgreeS.error (by same h)
        | ok next =>
          simp only
          rw [hid']
          have hm := h.clusters.set (w.seedCluster c).id hs
          exact attach_units c.id l (by same h)
      · exact AgreeS.error (by same h)
    · rw [e1, e2]; exact AgreeS.error (by same h)
    · rw [hb]; exact AgreeS.badL rfl
    · rw [hb]; exact AgreeS.badR rfl

theorem mergeCollect_units (fav : Int) (l : List (Int × Int)) : ∀ {w w' : World K} (iso : List (Site K)) (cids : List Int),
    Same k w w' → AgreeS (fun a b => b = (a.1.map (site k), a.2)) (Same k) (w.mergeCollect fav iso cids l)
      (w'.mergeCollect fav (iso.map (site k)) cids l) := by
  induction l with
  | nil => intro w w' iso cids h; exact AgreeS.ok rfl h
  | cons a l ih =>
    intro w w' iso cids h
    obtain ⟨i, c⟩ := a
    unfold World.mergeCollect
    by_cases hc : c ≠ fav
    · rw [if_pos hc, if_pos hc]
      have e := getSite_units (k := k) w.sites i
      unfold sitesK at e
      rw [h.sites, e]
      cases w.sites.getSite i with
      | error e => exact AgreeS.error h
      | ok s =>
        simp only [Except.map]
        rcases getCluster_units h.clusters fav with ⟨e, e1, e2⟩ | ⟨a, b, e1, e2, _⟩
        · rw [e1, e2]; exact AgreeS.error h
        · rw [e1, e2]
          simp only
          refine AgreeS.elim (attach_units fav [i] h) ?_ ?_ ?_ ?_
          · intro _ _ w w' _ h
            simp only
            split
            · have := ih (iso ++ [s]) cids h
              rw [List.map_append] at this
              exact this
            · exact ih iso _ h
          · intro e s t h; exact AgreeS.error h
          · intro s y; exact AgreeS.badL rfl
          · intro x t; exact AgreeS.badR rfl
    · rw [if_neg hc, if_neg hc]
      exact ih iso cids h

include hk in
theorem mergeClusters_units (env : Env K) (mem : Addr → K) (fav : Int) (l : List Int) : ∀ {w w' : World K}, Same k w w' →
    AgreeS (fun _ _ => True) (Same k) (w.mergeClusters env mem fav l) (w'.mergeClusters env (rates k mem) fav l) := by
  induction l with
  | nil => intro w w' h; exact AgreeS.ok trivial h
  | cons cid l ih =>
    intro w w' h
    unfold World.mergeClusters
    rcases getCluster_units h.clusters fav with ⟨e, e1, e2⟩ | ⟨c, c', e1, e2, hc⟩
    · rw [e1, e2]; exact AgreeS.error h
    · rcases getCluster_units h.clusters cid with ⟨e, e3, e4⟩ | ⟨s, s', e3, e4, hs⟩
      · rw [e1, e2, e3, e4]; exact AgreeS.error h
      · rw [e1, e2, e3, e4]
        simp only
        refine AgreeS.elim (migrate_units hk env mem c c' s s' hc hs) ?_ ?_ ?_ ?_
        · rintro _ _ ⟨c, s⟩ ⟨c', s'⟩ _ ⟨hc, hs⟩
          exact ih (h.withClusters ((h.clusters.set fav hc).erase cid))
        · rintro e ⟨c, s⟩ ⟨c', s'⟩ ⟨hc, hs⟩
          exact AgreeS.error (h.withClusters ((h.clusters.set fav hc).set cid hs))
        · intro s y; exact AgreeS.badL rfl
        · intro x t; exact AgreeS.badR rfl

include hk in
theorem merge_units (env : Env K) (mem : Addr → K) {w w' : World K} (h : Same k w w') (order : List Int → List Int)
    (sc : IMap Int) (fav : Int) :
    AgreeS (fun _ _ => True) (Same k) (w.merge env mem order sc fav) (w'.merge env (rates k mem) order sc fav) := by
  unfold World.merge
  refine AgreeS.elim (mergeCollect_units fav sc [] [] h) ?_ ?_ ?_ ?_
  · rintro ⟨iso, cids⟩ _ w w' rfl h
    simp only
    rcases getCluster_units h.clusters fav with ⟨e, e1, e2⟩ | ⟨c, c', e1, e2, hc⟩
    · rw [e1, e2]; exact AgreeS.error h
    · rw [e1, e2]
      simp only
      rcases addSites_units iso c c' hc with ⟨a, b, e1, e2, hab⟩ | ⟨e, e1, e2⟩ | hb | hb
      · rw [e1, e2]
        simp only
        refine AgreeS.elim (update_units hk env mem a b hab) ?_ ?_ ?_ ?_
        · intro _ _ c c' _ hc
          exact mergeClusters_units hk env mem fav _ (h.withClusters (h.clusters.set fav hc))
        · intro e c c' hc
          exact AgreeS.error (h.withClusters (h.clusters.set fav hc))
        · intro s y; exact AgreeS.badL rfl
        · intro x t; exact AgreeS.badR rfl
      · rw [e1, e2]; exact AgreeS.error h
      · rw [hb]; exact AgreeS.badL rfl
      · rw [hb]; exact AgreeS.badR rfl
  · intro e s t h; exact AgreeS.error h
  · intro s y; exact AgreeS.badL rfl
  · intro x t; exact AgreeS.badR rfl

include hk in
theorem coarseGrain_units (env : Env K) (mem : Addr → K) {w w' : World K} (h : Same k w w') (a : Choices K) (v : Int) :
    AgreeS (fun a b => b = a) (Same k) (w.coarseGrain env mem a v) (w'.coarseGrain env (rates k mem) (choices k a) v) := by
  unfold World.coarseGrain
  have e1 := findBasin_units hk Explorer.default a.vis mem w.sites h.clusters v
  unfold sitesK at e1
  have e2 : World.maxTime (choices k a).times = k * World.maxTime a.times := maxTime_units hk a.times
  have e3 : (choices k a).vis = a.vis := rfl
  rw [h.sites, e3, e1, e2]
  cases Explorer.default.findBasin a.vis mem w.sites w.clusters v with
  | error e => exact AgreeS.error h
  | ok basin =>
    simp only
    rw [satisfies_units hk mem h]
    cases w.satisfies mem basin (World.maxTime a.times) with
    | error e => exact AgreeS.error h
    | ok b =>
      cases b
      · exact AgreeS.ok rfl h
      · simp only
        unfold World.coarseGrainBasin
        rw [clustersOfSites_units h, e2]
        cases w.clustersOfSites basin [] with
        | error e => exact AgreeS.error h
        | ok sc =>
          simp only
          by_cases c1 : World.countUniqueClusters sc = 1 ∧ (sc.head?.map Prod.snd) = some unassignedId
          · rw [if_pos c1, if_pos c1]
            refine AgreeS.elim (createCluster_units hk env mem h basin (World.maxTime a.times)) ?_ ?_ ?_ ?_
            · intro _ _ s t _ h; exact AgreeS.ok rfl h
            · intro e s t h; exact AgreeS.error h
            · intro s y; exact AgreeS.badL rfl
            · intro x t; exact AgreeS.badR rfl
          · rw [if_neg c1, if_neg c1]
            by_cases c2 : World.countUniqueClusters sc ≠ 1
            · rw [if_pos c2, if_pos c2]
              refine AgreeS.elim (merge_units hk env mem h a.order sc (World.favoredClusterId sc)) ?_ ?_ ?_ ?_
              · intro _ _ s t _ h; exact AgreeS.ok rfl h
              · intro e s t h; exact AgreeS.error h
              · intro s y; exact AgreeS.badL rfl
              · intro x t; exact AgreeS.badR rfl
            · rw [if_neg c2, if_neg c2]
              exact AgreeS.ok rfl h

/-! ## Hop -/

include hk in
theorem hopMove_units {w w' : World K} (h : Same k w w') (wid hd : Int) (a : Choices K) :
    Agree (fun a b => b.1 = a.1 ∧ Same k a.2 b.2) (w.hopMove wid hd a) (w'.hopMove wid hd (choices k a)) := by
  unfold World.hopMove
  refine Agree.bind (walkerOf_units h hd) fun x x' hx => ?_
  refine Agree.bind (walkerSite_units hx) fun i i' hi => ?_
  subst hi
  refine Agree.bind (walkerPot_units hx) fun j j' hj => ?_
  subst hj
  simp only
  rw [feat_units h, feat_units h]
  refine Agree.bind (isOccupiedAt_units h _ _) fun b b' hb => ?_
  subst hb
  split
  · refine Agree.bind (vacateAt_units h _ _) fun w w' h => ?_
    refine Agree.bind (occupyAt_units h _ _) fun w w' h => ?_
    refine Agree.bind (dwellAt_units hk h _ wid a.e) fun p p' hp => ?_
    obtain ⟨t, w⟩ := p
    obtain ⟨t', w'⟩ := p'
    obtain ⟨ht, h⟩ := hp
    simp only at ht h
    subst ht
    refine Agree.bind (pickAt_units hk h _ wid a.u) fun p p' hp => ?_
    obtain ⟨n, w⟩ := p
    obtain ⟨n', w'⟩ := p'
    obtain ⟨hn, h⟩ := hp
    simp only at hn h
    subst hn
    exact Agree.ok ⟨rfl, h.withWalkers (h.walkers.set _ ⟨hx.1, rfl, Or.inl rfl⟩)⟩
  · refine Agree.bind (vacateAt_units h _ _) fun w w' h => ?_
    refine Agree.bind (occupyAt_units h _ _) fun w w' h => ?_
    refine Agree.bind (dwellAt_units hk h _ wid a.e) fun p p' hp => ?_
    obtain ⟨t, w⟩ := p
    obtain ⟨t', w'⟩ := p'
    obtain ⟨ht, h⟩ := hp
    simp only at ht h
    subst ht
    refine Agree.bind (pickAt_units hk h _ wid a.u) fun p p' hp => ?_
    obtain ⟨n, w⟩ := p
    obtain ⟨n', w'⟩ := p'
    obtain ⟨hn, h⟩ := hp
    simp only at hn h
    subst hn
    exact Agree.ok ⟨rfl, h.withWalkers (h.walkers.set _ ⟨rfl, rfl, Or.inl rfl⟩)⟩

include hk in
theorem hopCount_units (env : Env K) (mem : Addr → K) {w w' : World K} (h : Same k w w') (a : Choices K) (j : Int) :
    AgreeS (fun _ _ => True) (Same k) (w.hopCount env mem a j) (w'.hopCount env (rates k mem) (choices k a) j) := by
  unfold World.hopCount
  rw [h.iteration]
  cases chk (w.iteration + 1) with
  | error e => exact AgreeS.error h
  | ok it =>
    simp only
    have h1 := h.withIteration it
    by_cases c1 : it > w.threshold
    · have c1' : it > w'.threshold := by rw [h.threshold]; exact c1
      rw [if_pos c1, if_pos c1']
      by_cases c2 : w.thresholdMin ≠ infIterations
      · have c2' : w'.thresholdMin ≠ infIterations := by rw [h.thresholdMin]; exact c2
        rw [if_pos c2, if_pos c2']
        refine AgreeS.elim (coarseGrain_units hk env mem h1 a j) ?_ ?_ ?_ ?_
        · intro b b' w w' hb h
          subst hb
          cases b'
          · simp only
            rw [h.threshold]
            cases chk (w.threshold * 2) with
            | error e => exact AgreeS.error h
            | ok t => exact AgreeS.ok trivial (h.withThreshold t 0)
          · simp only
            have ht := h.thresholdMin
            exact AgreeS.ok trivial (by same h)
        · intro e s t h; exact AgreeS.error h
        · intro s y; exact AgreeS.badL rfl
        · intro x t; exact AgreeS.badR rfl
      · have c2' : ¬ w'.thresholdMin ≠ infIterations := by rw [h.thresholdMin]; exact c2
        rw [if_neg c2, if_neg c2']
        exact AgreeS.ok trivial (h.withIteration 0)
    · have c1' : ¬ it > w'.threshold := by rw [h.threshold]; exact c1
      rw [if_neg c1, if_neg c1']
      exact AgreeS.ok trivial h1

include hk in
theorem hop_units (env : Env K) (mem : Addr → K) {w w' : World K} (h : Same k w w') (wid hd : Int) (a : Choices K) :
    AgreeS (fun _ _ => True) (Same k) (w.hop env mem wid hd a) (w'.hop env (rates k mem) wid hd (choices k a)) := by
  unfold World.hop
  rcases hopMove_units hk h wid hd a with ⟨⟨j, w1⟩, ⟨j', w1'⟩, e1, e2, hj, h1⟩ | ⟨e, e1, e2⟩ | hb | hb
  · simp only at hj h1
    subst hj
    rw [e1, e2]
    exact hopCount_units hk env mem h1 a j'
  · rw [e1, e2]; exact AgreeS.error h
  · rw [hb]; exact AgreeS.badL rfl
  · rw [hb]; exact AgreeS.badR rfl

end Mythical.Units
