import Verif.Spec.Containers
import Verif.Lemmas.IMap
import Verif.Lemmas.Except
import Mathlib.Data.List.MinMax
import Mathlib.Algebra.Order.Field.Rat
import Mathlib.Data.Rat.Floor

/-! # C65: the containers behave like maps -/

set_option linter.unusedSectionVars false

namespace Mythical.Containers
open Mythical ContainerSpec
variable {K : Type} [Field K] [LinearOrder K] [IsStrictOrderedRing K] [FloorRing K]

/-! ## Helpers -/

theorem _root_.Mythical.ContainerSpec.Holds.upd {V : Type} {m : IMap V} {A : Store V} (h : Holds m A) (id : Int) (v : V) :
    Holds (IMap.set m id v) (A.upd id v) := by
  refine ⟨h.1.set id v, fun i => ?_⟩
  rw [IMap.get?_set]
  unfold Store.upd
  by_cases hi : id = i
  · subst hi; simp
  · rw [if_neg hi, if_neg (fun e => hi e.symm), h.2]

theorem _root_.Mythical.ContainerSpec.Holds.del {V : Type} {m : IMap V} {A : Store V} (h : Holds m A) (id : Int) :
    Holds (IMap.erase m id) (A.del id) := by
  refine ⟨h.1.erase id, fun i => ?_⟩
  rw [IMap.get?_erase h.1]
  unfold Store.del
  by_cases hi : id = i
  · subst hi; simp
  · rw [if_neg hi, if_neg (fun e => hi e.symm), h.2]

theorem _root_.Mythical.ContainerSpec.Holds.empty {V : Type} : Holds ([] : IMap V) (fun _ => none) :=
  ⟨List.nodup_nil, fun _ => rfl⟩

/-- A call and its specification give the same result and leave matching states behind. -/
def Agree {V R : Type} (x : R × IMap V) (y : R × Store V) : Prop := x.1 = y.1 ∧ Holds x.2 y.2

theorem runAll_agree {V Op R : Type} {f : IMap V → Op → R × IMap V} {g : Store V → Op → R × Store V}
    {P : Store V → Op → Prop} (hstep : ∀ m A op, Holds m A → P A op → Agree (f m op) (g A op)) :
    ∀ (ops : List Op) (m : IMap V) (A : Store V), Holds m A →
      (∀ k (hk : k < ops.length), P (runAll g A (ops.take k)).2 ops[k]) →
      Agree (runAll f m ops) (runAll g A ops)
  | [], _, _, h, _ => ⟨rfl, h⟩
  | op :: ops, m, A, h, hP => by
    have h1 := hstep m A op h (hP 0 (by simp))
    have h2 := runAll_agree hstep ops _ _ h1.2 (fun k hk => by
      have := hP (k + 1) (by simpa using hk)
      simpa [runAll] using this)
    exact ⟨by simp [runAll, h1.1, h2.1], h2.2⟩

theorem siteAdd_agree {m : SiteContainer K} {A : Store (Site K)} (h : Holds m A) (s : Site K) :
    Agree (SiteContainer.addSite m s) (add A s.id s) := by
  unfold SiteContainer.addSite add
  rw [← h.2 s.id]
  by_cases hk : IMap.has m s.id = true
  · have : IMap.get? m s.id ≠ none := by
      intro e
      simp [IMap.has, e] at hk
    rw [if_pos hk, if_neg this]
    exact ⟨rfl, h⟩
  · have : IMap.get? m s.id = none := by
      simpa [IMap.has] using hk
    rw [if_neg hk, if_pos this]
    exact ⟨rfl, h.upd _ _⟩

theorem clusterAdd_agree {m : ClusterContainer K} {A : Store (Cluster K)} (h : Holds m A) (s : Cluster K) :
    Agree (ClusterContainer.addCluster m s) (add A s.id s) := by
  unfold ClusterContainer.addCluster ClusterContainer.exist add
  rw [← h.2 s.id]
  by_cases hk : IMap.has m s.id = true
  · have : IMap.get? m s.id ≠ none := by
      intro e
      simp [IMap.has, e] at hk
    rw [if_pos hk, if_neg this]
    exact ⟨rfl, h⟩
  · have : IMap.get? m s.id = none := by
      simpa [IMap.has] using hk
    rw [if_neg hk, if_pos this]
    exact ⟨rfl, h.upd _ _⟩

theorem add_error {V : Type} {A : Store V} {id : Int} {v : V} {e : Fault} (h : (add A id v).1 = .error e) :
    (add A id v).2 = A := by
  unfold add at *
  split at h
  · cases h
  · rename_i hn; rw [if_neg hn]

theorem siteAddAll_agree : ∀ (l : List (Site K)) {m : SiteContainer K} {A : Store (Site K)}, Holds m A →
    Agree (SiteContainer.addSites m l) (addAll (·.id) A l)
  | [], _, _, h => ⟨rfl, h⟩
  | s :: l, m, A, h => by
    have h1 := siteAdd_agree h s
    unfold SiteContainer.addSites addAll
    rw [← h1.1]
    rcases hx : SiteContainer.addSite m s with ⟨r, m'⟩
    rw [hx] at h1
    cases r with
    | error e => exact ⟨rfl, by have := h1.2; rwa [add_error h1.1.symm] at this⟩
    | ok u => exact siteAddAll_agree l h1.2

theorem clusterAddAll_agree : ∀ (l : List (Cluster K)) {m : ClusterContainer K} {A : Store (Cluster K)}, Holds m A →
    Agree (ClusterContainer.addClusters m l) (addAll (·.id) A l)
  | [], _, _, h => ⟨rfl, h⟩
  | s :: l, m, A, h => by
    have h1 := clusterAdd_agree h s
    unfold ClusterContainer.addClusters addAll
    rw [← h1.1]
    rcases hx : ClusterContainer.addCluster m s with ⟨r, m'⟩
    rw [hx] at h1
    cases r with
    | error e => exact ⟨rfl, by have := h1.2; rwa [add_error h1.1.symm] at this⟩
    | ok u => exact clusterAddAll_agree l h1.2

/-- The candidate list of `smallest`. -/
def cands (A : Store (Site K)) (ids : List Int) : List Int :=
  ids.filterMap fun i => (A i).bind fun s => if s.clusterId = unassignedId then none else some s.clusterId

theorem getD_min?_cons (x : Int) (l : List Int) : (x :: l).min?.getD unassignedId = l.foldl min x := by
  rw [List.min?_cons']; rfl

theorem smallestLoop_spec {A : Store (Site K)} : ∀ (ids : List Int) {m : SiteContainer K} (fav : Int), Holds m A →
    (∀ i ∈ ids, A i ≠ none) →
    (SiteContainer.smallestLoop m fav ids).1 =
      (if fav = unassignedId then ((cands A ids).min?).getD unassignedId else (cands A ids).foldl min fav) ∧
    Holds (SiteContainer.smallestLoop m fav ids).2 A
  | [], m, fav, h, _ => by
    by_cases hf : fav = unassignedId <;> simp [SiteContainer.smallestLoop, cands, hf, h]
  | id :: ids, m, fav, h, hk => by
    obtain ⟨s, hs⟩ := Option.ne_none_iff_exists'.mp (hk id (by simp))
    have hm : IMap.get? m id = some s := by rw [h.2, hs]
    have hset : Holds (IMap.set m id s) A := by
      have := h.upd id s
      have hA : A.upd id s = A := by
        funext j
        unfold Store.upd
        by_cases hj : j = id
        · subst hj; simp [hs]
        · simp [hj]
      rwa [hA] at this
    unfold SiteContainer.smallestLoop
    simp only [hm, Option.getD_some]
    have ih := fun f => smallestLoop_spec ids (m := IMap.set m id s) f hset (fun i hi => hk i (by simp [hi]))
    refine ⟨?_, (ih _).2⟩
    rw [(ih _).1]
    have hc : cands A (id :: ids) =
        if s.clusterId = unassignedId then cands A ids else s.clusterId :: cands A ids := by
      unfold cands
      rw [List.filterMap_cons]
      simp only [hs, Option.bind_some]
      by_cases hu : s.clusterId = unassignedId <;> simp [hu]
    by_cases hf : fav = unassignedId
    · simp only [hf, if_true]
      by_cases hu : s.clusterId = unassignedId
      · rw [hc, if_pos hu, if_pos hu]
      · rw [hc, if_neg hu, if_neg hu, getD_min?_cons]
    · simp only [if_neg hf]
      by_cases hu : s.clusterId = unassignedId
      · have : ¬ (s.clusterId ≠ unassignedId ∧ s.clusterId < fav) := fun h => h.1 hu
        rw [if_neg this, if_neg hf, hc, if_pos hu]
      · rw [hc, if_neg hu]
        by_cases hlt : s.clusterId < fav
        · rw [if_pos (And.intro hu hlt), if_neg hu, List.foldl_cons, min_eq_right hlt.le]
        · rw [if_neg (show ¬ (s.clusterId ≠ unassignedId ∧ s.clusterId < fav) from fun h => hlt h.2), if_neg hf, List.foldl_cons, min_eq_left (not_lt.mp hlt)]

theorem siteModify_agree {m : SiteContainer K} {A : Store (Site K)} (h : Holds m A) (id : Int)
    (f : Site K → Except Fault (Option Int × Site K)) {x : Except Fault (Option Int) × SiteContainer K}
    (hx : x = match IMap.get? m id with
      | none => (.error .invalidArgument, m)
      | some v => match f v with
        | .error e => (.error e, m)
        | .ok (r, v) => (.ok r, IMap.set m id v)) : Agree x (ContainerSpec.modify A id f) := by
  subst hx
  unfold ContainerSpec.modify
  rw [← h.2 id]
  cases IMap.get? m id with
  | none => exact ⟨rfl, h⟩
  | some v =>
    cases hf : f v with
    | error e => simp only [hf]; exact ⟨rfl, h⟩
    | ok rv => simp only [hf]; exact ⟨rfl, h.upd _ _⟩

theorem clusterModify_agree {m : ClusterContainer K} {A : Store (Cluster K)} (h : Holds m A) (id : Int)
    (f : Cluster K → Except Fault (Option K × Cluster K)) {x : Except Fault (Option K) × ClusterContainer K}
    (hx : x = match IMap.get? m id with
      | none => (.error .invalidArgument, m)
      | some v => match f v with
        | .error e => (.error e, m)
        | .ok (r, v) => (.ok r, IMap.set m id v)) : Agree x (ContainerSpec.modify A id f) := by
  subst hx
  unfold ContainerSpec.modify
  rw [← h.2 id]
  cases IMap.get? m id with
  | none => exact ⟨rfl, h⟩
  | some v =>
    cases hf : f v with
    | error e => simp only [hf]; exact ⟨rfl, h⟩
    | ok rv => simp only [hf]; exact ⟨rfl, h.upd _ _⟩

theorem siteStep_agree (m : SiteContainer K) (A : Store (Site K)) (op : SiteContainer.Op K) (h : Holds m A)
    (hP : ∀ ids, op = .getSmallestClusterId ids → ∀ i ∈ ids, A i ≠ none) :
    Agree (SiteContainer.step m op) (siteStep A op) := by
  cases op with
  | addSite s =>
    have := siteAdd_agree h s
    exact ⟨by simp [SiteContainer.step, siteStep, this.1], this.2⟩
  | addSites l =>
    have := siteAddAll_agree l h
    exact ⟨by simp [SiteContainer.step, siteStep, this.1], this.2⟩
  | put id s =>
    refine siteModify_agree h id _ ?_
    simp only [SiteContainer.step, SiteContainer.getSite, SiteContainer.put]
    cases IMap.get? m id <;> rfl
  | setClusterId id cid =>
    refine siteModify_agree h id _ ?_
    simp only [SiteContainer.step, SiteContainer.setClusterId, SiteContainer.getSite]
    cases IMap.get? m id <;> rfl
  | getSmallestClusterId ids =>
    have hk := hP ids rfl
    have := smallestLoop_spec ids unassignedId h hk
    simp only [SiteContainer.step, siteStep]
    rw [if_pos hk]
    refine ⟨?_, this.2⟩
    simp only [SiteContainer.getSmallestClusterId]
    rw [this.1, if_pos rfl]
    rfl
  | vacate id =>
    refine siteModify_agree h id _ ?_
    simp only [SiteContainer.step, SiteContainer.vacate, SiteContainer.getSite]
    cases IMap.get? m id with
    | none => rfl
    | some s => cases hv : s.vacate <;> simp [hv, Except.map]
  | occupy id =>
    refine siteModify_agree h id _ ?_
    simp only [SiteContainer.step, SiteContainer.occupy, SiteContainer.getSite]
    cases IMap.get? m id with
    | none => rfl
    | some s => cases hv : s.occupy <;> simp [hv, Except.map]

theorem clusterStep_agree (m : ClusterContainer K) (A : Store (Cluster K)) (op : ClusterContainer.Op K) (h : Holds m A) :
    Agree (ClusterContainer.step m op) (clusterStep A op) := by
  cases op with
  | addCluster s =>
    have := clusterAdd_agree h s
    exact ⟨by simp [ClusterContainer.step, clusterStep, this.1], this.2⟩
  | addClusters l =>
    have := clusterAddAll_agree l h
    exact ⟨by simp [ClusterContainer.step, clusterStep, this.1], this.2⟩
  | put id s =>
    refine clusterModify_agree h id _ ?_
    simp only [ClusterContainer.step, ClusterContainer.getCluster, ClusterContainer.put]
    cases IMap.get? m id <;> rfl
  | erase id => exact ⟨rfl, h.del id⟩
  | vacate id =>
    refine clusterModify_agree h id _ ?_
    simp only [ClusterContainer.step, ClusterContainer.vacate, ClusterContainer.getCluster]
    cases IMap.get? m id with
    | none => rfl
    | some s => cases hv : s.vacate <;> simp [hv, Except.map]
  | occupy id =>
    refine clusterModify_agree h id _ ?_
    simp only [ClusterContainer.step, ClusterContainer.occupy, ClusterContainer.getCluster]
    cases IMap.get? m id with
    | none => rfl
    | some s => cases hv : s.occupy <;> simp [hv, Except.map]
  | getDwellTime wid id e =>
    refine clusterModify_agree h id _ ?_
    simp only [ClusterContainer.step, ClusterContainer.getDwellTime, ClusterContainer.getCluster]
    cases IMap.get? m id with
    | none => rfl
    | some s => cases hv : s.getDwellTime wid e <;> simp [hv, Except.map]

theorem asksKnown_take : ∀ (ops : List (SiteContainer.Op K)) (A : Store (Site K)), AsksKnown A ops →
    ∀ k (hk : k < ops.length) ids, ops[k] = .getSmallestClusterId ids →
      ∀ i ∈ ids, (runAll siteStep A (ops.take k)).2 i ≠ none
  | op :: ops, A, h, 0, hk, ids, e => by
    simp only [List.getElem_cons_zero] at e
    subst e
    exact h.1
  | op :: ops, A, h, k + 1, hk, ids, e => by
    simpa [runAll] using asksKnown_take ops _ h.2 k (by simpa using hk) ids (by simpa using e)

/-! ## The property -/

/-- C65 for `Cluster_Container`: from the empty container on, every sequence of calls returns (or throws) what a finite
map would, and what is stored afterwards under each id is what the map holds. -/
theorem C65_cluster_container (ops : List (ClusterContainer.Op K)) :
    (runAll ClusterContainer.step ([] : ClusterContainer K) ops).1 = (runAll clusterStep (fun _ => none) ops).1 ∧
    Holds (runAll ClusterContainer.step ([] : ClusterContainer K) ops).2 (runAll clusterStep (fun _ => none) ops).2 :=
  runAll_agree (P := fun _ _ => True) (fun m A op h _ => clusterStep_agree m A op h) ops _ _ Holds.empty
    (fun _ _ => trivial)

/-- Two clusters, the second addition of id 4 throws and keeps the first cluster 4, erasing 4 leaves 2 alone. -/
example : runAll ClusterContainer.step ([] : ClusterContainer ℚ)
      [.addClusters [Cluster.new 4, Cluster.new 2], .addCluster { Cluster.new 4 with visits := 9 }, .occupy 4, .erase 4,
        .vacate 4] =
    ([.ok none, .error .invalidArgument, .ok none, .ok none, .error .invalidArgument], [(2, Cluster.new 2)]) := by
  decide +kernel

/-- C65 for the read-only calls of `Cluster_Container`: they answer from the map. -/
theorem C65_cluster_lookups (m : ClusterContainer K) (A : Store (Cluster K)) (h : Holds m A) (mem : Addr → K) (id : Int) :
    (ClusterContainer.exist m id = true ↔ A id ≠ none) ∧
    (A id = none → ClusterContainer.getCluster m id = .error .invalidArgument ∧
      ClusterContainer.isOccupied m id = .error .invalidArgument ∧
      ClusterContainer.getTimeConstant m id = .error .invalidArgument ∧
      ClusterContainer.getFastestRateOffCluster mem m id = .error .invalidArgument ∧
      ClusterContainer.getSiteIdsOfNeighbors m id = .error .invalidArgument) ∧
    (∀ c, A id = some c → ClusterContainer.getCluster m id = .ok c ∧
      ClusterContainer.isOccupied m id = .ok c.isOccupied ∧
      ClusterContainer.getTimeConstant m id = .ok c.tau ∧
      ClusterContainer.getFastestRateOffCluster mem m id = .ok (c.getFastestRateOffCluster mem) ∧
      ClusterContainer.getSiteIdsOfNeighbors m id = .ok c.getSiteIdsNeighboringCluster) ∧
    (ClusterContainer.getClusterIds m).Nodup ∧ (id ∈ ClusterContainer.getClusterIds m ↔ A id ≠ none) ∧
    (ClusterContainer.getSiteIdsOfClusters m).get? id = (A id).map (·.getSiteIdsInCluster) ∧
    (ClusterContainer.getResolutionOfClusters m).get? id = (A id).map (·.resolution) := by
  have hid := h.2 id
  have hmap : ∀ {W : Type} (f : Cluster K → W), IMap.get? (m.map fun ic => (ic.1, f ic.2)) id = (A id).map f := by
    intro W f
    have := IMap.get?_mapVal (fun _ c => f c) m id
    rw [← hid]
    exact this
  refine ⟨?_, ?_, ?_, h.1, ?_, hmap _, hmap _⟩
  · rw [← hid]; simp [ClusterContainer.exist, IMap.has, Option.isSome_iff_ne_none]
  · intro hn
    rw [hn] at hid
    simp [ClusterContainer.getCluster, ClusterContainer.isOccupied, ClusterContainer.getTimeConstant,
      ClusterContainer.getFastestRateOffCluster, ClusterContainer.getSiteIdsOfNeighbors, hid]
  · intro c hn
    rw [hn] at hid
    simp [ClusterContainer.getCluster, ClusterContainer.isOccupied, ClusterContainer.getTimeConstant,
      ClusterContainer.getFastestRateOffCluster, ClusterContainer.getSiteIdsOfNeighbors, hid]
  · rw [← hid]
    unfold ClusterContainer.getClusterIds
    rw [IMap.mem_keys_iff_get?]
    simp [Option.ne_none_iff_exists']

/-- A container with two clusters holds exactly them. -/
example : Holds [(4, Cluster.new 4), (2, (Cluster.new 2 : Cluster ℚ))]
    (fun i => if i = 4 then some (Cluster.new 4) else if i = 2 then some (Cluster.new 2) else none) :=
  ⟨by simp [IMap.WF], fun i => by by_cases h4 : i = 4 <;> by_cases h2 : i = 2 <;> simp_all [IMap.get?, eq_comm]⟩

/-- C65, part that holds for `Site_Container`: as long as `getSmallestClusterId` is only asked about known sites, every
sequence of calls from the empty container on returns (or throws) what a finite map would, and what is stored afterwards
under each id is what the map holds.

Missing from the full statement: `getSmallestClusterId` with an unknown id, see `C65_smallest_inserts`. -/
theorem C65_partial (ops : List (SiteContainer.Op K)) (hk : AsksKnown (fun _ => none) ops) :
    (runAll SiteContainer.step ([] : SiteContainer K) ops).1 = (runAll siteStep (fun _ => none) ops).1 ∧
    Holds (runAll SiteContainer.step ([] : SiteContainer K) ops).2 (runAll siteStep (fun _ => none) ops).2 :=
  runAll_agree (P := fun A op => ∀ ids, op = .getSmallestClusterId ids → ∀ i ∈ ids, A i ≠ none) siteStep_agree ops _ _
    Holds.empty (asksKnown_take ops _ hk)

/-- A site with the given id, used in the examples. -/
def exSite (id cid : Int) : Site ℚ := { Cluster.defaultSite with id := id, clusterId := cid }

/-- The hypothesis is met by a history that does ask for a smallest cluster id. -/
example : AsksKnown (fun _ => none) [.addSites [exSite 4 7, exSite 2 unassignedId, exSite 9 3], .addSite (exSite 4 1),
    .occupy 5, .setClusterId 2 5, .getSmallestClusterId [2, 4, 9]] ∧
    (runAll SiteContainer.step [] [.addSites [exSite 4 7, exSite 2 unassignedId, exSite 9 3], .addSite (exSite 4 1),
      .occupy 5, .setClusterId 2 5, .getSmallestClusterId [2, 4, 9]]).1 =
      [.ok none, .error .invalidArgument, .error .invalidArgument, .ok none, .ok (some 3)] := by
  refine ⟨⟨trivial, trivial, trivial, trivial, ?_, trivial⟩, ?_⟩
  · decide +kernel
  · decide +kernel

/-- C65 for the read-only calls of `Site_Container`: they answer from the map. -/
theorem C65_site_lookups (m : SiteContainer K) (A : Store (Site K)) (h : Holds m A) (mem : Addr → K) (id n : Int) (e : K) :
    (SiteContainer.exist m id = true ↔ A id ≠ none) ∧
    (A id = none → SiteContainer.getSite m id = .error .invalidArgument ∧
      SiteContainer.getClusterIdOfSite m id = .error .invalidArgument ∧
      SiteContainer.partOfCluster m id = .error .invalidArgument ∧
      SiteContainer.isOccupied m id = .error .invalidArgument ∧
      SiteContainer.getDwellTime m id e = .error .invalidArgument ∧
      SiteContainer.getTimeConstant m id = .error .invalidArgument ∧
      SiteContainer.getFastestRateOffSite mem m id = .error .invalidArgument ∧
      SiteContainer.getRateToNeighborOfSite mem m id n = .error .invalidArgument ∧
      SiteContainer.getSiteIdsOfNeighbors m id = .error .invalidArgument) ∧
    (∀ s, A id = some s → SiteContainer.getSite m id = .ok s ∧
      SiteContainer.getClusterIdOfSite m id = .ok s.clusterId ∧
      SiteContainer.partOfCluster m id = .ok s.partOfCluster ∧
      SiteContainer.isOccupied m id = .ok s.isOccupied ∧
      SiteContainer.getDwellTime m id e = .ok (s.getDwellTime e) ∧
      SiteContainer.getTimeConstant m id = .ok s.tau ∧
      SiteContainer.getFastestRateOffSite mem m id = .ok (s.getFastestRate mem) ∧
      SiteContainer.getRateToNeighborOfSite mem m id n = s.getRateToNeighbor mem n ∧
      SiteContainer.getSiteIdsOfNeighbors m id = .ok s.neigh.keys) ∧
    (SiteContainer.getSiteIds m).Nodup ∧ (id ∈ SiteContainer.getSiteIds m ↔ A id ≠ none) ∧
    (SiteContainer.getRates m).get? id = (A id).map (·.neigh) := by
  have hid := h.2 id
  have hmap : ∀ {W : Type} (f : Site K → W), IMap.get? (m.map fun ic => (ic.1, f ic.2)) id = (A id).map f := by
    intro W f
    have := IMap.get?_mapVal (fun _ c => f c) m id
    rw [← hid]
    exact this
  refine ⟨?_, ?_, ?_, h.1, ?_, hmap _⟩
  · rw [← hid]; simp [SiteContainer.exist, IMap.has, Option.isSome_iff_ne_none]
  · intro hn
    rw [hn] at hid
    have hg : SiteContainer.getSite m id = .error .invalidArgument := by simp [SiteContainer.getSite, hid]
    simp [SiteContainer.getClusterIdOfSite, SiteContainer.partOfCluster, SiteContainer.isOccupied,
      SiteContainer.getDwellTime, SiteContainer.getTimeConstant, SiteContainer.getFastestRateOffSite,
      SiteContainer.getRateToNeighborOfSite, SiteContainer.getSiteIdsOfNeighbors, hg]
  · intro s hn
    rw [hn] at hid
    have hg : SiteContainer.getSite m id = .ok s := by simp [SiteContainer.getSite, hid]
    simp [SiteContainer.getClusterIdOfSite, SiteContainer.partOfCluster, SiteContainer.isOccupied,
      SiteContainer.getDwellTime, SiteContainer.getTimeConstant, SiteContainer.getFastestRateOffSite,
      SiteContainer.getRateToNeighborOfSite, SiteContainer.getSiteIdsOfNeighbors, hg,
      Site.getNeighborSiteIds]
  · rw [← hid]
    unfold SiteContainer.getSiteIds
    rw [IMap.mem_keys_iff_get?]
    simp [Option.ne_none_iff_exists']

/-- A container with two sites holds exactly them; `getSites` with one of them, and with an unknown one. -/
example : Holds [(4, exSite 4 7), (2, exSite 2 3)]
      (fun i => if i = 4 then some (exSite 4 7) else if i = 2 then some (exSite 2 3) else none) ∧
    SiteContainer.getSitesOf [(4, exSite 4 7), (2, exSite 2 3)] [2, 2] [] = .ok [(2, exSite 2 3)] ∧
    SiteContainer.getSitesOf [(4, exSite 4 7), (2, exSite 2 3)] [2, 5] [] = .error .invalidArgument := by
  refine ⟨⟨by simp [IMap.WF], fun i => ?_⟩, by decide +kernel, by decide +kernel⟩
  by_cases h4 : i = 4 <;> by_cases h2 : i = 2 <;> simp_all [IMap.get?, eq_comm]

/-- C65 for `getSites(ids)`: it returns exactly the named sites, or throws if one of them is unknown. -/
theorem C65_getSites (m : SiteContainer K) (A : Store (Site K)) (h : Holds m A) (ids : List Int) :
    (∀ i ∈ ids, A i ≠ none) ∧ (∃ r, SiteContainer.getSitesOf m ids [] = .ok r ∧
        Holds r (fun i => if i ∈ ids then A i else none)) ∨
    (∃ i ∈ ids, A i = none) ∧ SiteContainer.getSitesOf m ids [] = .error .invalidArgument := by
  have key : ∀ (ids : List Int) (acc : IMap (Site K)) (B : Store (Site K)), Holds acc B →
      (∀ i ∈ ids, A i ≠ none) ∧ (∃ r, SiteContainer.getSitesOf m ids acc = .ok r ∧
        Holds r (fun i => if i ∈ ids then A i else B i)) ∨
      (∃ i ∈ ids, A i = none) ∧ SiteContainer.getSitesOf m ids acc = .error .invalidArgument := by
    intro ids
    induction ids with
    | nil => intro acc B hB; exact .inl ⟨by simp, acc, rfl, by simpa using hB⟩
    | cons i ids ih =>
      intro acc B hB
      cases hA : A i with
      | none =>
        refine .inr ⟨⟨i, by simp, hA⟩, ?_⟩
        simp [SiteContainer.getSitesOf, SiteContainer.getSite, h.2, hA]
      | some s =>
        have he : SiteContainer.getSitesOf m (i :: ids) acc = SiteContainer.getSitesOf m ids (IMap.set acc i s) := by
          simp [SiteContainer.getSitesOf, SiteContainer.getSite, h.2, hA]
        rw [he]
        rcases ih _ _ (hB.upd i s) with ⟨h1, r, h2, h3⟩ | ⟨⟨j, hj, hn⟩, h2⟩
        · refine .inl ⟨?_, r, h2, ?_⟩
          · intro j hj
            rcases List.mem_cons.mp hj with rfl | hj
            · simp [hA]
            · exact h1 j hj
          · convert h3 using 1
            funext j
            unfold Store.upd
            by_cases h1 : j ∈ ids <;> by_cases h2 : j = i <;> simp [h1, h2, hA]
        · exact .inr ⟨⟨j, by simp [hj], hn⟩, h2⟩
  exact key ids [] (fun _ => none) Holds.empty

/-- C65 fails for `getSmallestClusterId`: asked about a site that is not there it does not throw but adds a default
constructed site under that id. -/
theorem C65_smallest_inserts : ∃ (m : SiteContainer ℚ) (i : Int), m.WF ∧ IMap.get? m i = none ∧
    (SiteContainer.step m (.getSmallestClusterId [i])).1 = .ok (some unassignedId) ∧
    (SiteContainer.step m (.getSmallestClusterId [i])).1 ≠ (siteStep (IMap.get? m) (.getSmallestClusterId [i])).1 ∧
    IMap.get? (SiteContainer.step m (.getSmallestClusterId [i])).2 i ≠ none := by
  refine ⟨[(4, exSite 4 7)], 5, ?_, ?_, ?_, ?_, ?_⟩
  · simp [IMap.WF]
  all_goals decide +kernel

end Mythical.Containers
