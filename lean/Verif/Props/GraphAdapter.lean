import Verif.Lemmas.GraphAdapter
import Verif.Props.SystemTotal

/-! # The graph given to the graph library, and traversal times: C70 -/

set_option linter.unusedSectionVars false
set_option linter.unusedVariables false

namespace Mythical
open World SystemSpec GraphSpec
variable {K : Type} [Field K] [LinearOrder K] [IsStrictOrderedRing K] [FloorRing K]

/-- **C70** (nodes and edges): whatever the container and the list of ids (known or not, repeated or not), the graph has one node
for each different id. Its edges are the rates out of these sites: there is an edge from `i` to `j` if and only if `i` is in the
list and has a rate to `j`, its weight is that rate (for the searches) or its inverse (for the traversal times), and no edge is
listed twice unless an id is. -/
theorem C70_graph (mem : Addr → K) (sites : SiteContainer K) (hp : ∀ i s, sites.get? i = some s → s.neigh.WF) (ids : List Int) :
    ((GraphAdapter.nodes ids []).Nodup ∧ ∀ i, i ∈ GraphAdapter.nodes ids [] ↔ i ∈ ids) ∧
    (∀ i e, e ∈ GraphAdapter.edgesOfSite mem sites i ↔ e.src = i ∧ BasinSpec.rate mem sites i e.dst = some e.weight) ∧
    (∀ e, e ∈ GraphAdapter.edgesOfSites mem sites ids ↔ e.src ∈ ids ∧ BasinSpec.rate mem sites e.src e.dst = some e.weight) ∧
    (∀ e, e ∈ GraphAdapter.timeEdgesOfSites mem sites ids ↔
      e.src ∈ ids ∧ ∃ r, BasinSpec.rate mem sites e.src e.dst = some r ∧ e.weight = 1 / r) ∧
    (∀ i, ((GraphAdapter.edgesOfSite mem sites i).map fun e => (e.src, e.dst)).Nodup) ∧
    (ids.Nodup → ((GraphAdapter.edgesOfSites mem sites ids).map fun e => (e.src, e.dst)).Nodup ∧
      ((GraphAdapter.timeEdgesOfSites mem sites ids).map fun e => (e.src, e.dst)).Nodup) := by
  obtain ⟨h1, h2⟩ := GraphAdapter.nodes_spec ids [] List.nodup_nil
  refine ⟨⟨h1, fun i => by rw [h2]; simp⟩, fun i e => ?_, fun e => ?_, fun e => ?_, fun i => ?_, fun hn => ⟨?_, ?_⟩⟩
  · rw [GraphAdapter.edgesOfSite_eq, GraphAdapter.mem_edgesBy hp]
    simp
  · rw [GraphAdapter.edgesOfSites_eq, GraphAdapter.mem_flatMap hp]
    simp
  · rw [GraphAdapter.timeEdgesOfSites_eq, GraphAdapter.mem_flatMap hp]
  · rw [GraphAdapter.edgesOfSite_eq]; exact GraphAdapter.nodup_edgesBy hp i
  · rw [GraphAdapter.edgesOfSites_eq]; exact GraphAdapter.nodup_flatMap hp (List.nodup_reverse.2 hn)
  · rw [GraphAdapter.timeEdgesOfSites_eq]; exact GraphAdapter.nodup_flatMap hp (List.nodup_reverse.2 hn)

/-- **C70** (ways): the graph also has edges to sites outside the basin. They do not matter: between two sites of the basin, the
ways in the graph are the ways of hops that stay in the basin, and their lengths are the sums of the mean times of the hops. -/
theorem C70_walks (mem : Addr → K) (sites : SiteContainer K) (hp : ∀ i s, sites.get? i = some s → s.neigh.WF) (ids : List Int)
    (x y : Int) (hx : x ∈ ids) (hy : y ∈ ids) (t : K) :
    Walk (GraphAdapter.timeGraph mem sites ids) x y t ↔ BasinSpec.PathTime mem sites ids x y t :=
  ⟨fun h => GraphAdapter.walk_path hp h hy, fun h => (GraphAdapter.path_walk hp hx h).1⟩

/-- **C70** (the traversal time): for positive rates, and if the graph library keeps its contract, the time `M` that the
equilibrium condition is tested with is the longest of the shortest traversal times between two sites of the basin: from every
site every other one that can be reached is reached within `M`, and `M` is the shortest traversal time between some two sites (or
0 if no site can be reached from another). -/
theorem C70_traversal (mem : Addr → K) (sites : SiteContainer K) (hp : BasinSpec.Positive mem sites)
    (ids : List Int) (times : List K) (hd : Distances (GraphAdapter.timeGraph mem sites ids) times) :
    (∀ x ∈ ids, ∀ y ∈ ids, BasinSpec.Reach mem sites ids x y →
      ∃ t ≤ maxTime times, BasinSpec.PathTime mem sites ids x y t) ∧
    ((maxTime times = 0 ∧ ∀ x ∈ ids, ∀ y ∈ ids, x ≠ y → ¬ BasinSpec.Reach mem sites ids x y) ∨
      ∃ x ∈ ids, ∃ y ∈ ids, x ≠ y ∧ BasinSpec.PathTime mem sites ids x y (maxTime times) ∧
        ∀ t, BasinSpec.PathTime mem sites ids x y t → maxTime times ≤ t) := by
  have hnodes : ∀ i, i ∈ (GraphAdapter.timeGraph mem sites ids).nodes ↔ i ∈ ids := by
    intro i
    show i ∈ GraphAdapter.nodes ids [] ↔ _
    rw [(GraphAdapter.nodes_spec ids [] List.nodup_nil).2]
    simp
  obtain ⟨m1, m2⟩ := maxTime_spec times
  have hfirst : ∀ x ∈ ids, ∀ y ∈ ids, x ≠ y → BasinSpec.Reach mem sites ids x y →
      ∃ t ≤ maxTime times, BasinSpec.PathTime mem sites ids x y t := by
    intro x hx y hy hxy hr
    obtain ⟨d, hdp⟩ := GraphAdapter.reach_path hr
    obtain ⟨t, ht, t', htt, hw⟩ := hd.1 x ((hnodes x).2 hx) y ((hnodes y).2 hy) hxy
      ⟨d, (GraphAdapter.path_walk hp.neighWF hx hdp).1⟩
    exact ⟨t', htt.trans (m1 t ht), GraphAdapter.walk_path hp.neighWF hw hy⟩
  refine ⟨fun x hx y hy hr => ?_, ?_⟩
  · by_cases hxy : x = y
    · subst hxy
      exact ⟨0, maxTime_nonneg times, .start⟩
    · exact hfirst x hx y hy hxy hr
  · rcases m2 with h0 | hm
    · left
      refine ⟨h0, fun x hx y hy hxy hr => ?_⟩
      obtain ⟨t, ht, hpt⟩ := hfirst x hx y hy hxy hr
      rw [h0] at ht
      exact absurd ht (not_le.2 (GraphAdapter.path_pos hp hpt hxy))
    · right
      obtain ⟨x, hx, y, hy, hxy, hw, hmin⟩ := hd.2 _ hm
      rw [hnodes] at hx hy
      exact ⟨x, hx, y, hy, hxy, GraphAdapter.walk_path hp.neighWF hw hy,
        fun t ht => hmin t (GraphAdapter.path_walk hp.neighWF hx ht).1⟩

/-- **C70** (histories): the condition `TimesCover` on traversal times, which C45, C55, C56, C60 and C69 assume, holds in every
history in which the graph library keeps its contract. -/
theorem C70_covers (env : Env K) (n : Nat) (evs : List (Event K)) (w : World K) (ht : Trace env (World.new n) evs w)
    (hu : HopsReturn evs) (hl : LibraryTimes evs) : TimesCover evs := by
  intro ev he wid h a v w1 B hop hm hf x hx y hy hxy hr
  have hd := hl ev he wid h a v w1 B hop hm hf
  obtain ⟨before, after, hev⟩ := List.append_of_mem he
  obtain ⟨h1, -⟩ := ht.prefix hev
  have hub : HopsReturn before := fun e hm => hu e (by rw [hev]; exact List.mem_append_left _ hm)
  have hp : ∀ i s, w1.sites.get? i = some s → s.neigh.WF := by
    intro i s hs
    have hk := (h1.struct hub).hopMove_keep hm
    obtain ⟨t, ht', hs⟩ := rel_some (hs ▸ hk.site i)
    rw [hs.neigh]
    exact h1.neighWF hub ht'
  have hnodes : ∀ i, i ∈ (GraphAdapter.timeGraph ev.mem w1.sites B).nodes ↔ i ∈ B := by
    intro i
    show i ∈ GraphAdapter.nodes B [] ↔ _
    rw [(GraphAdapter.nodes_spec B [] List.nodup_nil).2]
    simp
  obtain ⟨d, hdp⟩ := GraphAdapter.reach_path hr
  obtain ⟨t, ht, t', htt, hw⟩ := hd.1 x ((hnodes x).2 hx) y ((hnodes y).2 hy) hxy ⟨d, (GraphAdapter.path_walk hp hx hdp).1⟩
  exact ⟨t, ht, t', htt, GraphAdapter.walk_path hp hw hy⟩

/-- **C70** (the condition): in every history in which hops return and the graph library keeps its contract, and with a
performance ratio that is not negative: when the cluster of a site changes in a hop, then the site is in a basin such that from
any site of it any other that can be reached inside is reached by a way of hops inside whose time, doubled and multiplied with
the performance ratio, is less than the mean time until the basin is left at equal occupation rates, and doubled is less than the time
resolution. -/
theorem C70_condition (env : Env K) (n : Nat) (evs : List (Event K)) (w : World K) (ht : Trace env (World.new n) evs w)
    (hu : HopsReturn evs) (hl : LibraryTimes evs) (before after : List (Event K)) (ev : Event K)
    (he : evs = before ++ ev :: after) (hρ : 0 ≤ ev.pre.perfRatio) (i : Int) (hi : ev.pre.sites.get? i ≠ none)
    (hc : ev.pre.getClusterIdOfSite i ≠ ev.post.getClusterIdOfSite i) :
    ∃ B res, ev.pre.timeRes = some res ∧ i ∈ B ∧ ∀ x ∈ B, ∀ y ∈ B, BasinSpec.Reach ev.mem ev.pre.sites B x y →
      ∃ t, BasinSpec.PathTime ev.mem ev.pre.sites B x y t ∧
        2 * t * ev.pre.perfRatio < 1 / exitRate ev.mem ev.pre B ∧ 2 * t < res := by
  obtain ⟨hst, wid, h, a, j, w1, w2, w3, basin, hop, hm, hk, st2, rfl, hg, hp, hw⟩ := grain_event ht hu he (.inl ⟨i, hi, hc⟩)
  obtain ⟨t1, t2, res, t3, t4⟩ := hg.test hm hk hw hρ
  refine ⟨basin, res, t3, ?_, fun x hx y hy hr => ?_⟩
  · by_contra hb
    apply hc
    rw [← hk.ids i, hp]
    show w1.sites.getClusterIdOfSite i = w3.sites.getClusterIdOfSite i
    refine (clusterIds_congr ?_).symm
    cases hg.grew with
    | created c0 hb' h => rw [h.site, if_neg hb]
    | merged sc fav x d erased _ _ _ _ h => rw [h.site, if_neg hb]
  · have hcong : ∀ i ∈ basin, ∀ j, BasinSpec.rate ev.mem w1.sites i j = BasinSpec.rate ev.mem ev.pre.sites i j :=
      fun i _ j => by
        have := hk.neigh i
        unfold BasinSpec.rate
        cases e1 : w1.sites.get? i <;> cases e2 : ev.pre.sites.get? i <;> simp_all
    have hr1 := reach_congr hcong hx hr
    by_cases hxy : x = y
    · subst hxy
      refine ⟨0, .start, ?_, ?_⟩
      · rw [mul_zero, zero_mul]
        exact lt_of_le_of_lt (mul_nonneg (mul_nonneg (by norm_num) (maxTime_nonneg _)) hρ) t2
      · rw [mul_zero]
        exact lt_of_le_of_lt (mul_nonneg (by norm_num) (maxTime_nonneg _)) t4
    · have hcov := C70_covers env n evs w ht hu hl ev (by rw [he]; simp) wid h a j w1 basin hop hm hg.found x hx y hy hxy hr1
      obtain ⟨t, htm, t', htt, hpt⟩ := hcov
      have hM : t' ≤ maxTime a.times := htt.trans ((maxTime_spec _).1 t htm)
      refine ⟨t', pathTime_congr (fun i hi j => (hcong i hi j).symm) hx hpt, lt_of_le_of_lt ?_ t2, lt_of_le_of_lt ?_ t4⟩
      · exact mul_le_mul_of_nonneg_right (mul_le_mul_of_nonneg_left hM (by norm_num)) hρ
      · exact mul_le_mul_of_nonneg_left hM (by norm_num)

/-! ## A concrete case -/

/-- A lower bound of the lengths of ways. -/
theorem GraphSpec.walk_ge {g : WGraph K} {φ : Int → K} (h : ∀ e ∈ g.edges, φ e.dst ≤ φ e.src + e.weight) {x y : Int} {t : K}
    (hw : Walk g x y t) : φ y ≤ φ x + t := by
  induction hw with
  | start => simp
  | hop hw e he hi ih => subst hi; have := h e he; linarith

/-- The least time of the ways of at most 4 hops from `x` to `i`; 0 if there are none. -/
def World.least (mem : Addr → K) (sites : IMap (Site K)) (B : List Int) (x i : Int) : K :=
  match ((ways mem sites B x 4).filter fun it => it.1 = i).map Prod.snd with
  | [] => 0
  | t :: ts => ts.foldl min t

/-- By computation: the times given for an event are distances in the graph. -/
def World.distB (ev : Event K) : Bool :=
  match ev.op with
  | .hop wid h a =>
    match ev.pre.hopMove wid h a with
    | .error _ => true
    | .ok (v, w1) =>
      match Explorer.default.findBasin a.vis ev.mem w1.sites w1.clusters v with
      | .error _ => true
      | .ok B => a.times.all fun t => B.any fun x => B.any fun y => decide (x ≠ y) &&
          ((ways ev.mem w1.sites B x 4).any fun yt => decide (yt.1 = y) && decide (yt.2 = t)) &&
          decide (least ev.mem w1.sites B x x = 0) && decide (least ev.mem w1.sites B x y = t) &&
          (GraphAdapter.timeEdgesOfSites ev.mem w1.sites B).all fun e =>
            decide (least ev.mem w1.sites B x e.dst ≤ least ev.mem w1.sites B x e.src + e.weight)
  | _ => true

theorem World.libraryTimes_of {env : Env K} {n : Nat} {evs : List (Event K)} {w : World K}
    (ht : Trace env (World.new n) evs w) (hu : HopsReturn evs) (h1 : evs.all coverB = true) (h2 : evs.all distB = true) :
    LibraryTimes evs := by
  intro ev he wid h a v w1 B hop hm hf
  obtain ⟨before, after, hev⟩ := List.append_of_mem he
  obtain ⟨h1', -⟩ := ht.prefix hev
  have hub : HopsReturn before := fun e hm => hu e (by rw [hev]; exact List.mem_append_left _ hm)
  have hp : ∀ i s, w1.sites.get? i = some s → s.neigh.WF := by
    intro i s hs
    have hk := (h1'.struct hub).hopMove_keep hm
    obtain ⟨t, ht', hs⟩ := rel_some (hs ▸ hk.site i)
    rw [hs.neigh]
    exact h1'.neighWF hub ht'
  have hnodes : ∀ i, i ∈ (GraphAdapter.timeGraph ev.mem w1.sites B).nodes ↔ i ∈ B := by
    intro i
    show i ∈ GraphAdapter.nodes B [] ↔ _
    rw [(GraphAdapter.nodes_spec B [] List.nodup_nil).2]
    simp
  constructor
  · rintro x hx y hy hxy ⟨d, hd⟩
    rw [hnodes] at hx hy
    obtain ⟨t, htm, t', htt, hpt⟩ := timesCover_of h1 ev he wid h a v w1 B hop hm hf x hx y hy hxy
      (GraphAdapter.path_reach (GraphAdapter.walk_path hp hd hy))
    exact ⟨t, htm, t', htt, (GraphAdapter.path_walk hp hx hpt).1⟩
  · intro t htm
    have h3 := List.all_eq_true.1 h2 ev he
    unfold distB at h3
    rw [hop] at h3
    simp only [hm, hf] at h3
    have h4 := List.all_eq_true.1 h3 t htm
    simp only [List.any_eq_true, Bool.and_eq_true, decide_eq_true_eq, List.all_eq_true] at h4
    obtain ⟨x, hx, y, hy, ⟨⟨⟨hxy, ⟨z, s⟩, hz, hz1, hz2⟩, hφx⟩, hφy⟩, hφ⟩ := h4
    simp only at hz1 hz2
    subst hz1 hz2
    refine ⟨x, (hnodes x).2 hx, z, (hnodes z).2 hy, hxy, (GraphAdapter.path_walk hp hx (ways_path hz)).1, fun t' ht' => ?_⟩
    have := walk_ge (φ := least ev.mem w1.sites B x) hφ ht'
    rw [hφx, hφy, zero_add] at this
    exact this

/-- The calls of `coverOps` up to the merge. -/
def World.libEvs : List (Event ℚ) := (runOps Cluster.witEnv mergeRates (World.new 0) (coverOps.take 12)).1

/-- The world after the merge. -/
def World.libWorld : World ℚ := (runOps Cluster.witEnv mergeRates (World.new 0) (coverOps.take 12)).2

theorem World.libTrace : Trace Cluster.witEnv (World.new 0) libEvs libWorld := runOps_trace (by decide +kernel)

theorem World.libUsage : Usage libEvs := usageB_iff (by decide +kernel)

theorem World.libLibrary : LibraryTimes libEvs :=
  libraryTimes_of libTrace libUsage.hopsReturn (by decide +kernel) (by decide +kernel)

/-- This history, in which two clusters are created and merged, is one in which the library keeps its contract. -/
example : TimesCover libEvs := C70_covers _ 0 _ _ libTrace libUsage.hopsReturn libLibrary

/-- Its last call merges two clusters: site 3 gets a new cluster. -/
example : ∃ (B : List Int) (res : ℚ), (libEvs[11]'(by decide +kernel)).pre.timeRes = some res ∧ 3 ∈ B ∧ ∀ x ∈ B, ∀ y ∈ B,
    BasinSpec.Reach mergeRates (libEvs[11]'(by decide +kernel)).pre.sites B x y →
    ∃ t, BasinSpec.PathTime mergeRates (libEvs[11]'(by decide +kernel)).pre.sites B x y t ∧
      2 * t * (libEvs[11]'(by decide +kernel)).pre.perfRatio <
        1 / exitRate mergeRates (libEvs[11]'(by decide +kernel)).pre B ∧ 2 * t < res :=
  C70_condition Cluster.witEnv 0 libEvs libWorld libTrace libUsage.hopsReturn libLibrary (libEvs.take 11)
    (libEvs.drop 12) (libEvs[11]'(by decide +kernel)) (by rw [List.getElem_cons_drop, List.take_append_drop])
    (by decide +kernel) 3 (by decide +kernel) (by decide +kernel)

/-- The container of that history, with its basin of four sites: the graph has four nodes, and an edge from 2 to 3. -/
example : (GraphAdapter.timeGraph mergeRates libWorld.sites [1, 2, 3, 4]).nodes = [1, 2, 3, 4] ∧
    (⟨2, 3, 1 / 10⟩ : WEdge ℚ) ∈ (GraphAdapter.timeGraph mergeRates libWorld.sites [1, 2, 3, 4]).edges :=
  ⟨by decide +kernel, ((C70_graph mergeRates libWorld.sites (fun i s hs => libTrace.neighWF libUsage.hopsReturn hs)
    [1, 2, 3, 4]).2.2.2.1 _).2 ⟨by decide, 10, by decide +kernel, rfl⟩⟩

theorem World.libPositive : BasinSpec.Positive mergeRates libWorld.sites where
  neighWF i s hs := libTrace.neighWF libUsage.hopsReturn hs
  pos i j r hr := by
    obtain ⟨a, -, rfl⟩ := Option.map_eq_some_iff.1 hr
    unfold mergeRates
    split <;> (try split) <;> norm_num

theorem World.libDistances : Distances (GraphAdapter.timeGraph mergeRates libWorld.sites [1, 2, 3, 4]) [12 / 100] := by
  have hp := libPositive.neighWF
  have hnodes : (GraphAdapter.timeGraph mergeRates libWorld.sites [1, 2, 3, 4]).nodes = [1, 2, 3, 4] := by decide +kernel
  have hall : ([1, 2, 3, 4] : List Int).all (fun x => ([1, 2, 3, 4] : List Int).all fun y =>
      (ways mergeRates libWorld.sites [1, 2, 3, 4] x 3).any fun yt => decide (yt.1 = y) && decide (yt.2 ≤ 12 / 100)) = true := by
    decide +kernel
  refine ⟨fun x hx y hy _ _ => ?_, fun t ht => ?_⟩
  · rw [hnodes] at hx hy
    have h2 := List.all_eq_true.1 (List.all_eq_true.1 hall x hx) y hy
    simp only [List.any_eq_true, Bool.and_eq_true, decide_eq_true_eq] at h2
    obtain ⟨⟨z, s⟩, hz, rfl, hs⟩ := h2
    exact ⟨_, List.mem_singleton.2 rfl, s, hs, (GraphAdapter.path_walk hp hx (ways_path hz)).1⟩
  · rw [List.mem_singleton.1 ht, hnodes]
    refine ⟨1, by decide, 4, by decide, by decide, (GraphAdapter.path_walk hp (by decide) (ways_path (n := 3)
      (by decide +kernel))).1, fun t' ht' => ?_⟩
    have := walk_ge (φ := least mergeRates libWorld.sites [1, 2, 3, 4] 1) (by
      have : (GraphAdapter.timeEdgesOfSites mergeRates libWorld.sites [1, 2, 3, 4]).all (fun e =>
        decide (least mergeRates libWorld.sites [1, 2, 3, 4] 1 e.dst ≤
          least mergeRates libWorld.sites [1, 2, 3, 4] 1 e.src + e.weight)) = true := by decide +kernel
      intro e he
      exact of_decide_eq_true (List.all_eq_true.1 this e he)) ht'
    have e1 : least mergeRates libWorld.sites [1, 2, 3, 4] 1 1 = 0 := by decide +kernel
    have e4 : least mergeRates libWorld.sites [1, 2, 3, 4] 1 4 = 12 / 100 := by decide +kernel
    rw [e1, e4, zero_add] at this
    exact this

/-- Its traversal time is 12/100: within that time every site is reached from every other. -/
example : ∀ x ∈ [1, 2, 3, 4], ∀ y ∈ [1, 2, 3, 4], BasinSpec.Reach mergeRates libWorld.sites [1, 2, 3, 4] x y →
    ∃ t ≤ maxTime [(12 / 100 : ℚ)], BasinSpec.PathTime mergeRates libWorld.sites [1, 2, 3, 4] x y t :=
  (C70_traversal mergeRates libWorld.sites libPositive [1, 2, 3, 4] [12 / 100] libDistances).1

/-- From site 1 to site 4 takes 12/100: two fast hops and one slower one. -/
example : Walk (GraphAdapter.timeGraph mergeRates libWorld.sites [1, 2, 3, 4]) 1 4 (12 / 100) :=
  (C70_walks mergeRates libWorld.sites (fun i s hs => libTrace.neighWF libUsage.hopsReturn hs) [1, 2, 3, 4] 1 4 (by decide)
    (by decide) _).2 (ways_path (n := 3) (by decide +kernel))

end Mythical
