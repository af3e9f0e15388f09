import Verif.Lemmas.Basin
import Mathlib.Algebra.Order.Field.Rat
import Mathlib.Data.Rat.Floor

/-! # C49, C50: the basin search -/

set_option linter.unusedSectionVars false

namespace Mythical.Basin
open Mythical BasinSpec Explorer
variable {K : Type} [Field K] [LinearOrder K] [IsStrictOrderedRing K] [FloorRing K]

theorem inv_start (mem : Addr → K) (sites : SiteContainer K) (v : Int) (a b c : K) :
    Inv mem sites v (⟨[v], [], a, b, c⟩ : Search K) := by
  refine ⟨by simp, by simp, ?_, by simp⟩
  intro x hx
  rw [List.mem_singleton] at hx
  subst hx
  exact .start

/-- C49: what `findBasin` returns is empty, or it lists at most `maxCount` distinct sites, among them the start site, all of
which can be reached from it inside the basin. For every rate graph, every order of the edges and every choice of the
graph visitor. -/
theorem C49_basin (ex : Explorer K) (hmax : 1 ≤ ex.maxCount) (vis : Visitor) (mem : Addr → K) (sites : SiteContainer K)
    (clusters : ClusterContainer K) (v : Int) (l : List Int) (h : ex.findBasin vis mem sites clusters v = .ok l) :
    l = [] ∨ l.Nodup ∧ l.length ≤ ex.maxCount ∧ v ∈ l ∧ ∀ x ∈ l, Reach mem sites l v x := by
  unfold Explorer.findBasin at h
  obtain ⟨fastest, -, h⟩ := bind_eq_ok.mp h
  obtain ⟨slowest, -, h⟩ := bind_eq_ok.mp h
  obtain ⟨st, h1, h⟩ := bind_eq_ok.mp h
  obtain ⟨hi, he⟩ := addEdges_inv _ (inv_start mem sites v fastest slowest fastest) (by simp) h1
  have hlen : st.explored.length ≤ ex.maxCount := by rw [he]; simpa using hmax
  rcases searchLoop_result (P := Inv mem sites v)
    (fun st e st' hi he h => (addEdges_inv _ (explore_inv hi he) (by simp [explore]) h).1)
    _ st l hi hlen h with hnil | ⟨st', hi', -, hperm, hlen'⟩
  · exact .inl hnil
  · refine .inr ⟨hperm.nodup_iff.mpr hi'.nodup, hperm.length_eq ▸ hlen', hperm.mem_iff.mpr hi'.start, ?_⟩
    intro x hx
    exact (hi'.reach x (hperm.mem_iff.mp hx)).mono fun y hy => hperm.mem_iff.mpr hy

/-- C49: the search terminates, whatever the rates are (even where they change or are not positive). -/
theorem C49_terminates (ex : Explorer K) (vis : Visitor) (mem : Addr → K) (sites : SiteContainer K)
    (clusters : ClusterContainer K) (v : Int) : ex.findBasin vis mem sites clusters v ≠ .error .outOfFuel := by
  intro h
  unfold Explorer.findBasin at h
  rcases bind_eq_error.mp h with h | ⟨fastest, -, h⟩
  · unfold SiteContainer.getFastestRateOffSite SiteContainer.getSite at h
    cases hs : IMap.get? sites v <;> simp [hs] at h
  rcases bind_eq_error.mp h with h | ⟨slowest, -, h⟩
  · unfold startSlowest at h
    simp only [SiteContainer.partOfCluster, SiteContainer.getSite, SiteContainer.getClusterIdOfSite,
      ClusterContainer.getCluster] at h
    cases hs : IMap.get? sites v with
    | none => simp [hs] at h
    | some s =>
      simp only [hs, ok_bind] at h
      split at h
      · cases hc : IMap.get? clusters s.clusterId <;> simp [hc] at h
      · cases h
  rcases bind_eq_error.mp h with h | ⟨st, h1, h⟩
  · exact addEdges_fuel _ _ h
  · refine searchLoop_fuel _ _ (by omega) ?_ h
    rw [addEdges_explored _ h1]
    simp only [List.length_cons, List.length_nil]
    omega

/-- The start of the search when the rates are positive. -/
theorem start_good {ex : Explorer K} (ht : 0 ≤ ex.threshold) (vis : Visitor) {mem : Addr → K} {sites : SiteContainer K}
    (hp : Positive mem sites) (v : Int) (fastest s0 : K) :
    ∃ st, addEdges ex mem sites v ⟨[v], [], fastest, s0, fastest⟩ (edgesOf vis sites [v] v) = .ok st ∧
      GoodAll mem sites v s0 st ∧ st.explored = [v] := by
  have h0 : Good mem sites v s0 (fun _ _ => False) (⟨[v], [], fastest, s0, fastest⟩ : Search K) [] := by
    refine ⟨trivial, rfl, by simp, ?_, fun _ _ _ h => h.elim⟩
    intro x hx hne
    exact absurd (List.mem_singleton.mp hx) hne
  obtain ⟨st, log, h1, he, hg⟩ := addEdges_good (ex := ex) ht hp (edgesOf vis sites [v] v)
    (fun n hn => (mem_edgesOf_rate mem).mp hn) (by simp) h0
  refine ⟨st, h1, ⟨log, hg.accepted, hg.slowest, hg.opn, hg.entered, ?_⟩, he⟩
  intro u x r hu hr hle
  refine hg.closed u x r (.inr ?_) hr hle
  rw [he] at hu
  have hu : u = v := List.mem_singleton.mp hu
  subst hu
  exact ⟨rfl, (mem_edgesOf_rate mem).mpr ⟨r, hr⟩⟩

/-- C49: with positive rates the search always returns, from every known site (whose cluster, if it is in one, exists). -/
theorem C49_total (ex : Explorer K) (ht : 0 ≤ ex.threshold) (vis : Visitor) (mem : Addr → K) (sites : SiteContainer K)
    (hp : Positive mem sites) (clusters : ClusterContainer K) (v : Int) (s : Site K) (hs : IMap.get? sites v = some s)
    (hc : -1 < s.clusterId → ∃ c, IMap.get? clusters s.clusterId = some c) :
    ∃ l, ex.findBasin vis mem sites clusters v = .ok l := by
  have hne := C49_terminates ex vis mem sites clusters v
  have hslow : ∃ s0, startSlowest mem sites clusters v (s.getFastestRate mem) = .ok s0 := by
    unfold startSlowest
    simp only [SiteContainer.partOfCluster, SiteContainer.getSite, SiteContainer.getClusterIdOfSite,
      ClusterContainer.getCluster, hs, ok_bind, Site.partOfCluster]
    by_cases hin : s.clusterId > -1
    · obtain ⟨c, hcc⟩ := hc hin
      simp [hin, hcc]
    · simp [hin]
  obtain ⟨s0, hs0⟩ := hslow
  have hf : sites.getFastestRateOffSite mem v = .ok (s.getFastestRate mem) := by
    simp [SiteContainer.getFastestRateOffSite, SiteContainer.getSite, hs]
  obtain ⟨st, h1, hg, -⟩ := start_good (ex := ex) ht vis hp v (s.getFastestRate mem) s0
  unfold Explorer.findBasin at hne ⊢
  simp only [hf, hs0, h1, ok_bind] at hne ⊢
  rcases searchLoop_total ht hp (vis := vis) _ st hg with h | h
  · exact h
  · exact absurd h hne

/-- The rate from which the search starts to compare: the fastest rate out of the start site, or, if that site is in a
cluster, the fastest rate out of the cluster. -/
def FirstSlowest (mem : Addr → K) (sites : SiteContainer K) (clusters : ClusterContainer K) (v : Int) (s0 : K) : Prop :=
  ∃ s, IMap.get? sites v = some s ∧
    ((¬ -1 < s.clusterId ∧ s0 = s.getFastestRate mem) ∨
     (-1 < s.clusterId ∧ ∃ c, IMap.get? clusters s.clusterId = some c ∧ s0 = c.getFastestRateOffCluster mem))

/-- C50, first half, and what the basin contains: with positive rates the sites of a (non-empty) basin other than the start
were entered from sites of the basin through hops which were accepted one after the other, each at least 0.9999 times as
fast as the slowest before it, starting from `s0`; and every site that a site of the basin has a rate of at least 0.9999
times `s0` to is in the basin. (The other test, of a ratio against the threshold 0.95, never accepts a rate: it compares
a number that is not positive.) -/
theorem C50_accepted (ex : Explorer K) (ht : 0 ≤ ex.threshold) (hmax : 1 ≤ ex.maxCount) (vis : Visitor) (mem : Addr → K)
    (sites : SiteContainer K) (hp : Positive mem sites) (clusters : ClusterContainer K) (v : Int) (l : List Int)
    (h : ex.findBasin vis mem sites clusters v = .ok l) (hl : l ≠ []) :
    ∃ s0, FirstSlowest mem sites clusters v s0 ∧
      (∃ log, Accepted mem sites s0 log ∧ ∀ x ∈ l, x ≠ v → ∃ u ∈ l, (u, x) ∈ log) ∧
      (∀ u ∈ l, ∀ x r, rate mem sites u x = some r → s0 * (9999 / 10000) ≤ r → x ∈ l) := by
  unfold Explorer.findBasin at h
  obtain ⟨fastest, hf, h⟩ := bind_eq_ok.mp h
  obtain ⟨s0, hs0, h⟩ := bind_eq_ok.mp h
  obtain ⟨st, h1, h⟩ := bind_eq_ok.mp h
  obtain ⟨st1, h1', hg, he⟩ := start_good (ex := ex) ht vis hp v fastest s0
  rw [h1] at h1'
  obtain rfl := Except.ok.inj h1'
  have hlen : st.explored.length ≤ ex.maxCount := by rw [he]; simpa using hmax
  refine ⟨s0, ?_, ?_⟩
  · unfold SiteContainer.getFastestRateOffSite at hf
    unfold startSlowest at hs0
    simp only [SiteContainer.partOfCluster, SiteContainer.getSite, SiteContainer.getClusterIdOfSite,
      ClusterContainer.getCluster] at hf hs0
    cases hs : IMap.get? sites v with
    | none => simp [hs] at hf
    | some s =>
      simp only [hs, ok_bind, Site.partOfCluster] at hf hs0
      obtain rfl := Except.ok.inj hf
      refine ⟨s, hs, ?_⟩
      by_cases hin : s.clusterId > -1
      · simp only [hin, decide_true, if_true] at hs0
        cases hc : IMap.get? clusters s.clusterId with
        | none => simp [hc] at hs0
        | some c =>
          simp only [hc, ok_bind] at hs0
          exact .inr ⟨hin, c, rfl, (Except.ok.inj hs0).symm⟩
      · simp only [hin, decide_false, Bool.false_eq_true, if_false] at hs0
        exact .inl ⟨hin, (Except.ok.inj hs0).symm⟩
  · rcases searchLoop_result (P := GoodAll mem sites v s0) (fun st e st' hg he h => by
        obtain ⟨st2, h2, hg2⟩ := goodAll_step (ex := ex) ht (vis := vis) hp hg he
        rw [h] at h2
        exact Except.ok.inj h2 ▸ hg2)
      _ st l hg hlen h with hnil | ⟨st', ⟨log, hg'⟩, ho, hperm, -⟩
    · exact absurd hnil hl
    · refine ⟨⟨log, hg'.accepted, ?_⟩, ?_⟩
      · intro x hx hne
        obtain ⟨u, hu, hul⟩ := hg'.entered x (hperm.mem_iff.mp hx) hne
        exact ⟨u, hperm.mem_iff.mpr hu, hul⟩
      · intro u hu x r hr hle
        rcases hg'.closed u x r (hperm.mem_iff.mp hu) hr hle with h | ⟨e, h, -⟩
        · exact hperm.mem_iff.mpr h
        · rw [ho] at h; simp at h

/-- C50, second half, for a start site that is in no cluster, or in a cluster whose fastest exit is not faster than the
fastest rate out of the start site: the fastest rate out of the start site is followed.

Missing from the full statement: a start site in a cluster with a faster exit, see `C50_counterexample`. -/
theorem C50_partial (ex : Explorer K) (ht : 0 ≤ ex.threshold) (hmax : 1 ≤ ex.maxCount) (vis : Visitor) (mem : Addr → K)
    (sites : SiteContainer K) (hp : Positive mem sites) (clusters : ClusterContainer K) (v x : Int) (l : List Int)
    (h : ex.findBasin vis mem sites clusters v = .ok l) (hl : l ≠ []) (r : K) (hr : Fastest mem sites v r)
    (hx : rate mem sites v x = some r)
    (hc : ∀ s c, IMap.get? sites v = some s → -1 < s.clusterId → IMap.get? clusters s.clusterId = some c →
      c.getFastestRateOffCluster mem ≤ r) : x ∈ l := by
  obtain ⟨s0, ⟨s, hs, hfirst⟩, -, hclosed⟩ := C50_accepted ex ht hmax vis mem sites hp clusters v l h hl
  have hv : v ∈ l := by
    rcases C49_basin ex hmax vis mem sites clusters v l h with h | h
    · exact absurd h hl
    · exact h.2.2.1
  have hrpos := hp.pos _ _ _ hx
  have hs0 : s0 ≤ r := by
    rcases hfirst with ⟨-, rfl⟩ | ⟨hin, c, hcc, rfl⟩
    · exact (fastest_iff hp hs hr).le
    · exact hc s c hs hin hcc
  refine hclosed v hv x r hx ?_
  have h1 : s0 * (9999 / 10000) ≤ r * (9999 / 10000) := mul_le_mul_of_nonneg_right hs0 (by norm_num)
  linarith

/-! ## Concrete cases -/

/-- A visitor that takes everything in the order in which it comes. -/
def exVis : Visitor := ⟨fun _ _ l => l, fun _ _ _ => .refl _, fun _ _ => 0, id, fun _ => .refl _⟩

/-- Another one that reverses all orders and takes the last edge. -/
def exVis2 : Visitor :=
  ⟨fun _ _ l => l.reverse, fun _ _ l => l.reverse_perm, fun _ l => l.length - 1, List.reverse, fun l => l.reverse_perm⟩

/-- Rates 100, 1 and 90. -/
def exMem : Addr → ℚ
  | 0 => 100
  | 1 => 1
  | _ => 90

/-- The site `i` of cluster `cid` with the given neighbours. -/
def exSite (i cid : Int) (neigh : IMap Addr) : Site ℚ := { Cluster.defaultSite with id := i, clusterId := cid, neigh := neigh }

/-- Two sites with fast rates between each other, and slow ones to 3 and 4. -/
def exSites : SiteContainer ℚ :=
  [(1, exSite 1 unassignedId [(2, 0), (3, 1)]), (2, exSite 2 unassignedId [(1, 0), (4, 1)]),
   (3, exSite 3 unassignedId [(1, 2)]), (4, exSite 4 unassignedId [])]

theorem exSites_positive : Positive exMem exSites := by
  have hget : ∀ i s, IMap.get? exSites i = some s → s = exSite 1 unassignedId [(2, 0), (3, 1)] ∨
      s = exSite 2 unassignedId [(1, 0), (4, 1)] ∨ s = exSite 3 unassignedId [(1, 2)] ∨ s = exSite 4 unassignedId [] := by
    intro i s h
    have := IMap.mem_of_get? h
    simp only [exSites, List.mem_cons, Prod.mk.injEq, List.not_mem_nil, or_false] at this
    tauto
  refine ⟨?_, ?_⟩
  · intro i s h
    rcases hget i s h with rfl | rfl | rfl | rfl <;> simp [exSite, IMap.WF]
  · intro i j r h
    obtain ⟨s, a, hs, ha, rfl⟩ := rate_some h
    unfold exMem
    split <;> norm_num

/-- The basin of site 1 is {1, 2}, for both visitors, and that of site 3 is {3, 1, 2}. -/
example : Explorer.default.findBasin exVis exMem exSites [] 1 = .ok [1, 2] ∧
    Explorer.default.findBasin exVis2 exMem exSites [] 1 = .ok [2, 1] ∧
    Explorer.default.findBasin exVis exMem exSites [] 3 = .ok [3, 1, 2] ∧
    Explorer.default.findBasin exVis exMem exSites [] 4 = .ok [4] := by decide +kernel

/-- The hypotheses of the theorems are met by this graph. -/
example : ∀ l, Explorer.default.findBasin exVis exMem exSites [] 1 = .ok l →
    l = [] ∨ l.Nodup ∧ l.length ≤ 5 ∧ 1 ∈ l ∧ ∀ x ∈ l, Reach exMem exSites l 1 x :=
  fun l h => C49_basin Explorer.default (by decide) exVis exMem exSites [] 1 l h

example : ∃ l, Explorer.default.findBasin exVis exMem exSites [] 3 = .ok l :=
  C49_total Explorer.default (by norm_num [Explorer.default]) exVis exMem exSites exSites_positive [] 3
    (exSite 3 unassignedId [(1, 2)]) rfl (by simp [exSite, unassignedId, INT_MIN])

example : ∀ l, Explorer.default.findBasin exVis exMem exSites [] 1 = .ok l → l ≠ [] → 2 ∈ l := by
  intro l h hl
  refine C50_partial Explorer.default (by norm_num [Explorer.default]) (by decide) exVis exMem exSites exSites_positive []
    1 2 l h hl 100 ⟨⟨2, rfl⟩, ?_⟩ rfl ?_
  · intro j r' hr'
    obtain ⟨s, a, hs, ha, rfl⟩ := rate_some hr'
    unfold exMem
    split <;> norm_num
  · intro s c _ _ hc
    simp [IMap.get?] at hc

/-- More than five sites connected by equal rates: no basin. -/
example : Explorer.default.findBasin exVis exMem
    [(1, exSite 1 unassignedId [(2, 0)]), (2, exSite 2 unassignedId [(3, 0)]), (3, exSite 3 unassignedId [(4, 0)]),
     (4, exSite 4 unassignedId [(5, 0)]), (5, exSite 5 unassignedId [(6, 0)]), (6, exSite 6 unassignedId [(1, 0)])] [] 1 =
    .ok [] := by decide +kernel

/-- C50 is false in general: site 1 is in a cluster with site 2, from which a much faster rate leaves the cluster; the only,
hence fastest, rate out of site 1 is not followed. -/
theorem C50_counterexample : ∃ (vis : Visitor) (mem : Addr → ℚ) (sites : SiteContainer ℚ) (clusters : ClusterContainer ℚ)
    (v x : Int) (r : ℚ), Positive mem sites ∧ Fastest mem sites v r ∧ rate mem sites v x = some r ∧
    ∃ l, Explorer.default.findBasin vis mem sites clusters v = .ok l ∧ l ≠ [] ∧ x ∉ l := by
  refine ⟨exVis, exMem, [(1, exSite 1 7 [(2, 1)]), (2, exSite 2 7 [(1, 0), (3, 2)]), (3, exSite 3 unassignedId [])],
    [(7, { Cluster.new 7 with sites := [(1, exSite 1 7 [(2, 1)]), (2, exSite 2 7 [(1, 0), (3, 2)])] })],
    1, 2, 1, ?_, ?_, rfl, [1], ?_, by simp, by simp⟩
  · have hget : ∀ i s, IMap.get? [(1, exSite 1 7 [(2, 1)]), (2, exSite 2 7 [(1, 0), (3, 2)]),
        (3, exSite 3 unassignedId [])] i = some s → s = exSite 1 7 [(2, 1)] ∨ s = exSite 2 7 [(1, 0), (3, 2)] ∨
        s = exSite 3 unassignedId [] := by
      intro i s h
      have := IMap.mem_of_get? h
      simp only [List.mem_cons, Prod.mk.injEq, List.not_mem_nil, or_false] at this
      tauto
    refine ⟨?_, ?_⟩
    · intro i s h
      rcases hget i s h with rfl | rfl | rfl <;> simp [exSite, IMap.WF]
    · intro i j r h
      obtain ⟨s, a, hs, ha, rfl⟩ := rate_some h
      unfold exMem
      split <;> norm_num
  · refine ⟨⟨2, rfl⟩, ?_⟩
    intro j r' hr'
    obtain ⟨s, a, hs, ha, rfl⟩ := rate_some hr'
    obtain rfl : s = exSite 1 7 [(2, 1)] := by simpa [IMap.get?] using hs.symm
    simp only [exSite, IMap.get?] at ha
    split at ha
    · obtain rfl := Option.some.inj ha
      norm_num [exMem]
    · cases ha
  · decide +kernel

end Mythical.Basin
