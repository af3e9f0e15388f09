import Verif.Lemmas.SystemVisits
import Verif.Props.SystemInit
import Verif.Props.SystemWalkers

/-! # Visit counts without clusters (C59) and late initialisation of walkers (C61) -/

set_option linter.unusedSectionVars false
set_option linter.unusedVariables false

namespace Mythical
open World SystemSpec
variable {K : Type} [Field K] [LinearOrder K] [IsStrictOrderedRing K] [FloorRing K]

/-- **C59**: In every history in which hops and initialisations of walkers return, as long as there is no cluster, every
known site can be asked for its visits, and the answers for all known sites add up to the number of walkers initialised plus
the number of hops. -/
theorem C59 (env : Env K) (n : Nat) (evs : List (Event K)) (w : World K) (ht : Trace env (World.new n) evs w)
    (hu : HopsReturn evs) (hi : InitsReturn evs) (hc : ∀ c, ¬SystemSpec.Exists w c) (l : List Int) (hl : l.Nodup)
    (hk : ∀ i, i ∈ l ↔ Known w i) :
    ∃ v : Int → Int, (∀ i ∈ l, (w.getVisitFrequencyOfSite i).1 = .ok (v i)) ∧
      (l.map v).sum = walkersIn evs + hopsIn evs := by
  have hn : NoClusters w := fun c => by
    have := hc c
    rw [exists_iff] at this
    rw [Option.eq_none_iff_forall_ne_some]
    exact fun x hx => this ⟨x, hx⟩
  obtain ⟨h1, h2⟩ := ht.visits hu hi hn
  have hst := ht.struct hu
  refine ⟨fun i => ((w.sites.get? i).map (·.visits)).getD 0, ?_, ?_⟩
  · intro i hil
    obtain ⟨s, hs⟩ := Option.ne_none_iff_exists'.1 (known_iff.1 ((hk i).1 hil))
    unfold getVisitFrequencyOfSite
    rw [hs]
    have : ¬s.partOfCluster = true := by
      unfold Site.partOfCluster
      rw [h1 i s hs]
      decide
    simp only [if_neg this, hs]
    rfl
  · rw [← h2]
    have hp : l.Perm w.sites.keys := by
      refine (List.perm_ext_iff_of_nodup hl hst.sitesWF).2 fun i => ?_
      change i ∈ l ↔ i ∈ w.sites.keys
      rw [hk, known_iff, Ne, IMap.get?_eq_none_iff, not_not]
    rw [(hp.map _).sum_eq]
    unfold totalVisits IMap.keys
    rw [List.map_map]
    congr 1
    refine List.map_congr_left fun p hp => ?_
    simp only [Function.comp]
    rw [IMap.get?_of_mem hst.sitesWF (k := p.1) (v := p.2) hp]
    rfl

/-- Three hops with the threshold that is set by default. -/
def calmOps : List (Op ℚ) := [
  .setTimeResolution 1, .initializeSystem sysMap, .newWalker 10, .newWalker 11, .walkerOccupy 10 1, .walkerOccupy 11 3,
  .initializeWalkers [⟨0, 10, 1, 1 / 2⟩, ⟨1, 11, 1, 1 / 4⟩],
  .hop 0 10 (witChoice (1 / 2) [1 / 100]), .hop 1 11 (witChoice (3 / 4) [1 / 100]), .hop 0 10 (witChoice (99 / 100) [1 / 100])]

/-- The history of these calls. -/
def calmEvs : List (Event ℚ) := (runOps Cluster.witEnv sysRates (World.new 0) calmOps).1

/-- The world it leads to. -/
def calmWorld : World ℚ := (runOps Cluster.witEnv sysRates (World.new 0) calmOps).2

theorem calmTrace : Trace Cluster.witEnv (World.new 0) calmEvs calmWorld := runOps_trace (by decide +kernel)

theorem calmUsage : Usage calmEvs := usageB_iff (by decide +kernel)

theorem calmInits : InitsReturn calmEvs := by
  have h : ∀ ev ∈ calmEvs, ev.res = .ok 0 := by decide +kernel
  exact fun ev he l _ => ⟨0, h ev he⟩

/-- The hypotheses of `C59` are met by a history with two walkers and three hops, one of them blocked; the counts are 2, 1, 2
and 0. -/
example : HopsReturn calmEvs ∧ InitsReturn calmEvs ∧ (∀ c, ¬SystemSpec.Exists calmWorld c) ∧ [1, 2, 3, 4].Nodup ∧
    (∀ i, i ∈ [1, 2, 3, 4] ↔ Known calmWorld i) ∧ walkersIn calmEvs = 2 ∧ hopsIn calmEvs = 3 := by
  refine ⟨calmUsage.hopsReturn, calmInits, ?_, by decide, ?_, by decide +kernel, by decide +kernel⟩
  · intro c h
    have : calmWorld.getClusters.keys = [] := by decide +kernel
    unfold SystemSpec.Exists at h
    rw [this] at h; cases h
  · intro i
    have : calmWorld.sites.keys = [1, 2, 3, 4] := by decide +kernel
    rw [known_iff, Ne, IMap.get?_eq_none_iff, not_not, this]

example : [1, 2, 3, 4].map (fun i => (calmWorld.getVisitFrequencyOfSite i).1) = [.ok 2, .ok 1, .ok 2, .ok 0] := by
  decide +kernel

/-- **C61**, partial: In every history with proper calls, after a call of `initializeWalkers` the sites of the walkers given
to it are occupied, provided that they are in no cluster. Missing: sites which are in a cluster; for these the statement is
false, see `C61_counterexample`. -/
theorem C61_partial (env : Env K) (n : Nat) (evs : List (Event K)) (w : World K) (ht : Trace env (World.new n) evs w)
    (hu : Usage evs) (before : List (Event K)) (ev : Event K) (he : evs = before ++ [ev]) (l : List (Entry K))
    (hop : ev.op = .initializeWalkers l) (a : Entry K) (ha : a ∈ l) (i : Int) (hon : On w a.handle i)
    (hc : w.getClusterIdOfSite i = .ok unassignedId) : w.isOccupiedAt (w.feat i) i = .ok true := by
  subst he
  have hst := (ht.inv hu).struct
  obtain ⟨hu1, hp⟩ := usage_snoc hu
  obtain ⟨r, hr⟩ : ∃ r, ev.res = .ok r := by
    unfold Proper at hp; rw [hop] at hp; exact hp.1
  have hact : a.handle ∈ active (before ++ [ev]) := by
    unfold active
    rw [List.foldl_append]
    simp only [List.foldl_cons, List.foldl_nil, enter, hop, hr]
    exact List.mem_append_right _ (List.mem_map_of_mem ha)
  obtain ⟨s, hs⟩ := Option.ne_none_iff_exists'.1 (known_iff.1 ⟨_, hc⟩)
  have hs0 : s.clusterId = unassignedId := by
    unfold getClusterIdOfSite at hc
    rw [getClusterIdOfSite_of hs] at hc
    exact (ok_inj.1 hc)
  obtain ⟨f1, f2⟩ := C54 env n _ w ht hu i
  obtain ⟨b, hb⟩ := f2 s hs (.inl hs0)
  have : b = true := (f1 b hb).2 ⟨_, hact, hon⟩
  rw [hb, this]

/-- The hypotheses of `C61_partial` are met by the initialisation of two walkers. -/
example : ∃ ev before, calmEvs.take 7 = before ++ [ev] ∧ Usage (calmEvs.take 7) ∧
    ev.op = .initializeWalkers [⟨0, 10, 1, 1 / 2⟩, ⟨1, 11, 1, 1 / 4⟩] ∧ On ev.post 11 3 ∧
    ev.post.getClusterIdOfSite 3 = .ok unassignedId :=
  ⟨calmEvs[6]'(by decide +kernel), calmEvs.take 6, by rw [List.take_append_getElem], usageB_iff (by decide +kernel), rfl,
    on_of (by decide +kernel) (by decide), by decide +kernel⟩

/-- The first twelve calls of the witness history, after which sites 1 and 2 are a cluster and only site 1 is occupied, then a
new walker on site 2. -/
def lateOps : List (Op ℚ) := sysOps.take 12 ++ [
  .newWalker 12, .walkerOccupy 12 2, .initializeWalkers [⟨2, 12, 1, 1 / 2⟩], .hop 0 10 (witChoice (1 / 3) [1])]

/-- The history of these calls. -/
def lateEvs : List (Event ℚ) := (runOps Cluster.witEnv sysRates (World.new 0) lateOps).1

/-- The world it leads to. -/
def lateWorld : World ℚ := (runOps Cluster.witEnv sysRates (World.new 0) lateOps).2

theorem lateTrace : Trace Cluster.witEnv (World.new 0) lateEvs lateWorld := runOps_trace (by decide +kernel)

/-- **C61**, counterexample: after a history of proper calls (`lateEvs.take 14`) a walker is initialised on a free site of a
cluster. The call returns, but the site is not occupied, and the next hop puts a second walker on the site. -/
theorem C61_counterexample :
    Trace Cluster.witEnv (World.new 0) lateEvs lateWorld ∧ Usage (lateEvs.take 14) ∧
    ∃ ev1 ev2, lateEvs = lateEvs.take 14 ++ [ev1, ev2] ∧
      ev1.op = .initializeWalkers [⟨2, 12, 1, 1 / 2⟩] ∧ ev1.res = .ok 0 ∧ On ev1.pre 12 2 ∧
      ev1.pre.getClusterIdOfSite 2 = .ok 0 ∧ ev1.pre.isOccupiedAt (ev1.pre.feat 2) 2 = .ok false ∧
      12 ∉ active (lateEvs.take 14) ∧
      ev1.post.isOccupiedAt (ev1.post.feat 2) 2 = .ok false ∧
      ev2.op = .hop 0 10 (witChoice (1 / 3) [1]) ∧ ev2.res = .ok 0 ∧ On lateWorld 10 2 ∧ On lateWorld 12 2 ∧
      active lateEvs = [10, 11, 12] :=
  ⟨lateTrace, usageB_iff (by decide +kernel), lateEvs[14]'(by decide +kernel), lateEvs[15]'(by decide +kernel),
    by
      have h : lateEvs.length = 16 := by decide +kernel
      rw [show [lateEvs[14], lateEvs[15]] = lateEvs.drop 14 by
        rw [← List.getElem_cons_drop (i := 14) (by omega), ← List.getElem_cons_drop (i := 15) (by omega),
          List.drop_eq_nil_of_le (by omega)], List.take_append_drop],
    rfl, by decide +kernel, on_of (by decide +kernel) (by decide), by decide +kernel,
    by decide +kernel, by decide +kernel, by decide +kernel, rfl, by decide +kernel,
    on_of (by decide +kernel) (by decide), on_of (by decide +kernel) (by decide), by decide +kernel⟩

end Mythical
