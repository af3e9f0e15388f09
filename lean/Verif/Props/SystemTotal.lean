import Verif.Props.SystemHopSafe
import Verif.Lemmas.SystemTotal

/-! # Hops return: C69 -/

set_option linter.unusedSectionVars false
set_option linter.unusedVariables false

namespace Mythical
open World SystemSpec
variable {K : Type} [Field K] [LinearOrder K] [IsStrictOrderedRing K] [FloorRing K]

/-- **C69.** In every history with proper calls of a system whose rates stay as they are, are positive, and go both ways, with
walkers sent to known sites, possible draws, performance ratios of at least 1/2 and traversal times that cover the basins: the
next hop of any walker in the system returns, whatever the walker's id, the draws and the choices of the libraries (with times
that cover the basin it searches), and leaves the same world behind for any sufficiently large limit on the number of rounds of
the convergence loop: that loop ends. Nothing is thrown, no assertion fails, and no null, dangling or past-the-end pointer is
followed. The only way out is the overflow of a counter: of an `int` (visits, hops, the threshold, cluster ids), or of the
conversion of a number of visits to `int`. -/
theorem C69_hop_returns (env : Env K) (mem : Addr → K) (n : Nat) (evs : List (Event K)) (w : World K)
    (ht : Trace env (World.new n) evs w) (hu : Usage evs) (hf : RatesFixed mem evs) (hp : RatesPositive mem evs)
    (hs : SystemsReturn evs) (hm : Maps evs) (h2 : TwoWayRates evs) (hd : Draws evs) (hk : SentToKnown evs)
    (hh : RatioHalf evs) (hc : TimesCover evs) (wid h : Int) (hact : h ∈ active evs) (a : Choices K)
    (hda : DrawsOf (.hop wid h a)) (hca : ∀ v w1, w.hopMove wid h a = .ok (v, w1) → CoversTimes mem w1 v a) :
    ∃ N r, ((∃ x, r.1 = .ok x) ∨ r.1 = .error (.ub .intOverflow) ∨ r.1 = .error (.ub .floatToInt)) ∧
      ∀ f ≥ N, w.step { env with fuel := f } mem (.hop wid h a) = r := by
  have hst := ht.struct hu.hopsReturn
  obtain ⟨hb, hres⟩ := ht.bothWays hu.hopsReturn hs hm h2
  have hsane : Sane env mem w := ⟨hst, (ht.static hu.hopsReturn).2, ht.good hu.hopsReturn hf hp, ht.settled hu.hopsReturn hf hp,
    ht.solid hu.hopsReturn hf hp hh hc, hb, hres, ht.ratio hu.hopsReturn hh⟩
  obtain ⟨x, hx, ho, h1, h3⟩ := C60_known env mem n evs w ht hu hf hp hs hd hk h hact
  have hdr : ∀ i, On w h i → ¬ Drain w i := by
    rintro i - ⟨hi, hr⟩
    rw [known_iff] at hi
    obtain ⟨s, hs'⟩ := Option.ne_none_iff_exists'.1 hi
    unfold ratesOf at hr
    rw [hs'] at hr
    exact (hb i s hs').1 hr
  have hpot : Known w x.pot := h3.resolve_right (hdr _ ho)
  have key : Settles fun f => w.hop (env.rounds f) mem wid h a := by
    rcases C60_move_partial env mem n evs w ht hu hf hp hs hd hk hh hc h hact hdr wid a hda.2 with ⟨⟨v, w1⟩, hmv⟩ | hmv
    · have hv : v = x.pot := by
        obtain ⟨y, -, -, -, -, -, -, -, hy, -, -, hj, -⟩ := hopMove_ok hmv
        rw [hx] at hy
        obtain rfl := Option.some.inj hy
        exact hj
      subst hv
      have hkeep := hst.hopMove_keep hmv
      obtain ⟨S, C, W, hw1⟩ := hopMove_outer hmv
      have hsane1 : Sane env mem w1 := hsane.keep hkeep (by rw [hw1]) (by rw [hw1])
      have hv1 : w1.sites.get? x.pot ≠ none := by
        rw [known_iff] at hpot
        obtain ⟨s, hs'⟩ := Option.ne_none_iff_exists'.1 hpot
        obtain ⟨t, ht', -⟩ := rel_some' (hs' ▸ hkeep.site x.pot)
        rw [ht']; simp
      refine Settles.of_eq (hopCount_settles hsane1 hv1 (hca _ _ hmv)) fun f => ?_
      unfold hop
      rw [hmv]
    · refine Settles.of_eq (Settles.const (r := (.error (.ub .intOverflow), w)) (.inr (.inl rfl))) fun f => ?_
      unfold hop
      rw [hmv]
  obtain ⟨N, r, hr, hN⟩ := key
  refine ⟨N, (r.1.map fun _ => 0, r.2), ?_, fun f hf => ?_⟩
  · rcases hr with ⟨y, hy⟩ | hy | hy <;> rw [hy]
    · exact .inl ⟨_, rfl⟩
    · exact .inr (.inl rfl)
    · exact .inr (.inr rfl)
  · have := hN f hf
    unfold step
    rw [← this]
    rfl

/-! ## A concrete case -/

/-- By computation: rate maps are maps and go both ways. -/
def World.mapB (ev : Event K) : Bool :=
  match ev.op with
  | .initializeSystem m => decide m.keys.Nodup && m.all fun ir => decide ir.2.keys.Nodup
  | _ => true

/-- By computation: rates go both ways. -/
def World.twoB (ev : Event K) : Bool :=
  match ev.op with
  | .initializeSystem m => m.all fun ir => ir.2.all fun na => decide (na.1 ≠ ir.1) &&
      m.any fun ir' => decide (ir'.1 = na.1) && ir'.2.any fun na' => decide (na'.1 = ir.1)
  | _ => true

theorem World.maps_of {evs : List (Event K)} (h : evs.all mapB = true) : Maps evs := by
  intro ev he m hop
  have h1 := List.all_eq_true.1 h ev he
  unfold mapB at h1
  rw [hop] at h1
  simp only [Bool.and_eq_true, List.all_eq_true, decide_eq_true_eq] at h1
  exact h1

theorem World.twoWay_of {evs : List (Event K)} (h : evs.all twoB = true) : TwoWayRates evs := by
  intro ev he m hop ir hir na hna
  have h1 := List.all_eq_true.1 h ev he
  unfold twoB at h1
  rw [hop] at h1
  simp only [Bool.and_eq_true, List.all_eq_true, List.any_eq_true, decide_eq_true_eq] at h1
  exact h1 ir hir na hna

theorem World.coversTimes_of {mem : Addr → K} {w w1 : World K} {wid h v : Int} {a : Choices K}
    (hB : coverB ⟨w, mem, .hop wid h a, .ok 0, w⟩ = true) (hm : w.hopMove wid h a = .ok (v, w1)) : CoversTimes mem w1 v a :=
  fun B hf => timesCover_of (evs := [⟨w, mem, .hop wid h a, .ok 0, w⟩]) (by simpa using hB) _ (List.mem_singleton.2 rfl)
    wid h a v w1 B rfl hm hf

/-- The calls up to the point at which there are two clusters. -/
def World.totalEvs : List (Event ℚ) := (runOps Cluster.witEnv mergeRates (World.new 0) (coverOps.take 11)).1

/-- The world with the two clusters. -/
def World.totalWorld : World ℚ := (runOps Cluster.witEnv mergeRates (World.new 0) (coverOps.take 11)).2

theorem World.totalRatesFixed : RatesFixed mergeRates totalEvs := by
  intro ev hev
  have : totalEvs.map (·.mem) = List.replicate totalEvs.length mergeRates := rfl
  have hm := List.mem_map_of_mem (f := fun e : Event ℚ => e.mem) hev
  rw [this] at hm
  exact (List.mem_replicate.1 hm).2

theorem World.totalRatesPositive : RatesPositive mergeRates totalEvs :=
  ratesPositive_of (fun a => by unfold mergeRates; split <;> (try split) <;> norm_num) _

/-- The next hop merges the two clusters. -/
example : ∃ N r, ((∃ x, r.1 = .ok x) ∨ r.1 = .error (.ub .intOverflow) ∨ r.1 = .error (.ub .floatToInt)) ∧
    ∀ f ≥ N, totalWorld.step { Cluster.witEnv with fuel := f } mergeRates (.hop 0 10 (witChoice (1 / 3) [12 / 100])) = r := by
  have aim := aim_of (evs := totalEvs) (by decide +kernel)
  refine C69_hop_returns Cluster.witEnv mergeRates 0 totalEvs totalWorld (runOps_trace (by decide +kernel))
    (usageB_iff (by decide +kernel)) totalRatesFixed totalRatesPositive aim.1 (maps_of (by decide +kernel))
    (twoWay_of (by decide +kernel)) aim.2.1 aim.2.2 (ratioHalf_of (by decide +kernel)) (timesCover_of (by decide +kernel))
    0 10 (by decide +kernel) (witChoice (1 / 3) [12 / 100]) ?_ fun v w1 hm => coversTimes_of (by decide +kernel) hm
  show SiteSpec.Draw (1 / 3 : ℚ) ∧ (0 : ℚ) < _
  exact ⟨by unfold SiteSpec.Draw; norm_num, by decide +kernel⟩

/-! ## One-way rates and rates of a site to itself -/

/-- Fast rates from site 1 to 2, from 2 to 3 and from 3 to 1, but not back. -/
def World.cycleMap : IMap (IMap Addr) := [(10, [(1, 2)]), (1, [(2, 0), (10, 2)]), (2, [(3, 0)]), (3, [(1, 0)])]

/-- A walker is initialised on site 1. -/
def World.cycleOps : List (Op ℚ) := [
  .setTimeResolution 10, .setMinThreshold 0, .initializeSystem cycleMap, .newWalker 10, .walkerOccupy 10 1,
  .initializeWalkers [⟨0, 10, 1, 1 / 2⟩]]

/-- The history of these calls. -/
def World.cycleEvs : List (Event ℚ) := (runOps Cluster.witEnv mergeRates (World.new 0) cycleOps).1

/-- The world they lead to. -/
def World.cycleWorld : World ℚ := (runOps Cluster.witEnv mergeRates (World.new 0) cycleOps).2

theorem World.cycleRatesFixed : RatesFixed mergeRates cycleEvs := by
  intro ev hev
  have : cycleEvs.map (·.mem) = List.replicate cycleEvs.length mergeRates := rfl
  have hm := List.mem_map_of_mem (f := fun e : Event ℚ => e.mem) hev
  rw [this] at hm
  exact (List.mem_replicate.1 hm).2

theorem World.cycleRatesPositive : RatesPositive mergeRates cycleEvs :=
  ratesPositive_of (fun a => by unfold mergeRates; split <;> (try split) <;> norm_num) _

/-- **C69 does not extend** to systems with rates that go one way only: site 1 has a fast rate to site 2, site 2 to site 3, and
site 3 to site 1, and none of them has a rate back. The basin of the three sites is found and satisfies the condition, and the
calculation of its occupation probabilities asks a site for the probability of hopping to a site that it has no rate to: the
assertion in `getProbabilityOfHoppingToNeighboringSite` fails (without assertions, the iterator past the end of the map is
dereferenced). -/
theorem C69_oneway_counterexample : ∃ (evs : List (Event ℚ)) (w : World ℚ) (a : Choices ℚ),
    Trace Cluster.witEnv (World.new 0) evs w ∧ Usage evs ∧ RatesFixed mergeRates evs ∧ RatesPositive mergeRates evs ∧
    SystemsReturn evs ∧ Maps evs ∧ Draws evs ∧ SentToKnown evs ∧ RatioHalf evs ∧ TimesCover evs ∧ 10 ∈ active evs ∧
    DrawsOf (.hop 0 10 a) ∧ (∀ v w1, w.hopMove 0 10 a = .ok (v, w1) → CoversTimes mergeRates w1 v a) ∧
    (w.step Cluster.witEnv mergeRates (.hop 0 10 a)).1 = .error .assertFail := by
  have aim := aim_of (evs := cycleEvs) (by decide +kernel)
  refine ⟨cycleEvs, cycleWorld, witChoice (1 / 2) [12 / 100], runOps_trace (by decide +kernel), usageB_iff (by decide +kernel),
    cycleRatesFixed, cycleRatesPositive, aim.1, maps_of (by decide +kernel), aim.2.1, aim.2.2, ratioHalf_of (by decide +kernel),
    timesCover_of (by decide +kernel), by decide +kernel, ?_, fun v w1 hm => coversTimes_of (by decide +kernel) hm,
    by decide +kernel⟩
  show SiteSpec.Draw (1 / 2 : ℚ) ∧ (0 : ℚ) < _
  exact ⟨by unfold SiteSpec.Draw; norm_num, by decide +kernel⟩

/-- The fastest rate of site 1 is one to itself. -/
def World.selfMap : IMap (IMap Addr) := [(10, [(1, 2)]), (1, [(1, 0), (10, 2)])]

/-- A walker is initialised on site 1. -/
def World.selfOps : List (Op ℚ) := [
  .setTimeResolution 10, .setMinThreshold 0, .initializeSystem selfMap, .newWalker 10, .walkerOccupy 10 1,
  .initializeWalkers [⟨0, 10, 1, 1 / 2⟩]]

/-- The history of these calls. -/
def World.selfEvs : List (Event ℚ) := (runOps Cluster.witEnv mergeRates (World.new 0) selfOps).1

/-- The world they lead to. -/
def World.selfWorld : World ℚ := (runOps Cluster.witEnv mergeRates (World.new 0) selfOps).2

theorem World.selfRatesFixed : RatesFixed mergeRates selfEvs := by
  intro ev hev
  have : selfEvs.map (·.mem) = List.replicate selfEvs.length mergeRates := rfl
  have hm := List.mem_map_of_mem (f := fun e : Event ℚ => e.mem) hev
  rw [this] at hm
  exact (List.mem_replicate.1 hm).2

theorem World.selfRatesPositive : RatesPositive mergeRates selfEvs :=
  ratesPositive_of (fun a => by unfold mergeRates; split <;> (try split) <;> norm_num) _

/-- **C69 does not extend** to systems in which a site has a rate to itself: site 1, whose fastest rate is the one to itself, is a
basin of its own, a cluster of one site is created, and an assertion in its update fails. -/
theorem C69_self_counterexample : ∃ (evs : List (Event ℚ)) (w : World ℚ) (a : Choices ℚ),
    Trace Cluster.witEnv (World.new 0) evs w ∧ Usage evs ∧ RatesFixed mergeRates evs ∧ RatesPositive mergeRates evs ∧
    SystemsReturn evs ∧ Maps evs ∧ Draws evs ∧ SentToKnown evs ∧ RatioHalf evs ∧ TimesCover evs ∧ 10 ∈ active evs ∧
    DrawsOf (.hop 0 10 a) ∧ (∀ v w1, w.hopMove 0 10 a = .ok (v, w1) → CoversTimes mergeRates w1 v a) ∧
    (w.step Cluster.witEnv mergeRates (.hop 0 10 a)).1 = .error .assertFail := by
  have aim := aim_of (evs := selfEvs) (by decide +kernel)
  refine ⟨selfEvs, selfWorld, witChoice (1 / 2) [], runOps_trace (by decide +kernel), usageB_iff (by decide +kernel),
    selfRatesFixed, selfRatesPositive, aim.1, maps_of (by decide +kernel), aim.2.1, aim.2.2, ratioHalf_of (by decide +kernel),
    timesCover_of (by decide +kernel), by decide +kernel, ?_, fun v w1 hm => coversTimes_of (by decide +kernel) hm,
    by decide +kernel⟩
  show SiteSpec.Draw (1 / 2 : ℚ) ∧ (0 : ℚ) < _
  exact ⟨by unfold SiteSpec.Draw; norm_num, by decide +kernel⟩

end Mythical
