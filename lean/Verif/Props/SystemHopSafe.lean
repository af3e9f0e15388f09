import Verif.Props.SystemPartition
import Verif.Lemmas.SystemLive

/-! # Hops of initialised walkers are well defined: C60 -/

set_option linter.unusedSectionVars false
set_option linter.unusedVariables false

namespace Mythical
open World SystemSpec
variable {K : Type} [Field K] [LinearOrder K] [IsStrictOrderedRing K] [FloorRing K]

/-- **C60** (the next site): In every history with proper calls in which the rates stay as they are and are positive, every
`initializeSystem` returns and the user sends walkers to known sites only, and whatever the draws, coarse-graining decisions
and settings: every walker in the system is on a known site, and its potential site is a known site too, unless the walker is
on a drain (a site without rates). -/
theorem C60_known (env : Env K) (mem : Addr → K) (n : Nat) (evs : List (Event K)) (w : World K)
    (ht : Trace env (World.new n) evs w) (hu : Usage evs) (hf : RatesFixed mem evs) (hp : RatesPositive mem evs)
    (hs : SystemsReturn evs) (hd : Draws evs) (hk : SentToKnown evs) (h : Int) (hh : h ∈ active evs) :
    ∃ x, w.walkers.get? h = some x ∧ On w h x.site ∧ Known w x.site ∧ (Known w x.pot ∨ Drain w x.site) := by
  have hl := ht.live hu hf hp hs hd hk
  obtain ⟨i, ho, hi⟩ := (ht.inv hu).occup.placed h hh
  obtain ⟨x, hx, ha⟩ := hl.aimed h hh
  obtain ⟨y, hy, h1, h2⟩ := id ho
  have : y = x := by rw [hx] at hy; exact (Option.some.inj hy).symm
  subst this
  subst h1
  have hkn : Known w y.site := known_iff.2 hi
  refine ⟨y, hx, ho, hkn, ?_⟩
  rcases ha with ha | ⟨s, hs, hn⟩
  · exact .inl (known_iff.2 ha)
  · exact .inr ⟨hkn, by unfold ratesOf; rw [hs]; exact hn⟩

/-- **C60, partial.** Full statement: hop is well defined for every walker in the system. Proved here: in a history as in
`C60_known`, with performance ratio at least 1/2 and traversal times that cover the basins, the move of every walker in the
system that is not on a drain (the part of `hop` before the coarse-graining attempt) returns, whatever the walker's id and the
draws, unless an `int` counter of the sites overflows. Missing: walkers on drains and ratios below 1/2, for which the statement
is false (`C60_drain_counterexample`, `C56_counterexample`). -/
theorem C60_move_partial (env : Env K) (mem : Addr → K) (n : Nat) (evs : List (Event K)) (w : World K)
    (ht : Trace env (World.new n) evs w) (hu : Usage evs) (hf : RatesFixed mem evs) (hp : RatesPositive mem evs)
    (hs : SystemsReturn evs) (hd : Draws evs) (hk : SentToKnown evs) (hh : RatioHalf evs) (hc : TimesCover evs)
    (h : Int) (hact : h ∈ active evs) (hdr : ∀ i, On w h i → ¬ Drain w i) (wid : Int) (a : Choices K) (he : 0 < a.e) :
    (∃ r, w.hopMove wid h a = .ok r) ∨ w.hopMove wid h a = .error (.ub .intOverflow) := by
  obtain ⟨x, hx, ho, h1, h2⟩ := C60_known env mem n evs w ht hu hf hp hs hd hk h hact
  have hl := ht.live hu hf hp hs hd hk
  have hst := ht.struct hu.hopsReturn
  have hsol := ht.solid hu.hopsReturn hf hp hh hc
  have h3 : Known w x.pot := h2.resolve_right (hdr _ ho)
  rw [known_iff] at h1 h3
  obtain ⟨t, ht'⟩ := Option.ne_none_iff_exists'.1 h3
  obtain ⟨-, -, -, h0⟩ := ho
  exact hopMove_moves hst (ht.settled hu.hopsReturn hf hp) hl.left hx h0 (hl.closed _ _ ht').1 (hsol.sure hst h1)
    (hsol.sure hst h3) he

/-! ## Drains -/

/-- Site 1 has a rate to site 2, which has none. -/
def World.drainMap : IMap (IMap Addr) := [(1, [(2, 0)])]

/-- A walker is initialised on site 1 and hops. -/
def World.drainOps : List (Op ℚ) := [
  .setTimeResolution 10, .initializeSystem drainMap, .newWalker 10, .walkerOccupy 10 1,
  .initializeWalkers [⟨0, 10, 1, 1 / 2⟩], .hop 0 10 (witChoice (1 / 2) [1])]

/-- The history of these calls. -/
def World.drainEvs : List (Event ℚ) := (runOps Cluster.witEnv mergeRates (World.new 0) drainOps).1

/-- The world they lead to. -/
def World.drainWorld : World ℚ := (runOps Cluster.witEnv mergeRates (World.new 0) drainOps).2

theorem World.drainTrace : Trace Cluster.witEnv (World.new 0) drainEvs drainWorld := runOps_trace (by decide +kernel)

theorem World.drainUsage : Usage drainEvs := usageB_iff (by decide +kernel)

theorem World.drainRatesFixed : RatesFixed mergeRates drainEvs := by
  intro ev hev
  have : drainEvs.map (·.mem) = List.replicate drainEvs.length mergeRates := rfl
  have hm := List.mem_map_of_mem (f := fun e : Event ℚ => e.mem) hev
  rw [this] at hm
  exact (List.mem_replicate.1 hm).2

theorem World.drainRatesPositive : RatesPositive mergeRates drainEvs :=
  ratesPositive_of (fun a => by unfold mergeRates; split <;> (try split) <;> norm_num) _

/-- **C60 is false of the code** for walkers on drains: a walker that was initialised on site 1 has hopped to site 2, which has
no rates. It was given the potential site -1, which is no site of the system, and its next hop dereferences a null pointer,
whatever the draws. -/
theorem C60_drain_counterexample : ∃ (evs : List (Event ℚ)) (w : World ℚ),
    Trace Cluster.witEnv (World.new 0) evs w ∧ Usage evs ∧ RatesFixed mergeRates evs ∧ RatesPositive mergeRates evs ∧
    SystemsReturn evs ∧ Draws evs ∧ SentToKnown evs ∧ RatioHalf evs ∧ TimesCover evs ∧ 10 ∈ active evs ∧ On w 10 2 ∧
    Drain w 2 ∧ (∀ x, w.walkers.get? 10 = some x → ¬ Known w x.pot) ∧
    ∀ wid a, (w.hop Cluster.witEnv mergeRates wid 10 a).1 = .error (.ub .nullDeref) := by
  have aim := aim_of (evs := drainEvs) (by decide +kernel)
  refine ⟨drainEvs, drainWorld, drainTrace, drainUsage, drainRatesFixed, drainRatesPositive, aim.1, aim.2.1, aim.2.2,
    ratioHalf_of (by decide +kernel), timesCover_of (by decide +kernel), by decide +kernel,
    on_of (by decide +kernel) (by decide), ⟨⟨unassignedId, by decide +kernel⟩, by decide +kernel⟩, ?_, ?_⟩
  · intro x hx
    have : drainWorld.walkers.get? 10 = some ⟨2, -1, 0⟩ := by decide +kernel
    rw [hx] at this
    rw [Option.some.inj this, known_iff]
    exact fun h => h (by decide +kernel)
  · intro wid a
    have : drainWorld.hopMove wid 10 a = .error (.ub .nullDeref) := by
      have h1 : drainWorld.walkerOf 10 = .ok ⟨2, -1, 0⟩ := by decide +kernel
      have h2 : drainWorld.isOccupiedAt (drainWorld.feat (-1)) (-1) = .error (.ub .nullDeref) := by decide +kernel
      have h3 : walkerSite (⟨2, -1, 0⟩ : Walker ℚ) = .ok 2 := by decide +kernel
      have h4 : walkerPot (⟨2, -1, 0⟩ : Walker ℚ) = .ok (-1) := by decide +kernel
      unfold hopMove
      simp only [h1, h2, h3, h4, ok_bind]
      rfl
    unfold hop
    rw [this]

/-- Two walkers are in the system at the end of the history `coverEvs`, which has a merge. -/
example : ∃ x, coverWorld.walkers.get? 10 = some x ∧ On coverWorld 10 x.site ∧ Known coverWorld x.site ∧
    (Known coverWorld x.pot ∨ Drain coverWorld x.site) :=
  have aim := aim_of (evs := coverEvs) (by decide +kernel)
  C60_known _ _ 0 _ _ coverTrace coverUsage coverRatesFixed coverRatesPositive aim.1 aim.2.1 aim.2.2 10 (by decide +kernel)

/-- Neither is on a drain, and both can move. -/
example : (∃ r, coverWorld.hopMove 0 10 (witChoice (1 / 3) [1]) = .ok r) ∨
    coverWorld.hopMove 0 10 (witChoice (1 / 3) [1]) = .error (.ub .intOverflow) := by
  have aim := aim_of (evs := coverEvs) (by decide +kernel)
  refine C60_move_partial _ _ 0 _ _ coverTrace coverUsage coverRatesFixed coverRatesPositive aim.1 aim.2.1 aim.2.2 coverHalf
    coverCover 10 (by decide +kernel) ?_ 0 _ (by decide +kernel)
  intro i hi hr
  have h1 : On coverWorld 10 1 := on_of (by decide +kernel) (by decide)
  have : ratesOf coverWorld 1 ≠ [] := by decide +kernel
  rw [on_unique hi h1] at hr
  exact this hr.2

end Mythical
