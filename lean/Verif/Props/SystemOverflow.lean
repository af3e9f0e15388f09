import Verif.Lemmas.SystemOverflowRun
import Verif.Props.SystemCalls
import Verif.Props.SystemStays

/-! # The counters do not overflow (C81) -/

namespace Mythical
open World SystemSpec
variable {K : Type} [Field K] [LinearOrder K] [IsStrictOrderedRing K] [FloorRing K]

/-- **C81**: In every history of a system in which the hops return, whose rates stay as they are and are positive, and whose
thresholds are not negative: if every rate out of a site is at least `r`, the rates out of a site are at most `R` together, and the
counters have room (`Fits`: with `S` arrivals of walkers on sites, `S * (R / r ^ 2 + 3) ≤ 2 * (2 ^ 31 - 1)`; at most `2 ^ 31 - 1`
departures and ids of clusters, and fewer than `2 ^ 30` hops), then the next call, whatever it is and whatever its result, neither
overflows a counter nor converts a number to an `int` that does not fit. -/
theorem C81 (env : Env K) (n : Nat) (evs : List (Event K)) (w : World K) (ht : Trace env (World.new n) evs w) (hu : HopsReturn evs)
    (mem : Addr → K) (hf : RatesFixed mem evs) (hp : RatesPositive mem evs)
    (hm : ∀ ev ∈ evs, ∀ n, ev.op = .setMinThreshold n → 0 ≤ n) (r R : K) (hr : 0 < r) (hR : 0 < R) (hw : RatesWithin mem r R w)
    (op : Op K) (hop : SensibleCall mem op) (hfit : Fits n r R evs op) (f : Nat) :
    (w.step { env with fuel := f } mem op).1 ≠ .error (.ub .intOverflow) ∧
    (w.step { env with fuel := f } mem op).1 ≠ .error (.ub .floatToInt) := by
  have := ht.calm (env := { env with fuel := f }) hu hf hp hr hR (within_iff.1 hw) hm hop hfit
  exact ⟨fun h => absurd (this _ h).1 (by simp), fun h => absurd (this _ h).2 (by simp)⟩

/-- **C81** (hops return): with the conditions of C69 a hop of an active walker returns. -/
theorem C81_hop (env : Env K) (mem : Addr → K) (n : Nat) (evs : List (Event K)) (w : World K)
    (ht : Trace env (World.new n) evs w) (hu : Usage evs) (hf : RatesFixed mem evs) (hp : RatesPositive mem evs)
    (hs : SystemsReturn evs) (hm : Maps evs) (h2 : TwoWayRates evs) (hd : Draws evs) (hk : SentToKnown evs)
    (hh : RatioHalf evs) (hc : TimesCover evs) (hm0 : ∀ ev ∈ evs, ∀ n, ev.op = .setMinThreshold n → 0 ≤ n) (r R : K) (hr : 0 < r)
    (hR : 0 < R) (hw : RatesWithin mem r R w) (wid h : Int) (hact : h ∈ active evs) (a : Choices K)
    (hda : DrawsOf (.hop wid h a)) (hca : ∀ v w1, w.hopMove wid h a = .ok (v, w1) → CoversTimes mem w1 v a)
    (hfit : Fits n r R evs (.hop wid h a)) :
    ∃ N w', ∀ f ≥ N, w.step { env with fuel := f } mem (.hop wid h a) = (.ok 0, w') := by
  obtain ⟨N, r', h1, h3⟩ := C69_hop_returns env mem n evs w ht hu hf hp hs hm h2 hd hk hh hc wid h hact a hda hca
  have hno := C81 env n evs w ht hu.hopsReturn mem hf hp hm0 r R hr hR hw (.hop wid h a) trivial hfit N
  rw [h3 N le_rfl] at hno
  rcases h1 with ⟨x, hx⟩ | hx | hx
  · refine ⟨N, r'.2, fun f hf' => ?_⟩
    rw [h3 f hf']
    have h0 := h3 N le_rfl
    have : (w.step { env with fuel := N } mem (.hop wid h a)).1 = .ok x := by rw [h0]; exact hx
    have hx0 : x = 0 := by
      simp only [step] at this
      cases hres : (w.hop { env with fuel := N } mem wid h a).1 with
      | error e => rw [hres] at this; cases this
      | ok u => rw [hres] at this; cases this; rfl
    rw [← hx0, ← hx]
  · exact absurd hx hno.1
  · exact absurd hx hno.2

/-- **C81** (`initializeWalkers` returns): with the conditions of C72, if all walkers have been put on known sites. -/
theorem C81_initializeWalkers (env : Env K) (mem : Addr → K) (n : Nat) (evs : List (Event K)) (w : World K)
    (ht : Trace env (World.new n) evs w) (hu : Usage evs) (hf : RatesFixed mem evs) (hp : RatesPositive mem evs)
    (hs : SystemsReturn evs) (hd : Draws evs) (hk : SentToKnown evs) (hh : RatioHalf evs) (hc : TimesCover evs)
    (hm0 : ∀ ev ∈ evs, ∀ n, ev.op = .setMinThreshold n → 0 ≤ n) (r R : K) (hr : 0 < r) (hR : 0 < R) (hw : RatesWithin mem r R w)
    (l : List (Entry K)) (hl : DrawsOf (.initializeWalkers l)) (hne : l ≠ [])
    (hon : ∀ a ∈ l, ∃ i, On w a.handle i ∧ Known w i) (hfit : Fits n r R evs (.initializeWalkers l)) :
    ∃ x, (w.step env mem (.initializeWalkers l)).1 = .ok x := by
  rcases (C72_initializeWalkers env mem n evs w ht hu hf hp hs hd hk hh hc l hl hne).1 hon with h | h
  · exact h
  · exact absurd h (C81 env n evs w ht hu.hopsReturn mem hf hp hm0 r R hr hR hw (.initializeWalkers l) trivial hfit env.fuel).1

/-- **C81** (`removeWalkerFromSystem` returns) for every active walker. -/
theorem C81_removeWalker (env : Env K) (mem : Addr → K) (n : Nat) (evs : List (Event K)) (w : World K)
    (ht : Trace env (World.new n) evs w) (hu : Usage evs) (hf : RatesFixed mem evs) (hp : RatesPositive mem evs)
    (hh : RatioHalf evs) (hc : TimesCover evs) (hm0 : ∀ ev ∈ evs, ∀ n, ev.op = .setMinThreshold n → 0 ≤ n) (r R : K) (hr : 0 < r)
    (hR : 0 < R) (hw : RatesWithin mem r R w) (wid h : Int) (hact : h ∈ active evs) (hfit : Fits n r R evs (.removeWalker wid h)) :
    ∃ x, (w.step env mem (.removeWalker wid h)).1 = .ok x := by
  rcases C72_removeWalker env mem n evs w ht hu hf hp hh hc wid h hact with h' | h'
  · exact h'
  · exact absurd h' (C81 env n evs w ht hu.hopsReturn mem hf hp hm0 r R hr hR hw (.removeWalker wid h) trivial hfit env.fuel).1

/-- **C81** (`getVisitFrequencyOfSite` returns) for every known site. -/
theorem C81_visitFrequency (env : Env K) (mem : Addr → K) (n : Nat) (evs : List (Event K)) (w : World K)
    (ht : Trace env (World.new n) evs w) (hu : Usage evs) (hf : RatesFixed mem evs) (hp : RatesPositive mem evs)
    (hh : RatioHalf evs) (hc : TimesCover evs) (hm0 : ∀ ev ∈ evs, ∀ n, ev.op = .setMinThreshold n → 0 ≤ n) (r R : K) (hr : 0 < r)
    (hR : 0 < R) (hw : RatesWithin mem r R w) (i : Int) (hi : Known w i) (hfit : Fits n r R evs (.getVisitFrequencyOfSite i)) :
    ∃ x, (w.step env mem (.getVisitFrequencyOfSite i)).1 = .ok x := by
  rcases (C72_visitFrequency env mem n evs w ht hu hf hp hh hc i).1 hi with h' | h' | h'
  · exact h'
  · exact absurd h' (C81 env n evs w ht hu.hopsReturn mem hf hp hm0 r R hr hR hw (.getVisitFrequencyOfSite i) trivial hfit env.fuel).1
  · exact absurd h' (C81 env n evs w ht hu.hopsReturn mem hf hp hm0 r R hr hR hw (.getVisitFrequencyOfSite i) trivial hfit env.fuel).2

/-! ## A history -/

/-- The threshold set is not negative, by computation. -/
def World.thrB (op : Op K) : Bool :=
  match op with
  | .setMinThreshold n => decide (0 ≤ n)
  | _ => true

omit [Field K] [LinearOrder K] [IsStrictOrderedRing K] [FloorRing K] in
theorem World.thresholds_of {evs : List (Event K)} (h : evs.all (fun ev => thrB ev.op) = true) :
    ∀ ev ∈ evs, ∀ n, ev.op = .setMinThreshold n → 0 ≤ n := by
  intro ev hev n hop
  have := List.all_eq_true.1 h ev hev
  unfold thrB at this
  rw [hop] at this
  exact of_decide_eq_true this

/-- In the world with two clusters the rates are between 1/10 and 111 and there is room for the next hop. -/
theorem World.total_fits : RatesWithin mergeRates (1 / 10) 111 totalWorld ∧
    Fits 0 (1 / 10 : ℚ) 111 totalEvs (.hop 0 10 (witChoice (1 / 3) [12 / 100])) :=
  ⟨ratesWithin_of (by decide +kernel), by decide +kernel, by decide +kernel, by decide +kernel, by decide +kernel⟩

/-- The next hop, which merges the two clusters, returns. -/
example : ∃ N w', ∀ f ≥ N,
    totalWorld.step { Cluster.witEnv with fuel := f } mergeRates (.hop 0 10 (witChoice (1 / 3) [12 / 100])) = (.ok 0, w') := by
  have aim := aim_of (evs := totalEvs) (by decide +kernel)
  refine C81_hop Cluster.witEnv mergeRates 0 totalEvs totalWorld (runOps_trace (by decide +kernel))
    (usageB_iff (by decide +kernel)) totalRatesFixed totalRatesPositive aim.1 (maps_of (by decide +kernel))
    (twoWay_of (by decide +kernel)) aim.2.1 aim.2.2 (ratioHalf_of (by decide +kernel)) (timesCover_of (by decide +kernel))
    (thresholds_of (by decide +kernel)) (1 / 10) 111 (by norm_num) (by norm_num) total_fits.1
    0 10 (by decide +kernel) (witChoice (1 / 3) [12 / 100]) ?_ (fun v w1 hm => coversTimes_of (by decide +kernel) hm) total_fits.2
  show SiteSpec.Draw (1 / 3 : ℚ) ∧ (0 : ℚ) < _
  exact ⟨by unfold SiteSpec.Draw; norm_num, by decide +kernel⟩

/-! ## Slow rates -/

/-- The rates of the witness history, slowed down: the time unit is a million million times shorter. -/
def World.slowRates (a : Addr) : ℚ := sysRates a / 10 ^ 12

/-- Sites 1 and 2 become a cluster, in which a walker makes a stay. -/
def World.slowOps : List (Op ℚ) := [
  .setTimeResolution (10 ^ 12), .setMinThreshold 0, .initializeSystem sysMap,
  .newWalker 10, .walkerOccupy 10 1, .initializeWalkers [⟨0, 10, 1, 1 / 2⟩],
  .hop 0 10 (witChoice (1 / 2) [10 ^ 10]), .hop 0 10 (witChoice (1 / 2) [10 ^ 13])]

/-- Their history. -/
def World.slowEvs : List (Event ℚ) := (runOps Cluster.witEnv slowRates (World.new 0) slowOps).1

/-- The world it leads to. -/
def World.slowWorld : World ℚ := (runOps Cluster.witEnv slowRates (World.new 0) slowOps).2

theorem World.slowFixed : RatesFixed slowRates slowEvs := by
  intro ev hev
  have : slowEvs.map (·.mem) = List.replicate slowEvs.length slowRates := rfl
  have hm := List.mem_map_of_mem (f := fun e : Event ℚ => e.mem) hev
  rw [this] at hm
  exact (List.mem_replicate.1 hm).2

/-- **C81 needs the bound on the rates**: after two hops of one walker in a system with slow rates (slow in the unit of time that
the user has chosen) the visit frequency of a site of the new cluster does not fit into an `int`: the number of visits that a
cluster passes on to its sites is multiplied by its time constant. The conversion is undefined behaviour. -/
theorem C81_slow_counterexample : ∃ (evs : List (Event ℚ)) (w : World ℚ) (mem : Addr → ℚ),
    Trace Cluster.witEnv (World.new 0) evs w ∧ Usage evs ∧ RatesFixed mem evs ∧ RatesPositive mem evs ∧ SystemsReturn evs ∧
    Maps evs ∧ TwoWayRates evs ∧ Draws evs ∧ SentToKnown evs ∧ RatioHalf evs ∧ TimesCover evs ∧ total arrivals evs (.getVisitFrequencyOfSite 1) = 3 ∧
    hopsIn evs = 2 ∧ Known w 1 ∧ (w.step Cluster.witEnv mem (.getVisitFrequencyOfSite 1)).1 = .error (.ub .floatToInt) := by
  have aim := aim_of (evs := slowEvs) (by decide +kernel)
  refine ⟨slowEvs, slowWorld, slowRates, runOps_trace (by decide +kernel), usageB_iff (by decide +kernel), slowFixed,
    ratesPositive_of (fun a => by unfold slowRates sysRates; split <;> norm_num) _, aim.1, maps_of (by decide +kernel),
    twoWay_of (by decide +kernel), aim.2.1, aim.2.2, ratioHalf_of (by decide +kernel), timesCover_of (by decide +kernel),
    by decide +kernel, by decide +kernel, ⟨0, by decide +kernel⟩, by decide +kernel⟩

end Mythical
