import Verif.Lemmas.RoundedLaw
import Verif.Lemmas.ClusterWitness
import Verif.Props.Rounded

/-! # Property C91: the tables and the time constants of a cluster in rounded arithmetic -/

set_option linter.unusedSectionVars false

namespace Mythical
open RoundSpec
variable {K : Type} [Field K] [LinearOrder K] [IsStrictOrderedRing K] [FloorRing K]
variable {fl : K → K} {ε : K}

/-! ## Without rounding -/

theorem cumulate_noRound (t : K) (l : List (Int × K)) : Rounded.cumulate (fun x => x) t l = Cluster.cumulate t l := by
  induction l generalizing t with
  | nil => rfl
  | cons x l ih =>
    obtain ⟨n, p⟩ := x
    unfold Rounded.cumulate Cluster.cumulate
    rw [ih]

theorem hopNeighStep_noRound (c : Cluster K) (id : Int) (s : Site K) :
    Rounded.hopNeighStep (fun x => x) c id s = c.hopNeighStep id s := by
  funext acc n
  unfold Rounded.hopNeighStep Cluster.hopNeighStep
  split
  · rfl
  · congr 1
    funext p
    split
    · rfl
    · next h =>
      have : acc.at0 n = 0 := IMap.at0_of_not_mem (by rwa [IMap.has_iff] at h)
      rw [this, zero_add]

theorem sumFirst_noRound (l : IMap K) : Rounded.sumFirst (fun x => x) l = IMap.sumVals l := by
  cases l with
  | nil => rfl
  | cons x l =>
    show l.foldl (fun t nr => t + nr.2) x.2 = l.foldl (fun t nr => t + nr.2) (0 + x.2)
    rw [zero_add]

/-- **C91, no rounding.** Without rounding, the functions of this property are those of the exact model: the computing part
of `updateProbabilitiesAndTimeConstant` is the iteration followed by `derive`. -/
theorem C91_exact (env : Env K) (mem : Addr → K) (freqs : IMap Int) (c : Cluster K) (n : Nat) :
    (Cluster.rebuild env mem freqs c = do
      let c ← c.solveProb env
      let c ← Rounded.derive (fun x => x) env mem c
      let c ← Cluster.restoreVisits freqs { c with siteVisits := [] } c.sites.keys
      c.calcInternalDwell mem) ∧
    Rounded.solveProb (fun x => x) n c = Cluster.iterateN n c.initProb := by
  constructor
  · have hI : ∀ c : Cluster K, Rounded.calcHopToInternal (fun x => x) env c = c.calcHopToInternal env := by
      intro c
      unfold Rounded.calcHopToInternal Cluster.calcHopToInternal
      simp only [cumulate_noRound]
      rfl
    have hN : ∀ c : Cluster K, Rounded.calcHopToNeighbors (fun x => x) env c = c.calcHopToNeighbors env := by
      intro c
      unfold Rounded.calcHopToNeighbors Cluster.calcHopToNeighbors Rounded.hopNeighTemp Cluster.hopNeighTemp
      simp only [cumulate_noRound, hopNeighStep_noRound]
      rfl
    have hE : ∀ c : Cluster K, Rounded.calcSumEscape (fun x => x) mem c = c.calcSumEscape mem := by
      intro c
      unfold Rounded.calcSumEscape Cluster.calcSumEscape
      simp only [sumFirst_noRound]
    have hS : ∀ c : Cluster K, Rounded.calcSumInternal (fun x => x) mem c = c.calcSumInternal mem := by
      intro c
      unfold Rounded.calcSumInternal Cluster.calcSumInternal
      simp only [zero_add]
      rfl
    unfold Cluster.rebuild Cluster.solveMasterEquation Rounded.derive
    simp only [hI, hN, hE, hS, bind_assoc, pure_bind]
    rfl
  · show Rounded.iterateN (fun x => x) n (Rounded.initProb (fun x => x) c) = Cluster.iterateN n c.initProb
    show Rounded.iterateN (fun x => x) n c.initProb = Cluster.iterateN n c.initProb
    generalize c.initProb = c
    induction n generalizing c with
    | zero => rfl
    | succ n ih =>
      have hit : Rounded.iterate (fun x => x) c = c.iterate := rfl
      show (Rounded.iterate (fun x => x) c >>= fun c => Rounded.iterateN (fun x => x) n c) = c.iterate >>= fun c => Cluster.iterateN n c
      rw [hit]
      congr 1
      funext c
      exact ih c

/-! ## The tables -/

/-- **C91, hops inside.** From occupation probabilities, rates, time constants and probabilities of the sites that are not
negative: if without rounding the tables can be computed (giving `c1`), they can with rounding (giving `c2`), and on the first
update the draws that send a walker that stays in the cluster to site `n` form an interval whose length differs from the
share of `n` (the table of `c1`) by at most `2 (N + 4) ε`, `N` being the number of sites. The draws from a threshold on, which
differs from 1 by at most `6 (N + 3) ε`, give -1. -/
theorem C91_inside_partial (R : Rounding fl ε) (h0 : 0 ≤ ε) {env : Env K} {mem : Addr → K} {c c1 : Cluster K}
    (hc : Nonneg mem c) (hw : c.sites.WF) (h : Rounded.derive (fun x => x) env mem c = .ok c1) (hcum : c.cumInternal = [])
    (hne : c.probOn ≠ []) (hm1 : (-1 : Int) ∉ c.probOn.keys) (hN : 8 * ((c.probOn.length + 3 : Nat) * ε) ≤ 1) :
    ∃ c2 pick, Rounded.derive fl env mem c = .ok c2 ∧
      (∀ wid r u, c2.remaining.get? wid = some r → 0 < r → c2.pickNewSiteId wid u = .ok (pick u, c2)) ∧
      PicksLike c1.probInternal (6 * (c.probOn.length + 3 : Nat) * ε) (2 * ((c.probOn.length + 3 : Nat) + 1) * ε) pick := by
  have h1 : ε < 1 := by push_cast at hN; nlinarith [(Nat.cast_nonneg c.probOn.length : (0 : K) ≤ _)]
  obtain ⟨c2, hd, ⟨a, b, hab, pa, pb, ka, oa⟩, hcI, -⟩ := Rounded.derive_rel R h0 h1 hc hw h
  rw [hcum, List.nil_append] at hcI
  have hlen : a.length = c.probOn.length := by
    have := congrArg List.length ka
    simpa [IMap.keys] using this
  refine ⟨c2, fun u => Cluster.pickCum u (Rounded.cumulate fl 0 c2.probInternal), hd, ?_, ?_⟩
  · intro wid r u hr hr0
    unfold Cluster.pickNewSiteId
    rw [hr]
    simp only
    rw [if_pos hr0, hcI]
  · refine Rounded.picks_of_mrel R h0 hab ?_ pa pb (oa ?_) hN h1 (by omega) (by rw [ka]; exact hm1)
    · show (IMap.keys a).Nodup
      rw [ka]; exact hc.onWF
    · rintro rfl
      exact hne (List.length_eq_zero_iff.1 hlen.symm)

/-- **C91, hops off.** The same for the walkers that leave the cluster. With `E` the number of links of the sites and `N` the
number of neighbours of the cluster, the lengths of the intervals differ from the shares by at most `2 (2 E + N + 5) ε`. -/
theorem C91_exits_partial (R : Rounding fl ε) (h0 : 0 ≤ ε) {env : Env K} {mem : Addr → K} {c c1 : Cluster K}
    (hc : Nonneg mem c) (hw : c.sites.WF) (h : Rounded.derive (fun x => x) env mem c = .ok c1) (hcum : c.cumNeigh = [])
    (hne : c1.probNeigh ≠ []) (hm1 : ∀ is ∈ c.sites, (-1 : Int) ∉ is.2.neigh.keys)
    (hN : 8 * ((2 * (links c + 1) + c1.probNeigh.length + 2 : Nat) * ε) ≤ 1) :
    ∃ c2 pick, Rounded.derive fl env mem c = .ok c2 ∧
      (∀ wid r u, c2.remaining.get? wid = some r → ¬ 0 < r → ∃ c3, c2.pickNewSiteId wid u = .ok (pick u, c3)) ∧
      PicksLike c1.probNeigh (6 * (2 * (links c + 1) + c1.probNeigh.length + 2 : Nat) * ε)
        (2 * ((2 * (links c + 1) + c1.probNeigh.length + 2 : Nat) + 1) * ε) pick := by
  have h1 : ε < 1 := by
    push_cast at hN
    nlinarith [(Nat.cast_nonneg (links c) : (0 : K) ≤ _), (Nat.cast_nonneg c1.probNeigh.length : (0 : K) ≤ _)]
  obtain ⟨c2, hd, -, -, ⟨a, b, hab, pa, pb, oa⟩, hcN, ⟨kw, kk⟩, -⟩ := Rounded.derive_rel R h0 h1 hc hw h
  rw [hcum, List.nil_append] at hcN
  rw [← pa.length_eq] at hab
  have hka : (IMap.keys c1.probNeigh).Perm (IMap.keys a) := pa.map Prod.fst
  refine ⟨c2, fun u => Cluster.pickCum u (Rounded.cumulate fl 0 c2.probNeigh), hd, ?_, ?_⟩
  · intro wid r u hr hr0
    unfold Cluster.pickNewSiteId
    rw [hr]
    simp only
    rw [if_neg hr0, hcN]
    exact ⟨_, rfl⟩
  · refine Rounded.picks_of_mrel R h0 hab ?_ pa pb (oa ?_) hN h1 (by rw [← pa.length_eq]; omega) ?_
    · exact (hka.nodup_iff).1 kw
    · rintro rfl; exact hne (List.perm_nil.1 pa)
    · intro q
      obtain ⟨is, his, hn⟩ := kk _ (hka.mem_iff.2 q)
      exact hm1 is his hn

/-- **C91, times.** The escape time constant, the time increment and the internal time constant are missing with rounding if
they are without, and else off by a relative error of at most `2 M ε` with `M = 6 E + 4 P + 2 N + 15`, where `E` is the
number of links, `N` the number of sites and `P` the number of occupation probabilities. -/
theorem C91_times_partial (R : Rounding fl ε) (h0 : 0 ≤ ε) {env : Env K} {mem : Addr → K} {c c1 : Cluster K}
    (hc : Nonneg mem c) (hw : c.sites.WF) (h : Rounded.derive (fun x => x) env mem c = .ok c1)
    (hN : 2 * ((6 * links c + 4 * c.probOn.length + 2 * c.sites.length + 15 : Nat) * ε) ≤ 1) :
    ∃ c2, Rounded.derive fl env mem c = .ok c2 ∧
      Within (2 * ((6 * links c + 4 * c.probOn.length + 2 * c.sites.length + 15 : Nat) * ε)) c1.tau c2.tau ∧
      Within (2 * ((6 * links c + 4 * c.probOn.length + 2 * c.sites.length + 15 : Nat) * ε)) c1.timeInc c2.timeInc ∧
      Within (2 * ((6 * links c + 4 * c.probOn.length + 2 * c.sites.length + 15 : Nat) * ε)) c1.internalTau c2.internalTau := by
  have hbig : (15 : K) ≤ (6 * links c + 4 * c.probOn.length + 2 * c.sites.length + 15 : Nat) := by
    push_cast
    have := (Nat.cast_nonneg (links c) : (0 : K) ≤ _)
    have := (Nat.cast_nonneg c.probOn.length : (0 : K) ≤ _)
    have := (Nat.cast_nonneg c.sites.length : (0 : K) ≤ _)
    linarith
  have h1 : ε < 1 := by nlinarith
  obtain ⟨c2, hd, -, -, -, -, -, ht, hti, hit⟩ := Rounded.derive_rel R h0 h1 hc hw h
  exact ⟨c2, hd, Rounded.within_of_rel h0 h1.le (by omega) ht hN, Rounded.within_of_rel h0 h1.le (by omega) hti hN,
    Rounded.within_of_rel h0 h1.le (by omega) hit hN⟩

/-! ## A draw that picks no site -/

/-- Sites made with doubles from maps of rates, put into a new cluster. -/
def roundedCluster (mem : Addr → ℚ) (l : List (Int × IMap Addr)) : Except Fault (Cluster ℚ) := do
  let sites ← l.mapM fun im => Rounded.run Rounded.binary64 (Site.new im.1) [(mem, .setRates im.2)]
  (Cluster.new 1).addSites sites

/-- The rates of the pair of sites below: rate 1 to the exits and 10 inside. -/
def pairRates : Addr → ℚ := fun a => if a = 0 then 1 else 10

/-- Two sites with three exits each. -/
def pairLinks : List (Int × IMap Addr) :=
  [(1, [(2, 1), (3, 0), (4, 0), (5, 0)]), (2, [(1, 1), (6, 0), (7, 0), (8, 0)])]

/-- The cluster of the two sites, with the occupation probabilities computed in doubles. -/
def pairCluster : Cluster ℚ :=
  match roundedCluster pairRates pairLinks >>= Rounded.solveProb Rounded.binary64 6 with
  | .ok c => c
  | .error _ => Cluster.new 0

/-- The cluster after the update, in doubles. -/
def pairUpdated : Cluster ℚ :=
  match Rounded.derive Rounded.binary64 Cluster.witEnv pairRates pairCluster with
  | .ok c => c
  | .error _ => Cluster.new 0

theorem pairCluster_eq : (roundedCluster pairRates pairLinks >>= Rounded.solveProb Rounded.binary64 6) = .ok pairCluster := by
  decide +kernel

theorem pairUpdated_eq : Rounded.derive Rounded.binary64 Cluster.witEnv pairRates pairCluster = .ok pairUpdated := by
  decide +kernel

/-- **C91, a draw that picks no site.** Two sites with rate 10 between them and rate 1 to each of their three exits, all
computed in doubles, with the 6 rounds of the default settings. A walker leaves the cluster with the largest double below 1
as the draw: `pickNewSiteId` gives -1. Then its next hop dereferences a null pointer (`C90_null`). -/
theorem C91_counterexample : ∃ (c c' : Cluster ℚ) (u : ℚ),
    (roundedCluster pairRates pairLinks >>= Rounded.solve Rounded.binary64 Cluster.witEnv pairRates 6) = .ok c ∧
    0 ≤ u ∧ u < 1 ∧ Rounded.binary64 u = u ∧ (-1 : Int) ∉ c.getSiteIdsInCluster ∧ (-1 : Int) ∉ c.getSiteIdsNeighboringCluster ∧
    ({ c with remaining := [(7, 0)] } : Cluster ℚ).pickNewSiteId 7 u = .ok (-1, c') := by
  refine ⟨pairUpdated, { pairUpdated with remaining := [] }, 1 - 1 / 2 ^ 53, ?_, by norm_num, by norm_num, by decide +kernel,
    by decide +kernel, by decide +kernel, by decide +kernel⟩
  decide +kernel

/-- The hypotheses of the theorems of this property, for that cluster. -/
example : Rounding (Rounded.binary64 : ℚ → ℚ) (1 / 2 ^ 53) ∧ Nonneg pairRates pairCluster ∧ pairCluster.sites.WF ∧
    (∃ c1, Rounded.derive (fun x => x) Cluster.witEnv pairRates pairCluster = .ok c1 ∧ c1.probNeigh ≠ [] ∧
      8 * ((2 * (links pairCluster + 1) + c1.probNeigh.length + 2 : Nat) * (1 / 2 ^ 53 : ℚ)) ≤ 1) ∧
    pairCluster.cumInternal = [] ∧ pairCluster.cumNeigh = [] ∧ pairCluster.probOn ≠ [] ∧
    (-1 : Int) ∉ pairCluster.probOn.keys ∧ (∀ is ∈ pairCluster.sites, (-1 : Int) ∉ is.2.neigh.keys) ∧
    8 * ((pairCluster.probOn.length + 3 : Nat) * (1 / 2 ^ 53 : ℚ)) ≤ 1 ∧
    2 * ((6 * links pairCluster + 4 * pairCluster.probOn.length + 2 * pairCluster.sites.length + 15 : Nat) * (1 / 2 ^ 53 : ℚ)) ≤ 1 := by
  refine ⟨C90_binary64, ⟨by decide +kernel, by decide +kernel, by decide +kernel, by decide +kernel, by decide +kernel,
    by decide +kernel⟩, by decide +kernel, ?_, by decide +kernel, by decide +kernel, by decide +kernel, by decide +kernel,
    by decide +kernel, by decide +kernel, by decide +kernel⟩
  have h : (match Rounded.derive (fun x => x) Cluster.witEnv pairRates pairCluster with
      | .ok c1 => decide (c1.probNeigh ≠ [] ∧
        8 * ((2 * (links pairCluster + 1) + c1.probNeigh.length + 2 : Nat) * (1 / 2 ^ 53 : ℚ)) ≤ 1)
      | .error _ => false) = true := by decide +kernel
  cases hd : Rounded.derive (fun x => x) Cluster.witEnv pairRates pairCluster with
  | error e => rw [hd] at h; cases h
  | ok c1 => rw [hd] at h; exact ⟨c1, rfl, of_decide_eq_true h⟩

end Mythical
