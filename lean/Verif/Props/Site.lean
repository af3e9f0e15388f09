import Verif.Lemmas.Site
import Mathlib.MeasureTheory.Measure.Lebesgue.Basic
import Mathlib.Analysis.SpecialFunctions.Log.Basic
import Mathlib.Data.Rat.Floor
import Mathlib.Algebra.Order.Archimedean.Real.Basic

/-! # Site properties C30–C34 -/

set_option linter.unusedSectionVars false

namespace Mythical
open Site SiteSpec
variable {K : Type} [Field K] [LinearOrder K] [IsStrictOrderedRing K] [FloorRing K]

/-- Facts shared by C30–C33 about the site after a history that ends with memory `mem`. -/
theorem site_after {id : Int} {ops : List ((Addr → K) × Op)} {mem : Addr → K} {o : Op} {s : Site K}
    (hv : ∀ mo ∈ ops ++ [(mem, o)], ValidOp mo.2) (h : (Site.new id : Site K).run (ops ++ [(mem, o)]) = .ok s) :
    Fresh mem s ∧ s.neigh.WF ∧ ∀ n, s.neigh.get? n = neighOf (ops ++ [(mem, o)]) n := by
  obtain ⟨h1, h2, -, h4⟩ := run_concat (s := (Site.new id : Site K)) (by simp [Site.new, IMap.WF]) hv h
  exact ⟨h1, h2, fun n => congrFun h4 n⟩

theorem rates_pos_of_spec {ops : List ((Addr → K) × Op)} {mem : Addr → K} {s : Site K} (hw : s.neigh.WF)
    (hn : ∀ n, s.neigh.get? n = neighOf ops n) (hpos : ∀ n a, neighOf ops n = some a → 0 < mem a) :
    ∀ na ∈ s.neigh, 0 < mem na.2 := fun na hna =>
  hpos na.1 na.2 (by rw [← hn, IMap.get?_eq_some_iff hw]; exact hna)

/-- **C30.** After any history of rate updates (the rate variables changing in any way in between), ending with
contents `mem` in which the rates to all neighbours are positive: the list of hop probabilities names each neighbour
given by the user exactly once and nobody else, the reported probability of `n` is its rate over the sum of the
reported rates, lies in `(0,1]`, and the probabilities sum to one. -/
theorem C30_probabilities {id : Int} {ops : List ((Addr → K) × Op)} {mem : Addr → K} {o : Op} {s : Site K}
    (hv : ∀ mo ∈ ops ++ [(mem, o)], ValidOp mo.2) (h : (Site.new id : Site K).run (ops ++ [(mem, o)]) = .ok s)
    (hpos : ∀ n a, neighOf (ops ++ [(mem, o)]) n = some a → 0 < mem a) :
    (s.prob.map Prod.fst).Nodup ∧
    (∀ n, n ∈ s.prob.map Prod.fst ↔ (neighOf (ops ++ [(mem, o)]) n).isSome) ∧
    (∀ n a, neighOf (ops ++ [(mem, o)]) n = some a →
      s.probabilityTo n = .ok (mem a / (s.getRateToNeighbors mem).sum) ∧
      s.getRateToNeighbor mem n = .ok (mem a) ∧
      0 < mem a / (s.getRateToNeighbors mem).sum ∧ mem a / (s.getRateToNeighbors mem).sum ≤ 1) ∧
    (s.prob.map Prod.snd).sum = 1 := by
  obtain ⟨hf, hw, hn⟩ := site_after hv h
  have hp := rates_pos_of_spec hw hn hpos
  have hsum : (s.getRateToNeighbors mem).sum = s.sumRates mem := (sumRates_eq mem s).symm
  have hwp : (s.prob.map Prod.fst).Nodup := by
    have hp := hf.perm.map Prod.fst
    rw [List.map_map] at hp
    exact hp.nodup_iff.2 hw
  refine ⟨hwp, fun n => ?_, fun n a hna => ?_, hf.sum_prob⟩
  · rw [← hn]
    have hp := (hf.perm.map Prod.fst).mem_iff (a := n)
    rw [List.map_map] at hp
    rw [hp]
    show n ∈ IMap.keys s.neigh ↔ _
    rw [IMap.mem_keys_iff_get?]
    exact Option.isSome_iff_exists.symm
  · rw [← hn] at hna
    rw [hsum]
    have hm := IMap.mem_of_get? hna
    refine ⟨?_, ?_, div_pos (hp _ hm) (sumRates_pos hp hf.ne_nil),
      (div_le_one (sumRates_pos hp hf.ne_nil)).2 (mem_le_sum hp hm)⟩
    · unfold probabilityTo
      rw [if_pos (by unfold IMap.has; rw [hna]; rfl), hf.get? hw, hna]
      rfl
    · unfold getRateToNeighbor; rw [hna]

/-- **C30, availability.** With positive rates every update is accepted: `setRatesToNeighbors` with a non-empty map,
`addNeighRate` for a new neighbour, `resetNeighRate` always. -/
theorem C30_accepts {id : Int} {ops : List ((Addr → K) × Op)} {mem : Addr → K} {o : Op} {s : Site K}
    (hv : ∀ mo ∈ ops ++ [(mem, o)], ValidOp mo.2) (h : (Site.new id : Site K).run ops = .ok s)
    (hpos : ∀ n a, neighOf (ops ++ [(mem, o)]) n = some a → 0 < mem a)
    (ho : match o with
      | .setRates m => m ≠ []
      | .addNeigh n _ => neighOf ops n = none
      | .resetNeigh _ _ => True) :
    ∃ s', (Site.new id : Site K).run (ops ++ [(mem, o)]) = .ok s' := by
  obtain ⟨hw, -, hn⟩ := run_neigh (s := (Site.new id : Site K)) (by simp [Site.new, IMap.WF])
    (fun mo hm => hv mo (by simp [hm])) h
  have hn : ∀ n, s.neigh.get? n = neighOf ops n := fun n => congrFun hn n
  rw [run_append, h, ok_bind]
  have hstep : ∃ s', s.step mem o = .ok s' := by
    have hlast : ∀ n, neighOf (ops ++ [(mem, o)]) n = neighAfter (fun n => s.neigh.get? n) o n := by
      intro n
      unfold neighOf
      rw [List.foldl_append]
      show neighAfter (neighOf ops) o n = _
      rw [show neighOf ops = fun n => s.neigh.get? n from funext fun n => (hn n).symm]
    have hvo := hv (mem, o) (by simp)
    cases o with
    | setRates m =>
      show ∃ s', s.setRatesToNeighbors mem m = .ok s'
      unfold setRatesToNeighbors
      rw [if_neg (by simpa using ho)]
      have hm : ∀ na ∈ m, mem na.2 ≠ 0 := fun na hna => by
        refine (hpos na.1 na.2 ?_).ne'
        rw [hlast]
        simp only [neighAfter]
        rw [(IMap.get?_eq_some_iff hvo).2 hna]; rfl
      rw [setRatesLoop_total hm, ok_bind]
      have hw2 := foldl_set_wf m s.neigh hw
      have hg := foldl_set_get? m hvo s.neigh
      apply recalc_total
      · intro na hna
        apply hpos na.1 na.2
        rw [hlast]
        show (IMap.get? m na.1).or (IMap.get? s.neigh na.1) = some na.2
        rw [← hg]
        exact (IMap.get?_eq_some_iff hw2).2 hna
      · intro he
        obtain ⟨x, hx⟩ := List.exists_mem_of_ne_nil m ho
        have := hg x.1
        rw [(IMap.get?_eq_some_iff hvo).2 hx] at this
        have he' : m.foldl (fun acc na => IMap.set acc na.1 na.2) s.neigh = [] := he
        rw [he'] at this
        cases this
    | addNeigh n a =>
      show ∃ s', s.addNeighRate mem n a = .ok s'
      unfold addNeighRate
      rw [if_neg (by unfold IMap.has; rw [hn]; simp only at ho; rw [ho]; simp)]
      apply recalc_total
      · intro na hna
        apply hpos na.1 na.2
        rw [hlast]
        have := (IMap.get?_eq_some_iff (hw.set n a)).2 hna
        rw [IMap.get?_set] at this
        simp only [neighAfter, eq_comm] at this ⊢
        exact this
      · intro he
        have : (s.neigh.set n a).get? n = some a := by rw [IMap.get?_set, if_pos rfl]
        have he' : s.neigh.set n a = [] := he
        rw [he'] at this; cases this
    | resetNeigh n a =>
      show ∃ s', s.resetNeighRate mem n a = .ok s'
      unfold resetNeighRate
      apply recalc_total
      · intro na hna
        apply hpos na.1 na.2
        rw [hlast]
        have := (IMap.get?_eq_some_iff (hw.set n a)).2 hna
        rw [IMap.get?_set] at this
        simp only [neighAfter, eq_comm] at this ⊢
        exact this
      · intro he
        have : (s.neigh.set n a).get? n = some a := by rw [IMap.get?_set, if_pos rfl]
        have he' : s.neigh.set n a = [] := he
        rw [he'] at this; cases this
  obtain ⟨s', hs'⟩ := hstep
  exact ⟨s', by unfold run; rw [hs', ok_bind]; rfl⟩

/-- **C31.** Every draw in `[0,1)` picks a neighbour the user has given. -/
theorem C31_pick_is_neighbour {id : Int} {ops : List ((Addr → K) × Op)} {mem : Addr → K} {o : Op} {s : Site K}
    (hv : ∀ mo ∈ ops ++ [(mem, o)], ValidOp mo.2) (h : (Site.new id : Site K).run (ops ++ [(mem, o)]) = .ok s)
    (hpos : ∀ n a, neighOf (ops ++ [(mem, o)]) n = some a → 0 < mem a) {u : K} (hu : Draw u) :
    (neighOf (ops ++ [(mem, o)]) (s.pickNewSiteId u)).isSome := by
  obtain ⟨hf, hw, hn⟩ := site_after hv h
  rw [← (C30_probabilities hv h hpos).2.1]
  exact pickLoop_mem (hf.prob_pos (rates_pos_of_spec hw hn hpos)) hu.1 (by rw [hf.sum_prob]; simpa using hu.2)

/-- **C32.** The draws that pick neighbour `n` form an interval inside `[0,1)` whose length is the rate to `n` over
the sum of the rates. -/
theorem C32_pick_interval {id : Int} {ops : List ((Addr → K) × Op)} {mem : Addr → K} {o : Op} {s : Site K}
    (hv : ∀ mo ∈ ops ++ [(mem, o)], ValidOp mo.2) (h : (Site.new id : Site K).run (ops ++ [(mem, o)]) = .ok s)
    (hpos : ∀ n a, neighOf (ops ++ [(mem, o)]) n = some a → 0 < mem a)
    {n : Int} {a : Addr} (hna : neighOf (ops ++ [(mem, o)]) n = some a) :
    ∃ lo hi : K, 0 ≤ lo ∧ hi ≤ 1 ∧ hi - lo = mem a / (s.getRateToNeighbors mem).sum ∧
      ∀ u, Draw u → (s.pickNewSiteId u = n ↔ lo ≤ u ∧ u < hi) := by
  obtain ⟨hf, hw, hn⟩ := site_after hv h
  have hp := hf.prob_pos (rates_pos_of_spec hw hn hpos)
  have hwp := (C30_probabilities hv h hpos).1
  have hg : IMap.get? s.prob n = some (mem a / (s.getRateToNeighbors mem).sum) := by
    rw [hf.get? hw, hn, hna, sumRates_eq]; rfl
  have hp0 : ∀ np ∈ s.prob, 0 ≤ np.2 := fun np h => (hp np h).le
  refine ⟨before n s.prob, before n s.prob + mem a / (s.getRateToNeighbors mem).sum, before_nonneg hp0, ?_, by ring,
    fun u hu => ?_⟩
  · have := before_add_le hp0 hg
    rwa [hf.sum_prob] at this
  · have := pickLoop_eq_iff hp hwp hu.1 hg
    rw [hf.sum_prob, zero_add, zero_add] at this
    rw [← this]
    exact ⟨fun h => ⟨h, hu.2⟩, fun h => h.1⟩

/-- **C32, as a probability.** For a draw uniform in `[0,1)` the probability of picking `n` is its rate over the sum
of the rates. -/
theorem C32_pick_probability {id : Int} {ops : List ((Addr → ℝ) × Op)} {mem : Addr → ℝ} {o : Op} {s : Site ℝ}
    (hv : ∀ mo ∈ ops ++ [(mem, o)], ValidOp mo.2) (h : (Site.new id : Site ℝ).run (ops ++ [(mem, o)]) = .ok s)
    (hpos : ∀ n a, neighOf (ops ++ [(mem, o)]) n = some a → 0 < mem a)
    {n : Int} {a : Addr} (hna : neighOf (ops ++ [(mem, o)]) n = some a) :
    MeasureTheory.volume {u : ℝ | (0 ≤ u ∧ u < 1) ∧ s.pickNewSiteId u = n} =
      ENNReal.ofReal (mem a / (s.getRateToNeighbors mem).sum) := by
  obtain ⟨lo, hi, h0, h1, hlen, hiff⟩ := C32_pick_interval hv h hpos hna
  have : {u : ℝ | (0 ≤ u ∧ u < 1) ∧ s.pickNewSiteId u = n} = Set.Ico lo hi := by
    ext u
    simp only [Set.mem_ofPred_eq, Set.mem_Ico]
    constructor
    · rintro ⟨hu, he⟩; exact (hiff u hu).1 he
    · intro hu
      have hd : 0 ≤ u ∧ u < 1 := ⟨h0.trans hu.1, hu.2.trans_le h1⟩
      exact ⟨hd, (hiff u hd).2 hu⟩
  rw [this, Real.volume_Ico, hlen]

/-- **C33.** The dwell time is positive for every draw in `(0,1)`, and for a uniform draw it exceeds `t ≥ 0` with
probability `exp(-t * sum of rates)`. -/
theorem C33_dwell_law {id : Int} {ops : List ((Addr → ℝ) × Op)} {mem : Addr → ℝ} {o : Op} {s : Site ℝ}
    (hv : ∀ mo ∈ ops ++ [(mem, o)], ValidOp mo.2) (h : (Site.new id : Site ℝ).run (ops ++ [(mem, o)]) = .ok s)
    (hpos : ∀ n a, neighOf (ops ++ [(mem, o)]) n = some a → 0 < mem a) :
    (∀ u, 0 < u → u < 1 → 0 < s.getDwellTime (-Real.log u)) ∧
    ∀ t, 0 ≤ t → MeasureTheory.volume {u : ℝ | (0 < u ∧ u < 1) ∧ t < s.getDwellTime (-Real.log u)} =
      ENNReal.ofReal (Real.exp (-t * (s.getRateToNeighbors mem).sum)) := by
  obtain ⟨hf, hw, hn⟩ := site_after hv h
  have hp := rates_pos_of_spec hw hn hpos
  have hs := sumRates_pos hp hf.ne_nil
  have hsum : (s.getRateToNeighbors mem).sum = s.sumRates mem := (sumRates_eq mem s).symm
  unfold getDwellTime
  rw [hf.tau, hsum]
  generalize s.sumRates mem = R at hs
  refine ⟨fun u h0 h1 => ?_, fun t ht => ?_⟩
  · have := Real.log_neg h0 h1
    apply mul_pos (by linarith) (by positivity)
  · have : {u : ℝ | (0 < u ∧ u < 1) ∧ t < -Real.log u * (1 / R)} = Set.Ioo 0 (Real.exp (-t * R)) := by
      ext u
      simp only [Set.mem_ofPred_eq, Set.mem_Ioo]
      constructor
      · rintro ⟨⟨h0, -⟩, h2⟩
        refine ⟨h0, ?_⟩
        rw [mul_one_div, lt_div_iff₀ hs] at h2
        rw [← Real.log_lt_iff_lt_exp h0]
        linarith
      · rintro ⟨h0, h2⟩
        have h3 := (Real.log_lt_iff_lt_exp h0).2 h2
        have h4 : Real.exp (-t * R) ≤ 1 := by
          rw [Real.exp_le_one_iff]
          have := mul_nonneg ht hs.le
          linarith
        refine ⟨⟨h0, by linarith⟩, ?_⟩
        rw [mul_one_div, lt_div_iff₀ hs]
        linarith
    rw [this, Real.volume_Ioo, sub_zero]

/-- **C34, partial.** After the user changes rate variables in place (`mem → mem'`): the reported rates are the new
ones, and hop probabilities and time constant become the new ones at the next rate-setting call made on the site, for
whichever neighbour. Missing: without such a call hop probabilities and time constant stay the old ones (see
`C34_counterexample`). -/
theorem C34_partial {id : Int} {ops : List ((Addr → K) × Op)} {mem mem' : Addr → K} {o o' : Op} {s s' : Site K}
    (hv : ∀ mo ∈ ops ++ [(mem, o)], ValidOp mo.2) (hv' : ValidOp o')
    (h : (Site.new id : Site K).run (ops ++ [(mem, o)]) = .ok s) (h' : s.step mem' o' = .ok s') :
    (∀ n a, neighOf (ops ++ [(mem, o)]) n = some a → s.getRateToNeighbor mem' n = .ok (mem' a)) ∧
    (∀ n a, neighOf (ops ++ [(mem, o), (mem', o')]) n = some a →
      s'.probabilityTo n = .ok (mem' a / (s'.getRateToNeighbors mem').sum)) ∧
    s'.getTimeConstant = 1 / (s'.getRateToNeighbors mem').sum := by
  obtain ⟨hf, hw, hn⟩ := site_after hv h
  obtain ⟨hf', hw', -, hn'⟩ := step_ok hw hv' h'
  refine ⟨fun n a hna => ?_, fun n a hna => ?_, ?_⟩
  · unfold getRateToNeighbor; rw [hn, hna]
  · have e : neighOf (ops ++ [(mem, o), (mem', o')]) n = neighAfter (fun n => s.neigh.get? n) o' n := by
      rw [show (fun n => s.neigh.get? n) = neighOf (ops ++ [(mem, o)]) from funext hn]
      unfold neighOf
      rw [List.foldl_append, List.foldl_append]
      rfl
    rw [e, ← hn'] at hna
    unfold probabilityTo
    rw [if_pos (by unfold IMap.has; rw [hna]; rfl), hf'.get? hw', hna, sumRates_eq]
    rfl
  · show s'.tau = _
    rw [hf'.tau, sumRates_eq]; rfl

/-- Memory of the concrete site: address 0 holds `x`, address 1 holds 1, address 2 holds 3. -/
def witMem (x : ℚ) : Addr → ℚ := fun a => if a = 0 then x else if a = 1 then 1 else 3

/-- The history of the concrete site: two neighbours, then a third, then the first rate replaced. -/
def witHist : List ((Addr → ℚ) × Op) :=
  [(witMem 1, .setRates [(5, 0), (7, 1)]), (witMem 2, .addNeigh 9 2), (witMem 2, .resetNeigh 5 0)]

/-- The concrete site reached by `witHist`. -/
def witSite : Site ℚ := ⟨4, 0, 0, 1/6, unassignedId, [(5, 0), (7, 1), (9, 2)], [(5, 1/3), (7, 1/6), (9, 1/2)], none⟩

theorem wit_run : (Site.new 4 : Site ℚ).run witHist = .ok witSite := by decide +kernel

/-- The hypotheses of C30–C32 hold for the concrete history, over `ℚ`. -/
example : (∀ mo ∈ witHist, ValidOp mo.2) ∧ (Site.new 4 : Site ℚ).run witHist = .ok witSite ∧
    (∀ n a, neighOf witHist n = some a → 0 < witMem 2 a) ∧ Draw (1/2 : ℚ) ∧ witSite.pickNewSiteId (1/2) = 9 := by
  refine ⟨by simp [witHist, ValidOp, IMap.WF], wit_run, fun n a _ => ?_, by constructor <;> norm_num, by decide +kernel⟩
  unfold witMem; split
  · norm_num
  · split <;> norm_num

/-- The hypothesis of `C30_accepts` for `addNeighRate`. -/
example : neighOf [(witMem 1, Op.setRates [(5, 0), (7, 1)])] 9 = none := rfl

/-- The hypotheses of C32 (as a probability) and C33, over `ℝ`: a site with one neighbour reached at rate 2. -/
example : ∃ s, (Site.new 4 : Site ℝ).run ([] ++ [(fun _ => 2, .setRates [(5, 0)])]) = .ok s ∧
    neighOf ([] ++ [((fun _ => 2 : Addr → ℝ), .setRates [(5, 0)])]) 5 = some 0 := by
  obtain ⟨s', h⟩ := C30_accepts (K := ℝ) (id := 4) (ops := []) (mem := fun _ => 2) (o := .setRates [(5, 0)])
    (s := Site.new 4) (by simp [ValidOp, IMap.WF]) rfl (fun _ _ _ => by norm_num) (by simp)
  exact ⟨s', h, rfl⟩

/-- **C34, negation of the full statement.** A site with neighbours 5 and 7 at rates 1 and 1; the user changes the rate
to 5 in place to 3. The site reports the rate 3, but still the hop probability 1/2 (not 3/4) and the time constant 1/2
(not 1/4). -/
theorem C34_counterexample :
    ∃ (s : Site ℚ) (mem' : Addr → ℚ),
      (Site.new 4 : Site ℚ).run [(witMem 1, .setRates [(5, 0), (7, 1)])] = .ok s ∧
      s.getRateToNeighbor mem' 5 = .ok 3 ∧ s.getRateToNeighbors mem' = [3, 1] ∧
      s.probabilityTo 5 = .ok (1/2) ∧ s.getTimeConstant = 1/2 :=
  ⟨⟨4, 0, 0, 1/2, unassignedId, [(5, 0), (7, 1)], [(5, 1/2), (7, 1/2)], none⟩, witMem 3, by decide +kernel,
    by decide +kernel, by decide +kernel, by decide +kernel, by decide +kernel⟩

/-- The hypotheses of `C34_partial`. -/
example : (Site.new 4 : Site ℚ).run ([] ++ [(witMem 1, .setRates [(5, 0), (7, 1)])]) =
      .ok ⟨4, 0, 0, 1/2, unassignedId, [(5, 0), (7, 1)], [(5, 1/2), (7, 1/2)], none⟩ ∧
    (⟨4, 0, 0, 1/2, unassignedId, [(5, 0), (7, 1)], [(5, 1/2), (7, 1/2)], none⟩ : Site ℚ).step (witMem 3)
      (.resetNeigh 7 1) =
      .ok ⟨4, 0, 0, 1/4, unassignedId, [(5, 0), (7, 1)], [(5, 3/4), (7, 1/4)], none⟩ := by decide +kernel

end Mythical
