import Verif.Lemmas.UnitsBase

/-! # The unit of time: the update of a cluster -/

set_option linter.unusedSectionVars false

namespace Mythical.Units
open Mythical
variable {K : Type} [Field K] [LinearOrder K] [IsStrictOrderedRing K] [FloorRing K]
variable {k : K} (hk : 0 < k) (sv : IMap K)

theorem div_eq_zero_units {k : K} (hk : 0 < k) (x : K) : x / k = 0 ↔ x = 0 := by rw [div_eq_zero_iff]; simp [hk.ne']

theorem div_pos_units {k : K} (hk : 0 < k) (x : K) : x / k > 0 ↔ x > 0 := by
  simp only [gt_iff_lt]; rw [div_pos_iff_of_pos_right hk]

theorem sites_units (c : Cluster K) : (cluster k sv c).sites = c.sites.mapVal fun _ => site k := rfl

theorem siteAt_units (c : Cluster K) (i : Int) : (cluster k sv c).siteAt i = site k (c.siteAt i) := by
  unfold Cluster.siteAt
  show (IMap.get? (c.sites.mapVal fun _ => site k) i).getD _ = _
  rw [get?_mapVal]
  cases c.sites.get? i with
  | some s => rfl
  | none => show Cluster.defaultSite = site k Cluster.defaultSite; unfold site Cluster.defaultSite Site.new; simp

theorem inCluster_units (c : Cluster K) (i : Int) : (cluster k sv c).siteIsInCluster i = c.siteIsInCluster i := by
  unfold Cluster.siteIsInCluster
  rw [sites_units, has_mapVal]

theorem keys_units (c : Cluster K) : (cluster k sv c).sites.keys = c.sites.keys := by
  rw [sites_units, keys_mapVal]

theorem ratesOut_units (mem : Addr → K) (c : Cluster K) :
    (cluster k sv c).ratesToNeighbors (rates k mem) = (c.ratesToNeighbors mem).mapVal fun _ => perTime k := by
  unfold Cluster.ratesToNeighbors
  show ((c.sites.mapVal fun _ => site k).map _).filter _ = _
  unfold IMap.mapVal
  rw [List.map_map, List.filter_map, List.filter_map, List.map_map]
  simp only [Function.comp_def, inCluster_units, site, rates, perTime, IMap.mapVal, List.map_map, List.isEmpty_map]

theorem ratesIn_units (mem : Addr → K) (c : Cluster K) :
    (cluster k sv c).ratesInternal (rates k mem) = (c.ratesInternal mem).mapVal fun _ => perTime k := by
  unfold Cluster.ratesInternal
  show ((c.sites.mapVal fun _ => site k).map _).filter _ = _
  unfold IMap.mapVal
  rw [List.map_map, List.filter_map, List.filter_map, List.map_map]
  simp only [Function.comp_def, inCluster_units, site, rates, perTime, IMap.mapVal, List.map_map, List.isEmpty_map]

include hk in
theorem fastestOff_units (mem : Addr → K) (c : Cluster K) :
    (cluster k sv c).getFastestRateOffCluster (rates k mem) = c.getFastestRateOffCluster mem / k := by
  unfold Cluster.getFastestRateOffCluster
  rw [ratesOut_units]
  have inner : ∀ (l : IMap K) (t : K), (perTime k l).foldl (fun b nr => if nr.2 > b then nr.2 else b) (t / k) =
      l.foldl (fun b nr => if nr.2 > b then nr.2 else b) t / k := by
    intro l
    induction l with
    | nil => intro t; rfl
    | cons a l ih =>
      intro t
      simp only [List.foldl_cons]
      rw [← ih]
      show List.foldl _ (if a.2 / k > t / k then a.2 / k else t / k) _ = _
      congr 1
      have : a.2 / k > t / k ↔ a.2 > t := by simp only [gt_iff_lt]; exact div_lt_div_iff_of_pos_right hk
      by_cases h : a.2 > t
      · rw [if_pos h, if_pos (this.2 h)]
      · rw [if_neg h, if_neg (fun h' => h (this.1 h'))]
  have outer : ∀ (l : IMap (IMap K)) (t : K), (l.mapVal fun _ => perTime k).foldl
      (fun b ir => ir.2.foldl (fun b nr => if nr.2 > b then nr.2 else b) b) (t / k) =
      l.foldl (fun b ir => ir.2.foldl (fun b nr => if nr.2 > b then nr.2 else b) b) t / k := by
    intro l
    induction l with
    | nil => intro t; rfl
    | cons a l ih =>
      intro t
      simp only [List.foldl_cons]
      rw [← ih, ← inner]
      rfl
  have h := outer (c.ratesToNeighbors mem) 0
  rw [zero_div] at h
  exact h

/-! ## The master equation -/

theorem initProb_units (c : Cluster K) : (cluster k sv c).initProb = cluster k sv c.initProb := by
  unfold Cluster.initProb
  have : (cluster k sv c).sites.foldl (fun m is => m.set is.1 (1 / ((cluster k sv c).sites.length : K)))
      (cluster k sv c).probOn = c.sites.foldl (fun m is => m.set is.1 (1 / (c.sites.length : K))) c.probOn := by
    show (c.sites.mapVal fun _ => site k).foldl (fun m is => m.set is.1 (1 / ((c.sites.mapVal fun _ => site k).length : K)))
      c.probOn = _
    rw [length_mapVal]
    unfold IMap.mapVal
    rw [List.foldl_map]
  rw [this]
  rfl

theorem iterNeigh_units (c : Cluster K) (i : Int) (s : Site K) (t : K) (n : Int) :
    (cluster k sv c).iterNeigh i (site k s) t n = c.iterNeigh i s t n := by
  unfold Cluster.iterNeigh
  have : (cluster k sv c).sites.get? n = (c.sites.get? n).map (site k) := by
    rw [sites_units, get?_mapVal]
  rw [this]
  cases c.sites.get? n <;> rfl

theorem iterSite_units (c : Cluster K) (i : Int) (s : Site K) :
    (cluster k sv c).iterSite i (site k s) = c.iterSite i s := by
  unfold Cluster.iterSite
  have : (cluster k sv c).iterNeigh i (site k s) = c.iterNeigh i s := by
    funext t n; exact iterNeigh_units sv c i s t n
  rw [this]
  rfl

theorem iterTemp_units (c : Cluster K) : (cluster k sv c).iterTemp = c.iterTemp := by
  unfold Cluster.iterTemp
  show (c.sites.mapVal fun _ => site k).mapM _ = _
  unfold IMap.mapVal
  induction c.sites with
  | nil => rfl
  | cons a l ih =>
    rw [List.map_cons, List.mapM_cons, List.mapM_cons, ih, iterSite_units]

theorem iterate_units (c : Cluster K) : (cluster k sv c).iterate = c.iterate.map (cluster k sv) := by
  unfold Cluster.iterate
  rw [iterTemp_units]
  cases c.iterTemp with
  | error e => rfl
  | ok temp =>
    simp only [ok_bind]
    show (if IMap.sumVals temp = 0 then _ else if _ then _ else _) = _
    split
    · rfl
    · show (if IMap.sumVals (temp.map fun it => (it.1, (it.2 * (1 / IMap.sumVals temp) + c.probOn.at0 it.1) * (1 / 2))) = 0
        then _ else _) = _
      split <;> rfl

theorem iterateN_units (n : Nat) : ∀ c : Cluster K,
    Cluster.iterateN n (cluster k sv c) = (Cluster.iterateN n c).map (cluster k sv) := by
  induction n with
  | zero => intro c; rfl
  | succ n ih =>
    intro c
    unfold Cluster.iterateN
    rw [iterate_units]
    cases c.iterate with
    | error e => rfl
    | ok c => exact ih c

theorem toleranceLoop_units (n : Nat) : ∀ c : Cluster K,
    Cluster.toleranceLoop n (cluster k sv c) = (Cluster.toleranceLoop n c).map (cluster k sv) := by
  induction n with
  | zero => intro c; rfl
  | succ n ih =>
    intro c
    unfold Cluster.toleranceLoop
    rw [iterate_units]
    cases c.iterate with
    | error e => rfl
    | ok c' =>
      show (if Cluster.errorSq c c' > c.tol ^ 2 then _ else _) = Except.map _ (if _ then _ else _)
      split
      · exact ih c'
      · rfl

theorem solveProb_units (env : Env K) (c : Cluster K) :
    (cluster k sv c).solveProb env = (c.solveProb env).map (cluster k sv) := by
  unfold Cluster.solveProb
  rw [initProb_units]
  generalize c.initProb = c
  simp only
  show (match c.method with
    | .iterationsPerCluster => Cluster.iterateN c.iterations (cluster k sv c)
    | .iterationsPerSite => Cluster.iterateN (c.iterations * (c.sites.mapVal fun _ => site k).length) (cluster k sv c)
    | .tolerance => if c.tol * (11 / 10) > c.tol then Cluster.toleranceLoop env.fuel (cluster k sv c)
      else .ok (cluster k sv c)) = _
  rw [length_mapVal]
  cases c.method with
  | iterationsPerCluster => exact iterateN_units sv _ c
  | iterationsPerSite => exact iterateN_units sv _ c
  | tolerance =>
    simp only
    split
    · exact toleranceLoop_units sv _ c
    · rfl

include hk in
theorem calcHopToInternal_units (env : Env K) (c : Cluster K) :
    (cluster k sv c).calcHopToInternal env = (c.calcHopToInternal env).map (cluster k sv) := by
  unfold Cluster.calcHopToInternal
  have hv : ((cluster k sv c).probOn.map fun ip => (ip.1, ip.2 * ((cluster k sv c).siteAt ip.1).tau)) =
      times k (c.probOn.map fun ip => (ip.1, ip.2 * (c.siteAt ip.1).tau)) := by
    unfold times IMap.mapVal
    rw [List.map_map]
    apply List.map_congr_left
    intro ip _
    rw [siteAt_units]
    show (ip.1, ip.2 * (k * (c.siteAt ip.1).tau)) = (ip.1, k * (ip.2 * (c.siteAt ip.1).tau))
    rw [mul_left_comm]
  rw [hv]
  generalize (c.probOn.map fun ip => (ip.1, ip.2 * (c.siteAt ip.1).tau)) = vals
  simp only
  rw [sumVals_times]
  have hm : ((times k vals).map fun ip => (ip.1, ip.2 / (k * IMap.sumVals vals))) =
      vals.map fun ip => (ip.1, ip.2 / IMap.sumVals vals) := by
    unfold times IMap.mapVal
    rw [List.map_map]
    apply List.map_congr_left
    intro ip _
    show (ip.1, k * ip.2 / _) = _
    rw [mul_div_mul_left _ _ hk.ne']
  rw [hm]
  have hn : times k vals ≠ [] ↔ vals ≠ [] := by unfold times IMap.mapVal; simp
  by_cases h : vals ≠ [] ∧ IMap.sumVals vals = 0
  · rw [if_pos h, if_pos ⟨hn.2 h.1, by rw [h.2, mul_zero]⟩]; rfl
  · rw [if_neg h, if_neg (fun h' => h ⟨hn.1 h'.1, (mul_eq_zero.1 h'.2).resolve_left hk.ne'⟩)]
    rfl

theorem hopNeighTemp_units (c : Cluster K) : (cluster k sv c).hopNeighTemp = c.hopNeighTemp := by
  unfold Cluster.hopNeighTemp
  have step : ∀ i s, (cluster k sv c).hopNeighStep i (site k s) = c.hopNeighStep i s := by
    intro i s
    funext acc n
    unfold Cluster.hopNeighStep
    rw [inCluster_units]
    rfl
  show (c.sites.mapVal fun _ => site k).foldlM _ [] = _
  unfold IMap.mapVal
  rw [List.foldlM_map]
  congr 1
  funext acc is
  show List.foldlM ((cluster k sv c).hopNeighStep is.1 (site k is.2)) acc is.2.getNeighborSiteIds = _
  rw [step]

theorem calcHopToNeighbors_units (env : Env K) (c : Cluster K) :
    (cluster k sv c).calcHopToNeighbors env = (c.calcHopToNeighbors env).map (cluster k sv) := by
  unfold Cluster.calcHopToNeighbors
  rw [hopNeighTemp_units]
  cases c.hopNeighTemp with
  | error e => rfl
  | ok temp =>
    simp only [ok_bind]
    split <;> rfl

include hk in
theorem calcInternalDwell_units (mem : Addr → K) (c : Cluster K) :
    (cluster k sv c).calcInternalDwell (rates k mem) = (c.calcInternalDwell mem).map (cluster k sv) := by
  unfold Cluster.calcInternalDwell
  rw [ratesIn_units]
  generalize c.ratesInternal mem = r
  simp only
  have hz : (∃ ir ∈ r.mapVal fun _ => perTime k, IMap.sumVals ir.2 = 0) ↔ ∃ ir ∈ r, IMap.sumVals ir.2 = 0 := by
    unfold IMap.mapVal
    simp only [List.mem_map]
    constructor
    · rintro ⟨_, ⟨ir, hm, rfl⟩, h⟩
      refine ⟨ir, hm, ?_⟩
      rw [sumVals_perTime, div_eq_zero_units hk] at h
      exact h
    · rintro ⟨ir, hm, h⟩
      exact ⟨_, ⟨ir, hm, rfl⟩, by rw [sumVals_perTime, h, zero_div]⟩
  by_cases h : ∃ ir ∈ r, IMap.sumVals ir.2 = 0
  · rw [if_pos h, if_pos (hz.2 h)]; rfl
  · rw [if_neg h, if_neg (fun h' => h (hz.1 h'))]
    show Except.ok _ = Except.ok _
    have : ∀ (r : IMap (IMap K)) (m : IMap K), (r.mapVal fun _ => perTime k).foldl
        (fun m ir => m.set ir.1 (1 / IMap.sumVals ir.2)) (times k m) =
        times k (r.foldl (fun m ir => m.set ir.1 (1 / IMap.sumVals ir.2)) m) := by
      intro r
      induction r with
      | nil => intro m; rfl
      | cons a r ih =>
        intro m
        simp only [List.foldl_cons]
        rw [← ih]
        show List.foldl _ ((times k m).set a.1 (1 / IMap.sumVals (perTime k a.2))) _ = _
        congr 1
        rw [sumVals_perTime, one_div_div, ← mul_one_div]
        exact set_mapVal (k * ·) m a.1 _
    have e := this r c.internalDwell
    unfold cluster
    simp only
    rw [e]

include hk in
theorem solveMaster_units (env : Env K) (mem : Addr → K) (c : Cluster K) :
    (cluster k sv c).solveMasterEquation env (rates k mem) = (c.solveMasterEquation env mem).map (cluster k sv) := by
  unfold Cluster.solveMasterEquation
  rw [solveProb_units]
  cases c.solveProb env with
  | error e => rfl
  | ok c =>
    show ((cluster k sv c).calcHopToInternal env >>= _) = Except.map _ (c.calcHopToInternal env >>= _)
    rw [calcHopToInternal_units hk]
    cases c.calcHopToInternal env with
    | error e => rfl
    | ok c =>
      show ((cluster k sv c).calcHopToNeighbors env >>= _) = Except.map _ (c.calcHopToNeighbors env >>= _)
      rw [calcHopToNeighbors_units]
      cases c.calcHopToNeighbors env with
      | error e => rfl
      | ok c => exact calcInternalDwell_units hk sv mem c

/-! ## Time constants -/

theorem calcSumEscape_units (mem : Addr → K) (c : Cluster K) :
    (cluster k sv c).calcSumEscape (rates k mem) = cluster k sv (c.calcSumEscape mem) := by
  unfold Cluster.calcSumEscape
  rw [ratesOut_units]
  have : ((c.ratesToNeighbors mem).mapVal fun _ => perTime k).map (fun ir => (ir.1, IMap.sumVals ir.2)) =
      perTime k ((c.ratesToNeighbors mem).map fun ir => (ir.1, IMap.sumVals ir.2)) := by
    unfold IMap.mapVal
    show _ = IMap.mapVal _ _
    unfold IMap.mapVal
    rw [List.map_map, List.map_map]
    apply List.map_congr_left
    intro ir _
    show (ir.1, IMap.sumVals (perTime k ir.2)) = _
    rw [sumVals_perTime]
    rfl
  rw [this]
  rfl

theorem calcSumInternal_units (mem : Addr → K) (c : Cluster K) :
    (cluster k sv c).calcSumInternal (rates k mem) = cluster k sv (c.calcSumInternal mem) := by
  unfold Cluster.calcSumInternal
  rw [ratesIn_units]
  have : ((c.ratesInternal mem).mapVal fun _ => perTime k).map (fun ir => (ir.1, IMap.sumVals ir.2)) =
      perTime k ((c.ratesInternal mem).map fun ir => (ir.1, IMap.sumVals ir.2)) := by
    unfold IMap.mapVal
    show _ = IMap.mapVal _ _
    unfold IMap.mapVal
    rw [List.map_map, List.map_map]
    apply List.map_congr_left
    intro ir _
    show (ir.1, IMap.sumVals (perTime k ir.2)) = _
    rw [sumVals_perTime]
    rfl
  rw [this]
  rfl

theorem sumRatesOff_units (mem : Addr → K) (c : Cluster K) :
    (cluster k sv c).sumRatesOff (rates k mem) = c.sumRatesOff mem / k := by
  unfold Cluster.sumRatesOff
  rw [ratesOut_units]
  have inner : ∀ (l : IMap K) (t : K), (perTime k l).foldl (fun t nr => t + nr.2) (t / k) =
      l.foldl (fun t nr => t + nr.2) t / k := by
    intro l
    induction l with
    | nil => intro t; rfl
    | cons a l ih =>
      intro t
      have := ih (t + a.2)
      rw [add_div] at this
      exact this
  have outer : ∀ (l : IMap (IMap K)) (t : K), (l.mapVal fun _ => perTime k).foldl
      (fun t ir => ir.2.foldl (fun t nr => t + nr.2) t) (t / k) =
      l.foldl (fun t ir => ir.2.foldl (fun t nr => t + nr.2) t) t / k := by
    intro l
    induction l with
    | nil => intro t; rfl
    | cons a l ih =>
      intro t
      simp only [List.foldl_cons]
      rw [← ih, ← inner]
      rfl
  have h := outer (c.ratesToNeighbors mem) 0
  rw [zero_div] at h
  exact h

include hk in
theorem calcHopOff_units (mem : Addr → K) (c : Cluster K) :
    (cluster k sv c).calcHopOff (rates k mem) = (c.calcHopOff mem).map (cluster k sv) := by
  unfold Cluster.calcHopOff
  rw [sumRatesOff_units]
  have hlen : (cluster k sv c).sites.length = c.sites.length := by
    rw [sites_units, length_mapVal]
  rw [hlen]
  split
  · rfl
  simp only
  have hsum : (cluster k sv c).probOn.foldl (fun t ip => t + ((cluster k sv c).siteAt ip.1).tau) 0 =
      k * c.probOn.foldl (fun t ip => t + (c.siteAt ip.1).tau) 0 := by
    have : ∀ (l : IMap K) (t : K), l.foldl (fun t ip => t + ((cluster k sv c).siteAt ip.1).tau) (k * t) =
        k * l.foldl (fun t ip => t + (c.siteAt ip.1).tau) t := by
      intro l
      induction l with
      | nil => intro t; rfl
      | cons a l ih =>
        intro t
        simp only [List.foldl_cons]
        rw [← ih, mul_add, siteAt_units]
        rfl
    have h := this c.probOn 0
    rw [mul_zero] at h
    exact h
  rw [hsum]
  have hany : ((cluster k sv c).probOn.any fun ip => decide (0 < (cluster k sv c).sumEscape.at0 ip.1)) =
      c.probOn.any fun ip => decide (0 < c.sumEscape.at0 ip.1) := by
    show (c.probOn.any fun ip => decide (0 < (perTime k c.sumEscape).at0 ip.1)) = _
    congr 1
    funext ip
    rw [at0_perTime]
    exact decide_eq_decide.2 (div_pos_units hk _)
  have hraw : c.sumRatesOff mem ≠ 0 → ((cluster k sv c).probOn.map fun ip =>
      (ip.1, ip.2 * (cluster k sv c).sumEscape.at0 ip.1 / (c.sumRatesOff mem / k) * ((cluster k sv c).siteAt ip.1).tau /
        (k * c.probOn.foldl (fun t ip => t + (c.siteAt ip.1).tau) 0))) =
      c.probOn.map fun ip => (ip.1, ip.2 * c.sumEscape.at0 ip.1 / c.sumRatesOff mem * (c.siteAt ip.1).tau /
        c.probOn.foldl (fun t ip => t + (c.siteAt ip.1).tau) 0) := by
    intro h0
    apply List.map_congr_left
    intro ip _
    have e : (cluster k sv c).sumEscape.at0 ip.1 = c.sumEscape.at0 ip.1 / k := at0_perTime k _ _
    have e2 : ((cluster k sv c).siteAt ip.1).tau = k * (c.siteAt ip.1).tau := by rw [siteAt_units]; rfl
    rw [e, e2, mul_div_assoc', div_div_div_cancel_right₀ hk.ne', mul_left_comm, mul_div_mul_left _ _ hk.ne']
  rw [hany]
  by_cases h : c.sumRatesOff mem = 0
  · rw [if_pos h, if_pos ((div_eq_zero_units hk _).2 h)]
    split <;> rfl
  · rw [if_neg h, if_neg (fun h' => h ((div_eq_zero_units hk _).1 h')), hraw h]
    by_cases h2 : c.probOn.foldl (fun t ip => t + (c.siteAt ip.1).tau) 0 = 0
    · rw [if_pos h2, if_pos (by rw [h2, mul_zero])]; rfl
    · rw [if_neg h2, if_neg (mul_ne_zero hk.ne' h2)]
      split <;> rfl

include hk in
theorem calcHopBetween_units (mem : Addr → K) (c : Cluster K) :
    (cluster k sv c).calcHopBetween (rates k mem) = (c.calcHopBetween mem).map (cluster k sv) := by
  unfold Cluster.calcHopBetween
  have hlen : (cluster k sv c).sites.length = c.sites.length := by
    rw [sites_units, length_mapVal]
  rw [hlen]
  split
  · rfl
  simp only
  have hb : (((cluster k sv c).ratesInternal (rates k mem)).map fun ir =>
      (ir.1, IMap.sumVals ir.2 * ((cluster k sv c).siteAt ir.1).tau * (cluster k sv c).probOn.at0 ir.1)) =
      (c.ratesInternal mem).map fun ir => (ir.1, IMap.sumVals ir.2 * (c.siteAt ir.1).tau * c.probOn.at0 ir.1) := by
    rw [ratesIn_units]
    unfold IMap.mapVal
    rw [List.map_map]
    apply List.map_congr_left
    intro ir _
    show (ir.1, IMap.sumVals (perTime k ir.2) * ((cluster k sv c).siteAt ir.1).tau * c.probOn.at0 ir.1) = _
    rw [sumVals_perTime, siteAt_units]
    show (ir.1, IMap.sumVals ir.2 / k * (k * (c.siteAt ir.1).tau) * c.probOn.at0 ir.1) = _
    rw [← mul_assoc (_ / k), div_mul_cancel₀ _ hk.ne']
  rw [hb]
  split <;> rfl

include hk in
theorem tauSum_units (se hop : IMap K) :
    hop.foldl (fun t ip => if (perTime k se).at0 ip.1 > 0 then t + 1 / (perTime k se).at0 ip.1 * ip.2 else t) 0 =
      k * hop.foldl (fun t ip => if se.at0 ip.1 > 0 then t + 1 / se.at0 ip.1 * ip.2 else t) 0 := by
  have : ∀ (l : IMap K) (t : K),
      l.foldl (fun t ip => if (perTime k se).at0 ip.1 > 0 then t + 1 / (perTime k se).at0 ip.1 * ip.2 else t) (k * t) =
      k * l.foldl (fun t ip => if se.at0 ip.1 > 0 then t + 1 / se.at0 ip.1 * ip.2 else t) t := by
    intro l
    induction l with
    | nil => intro t; rfl
    | cons a l ih =>
      intro t
      simp only [List.foldl_cons]
      rw [← ih]
      congr 1
      rw [at0_perTime]
      by_cases h : se.at0 a.1 > 0
      · rw [if_pos h, if_pos ((div_pos_units hk _).2 h), one_div_div, mul_add, ← mul_one_div, mul_assoc]
      · rw [if_neg h, if_neg (fun h' => h ((div_pos_units hk _).1 h'))]
  have h := this hop 0
  rw [mul_zero] at h
  exact h

include hk in
theorem calcEscape_units (mem : Addr → K) (c : Cluster K) :
    (cluster k sv c).calcEscape (rates k mem) = (c.calcEscape mem).map (cluster k sv) := by
  unfold Cluster.calcEscape
  rw [ratesOut_units, length_mapVal]
  show (if c.resolution = 0 then _ else if _ then _ else _) = _
  split
  · rfl
  split
  · rfl
  · have e := tauSum_units hk c.sumEscape c.hopOff
    have e2 : (cluster k sv c).sumEscape = perTime k c.sumEscape := rfl
    have e3 : (cluster k sv c).hopOff = c.hopOff := rfl
    simp only
    rw [e2, e3, e]
    unfold cluster
    simp only [Except.map, Option.map, mul_div_assoc]

include hk in
theorem calcInternalTau_units (mem : Addr → K) (c : Cluster K) :
    (cluster k sv c).calcInternalTau (rates k mem) = cluster k sv (c.calcInternalTau mem) := by
  unfold Cluster.calcInternalTau
  rw [ratesIn_units, length_mapVal]
  split
  · rfl
  · have e := tauSum_units hk c.sumInternal c.hopBetween
    have e2 : (cluster k sv c).sumInternal = perTime k c.sumInternal := rfl
    have e3 : (cluster k sv c).hopBetween = c.hopBetween := rfl
    rw [e2, e3, e]
    rfl

end Mythical.Units
