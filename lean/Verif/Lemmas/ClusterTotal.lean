import Verif.Lemmas.ClusterAfter

/-! # Lemmas about the cluster: when an update succeeds -/

set_option linter.unusedSectionVars false

namespace Mythical.Cluster
open Mythical ClusterSpec
variable {K : Type} [Field K] [LinearOrder K] [IsStrictOrderedRing K] [FloorRing K]
variable {env : Env K} {mem : Addr → K} {c c' : Cluster K} {freqs : IMap Int}

theorem Dist.congr (h : c'.sites = c.sites) (hp : c'.probOn = c.probOn) (hd : Dist c) : Dist c' := by
  refine ⟨⟨by rw [hp]; exact hd.keys.1, fun k => by rw [hp, h]; exact hd.keys.2 k⟩, ?_, ?_⟩
  · rw [ids_congr h, hp]; exact hd.pos
  · rw [ids_congr h, hp]; exact hd.one

theorem _root_.Mythical.ClusterSpec.Linked.congr (h : c'.sites = c.sites) (hl : Linked mem c) : Linked mem c' := by
  unfold Linked; rw [ids_congr h, rate_congr h]; exact hl

theorem _root_.Mythical.ClusterSpec.HasExit.congr (h : c'.sites = c.sites) (hl : HasExit mem c) : HasExit mem c' := by
  unfold HasExit; rw [ids_congr h, rate_congr h]; exact hl

/-- Some two sites are linked. -/
def SomeLink (mem : Addr → K) (c : Cluster K) : Prop := ∃ i ∈ ids c, ∃ j ∈ ids c, 0 < rate mem c i j

theorem SomeLink.congr (h : c'.sites = c.sites) (hl : SomeLink mem c) : SomeLink mem c' := by
  unfold SomeLink; rw [ids_congr h, rate_congr h]; exact hl

theorem _root_.Mythical.ClusterSpec.Linked.some (hl : Linked mem c) (hne : c.sites ≠ []) : SomeLink mem c := by
  obtain ⟨⟨i, s⟩, h⟩ := List.exists_mem_of_ne_nil _ hne
  have hi : i ∈ ids c := List.mem_toFinset.2 (List.mem_map.2 ⟨_, h, rfl⟩)
  obtain ⟨j, hj, hr⟩ := hl i hi
  exact ⟨i, hi, j, hj, hr⟩

theorem stay_pos' (hs : Sound mem c) (hd : Dist c) (hl : SomeLink mem c) : 0 < stay mem c := by
  obtain ⟨i, hi, j, hj, hr⟩ := hl
  rw [stay_eq]
  exact sum_inflow_pos hs hd.pos hi hj hr

theorem stay_pos (hs : Sound mem c) (hd : Dist c) (hl : Linked mem c) : 0 < stay mem c := by
  obtain ⟨i, hi⟩ := hd.ids_nonempty
  obtain ⟨j, hj, hr⟩ := hl i hi
  exact stay_pos' hs hd ⟨i, hi, j, hj, hr⟩

theorem calcHopToInternal_total (hs : Sound mem c) (hd : Dist c) : ∃ c', c.calcHopToInternal env = .ok c' := by
  unfold calcHopToInternal
  simp only
  rw [if_neg]
  · exact ⟨_, rfl⟩
  · rw [internalVals_sum hs hd]
    exact fun h => (sum_time_pos hs hd).ne' h.2

theorem leak_nonneg (hs : Sound mem c) (hd : Dist c) : 0 ≤ leak mem c :=
  Finset.sum_nonneg fun i hi => mul_nonneg (mul_nonneg (hd.pos i hi).le (hs.siteTime_pos hi).le) (hs.exitRate_nonneg i)

theorem exit_of_leak (hs : Sound mem c) (h : leak mem c ≠ 0) : HasExit mem c := by
  obtain ⟨i, hi, hne⟩ := Finset.exists_ne_zero_of_sum_ne_zero h
  have hx : exitRate mem c i ≠ 0 := fun e => hne (by rw [e, mul_zero])
  obtain ⟨j, hj, hr⟩ := (hs.exitRate_pos_iff hi).1 (lt_of_le_of_ne (hs.exitRate_nonneg i) hx.symm)
  exact ⟨i, hi, j, hj, hr⟩

theorem calcHopToNeighbors_total (hs : Sound mem c) (hd : Dist c) :
    ∃ c', c.calcHopToNeighbors env = .ok c' := by
  unfold calcHopToNeighbors
  rw [hopNeighTemp_eq hs, ok_bind]
  simp only
  rw [if_neg]
  · exact ⟨_, rfl⟩
  · obtain ⟨hw, hk, hv⟩ := exitTable hs
    rw [IMap.sumVals_keys hw]
    have : (IMap.keys (addAll [] (c.sites.flatMap fun is => exitTerms mem c is.1 is.2))).toFinset = exits c := by
      ext k; rw [List.mem_toFinset]; exact hk k
    rw [this, Finset.sum_congr rfl fun k hk => hv k (hs.mem_exits.1 hk).1, sum_exitTable]
    rintro ⟨hne, h0⟩
    obtain ⟨⟨k, v⟩, rest, e⟩ := List.exists_cons_of_ne_nil hne
    have hke := (hk k).1 (by rw [e]; exact List.mem_cons_self)
    obtain ⟨hk1, i, hi, hr⟩ := hs.mem_exits.1 hke
    exact (leak_pos hs hd ⟨i, hi, k, hk1, hr⟩).ne' h0

theorem calcInternalDwell_total (hs : Sound mem c) : ∃ c', c.calcInternalDwell mem = .ok c' := by
  unfold calcInternalDwell
  simp only
  rw [if_neg]
  · exact ⟨_, rfl⟩
  · rintro ⟨⟨i, r⟩, hir, hz⟩
    have h := sumInternal_at0 (i := i) hs
    rw [IMap.get?_map, IMap.get?_of_mem (wf_ratesInternal hs.wf) hir] at h
    simp only [Option.map_some] at h hz
    split at h
    · next hi =>
      rw [hz] at h
      exact hi.2 (Option.some.inj h).symm
    · cases h

theorem calcHopOff_total (hs : Sound mem c) (hd : Dist c) (h1 : 1 < c.sites.length)
    (hse : ∀ i ∈ ids c, IMap.at0 c.sumEscape i = exitRate mem c i) : ∃ c', c.calcHopOff mem = .ok c' := by
  have hst : c.probOn.foldl (fun t ip => t + (c.siteAt ip.1).tau) 0 ≠ 0 := by
    rw [IMap.foldl_add_start (fun ip : Int × K => (c.siteAt ip.1).tau), zero_add,
      IMap.sum_map_keys hd.keys.1 (fun i _ => (c.siteAt i).tau) (fun i => (c.siteAt i).tau) (fun _ _ _ => rfl),
      hd.keys.toFinset]
    refine (Finset.sum_pos (fun i hi => ?_) hd.ids_nonempty).ne'
    rw [hs.siteAt_tau hi]; exact hs.siteTime_pos hi
  unfold calcHopOff
  rw [if_neg (by omega)]
  simp only
  by_cases hx : HasExit mem c
  · have hoff := (sumRatesOff_pos hs hx).ne'
    rw [if_neg hoff, if_neg hst, raw_sum hs hd hse, if_neg]
    · exact ⟨_, rfl⟩
    · exact div_ne_zero (leak_pos hs hd hx).ne' (mul_ne_zero hoff hst)
  · have hz : ∀ i ∈ ids c, exitRate mem c i = 0 := by
      intro i hi
      by_contra hn
      obtain ⟨j, hj, hr⟩ := (hs.exitRate_pos_iff hi).1 (lt_of_le_of_ne (hs.exitRate_nonneg i) (Ne.symm hn))
      exact hx ⟨i, hi, j, hj, hr⟩
    rw [if_pos (by rw [sumRatesOff_eq hs]; exact Finset.sum_eq_zero hz), if_neg]
    · exact ⟨_, rfl⟩
    · rw [List.any_eq_true]
      rintro ⟨⟨i, p⟩, hip, hp⟩
      have hi : i ∈ ids c := List.mem_toFinset.2 ((hd.keys.2 i).1 (IMap.mem_keys_of_mem hip))
      rw [decide_eq_true_eq, hse i hi, hz i hi] at hp
      exact lt_irrefl _ hp

theorem calcHopBetween_total (hs : Sound mem c) (hd : Dist c) (hl : SomeLink mem c) (h1 : 1 < c.sites.length) :
    ∃ c', c.calcHopBetween mem = .ok c' := by
  unfold calcHopBetween
  rw [if_neg (by omega)]
  simp only
  rw [if_neg]
  · exact ⟨_, rfl⟩
  · rw [hopBetween_sum hs]
    exact fun h => (stay_pos' hs hd hl).ne' h.2

theorem calcEscape_total (hs : Sound mem c) (hr : c.resolution ≠ 0) :
    ∃ c', c.calcEscape mem = .ok c' ∧ (HasExit mem c → c'.tau.isSome) := by
  unfold calcEscape
  rw [if_neg hr]
  split
  · next h => exact ⟨_, rfl, fun hx => absurd (List.length_eq_zero_iff.1 h) (ratesToNeighbors_ne_nil hs hx)⟩
  · exact ⟨_, rfl, fun _ => rfl⟩

theorem restoreVisits_nil (c : Cluster K) (l : List Int) : ∃ c', restoreVisits [] c l = .ok c' := by
  induction l generalizing c with
  | nil => exact ⟨c, rfl⟩
  | cons id l ih => exact ih { c with siteVisits := c.siteVisits.set id 0 }

theorem restoreVisits_total (ht : c.tau.isSome) (l : List Int) : ∃ c', restoreVisits freqs c l = .ok c' := by
  induction l generalizing c with
  | nil => exact ⟨c, rfl⟩
  | cons id l ih =>
    unfold restoreVisits
    simp only
    cases hf : freqs.get? id with
    | none =>
      simp only
      obtain ⟨c', h⟩ := ih (c := { c with siteVisits := c.siteVisits.set id 0 }) ht
      exact ⟨c', h⟩
    | some n =>
      simp only
      have hk : ({ c with siteVisits := c.siteVisits.set id 0 } : Cluster K).siteVisits.has id = true := by
        rw [IMap.has_iff, IMap.mem_keys_set]; exact Or.inl rfl
      have hset : ({ c with siteVisits := c.siteVisits.set id 0 } : Cluster K).setVisitFrequency n id =
          .ok { c with siteVisits := (c.siteVisits.set id 0).set id (n : K) } := by
        unfold setVisitFrequency
        rw [if_pos (by rw [hk]; exact ht)]
      rw [hset, ok_bind]
      exact ih ht

/-- With the occupation probabilities computed, the rest of an update succeeds, if the cluster has an exit or there are
no visits to be restored. -/
theorem rebuild_any (hs : Sound mem c) (hm : Mutual mem c) (hl : SomeLink mem c) (hx : HasExit mem c ∨ freqs = []) (hp : ProbSub c)
    (h1 : 1 < c.sites.length) (hr : c.resolution ≠ 0) {d : Cluster K} (hd : c.solveProb env = .ok d) :
    ∃ c', rebuild env mem freqs c = .ok c' := by
  have hne : c.sites ≠ [] := fun h => by rw [h] at h1; simp at h1
  have hdist := solveProb_dist hs hm hp hne hd
  have e1 := solveProb_shape hd
  have s1 : d.sites = c.sites := by rw [e1]
  have r1 : d.resolution = c.resolution := by rw [e1]
  clear e1
  unfold rebuild solveMasterEquation
  rw [hd, ok_bind]
  obtain ⟨c2, h2⟩ := calcHopToInternal_total (env := env) (hs.congr s1) hdist
  obtain ⟨e2, -, -⟩ := calcHopToInternal_ok h2
  have s2 : c2.sites = c.sites := by rw [e2]; exact s1
  have p2 : c2.probOn = d.probOn := by rw [e2]
  have r2 : c2.resolution = c.resolution := by rw [e2]; exact r1
  clear e2
  rw [h2, ok_bind]
  obtain ⟨c3, h3⟩ := calcHopToNeighbors_total (env := env) (hs.congr s2) (hdist.congr (s2.trans s1.symm) p2)
  obtain ⟨e3, -⟩ := calcHopToNeighbors_ok h3
  have s3 : c3.sites = c.sites := by rw [e3]; exact s2
  have p3 : c3.probOn = d.probOn := by rw [e3]; exact p2
  have r3 : c3.resolution = c.resolution := by rw [e3]; exact r2
  clear e3
  rw [h3, ok_bind]
  obtain ⟨c4, h4⟩ := calcInternalDwell_total (hs.congr s3)
  obtain ⟨e4, -, -⟩ := calcInternalDwell_ok h4
  have s4 : c4.sites = c.sites := by rw [e4]; exact s3
  have p4 : c4.probOn = d.probOn := by rw [e4]; exact p3
  have r4 : c4.resolution = c.resolution := by rw [e4]; exact r3
  clear e4
  rw [h4, ok_bind]
  have s5 : (calcSumInternal mem (calcSumEscape mem c4)).sites = c.sites := s4
  have p5 : (calcSumInternal mem (calcSumEscape mem c4)).probOn = d.probOn := p4
  have r5 : (calcSumInternal mem (calcSumEscape mem c4)).resolution = c.resolution := r4
  have hse : ∀ i ∈ ids (calcSumInternal mem (calcSumEscape mem c4)),
      IMap.at0 (calcSumInternal mem (calcSumEscape mem c4)).sumEscape i =
        exitRate mem (calcSumInternal mem (calcSumEscape mem c4)) i := by
    intro i hi
    show IMap.at0 ((c4.ratesToNeighbors mem).map fun ir => (ir.1, IMap.sumVals ir.2)) i = exitRate mem c4 i
    unfold IMap.at0
    rw [Cluster.sumEscape_at0 (hs.congr s4)]
    by_cases hz : exitRate mem c4 i = 0
    · rw [if_neg (fun hh => hh.2 hz), hz]; rfl
    · rw [if_pos ⟨hi, hz⟩]; rfl
  simp only
  generalize calcSumInternal mem (calcSumEscape mem c4) = d4 at s5 p5 r5 hse ⊢
  obtain ⟨c5, h5⟩ := calcHopOff_total (hs.congr s5) (hdist.congr (s5.trans s1.symm) p5)
    (by rw [s5]; exact h1) hse
  obtain ⟨e5, -⟩ := calcHopOff_ok h5
  have s6 : c5.sites = c.sites := by rw [e5]; exact s5
  have p6 : c5.probOn = d.probOn := by rw [e5]; exact p5
  have r6 : c5.resolution = c.resolution := by rw [e5]; exact r5
  clear e5
  rw [h5, ok_bind]
  obtain ⟨c6, h6⟩ := calcHopBetween_total (hs.congr s6) (hdist.congr (s6.trans s1.symm) p6) (hl.congr s6)
    (by rw [s6]; exact h1)
  obtain ⟨e6, -⟩ := calcHopBetween_ok h6
  have s7 : c6.sites = c.sites := by rw [e6]; exact s6
  have r7 : c6.resolution = c.resolution := by rw [e6]; exact r6
  clear e6
  rw [h6, ok_bind]
  obtain ⟨c7, h7, t7⟩ := calcEscape_total (hs.congr s7) (by rw [r7]; exact hr)
  obtain ⟨e7, -⟩ := calcEscape_ok h7
  have s8 : c7.sites = c.sites := by rw [e7]; exact s7
  clear e7
  rw [h7, ok_bind]
  have e78 := calcInternalTau_shape (mem := mem) (c := c7)
  have s9 : (calcInternalTau mem c7).sites = c.sites := by rw [e78]; exact s8
  have t9 : HasExit mem c → (calcInternalTau mem c7).tau.isSome := by rw [e78]; exact fun hx => t7 (hx.congr s7)
  clear e78
  generalize calcInternalTau mem c7 = d7 at s9 t9 ⊢
  obtain ⟨c8, h8⟩ : ∃ c8, restoreVisits freqs { d7 with siteVisits := [] } d7.sites.keys = .ok c8 := by
    rcases hx with hx | hx
    · exact restoreVisits_total (freqs := freqs) (c := { d7 with siteVisits := [] }) (t9 hx) d7.sites.keys
    · rw [hx]; exact restoreVisits_nil _ _
  obtain ⟨e8, -⟩ := restoreVisits_ok h8
  have s10 : c8.sites = c.sites := by rw [e8]; exact s9
  rw [h8, ok_bind]
  exact calcInternalDwell_total (hs.congr s10)

/-- With the occupation probabilities computed, the rest of an update of a cluster with an exit succeeds. -/
theorem rebuild_total' (hs : Sound mem c) (hm : Mutual mem c) (hl : SomeLink mem c) (hx : HasExit mem c) (hp : ProbSub c)
    (h1 : 1 < c.sites.length) (hr : c.resolution ≠ 0) {d : Cluster K} (hd : c.solveProb env = .ok d) :
    ∃ c', rebuild env mem freqs c = .ok c' :=
  rebuild_any hs hm hl (Or.inl hx) hp h1 hr hd

theorem rebuild_total (hs : Sound mem c) (hm : Mutual mem c) (hl : Linked mem c) (hx : HasExit mem c) (hp : ProbSub c)
    (h1 : 1 < c.sites.length) (hr : c.resolution ≠ 0) {d : Cluster K} (hd : c.solveProb env = .ok d) :
    ∃ c', rebuild env mem freqs c = .ok c' :=
  rebuild_total' hs hm (hl.some fun h => by rw [h] at h1; simp at h1) hx hp h1 hr hd

theorem solveProb_total' (hs : Sound mem c) (hm : Mutual mem c) (hl : SomeLink mem c) (hp : ProbSub c)
    (hne : c.sites ≠ []) :
    (∃ d, c.solveProb env = .ok d) ∨
    (c.method = .tolerance ∧ 0 < c.tol ∧ toleranceLoop env.fuel c.initProb = .error .outOfFuel ∧
      c.solveProb env = .error .outOfFuel) := by
  have hd := initProb_dist hs.wf hp hne
  have hs' : Sound mem c.initProb := Sound.congr (c := c) rfl hs
  have hm' : Mutual mem c.initProb := Mutual.congr (c := c) rfl hm
  obtain ⟨i, hi, j, hj, hr⟩ := hl
  unfold solveProb
  simp only
  split
  · exact Or.inl (iterateN_total hs' hm' hd hi hj hr)
  · exact Or.inl (iterateN_total hs' hm' hd hi hj hr)
  · next hmeth =>
    split
    · next ht =>
      rcases toleranceLoop_total (n := env.fuel) hs' hm' hd hi hj hr with h | h
      · exact Or.inl h
      · refine Or.inr ⟨hmeth, ?_, h, h⟩
        have ht : c.tol < c.tol * (11 / 10) := ht
        by_contra hn
        push Not at hn
        linarith
    · exact Or.inl ⟨_, rfl⟩

theorem solveProb_total (hs : Sound mem c) (hm : Mutual mem c) (hl : Linked mem c) (hp : ProbSub c)
    (hne : c.sites ≠ []) :
    (∃ d, c.solveProb env = .ok d) ∨
    (c.method = .tolerance ∧ 0 < c.tol ∧ toleranceLoop env.fuel c.initProb = .error .outOfFuel ∧
      c.solveProb env = .error .outOfFuel) :=
  solveProb_total' hs hm (hl.some hne) hp hne

end Mythical.Cluster
