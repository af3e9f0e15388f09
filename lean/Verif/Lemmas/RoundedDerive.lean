import Verif.Lemmas.RoundedCluster
import Verif.Lemmas.Except

/-! # The functions of a cluster with and without rounding, one after the other -/

set_option linter.unusedSectionVars false
set_option linter.unusedVariables false

namespace Mythical.Rounded
open Mythical RoundSpec
variable {K : Type} [Field K] [LinearOrder K] [IsStrictOrderedRing K] [FloorRing K]
variable {fl : K → K} {ε : K} {mem : Addr → K} {c c' c1 : Cluster K} {env : Env K}

/-- The part of a cluster that is input of the computation. -/
structure Lock (c c' : Cluster K) : Prop where
  sites : c'.sites = c.sites
  on : c'.probOn = c.probOn
  res : c'.resolution = c.resolution

theorem Lock.toNeighbors (h : Lock c c') : c'.ratesToNeighbors mem = c.ratesToNeighbors mem := by
  unfold Cluster.ratesToNeighbors Cluster.siteIsInCluster; rw [h.sites]

theorem Lock.internal (h : Lock c c') : c'.ratesInternal mem = c.ratesInternal mem := by
  unfold Cluster.ratesInternal Cluster.siteIsInCluster; rw [h.sites]

theorem Lock.siteAt (h : Lock c c') (i : Int) : c'.siteAt i = c.siteAt i := by
  unfold Cluster.siteAt; rw [h.sites]

theorem Lock.off (h : Lock c c') : sumRatesOff fl mem c' = sumRatesOff fl mem c := by
  unfold sumRatesOff; rw [h.toNeighbors]

theorem Lock.nonneg (h : Lock c c') (hc : Nonneg mem c) : Nonneg mem c' :=
  ⟨by rw [h.sites]; exact hc.rate, by rw [h.sites]; exact hc.tau, by rw [h.sites]; exact hc.prob, by rw [h.on]; exact hc.on,
    by rw [h.res]; exact hc.res, by rw [h.on]; exact hc.onWF⟩

theorem Lock.links (h : Lock c c') : links c' = links c := by unfold RoundSpec.links; rw [h.sites]

theorem Lock.trans {c'' : Cluster K} (h : Lock c c') (g : Lock c' c'') : Lock c c'' :=
  ⟨g.sites.trans h.sites, g.on.trans h.on, g.res.trans h.res⟩

theorem rates_wf (P : Int → Bool) (hw : c.sites.WF) : IMap.WF ((c.sites.map fun is =>
    (is.1, ((is.2.neigh.filter fun na => P na.1).map fun na => (na.1, mem na.2) : IMap K))).filter
      fun ir => !ir.2.isEmpty) := by
  unfold IMap.WF
  refine List.Nodup.sublist (List.Sublist.map _ List.filter_sublist) ?_
  rw [List.map_map]
  exact hw

theorem sum_map_mul (l : List (Int × K)) (z : K) : (l.map fun ip => ip.2 * z).sum = (l.map Prod.snd).sum * z := by
  induction l with
  | nil => simp
  | cons x l ih => simp only [List.map_cons, List.sum_cons]; rw [ih, add_mul]

theorem sumVals_noRound (a : IMap K) : sumVals noRound a = (a.map Prod.snd).sum := by
  rw [sumVals_total, total_noRound, zero_add]

section
variable (h0 : 0 ≤ ε) (h1 : ε < 1) (R : Rounding fl ε) (hc : Nonneg mem c) (hl : Lock c c')
include h0 h1 R hc hl

/-! ## The table of the sites inside -/

/-- The weights of the sites inside. -/
theorem internal_vals : MRel ε 1 (c.probOn.map fun ip => (ip.1, noRound (ip.2 * (c.siteAt ip.1).tau)))
    (c'.probOn.map fun ip => (ip.1, fl (ip.2 * (c'.siteAt ip.1).tau))) := by
  rw [hl.on]
  refine mrel_map fun ip hip => ?_
  rw [hl.siteAt]
  exact Rel.round h0 h1.le R (mul_nonneg (hc.on ip hip) (Nonneg_siteAt hc _))

theorem step_internal (h : calcHopToInternal noRound env c = .ok c1) :
    Lock c c1 ∧ c1.cumInternal = c.cumInternal ++ cumulate noRound 0 c1.probInternal ∧
    ∃ c1', calcHopToInternal fl env c' = .ok c1' ∧ Lock c1 c1' ∧
      c1'.cumInternal = c'.cumInternal ++ cumulate fl 0 c1'.probInternal ∧
      ∃ a b, MRel ε (c.probOn.length + 3) a b ∧ c1.probInternal.Perm a ∧ c1'.probInternal.Perm b ∧ a.keys = c.probOn.keys ∧
        (a ≠ [] → (a.map Prod.snd).sum = 1) ∧ c1.cumNeigh = c.cumNeigh ∧ c1'.cumNeigh = c'.cumNeigh := by
  unfold calcHopToInternal at h ⊢
  simp only at h ⊢
  have hv := internal_vals h0 h1 R hc hl
  have hs := hv.sumVals h0 h1 R
  generalize hA : (c.probOn.map fun ip => (ip.1, noRound (ip.2 * (c.siteAt ip.1).tau))) = A at *
  generalize hB : (c'.probOn.map fun ip => (ip.1, fl (ip.2 * (c'.siteAt ip.1).tau))) = B at *
  have hlen : A.length = c.probOn.length := by rw [← hA, List.length_map]
  have hk : IMap.keys A = c.probOn.keys := by rw [← hA]; simp [IMap.keys]
  split at h
  · cases h
  · next hn =>
    have hn' : ¬ (B ≠ [] ∧ sumVals fl B = 0) := by
      rintro ⟨q1, q2⟩
      refine hn ⟨?_, (hs.zero_iff h1).2 q2⟩
      rintro rfl
      cases hv
      exact q1 rfl
    rw [if_neg hn']
    cases h
    refine ⟨⟨rfl, rfl, rfl⟩, rfl, _, rfl, ⟨hl.sites, hl.on, hl.res⟩, rfl, ?_⟩
    refine ⟨_, _, ?_, env.sort.perm _, env.sort.perm _, ?_, ?_, rfl, rfl⟩
    · by_cases hne : A = []
      · subst hne; cases hv; exact .nil
      · have := mrel_normalise h0 h1 R hv fun e => hn ⟨hne, e⟩
        refine this.mono h0 h1 ?_
        omega
    · rw [← hk]; simp [IMap.keys]
    · intro hne
      have hne : A ≠ [] := by simpa using hne
      have hz : sumVals noRound A ≠ 0 := fun e => hn ⟨hne, e⟩
      rw [List.map_map]
      show (A.map fun ip => ip.2 / sumVals noRound A).sum = 1
      simp only [div_eq_mul_inv]
      rw [sum_map_mul, ← sumVals_noRound]
      exact mul_inv_cancel₀ hz

/-! ## The table of the exits -/

theorem neigh_step {i : Int} {s : Site K} (hs : (i, s) ∈ c.sites) {acc acc' : IMap K} {m : Nat} (hm : 1 ≤ m)
    (ha : MRel ε m acc acc') {n : Int} {r : IMap K} (h : hopNeighStep noRound c i s acc n = .ok r) :
    ∃ r', hopNeighStep fl c' i s acc' n = .ok r' ∧ MRel ε (m + 1) r r' := by
  unfold hopNeighStep at h ⊢
  have hin : c'.siteIsInCluster n = c.siteIsInCluster n := by unfold Cluster.siteIsInCluster; rw [hl.sites]
  rw [hin]
  split at h
  · next q =>
    cases h
    rw [if_pos q]
    exact ⟨acc', rfl, ha.mono h0 h1 (Nat.le_succ _)⟩
  · next q =>
    rw [if_neg q]
    rw [bind_eq_ok] at h
    obtain ⟨p, hp, h⟩ := h
    rw [hp, ok_bind, hl.on]
    have hp0 : 0 ≤ p := by
      unfold Site.probabilityTo at hp
      split at hp
      · split at hp
        · next x hf => cases hp; exact hc.prob _ hs _ (IMap.mem_of_get? hf)
        · cases hp
      · cases hp
    have hw : Rel ε 1 (p * c.probOn.at0 i) (fl (p * c.probOn.at0 i)) :=
      Rel.round h0 h1.le R (mul_nonneg hp0 (Nonneg_at0 hc i))
    have hhas : acc'.has n = acc.has n := by
      rw [Bool.eq_iff_iff, IMap.has_iff, IMap.has_iff, ha.keys h0 h1]
    rw [hhas]
    split at h
    · next g =>
      rw [if_pos g]
      cases h
      refine ⟨_, rfl, (ha.mono h0 h1 (Nat.le_succ _)).set h0 h1 ?_ _⟩
      exact ((ha.at0 h0 h1 n).add h0 h1.le (hw.mono h0 h1.le hm)).rnd h0 h1 R
    · next g =>
      rw [if_neg g]
      cases h
      exact ⟨_, rfl, (ha.mono h0 h1 (Nat.le_succ _)).set h0 h1 (hw.mono h0 h1.le (by omega)) _⟩

theorem neigh_site {i : Int} {s : Site K} (hs : (i, s) ∈ c.sites) (ids : List Int) : ∀ {acc acc' : IMap K} {m : Nat}, 1 ≤ m →
    MRel ε m acc acc' → ∀ {r : IMap K}, ids.foldlM (hopNeighStep noRound c i s) acc = .ok r →
    ∃ r', ids.foldlM (hopNeighStep fl c' i s) acc' = .ok r' ∧ MRel ε (m + ids.length) r r' := by
  induction ids with
  | nil => intro acc acc' m _ ha r h; cases h; exact ⟨acc', rfl, ha⟩
  | cons n ids ih =>
    intro acc acc' m hm ha r h
    rw [List.foldlM_cons, bind_eq_ok] at h
    obtain ⟨b, hb, h⟩ := h
    obtain ⟨b', hb', hbb⟩ := neigh_step h0 h1 R hc hl hs hm ha hb
    obtain ⟨r', hr', hrr⟩ := ih (by omega) hbb h
    refine ⟨r', by rw [List.foldlM_cons, hb', ok_bind]; exact hr', ?_⟩
    rw [List.length_cons, ← add_assoc, add_right_comm]
    exact hrr

theorem neigh_temp {r : IMap K} (h : hopNeighTemp noRound c = .ok r) :
    ∃ r', hopNeighTemp fl c' = .ok r' ∧ MRel ε (links c + 1) r r' := by
  unfold hopNeighTemp at h ⊢
  rw [hl.sites]
  have key : ∀ (l : List (Int × Site K)), (∀ is ∈ l, is ∈ c.sites) → ∀ {acc acc' : IMap K} {m : Nat}, 1 ≤ m →
      MRel ε m acc acc' → ∀ {r : IMap K},
      l.foldlM (fun acc is => is.2.getNeighborSiteIds.foldlM (hopNeighStep noRound c is.1 is.2) acc) acc = .ok r →
      ∃ r', l.foldlM (fun acc is => is.2.getNeighborSiteIds.foldlM (hopNeighStep fl c' is.1 is.2) acc) acc' = .ok r' ∧
        MRel ε (m + (l.map fun is => is.2.neigh.length).sum) r r' := by
    intro l
    induction l with
    | nil => intro _ acc acc' m _ ha r h; cases h; exact ⟨acc', rfl, ha⟩
    | cons x l ih =>
      intro hl' acc acc' m hm ha r h
      rw [List.foldlM_cons, bind_eq_ok] at h
      obtain ⟨b, hb, h⟩ := h
      obtain ⟨b', hb', hbb⟩ := neigh_site h0 h1 R hc hl (hl' x (List.mem_cons_self ..)) _ hm ha hb
      obtain ⟨r', hr', hrr⟩ := ih (fun is his => hl' is (List.mem_cons_of_mem _ his)) (by omega) hbb h
      refine ⟨r', by rw [List.foldlM_cons, hb', ok_bind]; exact hr', ?_⟩
      have : x.2.getNeighborSiteIds.length = x.2.neigh.length := by
        unfold Site.getNeighborSiteIds IMap.keys; rw [List.length_map]
      rw [List.map_cons, List.sum_cons, ← add_assoc, ← this]
      exact hrr
  obtain ⟨r', hr', hrr⟩ := key c.sites (fun _ h => h) (le_refl 1) (.nil : MRel ε 1 [] []) h
  refine ⟨r', hr', ?_⟩
  rw [add_comm]
  exact hrr

theorem step_neigh (h : calcHopToNeighbors noRound env c = .ok c1) :
    Lock c c1 ∧ c1.cumNeigh = c.cumNeigh ++ cumulate noRound 0 c1.probNeigh ∧
    ∃ c1', calcHopToNeighbors fl env c' = .ok c1' ∧ Lock c1 c1' ∧
      c1'.cumNeigh = c'.cumNeigh ++ cumulate fl 0 c1'.probNeigh ∧
      ∃ a b, MRel ε (2 * (links c + 1) + a.length + 2) a b ∧ c1.probNeigh.Perm a ∧ c1'.probNeigh.Perm b ∧
        (a ≠ [] → (a.map Prod.snd).sum = 1) ∧
        c1.probInternal = c.probInternal ∧ c1.cumInternal = c.cumInternal ∧
        c1'.probInternal = c'.probInternal ∧ c1'.cumInternal = c'.cumInternal := by
  unfold calcHopToNeighbors at h ⊢
  rw [bind_eq_ok] at h
  obtain ⟨A, hA, h⟩ := h
  obtain ⟨B, hB, hv⟩ := neigh_temp h0 h1 R hc hl hA
  rw [hB, ok_bind]
  have hs := hv.sumVals h0 h1 R
  simp only at h ⊢
  split at h
  · cases h
  · next hn =>
    have hn' : ¬ (B ≠ [] ∧ sumVals fl B = 0) := by
      rintro ⟨q1, q2⟩
      refine hn ⟨?_, (hs.zero_iff h1).2 q2⟩
      rintro rfl
      cases hv
      exact q1 rfl
    rw [if_neg hn']
    cases h
    refine ⟨⟨rfl, rfl, rfl⟩, rfl, _, rfl, ⟨hl.sites, hl.on, hl.res⟩, rfl, ?_⟩
    refine ⟨_, _, ?_, env.sort.perm _, env.sort.perm _, ?_, rfl, rfl, rfl, rfl⟩
    · by_cases hne : A = []
      · subst hne; cases hv; exact .nil
      · rw [List.length_map]
        exact mrel_normalise_mul h0 h1 R hv fun e => hn ⟨hne, e⟩
    · intro hne
      have hne : A ≠ [] := by simpa using hne
      have hz : sumVals noRound A ≠ 0 := fun e => hn ⟨hne, e⟩
      rw [List.map_map]
      show (A.map fun ip => ip.2 * (1 / sumVals noRound A)).sum = 1
      rw [sum_map_mul, ← sumVals_noRound]
      exact mul_one_div_cancel hz

/-! ## Time constants -/

theorem step_dwell (h : calcInternalDwell noRound mem c = .ok c1) : ∃ c1', calcInternalDwell fl mem c' = .ok c1' ∧
    c1 = { c with internalDwell := c1.internalDwell } ∧ c1' = { c' with internalDwell := c1'.internalDwell } := by
  unfold calcInternalDwell at h ⊢
  simp only at h ⊢
  split at h
  · cases h
  · next hn =>
    cases h
    rw [hl.internal, if_neg]
    · exact ⟨_, rfl, rfl, rfl⟩
    · rintro ⟨ir, hir, hz⟩
      exact hn ⟨ir, hir, ((rel_of_rates h0 h1 R (ratesInternal_facts hc hir).1 (ratesInternal_facts hc hir).2).zero_iff h1).2 hz⟩

theorem step_escape : MRel ε (links c) (calcSumEscape noRound mem c).sumEscape (calcSumEscape fl mem c').sumEscape := by
  unfold calcSumEscape
  simp only [hl.toNeighbors]
  exact mrel_map fun ir hir => rel_sumFirst h0 h1 R (ratesToNeighbors_facts hc hir).1 (ratesToNeighbors_facts hc hir).2

theorem step_sumInternal :
    MRel ε (links c + 1) (calcSumInternal noRound mem c).sumInternal (calcSumInternal fl mem c').sumInternal := by
  unfold calcSumInternal
  simp only [hl.internal]
  refine mrel_map fun ir hir => ?_
  have := rel_of_rates h0 h1 R (ratesInternal_facts hc hir).1 (ratesInternal_facts hc hir).2
  simp only [zero_add]
  exact this.rnd h0 h1 R

theorem step_hopOff (he : MRel ε (links c) c.sumEscape c'.sumEscape) (h : calcHopOff noRound mem c = .ok c1) :
    ∃ c1', calcHopOff fl mem c' = .ok c1' ∧ c1 = { c with hopOff := c1.hopOff } ∧ c1' = { c' with hopOff := c1'.hopOff } ∧
      MRel ε (4 * links c + 3 * c.probOn.length + 9) c1.hopOff c1'.hopOff ∧ c1.hopOff.length ≤ c.probOn.length := by
  unfold calcHopOff at h ⊢
  rw [hl.sites]
  split at h
  · cases h
  · next hlen =>
    rw [if_neg hlen]
    simp only at h ⊢
    have hoff := rel_sumRatesOff h0 h1 R hc
    have hst := rel_foldl_tau h0 h1 R c.probOn (Nonneg_siteAt hc)
    rw [hl.off, hl.on]
    simp only [hl.siteAt]
    split at h
    · next hz =>
      rw [if_pos ((hoff.zero_iff h1).1 hz)]
      have hany : (c.probOn.any fun ip => decide (0 < c'.sumEscape.at0 ip.1)) =
          c.probOn.any fun ip => decide (0 < c.sumEscape.at0 ip.1) := by
        congr 1
        funext ip
        rw [decide_eq_decide]
        exact ((he.at0 h0 h1 ip.1).pos_iff h1).symm
      rw [hany]
      split at h
      · cases h
      · next hq =>
        rw [if_neg hq]
        cases h
        exact ⟨_, rfl, rfl, rfl, .nil, Nat.zero_le _⟩
    · next hz =>
      rw [if_neg (fun q => hz ((hoff.zero_iff h1).2 q))]
      split at h
      · cases h
      · next hz2 =>
        rw [if_neg (fun q => hz2 ((hst.zero_iff h1).2 q))]
        have hoffp : 0 < sumRatesOff noRound mem c := lt_of_le_of_ne hoff.left (Ne.symm hz)
        have hstp := lt_of_le_of_ne hst.left (Ne.symm hz2)
        have hraw : MRel ε (2 * links c + c.probOn.length + 4)
            (c.probOn.map fun ip => (ip.1, noRound (noRound (noRound (noRound (ip.2 * c.sumEscape.at0 ip.1) / sumRatesOff noRound mem c) *
              (c.siteAt ip.1).tau) / c.probOn.foldl (fun t ip => noRound (t + (c.siteAt ip.1).tau)) 0)))
            (c.probOn.map fun ip => (ip.1, fl (fl (fl (fl (ip.2 * c'.sumEscape.at0 ip.1) / sumRatesOff fl mem c) *
              (c.siteAt ip.1).tau) / c.probOn.foldl (fun t ip => fl (t + (c.siteAt ip.1).tau)) 0))) := by
          refine mrel_map fun ip hip => ?_
          have r1 := ((Rel.refl h0 h1.le (hc.on ip hip)).mul h0 h1.le (he.at0 h0 h1 ip.1)).rnd h0 h1 R
          have r2 := (r1.div h0 h1 hoff hoffp).rnd h0 h1 R
          have r3 := (r2.mul h0 h1.le (Rel.refl h0 h1.le (Nonneg_siteAt hc ip.1))).rnd h0 h1 R
          exact ((r3.div h0 h1 hst hstp).rnd h0 h1 R).mono h0 h1.le (by omega)
        generalize (c.probOn.map fun ip => (ip.1, noRound (noRound (noRound (noRound (ip.2 * c.sumEscape.at0 ip.1) /
          sumRatesOff noRound mem c) * (c.siteAt ip.1).tau) / c.probOn.foldl (fun t ip => noRound (t + (c.siteAt ip.1).tau)) 0))) = A
          at h hraw ⊢
        generalize hB : (c.probOn.map fun ip => (ip.1, fl (fl (fl (fl (ip.2 * c'.sumEscape.at0 ip.1) / sumRatesOff fl mem c) *
              (c.siteAt ip.1).tau) / c.probOn.foldl (fun t ip => fl (t + (c.siteAt ip.1).tau)) 0))) = B at hraw ⊢
        have hlenA : A.length = c.probOn.length := by rw [hraw.length_eq, ← hB, List.length_map]
        have ht := hraw.sumVals h0 h1 R
        split at h
        · cases h
        · next hz3 =>
          rw [if_neg (fun q => hz3 ((ht.zero_iff h1).2 q))]
          cases h
          refine ⟨_, rfl, rfl, rfl, (mrel_normalise h0 h1 R hraw hz3).mono h0 h1 (by omega), ?_⟩
          rw [List.length_map, hlenA]

theorem step_between (hw : c.sites.WF) {m : Nat} (ho : MRel ε m c.hopOff c'.hopOff) (h : calcHopBetween noRound mem c = .ok c1) :
    ∃ c1', calcHopBetween fl mem c' = .ok c1' ∧ c1 = { c with hopBetween := c1.hopBetween, hopOff := c1.hopOff } ∧
      c1' = { c' with hopBetween := c1'.hopBetween, hopOff := c1'.hopOff } ∧
      MRel ε (links c + 2) c1.hopBetween c1'.hopBetween ∧ MRel ε (m + links c + c.sites.length + 3) c1.hopOff c1'.hopOff ∧
      c1.hopBetween.length ≤ c.sites.length ∧ c1.hopOff.length ≤ c.hopOff.length + c.sites.length := by
  unfold calcHopBetween at h ⊢
  rw [hl.sites]
  split at h
  · cases h
  · next hlen =>
    rw [if_neg hlen]
    simp only at h ⊢
    rw [hl.internal, hl.on]
    simp only [hl.siteAt]
    have hb : MRel ε (links c + 2)
        ((c.ratesInternal mem).map fun ir => (ir.1, noRound (noRound (sumVals noRound ir.2 * (c.siteAt ir.1).tau) * c.probOn.at0 ir.1)))
        ((c.ratesInternal mem).map fun ir => (ir.1, fl (fl (sumVals fl ir.2 * (c.siteAt ir.1).tau) * c.probOn.at0 ir.1))) := by
      refine mrel_map fun ir hir => ?_
      have r0 := rel_of_rates h0 h1 R (ratesInternal_facts hc hir).1 (ratesInternal_facts hc hir).2
      have r1 := (r0.mul h0 h1.le (Rel.refl h0 h1.le (Nonneg_siteAt hc ir.1))).rnd h0 h1 R
      exact ((r1.mul h0 h1.le (Rel.refl h0 h1.le (Nonneg_at0 hc ir.1))).rnd h0 h1 R).mono h0 h1.le (by omega)
    have hwf : IMap.WF ((c.ratesInternal mem).map fun ir =>
        (ir.1, noRound (noRound (sumVals noRound ir.2 * (c.siteAt ir.1).tau) * c.probOn.at0 ir.1))) := by
      have := rates_wf (mem := mem) c.siteIsInCluster hw
      unfold IMap.WF at this ⊢
      rw [List.map_map]
      exact this
    have hlenA : ((c.ratesInternal mem).map fun ir =>
        (ir.1, noRound (noRound (sumVals noRound ir.2 * (c.siteAt ir.1).tau) * c.probOn.at0 ir.1))).length ≤ c.sites.length := by
      rw [List.length_map]; exact ratesInternal_length
    generalize ((c.ratesInternal mem).map fun ir =>
        (ir.1, noRound (noRound (sumVals noRound ir.2 * (c.siteAt ir.1).tau) * c.probOn.at0 ir.1))) = A at h hb hwf hlenA ⊢
    generalize ((c.ratesInternal mem).map fun ir =>
        (ir.1, fl (fl (sumVals fl ir.2 * (c.siteAt ir.1).tau) * c.probOn.at0 ir.1))) = B at hb ⊢
    have ht := hb.sumVals h0 h1 R
    have hsize : ∀ (S : K) (l : IMap K) (u : IMap K),
        (l.foldl (fun m ib => m.set ib.1 (noRound (m.at0 ib.1 / S))) u).length ≤ u.length + l.length := by
      intro S l
      induction l with
      | nil => intro u; exact le_refl _
      | cons x l ih =>
        intro u
        refine le_trans (ih _) ?_
        have : ∀ (u : IMap K) (n : Int) (v : K), (u.set n v).length ≤ u.length + 1 := by
          intro u n v
          induction u with
          | nil => exact le_refl _
          | cons y u ihu =>
            obtain ⟨k, w⟩ := y
            unfold IMap.set
            split
            · exact Nat.le_succ _
            · rw [List.length_cons, List.length_cons]; exact Nat.succ_le_succ ihu
        have := this u x.1 (noRound (u.at0 x.1 / S))
        rw [List.length_cons]
        dsimp only at this ⊢
        omega
    split at h
    · cases h
    · next hn =>
      rw [if_neg (by
        rintro ⟨q1, q2⟩
        refine hn ⟨?_, (ht.zero_iff h1).2 q2⟩
        rintro rfl
        cases hb
        exact q1 rfl)]
      cases h
      refine ⟨_, rfl, rfl, rfl, hb, ?_, hlenA, le_trans (hsize _ _ _) (by omega)⟩
      by_cases hne : A = []
      · subst hne; cases hb; exact ho.mono h0 h1 (by omega)
      · have hp : 0 < sumVals noRound A := lt_of_le_of_ne ht.left fun e => hn ⟨hne, e.symm⟩
        exact (mrel_foldl_set h0 h1 R ho hb ht hp hwf).mono h0 h1 (by omega)

theorem step_tau {m k : Nat} (ho : MRel ε m c.hopOff c'.hopOff) (he : MRel ε k c.sumEscape c'.sumEscape)
    (h : calcEscape noRound mem c = .ok c1) :
    ∃ c1', calcEscape fl mem c' = .ok c1' ∧ c1 = { c with tau := c1.tau, timeInc := c1.timeInc } ∧
      c1' = { c' with tau := c1'.tau, timeInc := c1'.timeInc } ∧
      Option.Rel (Rel ε (m + k + 2 + c.hopOff.length)) c1.tau c1'.tau ∧
      Option.Rel (Rel ε (m + k + 2 + c.hopOff.length + 1)) c1.timeInc c1'.timeInc := by
  unfold calcEscape at h ⊢
  rw [hl.res, hl.toNeighbors]
  split at h
  · cases h
  · next hz =>
    rw [if_neg hz]
    split at h
    · next hn => rw [if_pos hn]; cases h; exact ⟨_, rfl, rfl, rfl, .none, .none⟩
    · next hn =>
      rw [if_neg hn]
      cases h
      have hr := rel_fold_rate h0 h1 R ho he
      exact ⟨_, rfl, rfl, rfl, .some hr, .some ((hr.div h0 h1 (Rel.refl h0 h1.le hc.res.le) hc.res).rnd h0 h1 R)⟩

theorem step_internalTau {m k : Nat} (ho : MRel ε m c.hopBetween c'.hopBetween) (he : MRel ε k c.sumInternal c'.sumInternal) :
    Option.Rel (Rel ε (m + k + 2 + c.hopBetween.length)) (calcInternalTau noRound mem c).internalTau
      (calcInternalTau fl mem c').internalTau := by
  unfold calcInternalTau
  rw [hl.internal]
  split
  · exact .none
  · exact .some (rel_fold_rate h0 h1 R ho he)

end

end Mythical.Rounded
