import Verif.Lemmas.Order
import Verif.Lemmas.ClusterVisits

/-! # The cluster's functions on clusters that differ in the order of their maps -/

set_option linter.unusedSectionVars false
set_option linter.unusedVariables false

namespace Mythical
open Cluster OrderSpec
variable {K : Type} [Field K] [LinearOrder K] [IsStrictOrderedRing K] [FloorRing K]
variable {P I N : List (Int × K) → List (Int × K) → Prop}

/-- What the proofs need to know about the relations of the tables. -/
structure TableRel (env env' : Env K) (P I N : List (Int × K) → List (Int × K) → Prop) : Prop where
  fuel : env'.fuel = env.fuel
  sort : ∀ l l', List.Perm l l' → P (env.sort.f l) (env'.sort.f l')
  blockI : ∀ a a' l l', I a a' → List.Perm l l' →
    I (a ++ cumulate 0 (env.sort.f l)) (a' ++ cumulate 0 (env'.sort.f l'))
  blockN : ∀ a a' l l', N a a' → List.Perm l l' →
    N (a ++ cumulate 0 (env.sort.f l)) (a' ++ cumulate 0 (env'.sort.f l'))

namespace OrderSpec.Same
variable {c c' c'' : Cluster K} {env env' : Env K} {mem : Addr → K}

theorem symm (h : Reordered c c') : Reordered c' c where
  id := h.id.symm
  visits := h.visits.symm
  prevVisits := h.prevVisits.symm
  occupied := h.occupied.symm
  tau := h.tau.symm
  internalTau := h.internalTau.symm
  timeInc := h.timeInc.symm
  resolution := h.resolution.symm
  iterations := h.iterations.symm
  tol := h.tol.symm
  method := h.method.symm
  seed := h.seed.symm
  remaining := h.remaining.symm
  sites := h.sites.symm
  probOn := h.probOn.symm
  hopOff := h.hopOff.symm
  hopBetween := h.hopBetween.symm
  sumEscape := h.sumEscape.symm
  sumInternal := h.sumInternal.symm
  internalDwell := h.internalDwell.symm
  siteVisits := h.siteVisits.symm
  probInternal := h.probInternal.symm
  probNeigh := h.probNeigh.symm
  cumInternal := h.cumInternal.symm
  cumNeigh := h.cumNeigh.symm

theorem mix (h : Reordered c c') (g : Same P I N c' c'') : Same P I N c c'' where
  id := g.id.trans h.id
  visits := g.visits.trans h.visits
  prevVisits := g.prevVisits.trans h.prevVisits
  occupied := g.occupied.trans h.occupied
  tau := g.tau.trans h.tau
  internalTau := g.internalTau.trans h.internalTau
  timeInc := g.timeInc.trans h.timeInc
  resolution := g.resolution.trans h.resolution
  iterations := g.iterations.trans h.iterations
  tol := g.tol.trans h.tol
  method := g.method.trans h.method
  seed := g.seed.trans h.seed
  remaining := h.remaining.trans g.remaining
  sites := h.sites.trans g.sites
  probOn := h.probOn.trans g.probOn
  hopOff := h.hopOff.trans g.hopOff
  hopBetween := h.hopBetween.trans g.hopBetween
  sumEscape := h.sumEscape.trans g.sumEscape
  sumInternal := h.sumInternal.trans g.sumInternal
  internalDwell := h.internalDwell.trans g.internalDwell
  siteVisits := h.siteVisits.trans g.siteVisits
  probInternal := h.probInternal ▸ g.probInternal
  probNeigh := h.probNeigh ▸ g.probNeigh
  cumInternal := h.cumInternal ▸ g.cumInternal
  cumNeigh := h.cumNeigh ▸ g.cumNeigh

theorem refl_left (h : Same P I N c c') : Reordered c c where
  id := rfl
  visits := rfl
  prevVisits := rfl
  occupied := rfl
  tau := rfl
  internalTau := rfl
  timeInc := rfl
  resolution := rfl
  iterations := rfl
  tol := rfl
  method := rfl
  seed := rfl
  remaining := .refl h.remaining.wf
  sites := .refl h.sites.wf
  probOn := .refl h.probOn.wf
  hopOff := .refl h.hopOff.wf
  hopBetween := .refl h.hopBetween.wf
  sumEscape := .refl h.sumEscape.wf
  sumInternal := .refl h.sumInternal.wf
  internalDwell := .refl h.internalDwell.wf
  siteVisits := .refl h.siteVisits.wf
  probInternal := rfl
  probNeigh := rfl
  cumInternal := rfl
  cumNeigh := rfl

theorem siteAt (h : Same P I N c c') (i : Int) : c'.siteAt i = c.siteAt i := by
  unfold Cluster.siteAt; rw [h.sites.get?]

theorem siteIsInCluster (h : Same P I N c c') (i : Int) : c'.siteIsInCluster i = c.siteIsInCluster i := h.sites.has i

/-! ## Rates -/

theorem ratesToNeighbors (h : Same P I N c c') : SameMap (c.ratesToNeighbors mem) (c'.ratesToNeighbors mem) := by
  unfold Cluster.ratesToNeighbors
  simp only [h.siteIsInCluster]
  exact (h.sites.map fun is => (is.2.neigh.filter fun na => !c.siteIsInCluster na.1).map fun na => (na.1, mem na.2)).filter _

theorem ratesInternal (h : Same P I N c c') : SameMap (c.ratesInternal mem) (c'.ratesInternal mem) := by
  unfold Cluster.ratesInternal
  simp only [h.siteIsInCluster]
  exact (h.sites.map fun is => (is.2.neigh.filter fun na => c.siteIsInCluster na.1).map fun na => (na.1, mem na.2)).filter _

/-! ## Master equation -/

theorem initProb (h : Same P I N c c') : Same P I N c.initProb c'.initProb := by
  refine { h with probOn := ?_ }
  show SameMap (c.sites.foldl _ _) (c'.sites.foldl _ _)
  rw [h.sites.length]
  exact h.sites.foldl_set (fun _ => 1 / (c.sites.length : K)) h.probOn

theorem iterSite (h : Same P I N c c') (i : Int) (s : Site K) : c'.iterSite i s = c.iterSite i s := by
  unfold Cluster.iterSite
  rw [h.probOn.at0]
  congr 1
  funext t n
  unfold iterNeigh
  simp only [h.probOn.at0, h.sites.get?]

theorem iterTemp (h : Same P I N c c') : Follows SameMap c.iterTemp c'.iterTemp := by
  unfold Cluster.iterTemp
  simp only [h.iterSite]
  intro r hr
  obtain ⟨r', hr', hp⟩ := mapM_perm h.sites.perm r hr
  refine ⟨r', hr', ?_, hp⟩
  have hk : r.map Prod.fst = c.sites.map Prod.fst := by
    have := mapM_eq_ok hr
    clear hr hp
    generalize c.sites = l at this
    induction this with
    | nil => rfl
    | cons hx _ ih =>
      rw [List.map_cons, List.map_cons, ih]
      congr 1
      obtain ⟨t, -, ht⟩ := bind_eq_ok.1 hx
      cases ht; rfl
  show (r.map Prod.fst).Nodup
  rw [hk]
  exact h.sites.wf

theorem iterate (h : Same P I N c c') : Follows (Same P I N) c.iterate c'.iterate := by
  unfold Cluster.iterate
  refine h.iterTemp.bind fun t t' ht => ?_
  simp only [ht.sumVals, h.probOn.at0]
  split
  · exact .error
  · have hm := ht.map fun it => (it.2 * (1 / IMap.sumVals t) + c.probOn.at0 it.1) * (1 / 2)
    rw [hm.sumVals]
    split
    · exact .error
    · exact .ok { h with probOn := hm.foldl_set (fun it => it.2 * (1 / _)) h.probOn }

theorem iterateN (n : Nat) (h : Same P I N c c') : Follows (Same P I N) (Cluster.iterateN n c) (Cluster.iterateN n c') := by
  induction n generalizing c c' with
  | zero => exact .ok h
  | succ n ih => exact h.iterate.bind fun _ _ h => ih h

theorem errorSq {d d' : Cluster K} (h : Same P I N c c') (g : Same P I N d d') :
    Cluster.errorSq c' d' = Cluster.errorSq c d := by
  unfold Cluster.errorSq
  simp only [g.probOn.at0]
  exact h.probOn.sum fun ip => (ip.2 - d.probOn.at0 ip.1) ^ 2

theorem toleranceLoop (n : Nat) (h : Same P I N c c') :
    Follows (Same P I N) (Cluster.toleranceLoop n c) (Cluster.toleranceLoop n c') := by
  induction n generalizing c c' with
  | zero => exact .error
  | succ n ih =>
    refine h.iterate.bind fun d d' g => ?_
    rw [h.errorSq g, h.tol]
    split
    · exact ih g
    · exact .ok g

theorem solveProb (hT : TableRel env env' P I N) (h : Same P I N c c') : Follows (Same P I N) (c.solveProb env) (c'.solveProb env') := by
  have g := h.initProb
  unfold Cluster.solveProb
  simp only [g.method, g.iterations, g.tol, g.sites.length, hT.fuel]
  split
  · exact iterateN _ g
  · exact iterateN _ g
  · split
    · exact toleranceLoop _ g
    · exact .ok g

theorem calcHopToInternal (hT : TableRel env env' P I N) (h : Same P I N c c') :
    Follows (Same P I N) (c.calcHopToInternal env) (c'.calcHopToInternal env') := by
  unfold Cluster.calcHopToInternal
  simp only [h.siteAt]
  have hv := h.probOn.map fun ip => ip.2 * (c.siteAt ip.1).tau
  simp only [ne_eq, hv.nil_iff, hv.sumVals]
  split
  · exact .error
  · have hp := (hv.map fun ip => ip.2 / IMap.sumVals (c.probOn.map fun ip => (ip.1, ip.2 * (c.siteAt ip.1).tau))).perm
    exact .ok { h with
      probInternal := hT.sort _ _ hp
      cumInternal := hT.blockI _ _ _ _ h.cumInternal hp }

/-- The triples that `hopNeighTemp` goes through. -/
def hopTriple (c : Cluster K) (acc : IMap K) (x : (Int × Site K) × Int) : Except Fault (IMap K) :=
  c.hopNeighStep x.1.1 x.1.2 acc x.2

theorem hopNeighTemp_flat (c : Cluster K) :
    c.hopNeighTemp = (c.sites.flatMap fun is => is.2.getNeighborSiteIds.map fun n => (is, n)).foldlM (hopTriple c) [] := by
  rw [foldlM_flatMap']
  unfold Cluster.hopNeighTemp
  congr 1
  funext acc is
  rw [List.foldlM_map]
  rfl

theorem hopNeighTemp (h : Same P I N c c') : Follows SameMap c.hopNeighTemp c'.hopNeighTemp := by
  rw [hopNeighTemp_flat, hopNeighTemp_flat]
  have e : hopTriple c' = hopTriple c := by
    funext acc x
    unfold hopTriple hopNeighStep
    simp only [h.siteIsInCluster, h.probOn.at0]
  rw [e]
  refine foldlM_perm (Q := fun _ _ => True) (fun _ _ h => h.symm) (fun _ _ _ h g => h.trans g) ?_ ?_
    (h.sites.perm.flatMap_right _) (fun _ _ _ _ => trivial) _ _ SameMap.nil
  · intro b b' x hb
    unfold hopTriple hopNeighStep
    split
    · exact .ok hb
    · refine Follows.bind (R := Eq) (.of_eq fun _ _ => rfl) ?_
      rintro p _ rfl
      rw [hb.at0]
      exact .ok (hb.set _ _)
  · rintro b ⟨⟨i, s⟩, n⟩ ⟨⟨j, t⟩, k⟩ hb -
    unfold hopTriple hopNeighStep
    dsimp only
    by_cases hn : c.siteIsInCluster n = true <;> by_cases hk : c.siteIsInCluster k = true
    · simp only [hn, hk, if_true, ok_bind]
      exact .ok hb
    · simp only [hn, hk, if_true, Bool.false_eq_true, if_false, ok_bind]
      intro r hr
      obtain ⟨p, hp, hr⟩ := bind_eq_ok.1 hr
      cases hr
      exact ⟨_, by rw [hp]; rfl, hb.set _ _⟩
    · simp only [hn, hk, if_true, Bool.false_eq_true, if_false, ok_bind]
      intro r hr
      rw [bind_assoc] at hr
      obtain ⟨p, hp, hr⟩ := bind_eq_ok.1 hr
      cases hr
      exact ⟨_, by rw [hp]; rfl, hb.set _ _⟩
    · simp only [hn, hk, Bool.false_eq_true, if_false]
      intro r hr
      rw [bind_assoc] at hr
      obtain ⟨p, hp, hr⟩ := bind_eq_ok.1 hr
      rw [ok_bind] at hr
      obtain ⟨q, hq, hr⟩ := bind_eq_ok.1 hr
      cases hr
      refine ⟨_, by rw [hq, ok_bind, ok_bind, hp, ok_bind], ?_⟩
      by_cases hnk : n = k
      · subst hnk
        simp only [IMap.at0_set, if_true, IMap.set_set]
        rw [add_right_comm]
        exact hb.set _ _
      · simp only [IMap.at0_set, hnk, Ne.symm hnk, if_false]
        exact SameMap.set_comm hb.wf _ _ fun e => absurd e hnk

theorem calcHopToNeighbors (hT : TableRel env env' P I N) (h : Same P I N c c') :
    Follows (Same P I N) (c.calcHopToNeighbors env) (c'.calcHopToNeighbors env') := by
  unfold Cluster.calcHopToNeighbors
  refine h.hopNeighTemp.bind fun t t' ht => ?_
  simp only [ne_eq, ht.nil_iff, ht.sumVals]
  split
  · exact .error
  · have hp := (ht.map fun np => np.2 * (1 / IMap.sumVals t)).perm
    exact .ok { h with
      probNeigh := hT.sort _ _ hp
      cumNeigh := hT.blockN _ _ _ _ h.cumNeigh hp }

theorem calcInternalDwell (h : Same P I N c c') :
    Follows (Same P I N) (c.calcInternalDwell mem) (c'.calcInternalDwell mem) := by
  unfold Cluster.calcInternalDwell
  have hr := h.ratesInternal (mem := mem)
  simp only [← hr.perm.mem_iff]
  split
  · exact .error
  · exact .ok { h with internalDwell := hr.foldl_set (fun ir => 1 / IMap.sumVals ir.2) h.internalDwell }

theorem solveMasterEquation (hT : TableRel env env' P I N) (h : Same P I N c c') :
    Follows (Same P I N) (c.solveMasterEquation env mem) (c'.solveMasterEquation env' mem) :=
  (h.solveProb hT).bind fun _ _ h => (h.calcHopToInternal hT).bind fun _ _ h => (h.calcHopToNeighbors hT).bind fun _ _ h =>
    h.calcInternalDwell

/-! ## Time constants -/

theorem calcSumEscape (h : Same P I N c c') : Same P I N (c.calcSumEscape mem) (c'.calcSumEscape mem) :=
  { h with sumEscape := h.ratesToNeighbors.map fun ir => IMap.sumVals ir.2 }

theorem calcSumInternal (h : Same P I N c c') : Same P I N (c.calcSumInternal mem) (c'.calcSumInternal mem) :=
  { h with sumInternal := h.ratesInternal.map fun ir => IMap.sumVals ir.2 }

theorem sumRatesOff (h : Same P I N c c') : c'.sumRatesOff mem = c.sumRatesOff mem := by
  have e : ∀ c : Cluster K, c.sumRatesOff mem = (c.ratesToNeighbors mem).foldl (fun t ir => t + IMap.sumVals ir.2) 0 := by
    intro c
    unfold Cluster.sumRatesOff
    congr 1
    funext t ir
    rw [IMap.foldl_add_start (fun nr : Int × K => nr.2), IMap.sumVals_eq]
  rw [e, e]
  exact h.ratesToNeighbors.sum fun ir => IMap.sumVals ir.2

theorem calcHopOff (h : Same P I N c c') : Follows (Same P I N) (c.calcHopOff mem) (c'.calcHopOff mem) := by
  unfold Cluster.calcHopOff
  have ha : (c'.probOn.any fun ip => decide (0 < c'.sumEscape.at0 ip.1)) =
      c.probOn.any fun ip => decide (0 < c.sumEscape.at0 ip.1) := by
    simp only [h.sumEscape.at0]
    rw [Bool.eq_iff_iff, List.any_eq_true, List.any_eq_true]
    simp only [h.probOn.perm.mem_iff]
  have hsum : c'.probOn.foldl (fun t ip => t + (c.siteAt ip.1).tau) 0 = c.probOn.foldl (fun t ip => t + (c.siteAt ip.1).tau) 0 :=
    h.probOn.sum fun ip => (c.siteAt ip.1).tau
  simp only [h.sites.length, h.sumRatesOff, ha, h.siteAt, hsum]
  split
  · exact .error
  · split
    · split
      · exact .error
      · exact .ok { h with hopOff := .nil }
    · split
      · exact .error
      · simp only [h.sumEscape.at0]
        have hr := h.probOn.map fun ip => ip.2 * c.sumEscape.at0 ip.1 / c.sumRatesOff mem * (c.siteAt ip.1).tau /
          c.probOn.foldl (fun t ip => t + (c.siteAt ip.1).tau) 0
        rw [hr.sumVals]
        split
        · exact .error
        · exact .ok { h with hopOff := hr.map fun ip => ip.2 / IMap.sumVals _ }

theorem divide_get? {hb : IMap K} (hw : hb.WF) (z : K) (m0 : IMap K) (k : Int) :
    IMap.get? (hb.foldl (fun m ib => m.set ib.1 (m.at0 ib.1 / z)) m0) k =
      if k ∈ hb.keys then some (m0.at0 k / z) else m0.get? k := by
  induction hb generalizing m0 with
  | nil => simp
  | cons x hb ih =>
    obtain ⟨j, v⟩ := x
    rw [IMap.wf_cons] at hw
    rw [List.foldl_cons, ih hw.2, IMap.keys_cons]
    simp only [IMap.at0_set, IMap.get?_set, List.mem_cons]
    by_cases hjk : j = k
    · subst hjk
      simp [hw.1]
    · simp [hjk, Ne.symm hjk]

theorem divide_wf (hb : IMap K) (z : K) {m0 : IMap K} (h : m0.WF) :
    IMap.WF (hb.foldl (fun m ib => m.set ib.1 (m.at0 ib.1 / z)) m0) := by
  induction hb generalizing m0 with
  | nil => exact h
  | cons x hb ih => exact ih (h.set _ _)

theorem calcHopBetween (h : Same P I N c c') : Follows (Same P I N) (c.calcHopBetween mem) (c'.calcHopBetween mem) := by
  unfold Cluster.calcHopBetween
  simp only [h.sites.length, h.siteAt, h.probOn.at0]
  have hb := (h.ratesInternal (mem := mem)).map fun ir => IMap.sumVals ir.2 * (c.siteAt ir.1).tau * c.probOn.at0 ir.1
  simp only [ne_eq, hb.nil_iff, hb.sumVals]
  split
  · exact .error
  · split
    · exact .error
    · refine .ok { h with hopBetween := hb, hopOff := ?_ }
      refine SameMap.of_get? (divide_wf _ _ h.hopOff.wf) (divide_wf _ _ h.hopOff.wf') fun k => ?_
      rw [divide_get? hb.wf, divide_get? hb.wf', h.hopOff.at0, h.hopOff.get?]
      simp only [hb.keys.mem_iff]

theorem tau_sum {m m' w w' : IMap K} (h : SameMap m m') (hw : SameMap w w') :
    m'.foldl (fun t ip => if w'.at0 ip.1 > 0 then t + 1 / w'.at0 ip.1 * ip.2 else t) 0 =
      m.foldl (fun t ip => if w.at0 ip.1 > 0 then t + 1 / w.at0 ip.1 * ip.2 else t) 0 := by
  have e : (fun (t : K) (ip : Int × K) => if w.at0 ip.1 > 0 then t + 1 / w.at0 ip.1 * ip.2 else t) =
      fun t ip => t + if w.at0 ip.1 > 0 then 1 / w.at0 ip.1 * ip.2 else 0 := by
    funext t ip
    split
    · rfl
    · rw [add_zero]
  simp only [hw.at0]
  rw [e]
  exact h.sum fun ip => if w.at0 ip.1 > 0 then 1 / w.at0 ip.1 * ip.2 else 0

theorem calcEscape (h : Same P I N c c') : Follows (Same P I N) (c.calcEscape mem) (c'.calcEscape mem) := by
  unfold Cluster.calcEscape
  simp only [h.resolution, h.ratesToNeighbors.length, tau_sum h.hopOff h.sumEscape]
  split
  · exact .error
  · split
    · exact .ok { h with tau := rfl, timeInc := rfl, resolution := rfl }
    · exact .ok { h with tau := rfl, timeInc := rfl, resolution := rfl }

theorem calcInternalTau (h : Same P I N c c') : Same P I N (c.calcInternalTau mem) (c'.calcInternalTau mem) := by
  unfold Cluster.calcInternalTau
  simp only [h.ratesInternal.length, tau_sum h.hopBetween h.sumInternal]
  split
  · exact { h with internalTau := rfl }
  · exact { h with internalTau := rfl }

end OrderSpec.Same
end Mythical
