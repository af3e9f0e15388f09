import Verif.Lemmas.UnitsWorld
import Verif.Lemmas.SystemWitness

/-!
# C96: the unit of time

A simulation in which all rates are divided by `k` and all times multiplied by it is the same simulation, except for the visits
counted for the sites in clusters.
-/

set_option linter.unusedSectionVars false

namespace Mythical.Units
open Mythical
variable {K : Type} [Field K] [LinearOrder K] [IsStrictOrderedRing K] [FloorRing K]
variable {k : K}

/-- A new system is the same in every unit. -/
theorem C96_new (k : K) (n : Nat) : Same k (World.new n : World K) (World.new n) := by
  constructor <;> first | rfl | exact .nil

theorem agreeS_unit {w : World K} {o o' : World.Op K} {x y : Except Fault Unit × World K}
    (h : AgreeS (fun _ _ => True) (Same k) x y) :
    (SameAnswer w o (x.1.map fun _ => (0 : Int)) (y.1.map fun _ => 0) ∧ Same k x.2 y.2) ∨
      CountLost o (x.1.map fun _ => (0 : Int)) ∨ CountLost o' (y.1.map fun _ => (0 : Int)) := by
  obtain ⟨r, s⟩ := x
  obtain ⟨r', s'⟩ := y
  rcases h with ⟨a, b, h1, h2, _, h⟩ | ⟨e, h1, h2, h⟩ | h | h
  · simp only at h1 h2 h
    subst h1 h2
    exact Or.inl ⟨Or.inl rfl, h⟩
  · simp only at h1 h2 h
    subst h1 h2
    exact Or.inl ⟨Or.inl rfl, h⟩
  · have : r = _ := h
    subst this
    exact Or.inr (Or.inl (Or.inl rfl))
  · have : r' = _ := h
    subst this
    exact Or.inr (Or.inr (Or.inl rfl))

theorem agree_simple {w w' : World K} (hw : Same k w w') {o o' : World.Op K} {x y : Except Fault (World K)}
    (h : Agree (Same k) x y) :
    (SameAnswer w o (w.simple x).1 (w'.simple y).1 ∧ Same k (w.simple x).2 (w'.simple y).2) ∨
      CountLost o (w.simple x).1 ∨ CountLost o' (w'.simple y).1 := by
  rcases h with ⟨a, b, rfl, rfl, h⟩ | ⟨e, rfl, rfl⟩ | h | h
  · exact Or.inl ⟨Or.inl rfl, h⟩
  · exact Or.inl ⟨Or.inl rfl, hw⟩
  · rw [h]; exact Or.inr (Or.inl (Or.inl rfl))
  · rw [h]; exact Or.inr (Or.inr (Or.inl rfl))

/-- **C96, one call.** Full statement: with the rates and times in a new unit every call gives the same answer and leaves behind
the same world in the new unit. Missing (and false, `C96_counterexample`): the numbers of visits of the sites in clusters; if one
of them does not fit into an `int` on one of the two sides, the behaviour is undefined there. -/
theorem C96_step_partial (env : Env K) (mem : Addr → K) (hk : 0 < k) {w w' : World K} (h : Same k w w') (o : World.Op K) :
    (SameAnswer w o (w.step env mem o).1 (w'.step env (rates k mem) (op k o)).1 ∧
      Same k (w.step env mem o).2 (w'.step env (rates k mem) (op k o)).2) ∨
    CountLost o (w.step env mem o).1 ∨ CountLost o (w'.step env (rates k mem) (op k o)).1 := by
  cases o with
  | setTimeResolution t =>
    left
    show SameAnswer w _ ((w.setTimeResolution t).1.map _) ((w'.setTimeResolution (k * t)).1.map _) ∧
      Same k (w.setTimeResolution t).2 (w'.setTimeResolution (k * t)).2
    unfold World.setTimeResolution
    have g : k * t ≤ 0 ↔ t ≤ 0 := mul_nonpos_iff_pos_imp_nonpos.trans (by
      constructor
      · intro h'; exact h'.1 hk
      · intro h'; exact ⟨fun _ => h', fun _ => hk.le⟩)
    by_cases ht : t ≤ 0
    · rw [if_pos ht, if_pos (g.2 ht)]
      exact ⟨Or.inl rfl, h⟩
    · rw [if_neg ht, if_neg (fun h' => ht (g.1 h'))]
      exact ⟨Or.inl rfl, by same h⟩
  | setMinThreshold n => exact Or.inl ⟨Or.inl rfl, by unfold World.step op World.setMinThreshold; same h⟩
  | setRandomSeed n =>
    left
    show SameAnswer w _ ((w.setRandomSeed n).1.map _) ((w'.setRandomSeed n).1.map _) ∧
      Same k (w.setRandomSeed n).2 (w'.setRandomSeed n).2
    unfold World.setRandomSeed
    have hf := h.feats
    by_cases ht : w.feats.length ≠ 0
    · have ht' : w'.feats.length ≠ 0 := by rw [hf]; exact ht
      rw [if_pos ht, if_pos ht']
      exact ⟨Or.inl rfl, h⟩
    · have ht' : ¬ w'.feats.length ≠ 0 := by rw [hf]; exact ht
      rw [if_neg ht, if_neg ht']
      exact ⟨Or.inl rfl, by same h⟩
  | setPerformanceRatio r => exact Or.inl ⟨Or.inl rfl, by unfold World.step op World.setPerformanceRatio; same h⟩
  | initializeSystem m => exact agreeS_unit (initializeSystem_units hk mem h m)
  | newWalker hd =>
    exact Or.inl ⟨Or.inl rfl, h.withWalkers (h.walkers.set hd ⟨rfl, rfl, Or.inr ⟨rfl, rfl⟩⟩)⟩
  | walkerOccupy hd i =>
    refine agree_simple h ?_
    unfold World.walkerOccupy
    exact Agree.bind (walkerOf_units h hd) fun x x' hx =>
      Agree.ok (h.withWalkers (h.walkers.set hd ⟨rfl, hx.2.1, hx.2.2⟩))
  | walkerSetPotential hd i =>
    refine agree_simple h ?_
    unfold World.walkerSetPotential
    exact Agree.bind (walkerOf_units h hd) fun x x' hx =>
      Agree.ok (h.withWalkers (h.walkers.set hd ⟨hx.1, rfl, hx.2.2⟩))
  | walkerSetDwell hd t =>
    refine agree_simple h ?_
    unfold World.walkerSetDwell
    exact Agree.bind (walkerOf_units h hd) fun x x' hx =>
      Agree.ok (h.withWalkers (h.walkers.set hd ⟨hx.1, hx.2.1, Or.inl rfl⟩))
  | initializeWalkers l =>
    refine agreeS_unit ?_
    unfold World.initializeWalkers
    have hf := h.feats
    by_cases ht : w.feats.length = 0
    · have ht' : w'.feats.length = 0 := by rw [hf]; exact ht
      rw [if_pos ht, if_pos ht']
      exact AgreeS.error h
    · have ht' : ¬ w'.feats.length = 0 := by rw [hf]; exact ht
      rw [if_neg ht, if_neg ht']
      exact initWalkers_units hk l h
  | hop wid hd a => exact agreeS_unit (hop_units hk env mem h wid hd a)
  | removeWalker wid hd =>
    refine agree_simple h ?_
    unfold World.removeWalker
    refine Agree.bind (walkerOf_units h hd) fun x x' hx => ?_
    refine Agree.bind (walkerSite_units hx) fun i i' hi => ?_
    subst hi
    rw [feat_units h]
    exact removeAt_units h _ _ _
  | getVisitFrequencyOfSite i =>
    show (SameAnswer w _ (w.getVisitFrequencyOfSite i).1 (w'.getVisitFrequencyOfSite i).1 ∧
      Same k (w.getVisitFrequencyOfSite i).2 (w'.getVisitFrequencyOfSite i).2) ∨
      CountLost _ (w.getVisitFrequencyOfSite i).1 ∨ CountLost _ (w'.getVisitFrequencyOfSite i).1
    have hs' : IMap.get? w'.sites i = (IMap.get? w.sites i).map (site k) := by rw [h.sites]; exact get?_mapVal _ _ _
    cases hs : IMap.get? w.sites i with
    | none =>
      rw [hs] at hs'
      have E : w.getVisitFrequencyOfSite i = (.error .invalidArgument, w) := by unfold World.getVisitFrequencyOfSite; rw [hs]
      have E' : w'.getVisitFrequencyOfSite i = (.error .invalidArgument, w') := by
        unfold World.getVisitFrequencyOfSite; rw [hs']; rfl
      rw [E, E']
      exact Or.inl ⟨Or.inl rfl, h⟩
    | some s =>
      rw [hs] at hs'
      simp only [Option.map] at hs'
      by_cases hp : s.partOfCluster = true
      · have hp' : (site k s).partOfCluster = true := hp
        have hid : (site k s).clusterId = s.clusterId := rfl
        have hv : (site k s).visits = s.visits := rfl
        rcases getCluster_units h.clusters s.clusterId with ⟨e, e1, e2⟩ | ⟨c, c', e1, e2, hc⟩
        · have E : w.getVisitFrequencyOfSite i = (.error e, w) := by
            unfold World.getVisitFrequencyOfSite; rw [hs]; simp only; rw [if_pos hp, e1]
          have E' : w'.getVisitFrequencyOfSite i = (.error e, w') := by
            unfold World.getVisitFrequencyOfSite; rw [hs']; simp only; rw [if_pos hp', hid, e2]
          rw [E, E']
          exact Or.inl ⟨Or.inl rfl, h⟩
        · have E : ∀ r d, c.getVisitFrequency i = (r, d) → w.getVisitFrequencyOfSite i =
              (r.bind fun n => chk (s.visits + n), { w with clusters := w.clusters.put s.clusterId d }) := by
            intro r d hr
            unfold World.getVisitFrequencyOfSite; rw [hs]; simp only; rw [if_pos hp, e1]; simp only; rw [hr]
            cases r <;> rfl
          have E' : ∀ r d, c'.getVisitFrequency i = (r, d) → w'.getVisitFrequencyOfSite i =
              (r.bind fun n => chk (s.visits + n), { w' with clusters := w'.clusters.put s.clusterId d }) := by
            intro r d hr
            unfold World.getVisitFrequencyOfSite; rw [hs']; simp only; rw [if_pos hp', hid, e2]; simp only; rw [hr, hv]
            cases r <;> rfl
          have hx := getVisitFrequency_units hk c c' hc i
          revert E E' hx
          generalize c.getVisitFrequency i = x
          generalize c'.getVisitFrequency i = y
          obtain ⟨r, d⟩ := x
          obtain ⟨r', d'⟩ := y
          intro E E' hx
          rw [E _ _ rfl, E' _ _ rfl]
          rcases hx with ⟨n, n', h1, h2, _, hd⟩ | ⟨e, h1, h2, hd⟩ | h1 | h1
          · simp only at h1 h2 hd
            subst h1 h2
            have hw := h.withClusters (h.clusters.set s.clusterId hd)
            have hchk : ∀ m : Int, (∃ v, chk m = .ok v) ∨ chk m = .error (.ub .intOverflow) := by
              intro m
              unfold chk
              split
              · exact Or.inl ⟨_, rfl⟩
              · exact Or.inr rfl
            rcases hchk (s.visits + n) with ⟨v, e3⟩ | e3
            · rcases hchk (s.visits + n') with ⟨v', e4⟩ | e4
              · left
                refine ⟨Or.inr ⟨i, s, v, v', rfl, hs, ?_, e3, e4⟩, hw⟩
                simpa [Site.partOfCluster] using hp
              · exact Or.inr (Or.inr (Or.inr ⟨⟨i, rfl⟩, e4⟩))
            · exact Or.inr (Or.inl (Or.inr ⟨⟨i, rfl⟩, e3⟩))
          · simp only at h1 h2 hd
            subst h1 h2
            exact Or.inl ⟨Or.inl rfl, h.withClusters (h.clusters.set s.clusterId hd)⟩
          · have h1 : r = _ := h1
            subst h1
            exact Or.inr (Or.inl (Or.inl rfl))
          · have h1 : r' = _ := h1
            subst h1
            exact Or.inr (Or.inr (Or.inl rfl))
      · have hp' : ¬ (site k s).partOfCluster = true := hp
        have E : w.getVisitFrequencyOfSite i = (.ok s.visits, w) := by
          unfold World.getVisitFrequencyOfSite; rw [hs]; simp only; rw [if_neg hp]
        have E' : w'.getVisitFrequencyOfSite i = (.ok s.visits, w') := by
          unfold World.getVisitFrequencyOfSite; rw [hs']; simp only; rw [if_neg hp']; rfl
        rw [E, E']
        exact Or.inl ⟨Or.inl rfl, h⟩
  | elsewhere n =>
    left
    show SameAnswer w _ (match chk (w.nextId + n) with | .error e => (.error e, w) | .ok next => (.ok 0, { w with nextId := next }) :
      Except Fault Int × World K).1 (match chk (w'.nextId + n) with
        | .error e => (.error e, w') | .ok next => (.ok 0, { w' with nextId := next }) : Except Fault Int × World K).1 ∧
      Same k (match chk (w.nextId + n) with | .error e => (.error e, w) | .ok next => (.ok 0, { w with nextId := next }) :
      Except Fault Int × World K).2 (match chk (w'.nextId + n) with
        | .error e => (.error e, w') | .ok next => (.ok 0, { w' with nextId := next }) : Except Fault Int × World K).2
    have hn := h.nextId
    rw [hn]
    cases chk (w.nextId + n) with
    | error e => exact ⟨Or.inl rfl, h⟩
    | ok m => exact ⟨Or.inl rfl, by same h⟩

theorem goesOn_not_lost {o : World.Op K} {r : Except Fault Int} (h : Cluster.GoesOn r) : ¬ CountLost o r := by
  rintro (rfl | ⟨_, rfl⟩) <;> exact Bool.noConfusion h

/-- **C96, histories.** Two histories that consist of the same calls, in two units of time, go through the same worlds: the
walkers are on the same sites and are to hop to the same sites, at the same times, the same clusters are formed with the same
probabilities, and all answers are the same except for the visits of sites in clusters. -/
theorem C96_history_partial (env : Env K) (hk : 0 < k) {w w' v v' : World K} {evs evs' : List (World.Event K)} (h : Same k w w')
    (ht : World.Trace env w evs v) (ht' : World.Trace env w' evs' v') (hc : List.Forall₂ (SameCall k) evs evs') :
    List.Forall₂ (SameEvent k) evs evs' ∧ Same k v v' := by
  induction ht generalizing evs' v' with
  | nil =>
    cases hc
    generalize hn : ([] : List (World.Event K)) = l at ht'
    cases ht' with
    | nil => exact ⟨.nil, h⟩
    | snoc => simp at hn
  | @snoc w1 v evs o res mem ht hs hr ih =>
    generalize hn : evs' = l at ht'
    subst hn
    cases ht' with
    | nil => have := hc.length_eq; simp at this
    | @snoc w1' _ evs'' o' res' mem' ht' hs' hr' =>
      have hlen : evs.length = evs''.length := by have := hc.length_eq; simpa using this
      have hc1 : List.Forall₂ (SameCall k) evs evs'' := by
        have := List.forall₂_take evs.length hc
        rwa [List.take_left', hlen, List.take_left'] at this
        · rfl
        · rfl
      have hc2 : List.Forall₂ (SameCall k) [⟨w1, mem, o, res, v⟩] [⟨w1', mem', o', res', v'⟩] := by
        have := List.forall₂_drop evs.length hc
        rwa [List.drop_left', hlen, List.drop_left'] at this
        · rfl
        · rfl
      obtain ⟨he, h1⟩ := ih ht' hc1
      cases hc2 with
      | cons hcall _ =>
        obtain ⟨rfl, rfl⟩ := hcall
        simp only at hs' hr'
        have := C96_step_partial env mem hk h1 o
        rw [hs, hs'] at this
        rcases this with ⟨ha, h2⟩ | h2 | h2
        · refine ⟨List.rel_append he (.cons ⟨⟨rfl, rfl⟩, h1, ha, h2⟩ .nil), h2⟩
        · exact absurd h2 (goesOn_not_lost hr)
        · exact absurd h2 (goesOn_not_lost hr')

/-- **C96, existence.** To every history there is one in the new unit, unless a count of visits gets lost on the way. -/
theorem C96_exists_partial (env : Env K) (hk : 0 < k) {w w' v : World K} {evs : List (World.Event K)} (h : Same k w w')
    (ht : World.Trace env w evs v) :
    (∃ evs' v', World.Trace env w' evs' v' ∧ List.Forall₂ (SameEvent k) evs evs' ∧ Same k v v') ∨
    ∃ before e after evs' v', evs = before ++ e :: after ∧ World.Trace env w' evs' v' ∧ List.Forall₂ (SameEvent k) before evs' ∧
      CountLost e.op (v'.step env (rates k e.mem) (op k e.op)).1 := by
  induction ht with
  | nil => exact Or.inl ⟨[], w', .nil w', .nil, h⟩
  | @snoc w1 v evs o res mem ht hs hr ih =>
    rcases ih with ⟨evs', v', ht', he, h1⟩ | ⟨b, e, a, evs', v', rfl, ht', he, hl⟩
    · have := C96_step_partial env mem hk h1 o
      rw [hs] at this
      rcases this with ⟨ha, h2⟩ | h2 | h2
      · left
        have hg : Cluster.GoesOn (v'.step env (rates k mem) (op k o)).1 := by
          rcases ha with ha | ⟨i, s, n, n', _, _, _, _, ha⟩
          · rw [ha]; exact hr
          · rw [ha]; trivial
        exact ⟨_, _, .snoc (rates k mem) ht' rfl hg, List.rel_append he (.cons ⟨⟨rfl, rfl⟩, h1, ha, h2⟩ .nil), h2⟩
      · exact absurd h2 (goesOn_not_lost hr)
      · exact Or.inr ⟨evs, _, [], evs', v', rfl, ht', he, h2⟩
    · right
      exact ⟨b, e, a ++ [⟨w1, mem, o, res, v⟩], evs', v', by simp, ht', he, hl⟩

/-- **C96, what the visits do.** The visits that the sites of a cluster are credited with are those of the old unit times `k`,
before they are rounded. -/
theorem C96_share (hk : 0 < k) (sv : IMap K) (c : Cluster K) {t d p : K} {i : Int} {s : Site K} {dw : K}
    (hs : c.sites.get? i = some s) (hd : c.internalDwell.get? i = some dw) (hp : c.probOn.get? i = some p) (h0 : dw ≠ 0)
    (hr : c.resolution ≠ 0) :
    c.visitShare t d i = .ok (roundHalf (t * (d * p * s.tau / dw) / c.resolution) : Int) ∧
    (cluster k sv c).visitShare (k * t) d i = .ok (roundHalf (k * (t * (d * p * s.tau / dw) / c.resolution)) : Int) := by
  have hp0 : c.probOn.at0 i = p := by unfold IMap.at0; rw [hp]; rfl
  constructor
  · unfold Cluster.visitShare
    rw [hs, hd]
    simp only
    rw [if_neg (by tauto), hp0]
  · unfold Cluster.visitShare
    have e1 : (cluster k sv c).sites.get? i = some (site k s) := by rw [sites_units, get?_mapVal, hs]; rfl
    have e2 : (cluster k sv c).internalDwell.get? i = some (k * dw) := by
      show IMap.get? (IMap.mapVal (fun _ t => k * t) c.internalDwell) i = _
      rw [get?_mapVal, hd]; rfl
    rw [e1, e2]
    simp only
    have e3 : (cluster k sv c).resolution = c.resolution := rfl
    have e4 : (cluster k sv c).probOn.at0 i = p := hp0
    have e5 : (site k s).tau = k * s.tau := rfl
    rw [e3, e4, e5, if_neg (by simp [hk.ne', h0, hr])]
    congr 4
    rw [mul_left_comm (d * p), mul_div_mul_left _ _ hk.ne', mul_assoc, mul_div_assoc]

/-- A history of two walkers on four sites, ending with the visits of sites 1 and 2, which are in a cluster, and 3, which is not. -/
def unitOps : List (World.Op ℚ) := World.sysOps ++ [
  .hop 0 10 (World.witChoice (1 / 3) [1]), .hop 0 10 (World.witChoice (1 / 3) [1]), .hop 0 10 (World.witChoice (1 / 3) [1]),
  .getVisitFrequencyOfSite 1, .getVisitFrequencyOfSite 2, .getVisitFrequencyOfSite 3]

/-- The same in hundredths of the unit. -/
def unitOps' : List (World.Op ℚ) := unitOps.map (op 100)

/-- The history in the old unit. -/
def unitRun := World.runOps Cluster.witEnv World.sysRates (World.new 0) unitOps

/-- The history in the new unit. -/
def unitRun' := World.runOps Cluster.witEnv (rates 100 World.sysRates) (World.new 0) unitOps'

theorem unitTrace : World.Trace Cluster.witEnv (World.new 0) unitRun.1 unitRun.2 := World.runOps_trace (by decide +kernel)

theorem unitTrace' : World.Trace Cluster.witEnv (World.new 0) unitRun'.1 unitRun'.2 := World.runOps_trace (by decide +kernel)

theorem runOps_calls (env : Env K) (mem : Addr → K) : ∀ (l : List (World.Op K)) (w w' : World K),
    List.Forall₂ (SameCall k) (World.runOps env mem w l).1 (World.runOps env (rates k mem) w' (l.map (op k))).1 := by
  intro l
  induction l with
  | nil => intro w w'; exact .nil
  | cons o l ih => intro w w'; exact .cons ⟨rfl, rfl⟩ (ih _ _)

/-- The two histories meet the hypotheses of `C96_history_partial`, and there is a cluster at their end. -/
example : List.Forall₂ (SameEvent 100) unitRun.1 unitRun'.1 ∧ Same 100 unitRun.2 unitRun'.2 ∧ unitRun.2.clusters.keys ≠ [] :=
  ⟨(C96_history_partial _ (by norm_num) (C96_new _ _) unitTrace unitTrace' (runOps_calls _ _ _ _ _)).1,
    (C96_history_partial _ (by norm_num) (C96_new _ _) unitTrace unitTrace' (runOps_calls _ _ _ _ _)).2, by decide +kernel⟩

/-- The walker's dwell time is a hundred times as many hundredths of the unit. -/
example : (match unitRun.2.walkers.get? 10, unitRun'.2.walkers.get? 10 with
    | some x, some x' => decide (x'.dwell = 100 * x.dwell) && decide (x.dwell ≠ -1) && decide (x'.site = x.site)
    | _, _ => false) = true := by decide +kernel

/-- The cluster of that history meets the hypotheses of `C96_share`. -/
example : (match unitRun.2.clusters.map Prod.snd with
    | c :: _ => match c.sites.get? 1, c.internalDwell.get? 1, c.probOn.get? 1 with
      | some _, some d, some _ => decide (d ≠ 0) && decide (c.resolution ≠ 0)
      | _, _, _ => false
    | [] => false) = true := by decide +kernel

/-- **C96 fails for visits.** The same history in two units of time: both sites of the cluster have been visited twice if the time
is given in the old unit, and 101 times if it is given in hundredths of it. The visits of the third site, which is in no cluster,
are 3 both times. -/
theorem C96_counterexample :
    unitRun.1.map (fun e => (e.res.toOption)) = List.replicate 12 (some 0) ++ [some 1] ++ List.replicate 6 (some 0) ++
      [some 2, some 2, some 3] ∧
    unitRun'.1.map (fun e => (e.res.toOption)) = List.replicate 12 (some 0) ++ [some 26] ++ List.replicate 6 (some 0) ++
      [some 101, some 101, some 3] := by
  constructor <;> decide +kernel

end Mythical.Units
