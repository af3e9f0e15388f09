import Verif.Props.ClusterTime
import Verif.Lemmas.ClusterMerge

/-! # Cluster properties C42–C45: removed walkers, occupancy, merging, visit counts -/

set_option linter.unusedSectionVars false

namespace Mythical
open Cluster ClusterSpec SiteSpec
variable {K : Type} [Field K] [LinearOrder K] [IsStrictOrderedRing K] [FloorRing K]
variable {env : Env K} {mem : Addr → K} {c c' c1 c2 c3 src src' : Cluster K} {id : Int} {evs evs' : List (Event K)}

/-! ## C42 -/

theorem stayOf_remove {S : Finset Int} {w v i : Int} {ev : Event K} (h : ev.op = .removeWalker v i) :
    stayOf S w (evs ++ [ev]) = stayOf S w evs := by
  unfold stayOf
  rw [List.foldl_append]
  show book S w _ ev = _
  unfold book
  rw [h]

/-- **C42 (partial).** Removing a walker changes nothing for the other walkers, and a walker that is removed after it has
been released, or that has never been there, gets a freshly drawn dwell time if it (or another one with its id) comes
again.
Missing: a walker that is removed before it has been released is not forgotten (`C42_negation`). -/
theorem C42_partial {ev1 ev2 : Event K} (h : Since env mem c1 (evs ++ [ev1] ++ ev2 :: evs') c2) {w i v : Int} {e t : K}
    (h1 : ev1.op = .removeWalker w i) (h2 : ev2.op = .getDwellTime v e) (h3 : ev2.res = .ok (.time t)) :
    ∃ dt tau, ev2.pre.getTimeIncrement = .ok dt ∧ ev2.pre.tau = some tau ∧
      (stayOf (ids c1) v evs = none → t = min (e * tau) dt) ∧
      (v ≠ w → ∀ a, stayOf (ids c1) v evs = some a → t = min (a.drawn - a.given) dt) := by
  have hc := (C35_conserved h).2.2 v e t h2 h3
  rw [stayOf_remove h1] at hc
  obtain ⟨dt, hdt, hm⟩ := hc
  obtain ⟨c, c', hs, hpre, htr, hpos⟩ := h.split
  cases htr with
  | @cons _ _ _ op res _ mem' hstep hr ht =>
    simp only at h2 h3
    subst h2 h3
    rcases step_loud rfl hstep with ⟨er, he, -⟩ | ⟨t', g1, g2⟩
    · cases he
    · obtain ⟨tau, -, g3, -⟩ := getDwellTime_ok g1
      refine ⟨dt, tau, hdt, g3, fun hn => ?_, fun _ a ha => ?_⟩
      · rw [hn] at hm
        obtain ⟨tau', g4, g5⟩ := hm
        simp only at g4
        rw [g3] at g4
        cases g4
        exact g5
      · rw [ha] at hm
        exact hm.2

/-- **C42, negation of the full statement.** If a walker is removed during its stay, then whoever comes next with its id is
handed the rest of the removed walker's time, whatever is drawn for it. -/
theorem C42_negation {ev1 ev2 : Event K} (h : Since env mem c1 (evs ++ [ev1] ++ ev2 :: evs') c2) {w i : Int} {e t : K}
    {a : Stay K} (h1 : ev1.op = .removeWalker w i) (ha : stayOf (ids c1) w evs = some a)
    (h2 : ev2.op = .getDwellTime w e) (h3 : ev2.res = .ok (.time t)) :
    ∃ dt, ev2.pre.getTimeIncrement = .ok dt ∧ t = min (a.drawn - a.given) dt := by
  have hc := (C35_conserved h).2.2 w e t h2 h3
  rw [stayOf_remove h1, ha] at hc
  obtain ⟨dt, hdt, hm⟩ := hc
  exact ⟨dt, hdt, hm.2⟩

/-- A walker with a drawn time of 3/2 increments is removed after one increment; the next walker with its id draws a time
of 20 increments. -/
def removeOps : List (Op ℚ) :=
  [.occupySite 1, .getDwellTime 7 (3/40), .removeWalker 7 1, .occupySite 1, .getDwellTime 7 1, .pickNewSiteId 7 0]

/-- **C42, a concrete case.** The second walker is handed half an increment and leaves the cluster. -/
theorem C42_counterexample : ∃ dt, witC1.timeInc = some dt ∧
    ((runOps witEnv witRates witC1 removeOps).1.map fun ev => match ev.res with
      | .ok (.time t) => t
      | .ok (.num n) => (n : ℚ)
      | _ => 0) = [0, dt, 0, 0, dt / 2, 3] :=
  ⟨witC1.timeInc.getD 0, by decide +kernel, by decide +kernel⟩

/-- The hypotheses of C42 on that history. -/
example : Since witEnv witRates witC1 (runOps witEnv witRates witC1 removeOps).1 (runOps witEnv witRates witC1 removeOps).2 := by
  have hinc : (∀ ev ∈ (runOps witEnv witRates witC1 removeOps).1, ev.pre.timeInc = witC1.timeInc) := by decide +kernel
  refine ⟨⟨0, witEvs, witC0, witC0_trace, ?_, witC0_sound, witC0_mutual, witC0_exit, witC1_update⟩, runOps_trace (by decide +kernel), ?_,
    ?_⟩
  · intro ev hev; simp [witEvs, runOps, witOps] at hev; rw [hev]; trivial
  · intro ev hev dt hdt
    rw [hinc ev hev] at hdt
    have : ∀ dt, witC1.timeInc = some dt → 0 < dt := by
      intro dt hdt
      have h : 0 < witC1.timeInc.getD 0 := by decide +kernel
      rw [hdt] at h; exact h
    exact this dt hdt
  · intro ev hev w u hop
    simp only [removeOps, runOps, List.mem_cons, List.not_mem_nil, or_false] at hev
    rcases hev with rfl | rfl | rfl | rfl | rfl | rfl <;> cases hop; constructor <;> norm_num

/-! ## C43 -/

/-- **C43 (partial).** The cluster reports each of its sites occupied exactly from an occupy of the site until a vacate of
it, in any history (which may include updates, merges and everything else).
Missing: the report for the cluster as a whole, `isOccupied()` without a site, is wrong (`C43_negation`). -/
theorem C43_partial {i : Int} {s : Site K} (ht : Trace env c evs c') (hi : c.sites.get? i = some s)
    (h01 : s.occupied = 0 ∨ s.occupied = 1) (hv : VacatedOnlyIfOccupied i s.isOccupied evs) (hsrc : ProperSources evs) :
    c.isOccupiedSite i = .ok s.isOccupied ∧ c'.isOccupiedSite i = .ok (evs.foldl (occupiedAfter i) s.isOccupied) := by
  refine ⟨by unfold isOccupiedSite; rw [hi], ?_⟩
  induction ht generalizing s with
  | nil => unfold isOccupiedSite; rw [hi]; rfl
  | @cons c c1 c' op res evs mem hstep hg htr ih =>
    obtain ⟨hv1, hv2⟩ := hv
    have key : ∃ s1 : Site K, c1.sites.get? i = some s1 ∧ (s1.occupied = 0 ∨ s1.occupied = 1) ∧
        s1.isOccupied = occupiedAfter i s.isOccupied ⟨c, op, res⟩ := by
      cases hq : op.isQuiet with
      | true =>
        have := step_quiet_sites (env := env) (mem := mem) hq
          (fun src h => hsrc _ (List.mem_cons_self ..) src h) hi
        rw [hstep] at this
        refine ⟨s, this, h01, ?_⟩
        unfold occupiedAfter
        cases op <;> first | rfl | cases hq
      | false =>
        rcases step_loud hq hstep with ⟨e, rfl, rfl⟩ | h
        · refine ⟨s, hi, h01, ?_⟩
          unfold occupiedAfter
          cases op <;> rfl
        · have vac : ∀ j, c.vacateSite j = .ok c1 → (j = i → s.isOccupied = true) → ∃ s1 : Site K, c1.sites.get? i = some s1 ∧
              (s1.occupied = 0 ∨ s1.occupied = 1) ∧ s1.isOccupied = if j = i then false else s.isOccupied := by
            intro j hj hocc
            obtain ⟨-, -, rfl⟩ := vacateSite_ok hj
            by_cases hji : j = i
            · subst hji
              have hat : c.siteAt j = s := by unfold siteAt; rw [hi]; rfl
              have h1 : s.occupied = 1 := by
                have := hocc rfl
                unfold Site.isOccupied at this
                rcases h01 with h | h
                · rw [h] at this; cases this
                · exact h
              refine ⟨{ s with occupied := s.occupied - 1 }, ?_, Or.inl (by simp only; omega), ?_⟩
              · show IMap.get? (IMap.set c.sites j _) j = _
                rw [IMap.get?_set_self, hat]
              · rw [if_pos rfl]
                unfold Site.isOccupied
                rw [h1]; rfl
            · refine ⟨s, ?_, h01, by rw [if_neg hji]⟩
              show IMap.get? (IMap.set c.sites j _) i = _
              rw [IMap.get?_set_ne _ _ hji, hi]
          cases op with
          | addSite | addSites | update | migrateSitesFrom | getVisitFrequency | setVisitFrequency => cases hq
          | occupySite j =>
            obtain ⟨h, rfl⟩ := h
            obtain ⟨-, -, rfl⟩ := occupySite_ok h
            unfold occupiedAfter
            simp only
            by_cases hji : j = i
            · subst hji
              refine ⟨(c.siteAt j).setToOccupiedStatus, ?_, Or.inr rfl, by rw [if_pos rfl]; rfl⟩
              exact IMap.get?_set_self ..
            · refine ⟨s, ?_, h01, by rw [if_neg hji]⟩
              show IMap.get? (IMap.set c.sites j _) i = _
              rw [IMap.get?_set_ne _ _ hji, hi]
          | vacateSite j => obtain ⟨h, rfl⟩ := h; exact vac j h hv1
          | removeWalker w j => obtain ⟨h, rfl⟩ := h; exact vac j h hv1
          | occupy => rw [occupy_ok h.1]; exact ⟨s, hi, h01, rfl⟩
          | vacate => rw [vacate_ok h.1]; exact ⟨s, hi, h01, rfl⟩
          | getDwellTime w e =>
            obtain ⟨t, h, -⟩ := h
            obtain ⟨_, _, -, -, rfl, -, -⟩ := getDwellTime_ok h
            exact ⟨s, hi, h01, by unfold occupiedAfter; rfl⟩
          | pickNewSiteId w u =>
            obtain ⟨n, h, -⟩ := h
            obtain ⟨_, -, ⟨-, -, rfl⟩ | ⟨-, -, rfl⟩⟩ := pickNewSiteId_ok h
            · exact ⟨s, hi, h01, by unfold occupiedAfter; rfl⟩
            · exact ⟨s, hi, h01, by unfold occupiedAfter; rfl⟩
          | setResolution r => obtain ⟨-, rfl⟩ := h; exact ⟨s, hi, h01, by unfold occupiedAfter; rfl⟩
          | setConvergenceMethod m => rw [h]; exact ⟨s, hi, h01, by unfold occupiedAfter; rfl⟩
          | setConvergenceTolerance t => obtain ⟨-, rfl⟩ := h; exact ⟨s, hi, h01, by unfold occupiedAfter; rfl⟩
          | setConvergenceIterations n => obtain ⟨-, rfl⟩ := h; exact ⟨s, hi, h01, by unfold occupiedAfter; rfl⟩
          | setRandomSeed n => rw [h]; exact ⟨s, hi, h01, by unfold occupiedAfter; rfl⟩
    obtain ⟨s1, g1, g2, g3⟩ := key
    have := ih g1 g2 (by rw [g3]; exact hv2) fun ev he => hsrc ev (List.mem_cons_of_mem _ he)
    rw [this, g3]
    rfl

/-- **C43, negation of the full statement.** However walkers enter and leave the sites of a cluster, `isOccupied()` is false
(unless the cluster itself is also told to be occupied without naming a site). -/
theorem C43_negation (ht : Trace env (Cluster.new id) evs c) (hop : ∀ ev ∈ evs, ev.op ≠ .occupy) :
    c.isOccupied = false := by
  have key : ∀ {a b : Cluster K} {evs : List (Event K)}, Trace env a evs b → a.occupied ≤ 0 →
      (∀ ev ∈ evs, ev.op ≠ .occupy) → b.occupied ≤ 0 := by
    intro a b evs ht h0 hop
    induction ht with
    | nil => exact h0
    | @cons c c1 c' op res evs mem hstep hg htr ih =>
      refine ih ?_ fun ev he => hop ev (List.mem_cons_of_mem _ he)
      cases hq : op.isQuiet with
      | true =>
        have := step_quiet (c := c) (env := env) (mem := mem) hq
        rw [hstep] at this
        rw [this.occupied]; exact h0
      | false =>
        rcases step_loud hq hstep with ⟨e, rfl, rfl⟩ | h
        · exact h0
        · cases op with
          | addSite | addSites | update | migrateSitesFrom | getVisitFrequency | setVisitFrequency => cases hq
          | occupySite j => obtain ⟨-, -, rfl⟩ := occupySite_ok h.1; exact h0
          | vacateSite j => obtain ⟨-, -, rfl⟩ := vacateSite_ok h.1; show c.occupied - 1 ≤ 0; omega
          | removeWalker w j => obtain ⟨-, -, rfl⟩ := vacateSite_ok h.1; show c.occupied - 1 ≤ 0; omega
          | occupy => exact absurd rfl (hop _ (List.mem_cons_self ..))
          | vacate => rw [vacate_ok h.1]; show c.occupied - 1 ≤ 0; omega
          | getDwellTime w e =>
            obtain ⟨t, h, -⟩ := h
            obtain ⟨_, _, -, -, rfl, -, -⟩ := getDwellTime_ok h
            exact h0
          | pickNewSiteId w u =>
            obtain ⟨n, h, -⟩ := h
            obtain ⟨_, -, ⟨-, -, rfl⟩ | ⟨-, -, rfl⟩⟩ := pickNewSiteId_ok h <;> exact h0
          | setResolution r => obtain ⟨-, rfl⟩ := h; exact h0
          | setConvergenceMethod m => rw [h]; exact h0
          | setConvergenceTolerance t => obtain ⟨-, rfl⟩ := h; exact h0
          | setConvergenceIterations n => obtain ⟨-, rfl⟩ := h; exact h0
          | setRandomSeed n => rw [h]; exact h0
  have := key ht (le_refl _) hop
  unfold isOccupied
  simpa using this

/-- **C43, a concrete case.** Site 1 of the cluster is occupied, and reported occupied, but the cluster is not. It also
meets the hypotheses of C43. -/
theorem C43_counterexample : ∃ (evs : List (Event ℚ)) (c : Cluster ℚ), Trace witEnv (Cluster.new 0) evs c ∧
    (∀ ev ∈ evs, ev.op ≠ .occupy) ∧ c.isOccupiedSite 1 = .ok true ∧ c.isOccupied = false := by
  refine ⟨_, _, runOps_trace (env := witEnv) (mem := witRates) (ops := witOps ++ [.update, .occupySite 1]) (by decide +kernel),
    ?_, by decide +kernel, by decide +kernel⟩
  intro ev hev
  simp only [witOps, runOps, List.cons_append, List.nil_append, List.mem_cons, List.not_mem_nil, or_false] at hev
  rcases hev with rfl | rfl | rfl <;> exact nofun

/-- The hypotheses of `C43_partial`: walkers come and go on site 1. -/
example : ∃ s : Site ℚ, witC1.sites.get? 1 = some s ∧ s.occupied = 0 ∧
    Trace witEnv witC1 (runOps witEnv witRates witC1 removeOps).1 (runOps witEnv witRates witC1 removeOps).2 ∧
    VacatedOnlyIfOccupied 1 s.isOccupied (runOps witEnv witRates witC1 removeOps).1 ∧
    ProperSources (runOps witEnv witRates witC1 removeOps).1 := by
  refine ⟨(witC1.sites.get? 1).getD defaultSite, by decide +kernel, by decide +kernel, runOps_trace (by decide +kernel), ?_, ?_⟩
  · refine ⟨trivial, trivial, fun _ => ?_, trivial, trivial, trivial, trivial⟩
    decide +kernel
  · intro ev hev s hs
    simp only [removeOps, runOps, List.mem_cons, List.not_mem_nil, or_false] at hev
    rcases hev with rfl | rfl | rfl | rfl | rfl | rfl <;> cases hs

/-! ## C44 -/

theorem mem_ids {i : Int} : i ∈ ids c ↔ c.sites.get? i ≠ none := by
  unfold ids
  rw [List.mem_toFinset, Ne, IMap.get?_eq_none_iff, not_not]

/-- **C44.** Merging one cluster into another of which it shares no site: the source is empty, the target holds exactly the
sites of both, and each site keeps its occupancy and its rates. -/
theorem C44_merge {id' : Int} (ht : Trace env (Cluster.new id') evs' src) (hd : Disjoint (ids c) (ids src))
    (h : c.migrateSitesFrom env mem src = (.ok (), c', src')) :
    ids src' = ∅ ∧ ids c' = ids c ∪ ids src ∧
    (∀ i ∈ ids c, c'.isOccupiedSite i = c.isOccupiedSite i ∧ ∀ mem' j, rate mem' c' i j = rate mem' c i j) ∧
    (∀ i ∈ ids src, c'.isOccupiedSite i = src.isOccupiedSite i ∧ ∀ mem' j, rate mem' c' i j = rate mem' src i j) := by
  have hm := migrate_sites (c := c) (env := env) (mem := mem) ((CInv.new id').trace ht).sites
  rw [h] at hm
  rcases hm with ⟨-, hne, -⟩ | ⟨hsrc, hget⟩
  · exact absurd rfl (hne ())
  have hc : ∀ i ∈ ids c, c'.sites.get? i = c.sites.get? i := by
    intro i hi
    rw [hget]
    rw [mem_ids] at hi
    cases hci : c.sites.get? i with
    | none => exact absurd hci hi
    | some s => rfl
  have hs : ∀ i ∈ ids src, c'.sites.get? i = (src.sites.get? i).map (mark c.id) := by
    intro i hi
    have : c.sites.get? i = none := by
      by_contra hn
      exact Finset.disjoint_left.1 hd (mem_ids.2 hn) hi
    rw [hget, this]
  refine ⟨by unfold ids; rw [hsrc]; rfl, ?_, fun i hi => ⟨?_, fun mem' j => ?_⟩, fun i hi => ⟨?_, fun mem' j => ?_⟩⟩
  · ext i
    rw [Finset.mem_union, mem_ids, mem_ids, mem_ids, hget]
    cases c.sites.get? i <;> cases src.sites.get? i <;> simp
  · unfold isOccupiedSite; rw [hc i hi]
  · unfold rate; rw [hc i hi]
  · unfold isOccupiedSite; rw [hs i hi]
    cases src.sites.get? i with
    | none => rfl
    | some s => rfl
  · unfold rate; rw [hs i hi]
    cases src.sites.get? i with
    | none => rfl
    | some s => rfl

/-- **C44, also if the merge fails.** Whatever the outcome of a merge, no site of either cluster is lost and each keeps its
occupancy. -/
theorem C44_nothing_lost {id' : Int} {r : Except Fault Unit} (ht : Trace env (Cluster.new id') evs' src)
    (hd : Disjoint (ids c) (ids src)) (h : c.migrateSitesFrom env mem src = (r, c', src')) :
    (∀ i ∈ ids c, i ∈ ids c' ∧ c'.isOccupiedSite i = c.isOccupiedSite i) ∧
    ∀ i ∈ ids src, (i ∈ ids c' ∧ c'.isOccupiedSite i = src.isOccupiedSite i) ∨
      (i ∈ ids src' ∧ src'.isOccupiedSite i = src.isOccupiedSite i) := by
  have hm := migrate_sites (c := c) (env := env) (mem := mem) ((CInv.new id').trace ht).sites
  rw [h] at hm
  rcases hm with ⟨rfl, -, hk, hs⟩ | ⟨hsrc, hget⟩
  · refine ⟨fun i hi => ⟨hi, rfl⟩, fun i hi => Or.inr ?_⟩
    obtain ⟨s, hsi⟩ := Option.ne_none_iff_exists'.1 (mem_ids.1 hi)
    obtain ⟨s', h1, h2⟩ := hs i s hsi
    refine ⟨by rw [mem_ids, h1]; exact nofun, ?_⟩
    unfold isOccupiedSite
    rw [h1, hsi]
    rcases h2 with rfl | rfl <;> rfl
  · constructor
    · intro i hi
      obtain ⟨s, hsi⟩ := Option.ne_none_iff_exists'.1 (mem_ids.1 hi)
      have := hget i
      rw [hsi] at this
      refine ⟨by rw [mem_ids, this]; exact nofun, ?_⟩
      unfold isOccupiedSite
      rw [this, hsi]
    · intro i hi
      left
      obtain ⟨s, hsi⟩ := Option.ne_none_iff_exists'.1 (mem_ids.1 hi)
      have hn : c.sites.get? i = none := by
        by_contra hn
        exact Finset.disjoint_left.1 hd (mem_ids.2 hn) hi
      have := hget i
      rw [hn, hsi] at this
      refine ⟨by rw [mem_ids, this]; exact nofun, ?_⟩
      unfold isOccupiedSite
      rw [this, hsi]
      rfl

/-- A second cluster: sites 3 (to 1 and 4 at rate 1) and 4 (to 3 and 5 at rate 1), updated, with a walker on 4; site 3
has been visited 6 times. -/
def mergeSrc : List (Event ℚ) × Cluster ℚ := runOps witEnv witRates (Cluster.new 1)
  [.addSites [wit3, witSite 4 [(3, 5), (5, 6)]], .update, .occupySite 4, .setVisitFrequency 6 3]

/-- The first cluster, site 1 visited 5 times, with a walker on it that has been counted. -/
def mergeTgt : List (Event ℚ) × Cluster ℚ := runOps witEnv witRates (Cluster.new 0)
  (witOps ++ [.update, .setVisitFrequency 5 1, .occupySite 1])

/-- The hypotheses of C44: the merge of the two. -/
example : Trace witEnv (Cluster.new 1) mergeSrc.1 mergeSrc.2 ∧ Disjoint (ids mergeTgt.2) (ids mergeSrc.2) ∧
    mergeTgt.2.migrateSitesFrom witEnv witRates mergeSrc.2 = (.ok (),
      (mergeTgt.2.migrateSitesFrom witEnv witRates mergeSrc.2).2.1, (mergeTgt.2.migrateSitesFrom witEnv witRates mergeSrc.2).2.2) ∧
    ids mergeSrc.2 = {3, 4} ∧ mergeSrc.2.isOccupiedSite 4 = .ok true ∧ mergeTgt.2.isOccupiedSite 1 = .ok true :=
  ⟨runOps_trace (by decide +kernel), by decide +kernel, by decide +kernel, by decide +kernel, by decide +kernel,
    by decide +kernel⟩

/-- A merge that fails: the source was never updated, so its visit counts cannot be read. -/
example : Trace witEnv (Cluster.new 0) witEvs witC0 ∧ Disjoint (ids mergeSrc.2) (ids witC0) ∧
    (mergeSrc.2.migrateSitesFrom witEnv witRates witC0).1 ≠ .ok () :=
  ⟨witC0_trace, by decide +kernel, by decide +kernel⟩

/-! ## C45 -/

/-- **C45 (partial), updates.** Recomputing the probabilities of a cluster leaves the visit counts it reports unchanged. -/
theorem C45_update_partial (ht : Trace env (Cluster.new id) evs c) (h : c.update env mem = (.ok (), c')) {i n : Int}
    (hn : reports c i n) : reports c' i n := by
  unfold reports at hn ⊢
  have := (update_reports (d := (c.getVisitFrequency i).2) ((CInv.new id).trace ht) h (Prod.ext hn rfl)).1
  rw [this]

/-- **C45 (partial), added sites.** Adding sites to a cluster that already reports visits and recomputing leaves the reported
visit counts of its sites unchanged; the visits of the new sites are those they are then set to. -/
theorem C45_addSites_partial {l : List (Site K)} (ht : Trace env (Cluster.new id) evs c) (h1 : c.addSites l = .ok c1)
    (h2 : c1.update env mem = (.ok (), c')) {i n : Int} (hn : reports c i n) : reports c' i n := by
  unfold reports at hn ⊢
  have hci := (CInv.new id).trace ht
  have hS : ∀ (l : List (Site K)) (a b : Cluster K), a.addSites l = .ok b →
      b = { a with sites := b.sites } ∧ ∀ k s, a.sites.get? k = some s → b.sites.get? k = some s := by
    intro l
    induction l with
    | nil => intro a b h; cases h; exact ⟨rfl, fun _ _ h => h⟩
    | cons t l ih =>
      intro a b h
      unfold addSites at h
      rw [bind_eq_ok] at h
      obtain ⟨x, g1, g2⟩ := h
      obtain ⟨hn, rfl⟩ := addSite_ok g1
      obtain ⟨e1, e2⟩ := ih _ b g2
      refine ⟨by rw [e1], fun k s hk => e2 k s ?_⟩
      have : t.id ≠ k := fun e => hn (by rw [e]; exact IMap.mem_keys_iff_get?.2 ⟨s, hk⟩)
      show IMap.get? (IMap.set a.sites t.id _) k = _
      rw [IMap.get?_set_ne _ _ this, hk]
  obtain ⟨e1, e2⟩ := hS l c c1 h1
  have hg := getVisitFrequency_sites (c := c) (S := c1.sites) (i := i) (n := n) (d := (c.getVisitFrequency i).2) (fun k hk => by
    obtain ⟨s, hs⟩ := IMap.mem_keys_iff_get?.1 (hci.visitsSub k hk)
    rw [e2 k s hs, hs]) (Prod.ext hn rfl)
  rw [← e1] at hg
  rw [(update_reports (hci.addSites h1) h2 hg).1]

/-- **C45 (partial), merges.** Merging two clusters that share no site leaves the reported visit count of every site of
either unchanged. -/
theorem C45_merge_partial {id' : Int} (ht : Trace env (Cluster.new id) evs c) (hs : Trace env (Cluster.new id') evs' src)
    (hd : Disjoint (ids c) (ids src)) (h : c.migrateSitesFrom env mem src = (.ok (), c', src')) {j m : Int} (hj : reports c j m) :
    (∀ i n, reports c i n → reports c' i n) ∧ ∀ i n, reports src i n → reports c' i n := by
  have hci := (CInv.new id).trace ht
  have hsi := (CInv.new id').trace hs
  exact migrate_reports hci hsi hd h hj

/-- The hypotheses of C45 on the two clusters of C44: both report the visits of their sites. -/
example : Trace witEnv (Cluster.new 0) mergeTgt.1 mergeTgt.2 ∧ reports mergeTgt.2 1 5 ∧ reports mergeSrc.2 3 6 ∧
    (mergeTgt.2.update witEnv witRates).1 = .ok () ∧ (mergeTgt.2.migrateSitesFrom witEnv witRates mergeSrc.2).1 = .ok () :=
  ⟨runOps_trace (by decide +kernel), by unfold reports; decide +kernel, by unfold reports; decide +kernel, by decide +kernel,
    by decide +kernel⟩

end Mythical
