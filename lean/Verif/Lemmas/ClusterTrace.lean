import Verif.Lemmas.ClusterTerm

/-! # Lemmas about the cluster: what the calls of a history change -/

set_option linter.unusedSectionVars false

namespace Mythical.Cluster
open Mythical ClusterSpec
variable {K : Type} [Field K] [LinearOrder K] [IsStrictOrderedRing K] [FloorRing K]
variable {env : Env K} {mem : Addr → K} {c c' d : Cluster K}

/-- What adding sites, updating, merging and reading visit counts leave alone. -/
structure Frame (c c' : Cluster K) : Prop where
  id : c'.id = c.id
  visits : c'.visits = c.visits
  occupied : c'.occupied = c.occupied
  resolution : c'.resolution = c.resolution
  iterations : c'.iterations = c.iterations
  tol : c'.tol = c.tol
  method : c'.method = c.method
  remaining : c'.remaining = c.remaining
  seed : c'.seed = c.seed
  sites : ∀ k ∈ c.sites.keys, k ∈ c'.sites.keys
  cumInternal : ∃ x, c'.cumInternal = c.cumInternal ++ x
  cumNeigh : ∃ x, c'.cumNeigh = c.cumNeigh ++ x

theorem Frame.refl (c : Cluster K) : Frame c c :=
  ⟨rfl, rfl, rfl, rfl, rfl, rfl, rfl, rfl, rfl, fun _ h => h, ⟨[], by simp⟩, ⟨[], by simp⟩⟩

theorem Frame.trans (h1 : Frame c c') (h2 : Frame c' d) : Frame c d := by
  obtain ⟨x, hx⟩ := h1.cumInternal
  obtain ⟨y, hy⟩ := h2.cumInternal
  obtain ⟨z, hz⟩ := h1.cumNeigh
  obtain ⟨w, hw⟩ := h2.cumNeigh
  exact ⟨h2.id.trans h1.id, h2.visits.trans h1.visits, h2.occupied.trans h1.occupied, h2.resolution.trans h1.resolution,
    h2.iterations.trans h1.iterations, h2.tol.trans h1.tol, h2.method.trans h1.method, h2.remaining.trans h1.remaining,
    h2.seed.trans h1.seed, fun k hk => h2.sites k (h1.sites k hk), ⟨x ++ y, by rw [hy, hx, List.append_assoc]⟩,
    ⟨z ++ w, by rw [hw, hz, List.append_assoc]⟩⟩

theorem VisitsOnly.frame (h : VisitsOnly c c') : Frame c c' := by
  obtain ⟨⟨v, p, rfl⟩, -⟩ := h
  exact ⟨rfl, rfl, rfl, rfl, rfl, rfl, rfl, rfl, rfl, fun _ h => h, ⟨[], by simp⟩, ⟨[], by simp⟩⟩

theorem Rebuilt.frame {freqs : IMap Int} (h : Rebuilt env mem freqs c c') : Frame c c' :=
  ⟨h.id, h.visits, h.occupied, h.resolution, h.iterations, h.tol, h.method, h.remaining, h.seed,
    fun k hk => by rw [h.sites]; exact hk, ⟨_, h.cumInternal⟩, ⟨_, h.cumNeigh⟩⟩

theorem update_frame (c : Cluster K) : Frame c (c.update env mem).2 := by
  rcases update_cases (env := env) (mem := mem) c with ⟨freqs, c1, c2, h1, h2, h3⟩ | ⟨e, c1, hv, h3⟩
  · have hv := visitFreqsLoop_visitsOnly (c := c) [] c.siteVisits.keys
    rw [h1] at hv
    rw [h3]
    exact hv.frame.trans (rebuild_ok h2).frame
  · rw [h3]; exact hv.frame

theorem frame_sites (S : IMap (Site K)) (h : ∀ k ∈ c.sites.keys, k ∈ S.keys) : Frame c { c with sites := S } :=
  ⟨rfl, rfl, rfl, rfl, rfl, rfl, rfl, rfl, rfl, h, ⟨[], by simp⟩, ⟨[], by simp⟩⟩

theorem addSite_frame {s : Site K} (h : c.addSite s = .ok c') : Frame c c' := by
  obtain ⟨-, rfl⟩ := addSite_ok h
  exact frame_sites _ fun k hk => by rw [IMap.mem_keys_set]; exact Or.inr hk

theorem addSites_frame {l : List (Site K)} (h : c.addSites l = .ok c') : Frame c c' := by
  induction l generalizing c with
  | nil => cases h; exact Frame.refl _
  | cons s l ih =>
    unfold addSites at h
    rw [bind_eq_ok] at h
    obtain ⟨d, h1, h2⟩ := h
    exact (addSite_frame h1).trans (ih h2)

theorem setVisit_frame {n id : Int} (h : c.setVisitFrequency n id = .ok c') : Frame c c' := by
  obtain ⟨rfl, hk, -⟩ := setVisitFrequency_ok h
  exact VisitsOnly.frame ⟨⟨_, _, rfl⟩, IMap.keys_set_of_mem hk⟩

theorem addBack_visitsOnly {l : List (Int × Int)} (h : c.addBackVisits l = .ok c') : VisitsOnly c c' := by
  induction l generalizing c with
  | nil => cases h; exact VisitsOnly.refl _
  | cons x l ih =>
    obtain ⟨id, n⟩ := x
    unfold addBackVisits at h
    rw [bind_eq_ok] at h
    obtain ⟨d, h1, h2⟩ := h
    obtain ⟨rfl, hk, -⟩ := setVisitFrequency_ok h1
    exact VisitsOnly.trans ⟨⟨_, _, rfl⟩, IMap.keys_set_of_mem hk⟩ (ih h2)

theorem migrate_frame (src : Cluster K) : Frame c (c.migrateSitesFrom env mem src).2.1 := by
  unfold migrateSitesFrom
  split
  · exact Frame.refl c
  · next visits src1 _ =>
    simp only
    have hg : Frame c { c with sites := src1.sites.foldl insertIfNew c.sites } :=
      frame_sites _ fun k hk => (insertAll_keys _ _ _).2 (Or.inl hk)
    have hu := update_frame (env := env) (mem := mem) { c with sites := src1.sites.foldl insertIfNew c.sites }
    split
    · next e => rw [e] at hu; exact hg.trans hu
    · next e =>
      rw [e] at hu
      split
      · exact hg.trans hu
      · next hb => exact hg.trans (hu.trans (addBack_visitsOnly hb).frame)

/-- Calls that only change sites, probabilities, time constants and visit counts. -/
def Op.isQuiet : Op K → Bool
  | .addSite _ | .addSites _ | .update | .migrateSitesFrom _ | .getVisitFrequency _ | .setVisitFrequency _ _ => true
  | _ => false

theorem step_quiet {op : Op K} (h : op.isQuiet = true) : Frame c (c.step env mem op).2 := by
  have hsimple : ∀ {r : Except Fault (Cluster K)}, (∀ c', r = .ok c' → Frame c c') → Frame c (c.simple r).2 := by
    intro r hr
    unfold simple; split
    · exact hr _ rfl
    · exact Frame.refl c
  cases op with
  | addSite s => exact hsimple fun _ => addSite_frame
  | addSites l => exact hsimple fun _ => addSites_frame
  | update =>
    have := update_frame (env := env) (mem := mem) c
    unfold Cluster.step; simp only
    split <;> (next he => rw [he] at this; exact this)
  | migrateSitesFrom src =>
    have := migrate_frame (c := c) (env := env) (mem := mem) src
    unfold Cluster.step; simp only
    split <;> (next he => rw [he] at this; exact this)
  | getVisitFrequency id =>
    have := (getVisitFrequency_visitsOnly (c := c) id).frame
    unfold Cluster.step; simp only
    split <;> (next he => rw [he] at this; exact this)
  | setVisitFrequency n id => exact hsimple fun _ => setVisit_frame
  | _ => cases h

theorem simple_cases (c : Cluster K) (r : Except Fault (Cluster K)) :
    (∃ c', r = .ok c' ∧ c.simple r = (.ok .unit, c')) ∨ (∃ e, r = .error e ∧ c.simple r = (.error e, c)) := by
  cases r with
  | ok c' => exact Or.inl ⟨c', rfl, rfl⟩
  | error e => exact Or.inr ⟨e, rfl, rfl⟩

/-- What the other calls change; a failing call changes nothing. -/
theorem step_loud {op : Op K} {res : Except Fault (Out K)} (hq : op.isQuiet = false)
    (h : c.step env mem op = (res, c')) :
    (∃ e, res = .error e ∧ c' = c) ∨
    match op with
    | .occupySite id => c.occupySite id = .ok c' ∧ res = .ok .unit
    | .vacateSite id => c.vacateSite id = .ok c' ∧ res = .ok .unit
    | .occupy => c.occupy = .ok c' ∧ res = .ok .unit
    | .vacate => c.vacate = .ok c' ∧ res = .ok .unit
    | .removeWalker _ id => c.vacateSite id = .ok c' ∧ res = .ok .unit
    | .getDwellTime w e => ∃ t, c.getDwellTime w e = .ok (t, c') ∧ res = .ok (.time t)
    | .pickNewSiteId w u => ∃ n, c.pickNewSiteId w u = .ok (n, c') ∧ res = .ok (.num n)
    | .setResolution r => 2 ≤ r ∧ c' = { c with resolution := r, timeInc := c.tau.map fun t => t / r }
    | .setConvergenceMethod m => c' = { c with method := m }
    | .setConvergenceTolerance t => 0 ≤ t ∧ c' = { c with tol := t }
    | .setConvergenceIterations n => 0 < n ∧ c' = { c with iterations := n.toNat }
    | .setRandomSeed n => c' = c.setRandomSeed n
    | _ => False := by
  have hs : ∀ {r : Except Fault (Cluster K)}, c.simple r = (res, c') →
      (∃ e, res = .error e ∧ c' = c) ∨ (r = .ok c' ∧ res = .ok .unit) := by
    intro r hr
    rcases simple_cases c r with ⟨d, h1, h2⟩ | ⟨e, h1, h2⟩
    · rw [h2] at hr; cases hr; exact Or.inr ⟨h1, rfl⟩
    · rw [h2] at hr; cases hr; exact Or.inl ⟨e, rfl, rfl⟩
  cases op with
  | addSite | addSites | update | migrateSitesFrom | getVisitFrequency | setVisitFrequency => cases hq
  | occupySite id => exact hs h
  | vacateSite id => exact hs h
  | occupy => exact hs h
  | vacate => exact hs h
  | removeWalker w id => exact hs h
  | getDwellTime w e =>
    unfold Cluster.step at h
    simp only at h
    split at h
    · next hr => cases h; exact Or.inr ⟨_, hr, rfl⟩
    · cases h; exact Or.inl ⟨_, rfl, rfl⟩
  | pickNewSiteId w u =>
    unfold Cluster.step at h
    simp only at h
    split at h
    · next hr => cases h; exact Or.inr ⟨_, hr, rfl⟩
    · cases h; exact Or.inl ⟨_, rfl, rfl⟩
  | setResolution r =>
    rcases hs h with h | ⟨h, -⟩
    · exact Or.inl h
    · unfold Cluster.setResolution at h
      split at h
      · next hr => cases h; exact Or.inr ⟨hr, rfl⟩
      · cases h
  | setConvergenceMethod m => cases h; exact Or.inr rfl
  | setConvergenceTolerance t =>
    rcases hs h with h | ⟨h, -⟩
    · exact Or.inl h
    · unfold Cluster.setConvergenceTolerance at h
      split at h
      · next hr => cases h; exact Or.inr ⟨hr, rfl⟩
      · cases h
  | setConvergenceIterations n =>
    rcases hs h with h | ⟨h, -⟩
    · exact Or.inl h
    · unfold Cluster.setConvergenceIterations at h
      split at h
      · next hr => cases h; exact Or.inr ⟨hr, rfl⟩
      · cases h
  | setRandomSeed n => cases h; exact Or.inr rfl

/-- Sites are only ever added to a cluster and the cumulative tables are only ever extended; the resolution stays at
least 2. -/
structure Extends (c c' : Cluster K) : Prop where
  sites : ∀ k ∈ c.sites.keys, k ∈ c'.sites.keys
  cumInternal : ∃ x, c'.cumInternal = c.cumInternal ++ x
  cumNeigh : ∃ x, c'.cumNeigh = c.cumNeigh ++ x
  resolution : 2 ≤ c.resolution → 2 ≤ c'.resolution

theorem Extends.refl (c : Cluster K) : Extends c c := ⟨fun _ h => h, ⟨[], by simp⟩, ⟨[], by simp⟩, fun h => h⟩

theorem Extends.trans (h1 : Extends c c') (h2 : Extends c' d) : Extends c d := by
  obtain ⟨x, hx⟩ := h1.cumInternal
  obtain ⟨y, hy⟩ := h2.cumInternal
  obtain ⟨z, hz⟩ := h1.cumNeigh
  obtain ⟨w, hw⟩ := h2.cumNeigh
  exact ⟨fun k hk => h2.sites k (h1.sites k hk), ⟨x ++ y, by rw [hy, hx, List.append_assoc]⟩,
    ⟨z ++ w, by rw [hw, hz, List.append_assoc]⟩, fun h => h2.resolution (h1.resolution h)⟩

theorem Frame.extends (h : Frame c c') : Extends c c' :=
  ⟨h.sites, h.cumInternal, h.cumNeigh, fun hr => by rw [h.resolution]; exact hr⟩

theorem extends_of (hs : ∀ k ∈ c.sites.keys, k ∈ c'.sites.keys) (h1 : c'.cumInternal = c.cumInternal)
    (h2 : c'.cumNeigh = c.cumNeigh) (h3 : c'.resolution = c.resolution) : Extends c c' :=
  ⟨hs, ⟨[], by simp [h1]⟩, ⟨[], by simp [h2]⟩, fun hr => by rw [h3]; exact hr⟩

theorem step_extends {op : Op K} {res : Except Fault (Out K)} (h : c.step env mem op = (res, c')) : Extends c c' := by
  cases hq : op.isQuiet with
  | true =>
    have := step_quiet (c := c) (env := env) (mem := mem) hq
    rw [h] at this
    exact this.extends
  | false =>
    rcases step_loud hq h with ⟨e, -, rfl⟩ | h
    · exact Extends.refl _
    · cases op with
      | addSite | addSites | update | migrateSitesFrom | getVisitFrequency | setVisitFrequency => cases hq
      | occupySite id =>
        obtain ⟨-, -, rfl⟩ := occupySite_ok h.1
        exact extends_of (fun k hk => by rw [IMap.mem_keys_set]; exact Or.inr hk) rfl rfl rfl
      | vacateSite id =>
        obtain ⟨-, -, rfl⟩ := vacateSite_ok h.1
        exact extends_of (fun k hk => by rw [IMap.mem_keys_set]; exact Or.inr hk) rfl rfl rfl
      | removeWalker w id =>
        obtain ⟨-, -, rfl⟩ := vacateSite_ok h.1
        exact extends_of (fun k hk => by rw [IMap.mem_keys_set]; exact Or.inr hk) rfl rfl rfl
      | occupy => rw [occupy_ok h.1]; exact extends_of (fun _ hk => hk) rfl rfl rfl
      | vacate => rw [vacate_ok h.1]; exact extends_of (fun _ hk => hk) rfl rfl rfl
      | getDwellTime w e =>
        obtain ⟨t, h, -⟩ := h
        obtain ⟨_, _, -, -, rfl, -, -⟩ := getDwellTime_ok h
        exact extends_of (fun _ hk => hk) rfl rfl rfl
      | pickNewSiteId w u =>
        obtain ⟨n, h, -⟩ := h
        obtain ⟨_, -, ⟨-, -, rfl⟩ | ⟨-, -, rfl⟩⟩ := pickNewSiteId_ok h
        · exact Extends.refl _
        · exact extends_of (fun _ hk => hk) rfl rfl rfl
      | setResolution r =>
        obtain ⟨hr, rfl⟩ := h
        exact ⟨fun _ hk => hk, ⟨[], by simp⟩, ⟨[], by simp⟩, fun _ => hr⟩
      | setConvergenceMethod m => rw [h]; exact extends_of (fun _ hk => hk) rfl rfl rfl
      | setConvergenceTolerance t => obtain ⟨-, rfl⟩ := h; exact extends_of (fun _ hk => hk) rfl rfl rfl
      | setConvergenceIterations n => obtain ⟨-, rfl⟩ := h; exact extends_of (fun _ hk => hk) rfl rfl rfl
      | setRandomSeed n => rw [h]; exact extends_of (fun _ hk => hk) rfl rfl rfl

theorem Trace.extends {evs : List (Event K)} (h : Trace env c evs c') : Extends c c' := by
  induction h with
  | nil => exact Extends.refl _
  | cons mem hstep _ _ ih => exact (step_extends hstep).trans ih

theorem Trace.append {evs evs' : List (Event K)} (h : Trace env c evs c') (h' : Trace env c' evs' d) :
    Trace env c (evs ++ evs') d := by
  induction h with
  | nil => exact h'
  | cons mem hstep hr _ ih => exact .cons mem hstep hr (ih h')

theorem Trace.split {evs evs' : List (Event K)} (h : Trace env c (evs ++ evs') d) :
    ∃ c', Trace env c evs c' ∧ Trace env c' evs' d := by
  induction evs generalizing c with
  | nil => exact ⟨c, .nil c, h⟩
  | cons ev evs ih =>
    cases h with
    | cons mem hstep hr ht =>
      obtain ⟨c', h1, h2⟩ := ih ht
      exact ⟨c', .cons mem hstep hr h1, h2⟩

/-- Before the first update or merge no visit counts are kept. -/
theorem trace_first {evs : List (Event K)} (h : Trace env c evs c') (h0 : c.siteVisits = [])
    (hev : ∀ ev ∈ evs, match ev.op with
      | .update | .migrateSitesFrom _ => False
      | _ => True) :
    c'.siteVisits = [] ∧ c'.cumInternal = c.cumInternal ∧ c'.cumNeigh = c.cumNeigh := by
  induction h with
  | nil => exact ⟨h0, rfl, rfl⟩
  | @cons c c1 c' op res evs mem hstep hr _ ih =>
    have hone : c1.siteVisits = [] ∧ c1.cumInternal = c.cumInternal ∧ c1.cumNeigh = c.cumNeigh := by
      have hop := hev _ (List.mem_cons_self ..)
      simp only at hop
      have hs : ∀ {r : Except Fault (Cluster K)}, c.simple r = (res, c1) →
          (∀ d, r = .ok d → d.siteVisits = [] ∧ d.cumInternal = c.cumInternal ∧ d.cumNeigh = c.cumNeigh) →
          c1.siteVisits = [] ∧ c1.cumInternal = c.cumInternal ∧ c1.cumNeigh = c.cumNeigh := by
        intro r hr hd
        rcases simple_cases c r with ⟨d, h1, h2⟩ | ⟨e, h1, h2⟩
        · rw [h2] at hr; cases hr; exact hd _ h1
        · rw [h2] at hr; cases hr; exact ⟨h0, rfl, rfl⟩
      have hadd : ∀ (l : List (Site K)) {a b : Cluster K}, a.addSites l = .ok b →
          b.siteVisits = a.siteVisits ∧ b.cumInternal = a.cumInternal ∧ b.cumNeigh = a.cumNeigh := by
        intro l
        induction l with
        | nil => intro a b h; cases h; exact ⟨rfl, rfl, rfl⟩
        | cons s l ihl =>
          intro a b h
          unfold addSites at h
          rw [bind_eq_ok] at h
          obtain ⟨e, h1, h2⟩ := h
          obtain ⟨-, rfl⟩ := addSite_ok h1
          have := ihl h2
          exact this
      have hget : ∀ id, c.getVisitFrequency id = (.error .assertFail, c) := by
        intro id
        unfold getVisitFrequency
        rw [h0]
        rfl
      have hset : ∀ n id, c.setVisitFrequency n id = .error .assertFail := by
        intro n id
        unfold setVisitFrequency
        rw [h0]
        rfl
      cases hq : op.isQuiet with
      | true =>
        cases op with
        | addSite s =>
          refine hs hstep fun d hd => ?_
          obtain ⟨-, rfl⟩ := addSite_ok hd
          exact ⟨h0, rfl, rfl⟩
        | addSites l =>
          refine hs hstep fun d hd => ?_
          obtain ⟨h1, h2⟩ := hadd l hd
          exact ⟨h1.trans h0, h2⟩
        | update => exact hop.elim
        | migrateSitesFrom => exact hop.elim
        | getVisitFrequency id =>
          unfold Cluster.step at hstep
          simp only [hget] at hstep
          cases hstep
          exact ⟨h0, rfl, rfl⟩
        | setVisitFrequency n id =>
          refine hs hstep fun d hd => ?_
          rw [hset] at hd; cases hd
        | _ => cases hq
      | false =>
        rcases step_loud hq hstep with ⟨e, -, rfl⟩ | h
        · exact ⟨h0, rfl, rfl⟩
        · cases op with
          | addSite | addSites | update | migrateSitesFrom | getVisitFrequency | setVisitFrequency => cases hq
          | occupySite id => obtain ⟨-, -, rfl⟩ := occupySite_ok h.1; exact ⟨h0, rfl, rfl⟩
          | vacateSite id => obtain ⟨-, -, rfl⟩ := vacateSite_ok h.1; exact ⟨h0, rfl, rfl⟩
          | removeWalker w id => obtain ⟨-, -, rfl⟩ := vacateSite_ok h.1; exact ⟨h0, rfl, rfl⟩
          | occupy => rw [occupy_ok h.1]; exact ⟨h0, rfl, rfl⟩
          | vacate => rw [vacate_ok h.1]; exact ⟨h0, rfl, rfl⟩
          | getDwellTime w e =>
            obtain ⟨t, h, -⟩ := h
            obtain ⟨_, _, -, -, rfl, -, -⟩ := getDwellTime_ok h
            exact ⟨h0, rfl, rfl⟩
          | pickNewSiteId w u =>
            obtain ⟨n, h, -⟩ := h
            obtain ⟨_, -, ⟨-, -, rfl⟩ | ⟨-, -, rfl⟩⟩ := pickNewSiteId_ok h
            · exact ⟨h0, rfl, rfl⟩
            · exact ⟨h0, rfl, rfl⟩
          | setResolution r => obtain ⟨-, rfl⟩ := h; exact ⟨h0, rfl, rfl⟩
          | setConvergenceMethod m => rw [h]; exact ⟨h0, rfl, rfl⟩
          | setConvergenceTolerance t => obtain ⟨-, rfl⟩ := h; exact ⟨h0, rfl, rfl⟩
          | setConvergenceIterations n => obtain ⟨-, rfl⟩ := h; exact ⟨h0, rfl, rfl⟩
          | setRandomSeed n => rw [h]; exact ⟨h0, rfl, rfl⟩
    obtain ⟨h1, h2, h3⟩ := hone
    obtain ⟨g1, g2, g3⟩ := ih h1 fun ev hev' => hev ev (List.mem_cons_of_mem _ hev')
    exact ⟨g1, g2.trans h2, g3.trans h3⟩

end Mythical.Cluster
