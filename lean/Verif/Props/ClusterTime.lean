import Verif.Props.ClusterPick

/-! # Cluster properties C35, C36: the time a walker spends in a cluster -/

set_option linter.unusedSectionVars false

namespace Mythical
open Cluster ClusterSpec SiteSpec
variable {K : Type} [Field K] [LinearOrder K] [IsStrictOrderedRing K] [FloorRing K]
variable {env : Env K} {mem : Addr → K} {c c1 c2 c3 : Cluster K} {id : Int} {evs evs' : List (Event K)}

/-- Before the first update no dwell time can be handed out. -/
theorem no_time_before_update (h : Trace env c evs c2) (h0 : c.siteVisits = []) (ht : c.tau = some 0)
    (hi : c.timeInc = none ∨ c.timeInc = some 0) (hr : c.remaining = []) (hev : NotUpdated evs) :
    c2.remaining = [] := by
  induction h with
  | nil => exact hr
  | @cons c c1 c' op res evs mem hstep hg htr ih =>
    have h1 : c1.siteVisits = [] :=
      (trace_first (evs := [⟨c, op, res⟩]) (.cons mem hstep hg (.nil _)) h0 fun ev he => by
        rw [List.mem_singleton] at he; subst he; exact hev _ (List.mem_cons_self ..)).1
    have hadd : ∀ (l : List (Site K)) {a b : Cluster K}, a.addSites l = .ok b →
        b.tau = a.tau ∧ b.timeInc = a.timeInc ∧ b.remaining = a.remaining := by
      intro l
      induction l with
      | nil => intro a b h; cases h; exact ⟨rfl, rfl, rfl⟩
      | cons s l ihl =>
        intro a b h
        unfold addSites at h
        rw [bind_eq_ok] at h
        obtain ⟨e, h1, h2⟩ := h
        obtain ⟨-, rfl⟩ := addSite_ok h1
        have := ihl h2
        exact this
    have hop := hev _ (List.mem_cons_self ..)
    simp only at hop
    have hs : ∀ {r : Except Fault (Cluster K)}, c.simple r = (res, c1) →
        (∀ d, r = .ok d → d.tau = c.tau ∧ d.timeInc = c.timeInc ∧ d.remaining = c.remaining) →
        c1.tau = c.tau ∧ c1.timeInc = c.timeInc ∧ c1.remaining = c.remaining := by
      intro r hr hd
      rcases simple_cases c r with ⟨d, h1, h2⟩ | ⟨e, h1, h2⟩
      · rw [h2] at hr; cases hr; exact hd _ h1
      · rw [h2] at hr; cases hr; exact ⟨rfl, rfl, rfl⟩
    have key : c1.tau = some 0 ∧ (c1.timeInc = none ∨ c1.timeInc = some 0) ∧ c1.remaining = [] := by
      have close : c1.tau = c.tau ∧ c1.timeInc = c.timeInc ∧ c1.remaining = c.remaining →
          c1.tau = some 0 ∧ (c1.timeInc = none ∨ c1.timeInc = some 0) ∧ c1.remaining = [] := by
        rintro ⟨a, b, d⟩
        rw [a, b, d]
        exact ⟨ht, hi, hr⟩
      cases hq : op.isQuiet with
      | true =>
        apply close
        cases op with
        | addSite s =>
          refine hs hstep fun d hd => ?_
          obtain ⟨-, rfl⟩ := addSite_ok hd
          exact ⟨rfl, rfl, rfl⟩
        | addSites l => exact hs hstep fun d hd => hadd l hd
        | update => exact hop.elim
        | migrateSitesFrom => exact hop.elim
        | getVisitFrequency id =>
          have := getVisitFrequency_visitsOnly (c := c) id
          unfold Cluster.step at hstep
          simp only at hstep
          have e : c1 = (c.getVisitFrequency id).2 := by
            split at hstep <;> (next he => rw [he]; cases hstep; rfl)
          rw [e]
          obtain ⟨⟨v, p, h⟩, -⟩ := this
          rw [h]
          exact ⟨rfl, rfl, rfl⟩
        | setVisitFrequency n id =>
          refine hs hstep fun d hd => ?_
          obtain ⟨rfl, -, -⟩ := setVisitFrequency_ok hd
          exact ⟨rfl, rfl, rfl⟩
        | _ => cases hq
      | false =>
        rcases step_loud hq hstep with ⟨e, -, rfl⟩ | h
        · exact ⟨ht, hi, hr⟩
        · cases op with
          | addSite | addSites | update | migrateSitesFrom | getVisitFrequency | setVisitFrequency => cases hq
          | occupySite id => obtain ⟨-, -, rfl⟩ := occupySite_ok h.1; exact ⟨ht, hi, hr⟩
          | vacateSite id => obtain ⟨-, -, rfl⟩ := vacateSite_ok h.1; exact ⟨ht, hi, hr⟩
          | removeWalker w id => obtain ⟨-, -, rfl⟩ := vacateSite_ok h.1; exact ⟨ht, hi, hr⟩
          | occupy => rw [occupy_ok h.1]; exact ⟨ht, hi, hr⟩
          | vacate => rw [vacate_ok h.1]; exact ⟨ht, hi, hr⟩
          | getDwellTime w e =>
            exfalso
            obtain ⟨t, h, -⟩ := h
            obtain ⟨tau, dt, h1, h2, -, h3, -⟩ := getDwellTime_ok h
            rw [hr, show (IMap.get? ([] : IMap K) w).getD (e * tau) = e * tau from rfl] at h3
            rw [ht] at h1
            cases h1
            rw [mul_zero] at h3
            rcases hi with hi | hi
            · rw [hi] at h2; cases h2
            · rw [hi] at h2; cases h2; rcases h3 with h3 | h3 <;> exact lt_irrefl _ h3
          | pickNewSiteId w u =>
            obtain ⟨n, h, -⟩ := h
            obtain ⟨r, hr', -⟩ := pickNewSiteId_ok h
            rw [hr] at hr'
            cases hr'
          | setResolution r =>
            obtain ⟨-, rfl⟩ := h
            refine ⟨ht, Or.inr ?_, hr⟩
            show c.tau.map _ = _
            rw [ht]
            show some (0 / r) = _
            rw [zero_div]
          | setConvergenceMethod m => rw [h]; exact ⟨ht, hi, hr⟩
          | setConvergenceTolerance t => obtain ⟨-, rfl⟩ := h; exact ⟨ht, hi, hr⟩
          | setConvergenceIterations n => obtain ⟨-, rfl⟩ := h; exact ⟨ht, hi, hr⟩
          | setRandomSeed n => rw [h]; exact ⟨ht, hi, hr⟩
    exact ih h1 key.1 key.2.1 key.2.2 fun ev he => hev ev (List.mem_cons_of_mem _ he)

/-- What the cluster remembers about a walker agrees with the observer's book. -/
def Booked (o : Option (Stay K)) (r : Option K) : Prop :=
  match o, r with
  | none, none => True
  | some a, some r => 0 ≤ a.given ∧ ((0 < r ∧ r = a.drawn - a.given) ∨ (r ≤ 0 ∧ a.given = a.drawn)) ∧ 0 < a.given
  | _, _ => False

theorem booked_of_same {S : Finset Int} {w : Int} {o : Option (Stay K)} {ev : Event K} {c' : Cluster K}
    (hb : Booked o (ev.pre.remaining.get? w)) (h1 : book S w o ev = o) (h2 : c'.remaining = ev.pre.remaining) :
    Booked (book S w o ev) (c'.remaining.get? w) := by rw [h1, h2]; exact hb

theorem remaining_of_other {op : Op K} {res : Except Fault (Out K)} (h : c.step env mem op = (res, c1))
    (h1 : ∀ w e, op ≠ .getDwellTime w e) (h2 : ∀ w u, op ≠ .pickNewSiteId w u) : c1.remaining = c.remaining := by
  cases hq : op.isQuiet with
  | true => have := step_quiet (c := c) (env := env) (mem := mem) hq; rw [h] at this; exact this.remaining
  | false =>
    rcases step_loud hq h with ⟨e, -, rfl⟩ | h
    · rfl
    · cases op with
      | addSite | addSites | update | migrateSitesFrom | getVisitFrequency | setVisitFrequency => cases hq
      | occupySite id => obtain ⟨-, -, rfl⟩ := occupySite_ok h.1; rfl
      | vacateSite id => obtain ⟨-, -, rfl⟩ := vacateSite_ok h.1; rfl
      | removeWalker w id => obtain ⟨-, -, rfl⟩ := vacateSite_ok h.1; rfl
      | occupy => rw [occupy_ok h.1]
      | vacate => rw [vacate_ok h.1]
      | getDwellTime w e => exact absurd rfl (h1 w e)
      | pickNewSiteId w u => exact absurd rfl (h2 w u)
      | setResolution r => obtain ⟨-, rfl⟩ := h; rfl
      | setConvergenceMethod m => rw [h]
      | setConvergenceTolerance t => obtain ⟨-, rfl⟩ := h; rfl
      | setConvergenceIterations n => obtain ⟨-, rfl⟩ := h; rfl
      | setRandomSeed n => rw [h]; rfl

/-- One handout. -/
theorem handout {w : Int} {e t : K} {o : Option (Stay K)} (h : c.getDwellTime w e = .ok (t, c1))
    (hb : Booked o (c.remaining.get? w)) (hpos : ∀ dt, c.timeInc = some dt → 0 < dt) :
    ∃ tau dt, c.tau = some tau ∧ c.timeInc = some dt ∧ 0 < t ∧ t ≤ dt ∧
      (o = none → t = min (e * tau) dt ∧ Booked (some ⟨e * tau, t, 1⟩) (c1.remaining.get? w)) ∧
      ∀ a, o = some a → a.given < a.drawn ∧ t = min (a.drawn - a.given) dt ∧
        Booked (some ⟨a.drawn, a.given + t, a.calls + 1⟩) (c1.remaining.get? w) := by
  obtain ⟨tau, dt, h1, h2, rfl, h4, h5⟩ := getDwellTime_ok h
  have hdt := hpos dt h2
  refine ⟨tau, dt, h1, h2, ?_, ?_, ?_⟩
  · rw [h5]; exact lt_min (h4.elim (fun h => hdt.trans h) fun h => h) hdt
  · rw [h5]; exact min_le_right _ _
  have hg : IMap.get? (IMap.set c.remaining w ((c.remaining.get? w).getD (e * tau) - dt)) w =
    some ((c.remaining.get? w).getD (e * tau) - dt) := IMap.get?_set_self ..
  have hd : 0 < (c.remaining.get? w).getD (e * tau) := h4.elim (fun h => hdt.trans h) fun h => h
  refine ⟨fun ho => ?_, fun a ho => ?_⟩
  · subst ho
    cases hr : c.remaining.get? w with
    | some r => rw [hr] at hb; exact hb.elim
    | none =>
      rw [hr] at hg h5 hd
      simp only [Option.getD_none] at hg h5 hd ⊢
      refine ⟨h5, ?_⟩
      rw [hg]
      have ht : 0 < t := by rw [h5]; exact lt_min hd hdt
      refine ⟨ht.le, ?_, ht⟩
      rcases lt_or_ge dt (e * tau) with hlt | hge
      · left; rw [h5, min_eq_right hlt.le]; exact ⟨by linarith, rfl⟩
      · right; rw [h5, min_eq_left hge]; exact ⟨by linarith, rfl⟩
  · subst ho
    cases hr : c.remaining.get? w with
    | none => rw [hr] at hb; exact hb.elim
    | some r =>
      rw [hr] at hg h5 hd hb
      simp only [Option.getD_some] at hg h5 hd ⊢
      obtain ⟨hb1, hb2, hb3⟩ := hb
      have hra : r = a.drawn - a.given := by
        rcases hb2 with hb2 | hb2
        · exact hb2.2
        · exact absurd hd (not_lt.2 hb2.1)
      refine ⟨by linarith, by rw [h5, hra], ?_⟩
      rw [hg]
      have ht : 0 < t := by rw [h5]; exact lt_min hd hdt
      refine ⟨by simp only; linarith, ?_, by simp only; linarith⟩
      simp only
      rcases lt_or_ge dt r with hlt | hge
      · left; rw [h5, min_eq_right hlt.le]; exact ⟨by linarith, by rw [hra]; ring⟩
      · right; rw [h5, min_eq_left hge]; exact ⟨by linarith, by rw [hra]; ring⟩

/-- The setting of C35 and C36: a cluster after its first update and any history since. -/
structure Since (env : Env K) (mem : Addr → K) (c1 : Cluster K) (evs : List (Event K)) (c2 : Cluster K) : Prop where
  /-- `c1` is a cluster, made by adding sites with positive rates, mutual links and an exit, after its
  first update -/
  first : ∃ id evs0 c0, Trace env (Cluster.new id) evs0 c0 ∧ NotUpdated evs0 ∧ Sound mem c0 ∧ Mutual mem c0 ∧
    HasExit mem c0 ∧ c0.update env mem = (.ok (), c1)
  /-- `evs` are the calls since -/
  trace : Trace env c1 evs c2
  /-- all time increments are positive -/
  pos : PosIncrement evs
  /-- all draws are in `[0,1)` -/
  draws : ValidDraws evs

theorem Since.split {ev : Event K} (h : Since env mem c1 (evs ++ ev :: evs') c2) :
    ∃ c c', Since env mem c1 evs c ∧ ev.pre = c ∧ Trace env c [ev] c' ∧ (∀ dt, ev.pre.timeInc = some dt → 0 < dt) := by
  obtain ⟨c, h1, h2⟩ := h.trace.split
  refine ⟨c, ?_⟩
  cases h2 with
  | @cons _ c' _ op res _ mem hstep hr ht =>
    refine ⟨c', ⟨h.first, h1, fun e he => h.pos e (List.mem_append_left _ he),
      fun e he => h.draws e (List.mem_append_left _ he)⟩, rfl, .cons mem hstep hr (.nil _), ?_⟩
    exact h.pos _ (List.mem_append_right _ (List.mem_cons_self ..))

/-- One pick: inside while time is left, outside the first update's sites when it is used up. -/
theorem Since.pick (h : Since env mem c1 evs c2) {w n : Int} {u r : K} (hu : Draw u)
    (hp : c2.pickNewSiteId w u = .ok (n, c3)) (hr : c2.remaining.get? w = some r) : n ∈ ids c1 ↔ 0 < r := by
  obtain ⟨id, evs0, c0, h1, h2, h3, h4, hx, h5⟩ := h.first
  constructor
  · intro hn
    by_contra h0
    exact ((C39_partial h1 h2 h3 h4 hx h5 h.trace hu hr hp).2.1 (not_lt.1 h0)).1 hn
  · intro h0
    exact C40_frozen h1 h2 h3 h4 hx h5 h.trace hu hr h0 hp

theorem Since.wf (h : Since env mem c1 evs c2) : c2.remaining.WF := by
  obtain ⟨id, evs0, c0, h1, h2, h3, h4, hx, h5⟩ := h.first
  have := ((CInv.new id).trace h1).update (env := env) (mem := mem)
  rw [h5] at this
  exact (this.trace h.trace).remaining

theorem Since.book (h : Since env mem c1 evs c2) (w : Int) : Booked (stayOf (ids c1) w evs) (c2.remaining.get? w) := by
  induction evs using List.reverseRecOn generalizing c2 with
  | nil =>
    have ht := h.trace
    cases ht
    obtain ⟨id, evs0, c0, h1, h2, h3, h4, hx, h5⟩ := h.first
    have h0 := no_time_before_update h1 rfl rfl (Or.inl rfl) rfl h2
    obtain ⟨-, -, -, -, freqs, c, hv, hr⟩ := after_update h1 h3 h4 h5
    have : c1.remaining = [] := by rw [hr.remaining, hv.frame.remaining, h0]
    rw [this]
    exact trivial
  | append_singleton evs ev ih =>
    obtain ⟨c, c', hs, hpre, htr, hpos⟩ := h.split
    have ih := ih hs
    have hc' : Trace env c [ev] c2 := by
      obtain ⟨c'', h1, h2⟩ := h.trace.split
      have : c'' = c := by
        cases h2 with
        | cons mem hstep hr ht => exact hpre
      rw [← this]; exact h2
    cases hc' with
    | @cons _ c' _ op res _ mem hstep hr ht =>
      cases ht
      rw [show stayOf (ids c1) w (evs ++ [⟨c, op, res⟩]) = ClusterSpec.book (ids c1) w (stayOf (ids c1) w evs) ⟨c, op, res⟩ by
        unfold stayOf; rw [List.foldl_append]; rfl]
      by_cases hg : ∃ v e, op = .getDwellTime v e
      · obtain ⟨v, e, rfl⟩ := hg
        rcases step_loud rfl hstep with ⟨er, rfl, rfl⟩ | ⟨t, h1, rfl⟩
        · exact ih
        · by_cases hvw : v = w
          · subst hvw
            obtain ⟨tau, dt, a1, a2, -, -, a3, a4⟩ := handout h1 ih hpos
            unfold ClusterSpec.book
            simp only [if_true]
            cases ho : stayOf (ids c1) v evs with
            | none => simp only; rw [a1]; exact (a3 ho).2
            | some a => exact (a4 a ho).2.2
          · obtain ⟨_, _, -, -, rfl, -, -⟩ := getDwellTime_ok h1
            unfold ClusterSpec.book
            simp only
            rw [if_neg hvw]
            show Booked _ (IMap.get? (IMap.set c.remaining v _) w)
            rw [IMap.get?_set_ne _ _ hvw]
            exact ih
      · by_cases hk : ∃ v u, op = .pickNewSiteId v u
        · obtain ⟨v, u, rfl⟩ := hk
          rcases step_loud rfl hstep with ⟨er, rfl, rfl⟩ | ⟨n, h1, rfl⟩
          · exact ih
          · have hu : Draw u := h.draws _ (List.mem_append_right _ (List.mem_singleton_self _)) v u rfl
            obtain ⟨r, hr', hcases⟩ := pickNewSiteId_ok h1
            have hin := hs.pick hu h1 hr'
            unfold ClusterSpec.book
            simp only
            by_cases hvw : v = w
            · subst hvw
              rcases hcases with ⟨h0, -, rfl⟩ | ⟨h0, -, rfl⟩
              · rw [if_neg (fun hh => hh.2 (hin.2 h0))]; exact ih
              · rw [if_pos ⟨rfl, fun hh => absurd (hin.1 hh) (not_lt.2 h0)⟩]
                show Booked none (IMap.get? (IMap.erase c.remaining v) v)
                rw [IMap.get?_erase hs.wf, if_pos rfl]
                trivial
            · rw [if_neg (fun hh => hvw hh.1)]
              rcases hcases with ⟨h0, -, rfl⟩ | ⟨h0, -, rfl⟩
              · exact ih
              · show Booked _ (IMap.get? (IMap.erase c.remaining v) w)
                rw [IMap.get?_erase hs.wf, if_neg hvw]
                exact ih
        · have h1 := remaining_of_other hstep (fun v e he => hg ⟨v, e, he⟩) (fun v u he => hk ⟨v, u, he⟩)
          apply booked_of_same ih _ h1
          unfold ClusterSpec.book
          cases op <;> first | rfl | exact absurd ⟨_, _, rfl⟩ hg | exact absurd ⟨_, _, rfl⟩ hk

/-- **C35.** Take a cluster after its first update and any further history of calls about any walkers (including further
sites, updates and merges). At any moment the times handed out to a walker during its stay do not exceed the dwell time
drawn on its arrival; a pick moves the walker to one of the sites of the first update as long as they are less, and
releases it to another site exactly when they add up to the drawn time. A handout during a stay is made only while time
is left. -/
theorem C35_conserved {ev : Event K} (h : Since env mem c1 (evs ++ ev :: evs') c2) :
    (∀ w a, stayOf (ids c1) w evs = some a → 0 < a.given ∧ a.given ≤ a.drawn) ∧
    (∀ w u n, ev.op = .pickNewSiteId w u → ev.res = .ok (.num n) → ∃ a, stayOf (ids c1) w evs = some a ∧
      ((n ∈ ids c1 ∧ a.given < a.drawn) ∨ (n ∉ ids c1 ∧ a.given = a.drawn))) ∧
    (∀ w e t, ev.op = .getDwellTime w e → ev.res = .ok (.time t) → ∃ dt, ev.pre.getTimeIncrement = .ok dt ∧
      match stayOf (ids c1) w evs with
      | none => ∃ tau, ev.pre.tau = some tau ∧ t = min (e * tau) dt
      | some a => a.given < a.drawn ∧ t = min (a.drawn - a.given) dt) := by
  obtain ⟨c, c', hs, hpre, htr, hpos⟩ := h.split
  refine ⟨fun w a ha => ?_, fun w u n hop hres => ?_, fun w e t hop hres => ?_⟩
  · have hb := hs.book w
    rw [ha] at hb
    cases hr : c.remaining.get? w with
    | none => rw [hr] at hb; exact hb.elim
    | some r =>
      rw [hr] at hb
      obtain ⟨h1, h2, h3⟩ := hb
      refine ⟨h3, ?_⟩
      rcases h2 with ⟨h2, h4⟩ | ⟨-, h4⟩
      · linarith
      · exact h4.le
  · have hu := h.draws ev (List.mem_append_right _ (List.mem_cons_self ..)) w u hop
    cases htr with
    | @cons _ _ _ op res _ mem' hstep hr ht =>
      simp only at hop hres
      subst hop hres
      rcases step_loud rfl hstep with ⟨er, he, -⟩ | ⟨m, h1, h2⟩
      · cases he
      · cases h2
        obtain ⟨r, hr', hcases⟩ := pickNewSiteId_ok h1
        have hin := hs.pick hu h1 hr'
        have hb := hs.book w
        rw [hr'] at hb
        cases ho : stayOf (ids c1) w evs with
        | none => rw [ho] at hb; exact hb.elim
        | some a =>
          rw [ho] at hb
          obtain ⟨b1, b2, b3⟩ := hb
          refine ⟨a, rfl, ?_⟩
          rcases b2 with ⟨b2, b4⟩ | ⟨b2, b4⟩
          · exact Or.inl ⟨hin.2 b2, by linarith⟩
          · exact Or.inr ⟨fun hh => absurd (hin.1 hh) (not_lt.2 b2), b4⟩
  · cases htr with
    | @cons _ _ _ op res _ mem' hstep hr ht =>
      simp only at hop hres
      subst hop hres
      rcases step_loud rfl hstep with ⟨er, he, -⟩ | ⟨t', h1, h2⟩
      · cases he
      · cases h2
        obtain ⟨tau, dt, a1, a2, -, -, a3, a4⟩ := handout h1 (hs.book w) hpos
        refine ⟨dt, by unfold getTimeIncrement; simp only; rw [a2], ?_⟩
        cases ho : stayOf (ids c1) w evs with
        | none => exact ⟨tau, a1, (a3 ho).1⟩
        | some a => exact ⟨(a4 a ho).1, (a4 a ho).2.1⟩

/-- **C36, bound.** Every dwell time handed out is positive and at most the time increment. -/
theorem C36_bounded {ev : Event K} (h : Since env mem c1 (evs ++ ev :: evs') c2) {w : Int} {e t : K}
    (hop : ev.op = .getDwellTime w e) (hres : ev.res = .ok (.time t)) :
    ∃ dt, ev.pre.getTimeIncrement = .ok dt ∧ 0 < t ∧ t ≤ dt := by
  obtain ⟨c, c', hs, hpre, htr, hpos⟩ := h.split
  cases htr with
  | @cons _ _ _ op res _ mem' hstep hr ht =>
    simp only at hop hres
    subst hop hres
    rcases step_loud rfl hstep with ⟨er, he, -⟩ | ⟨t', h1, h2⟩
    · cases he
    · cases h2
      obtain ⟨tau, dt, a1, a2, a3, a4, -, -⟩ := handout h1 (hs.book w) hpos
      exact ⟨dt, by unfold getTimeIncrement; simp only; rw [a2], a3, a4⟩

/-- While the time increment is `D`, the `n` handouts of a stay add up to the drawn time or to `n D`. -/
theorem stay_count {D : K} (h : Since env mem c1 evs c2) (hD : ∀ ev ∈ evs, ev.pre.timeInc = some D) (w : Int) {a : Stay K}
    (ha : stayOf (ids c1) w evs = some a) :
    a.given = min a.drawn (a.calls * D) ∧ ((a.calls : K) - 1) * D < a.drawn ∧ 0 < a.calls := by
  induction evs using List.reverseRecOn generalizing c2 a with
  | nil => simp [stayOf] at ha
  | append_singleton evs ev ih =>
    obtain ⟨c, c', hs, hpre, htr, hpos⟩ := h.split
    have ih := fun {a} => ih (a := a) hs fun e he => hD e (List.mem_append_left _ he)
    have hDev := hD ev (List.mem_append_right _ (List.mem_singleton_self _))
    have hDpos : 0 < D := hpos D hDev
    rw [show stayOf (ids c1) w (evs ++ [ev]) = ClusterSpec.book (ids c1) w (stayOf (ids c1) w evs) ev by
      unfold stayOf; rw [List.foldl_append]; rfl] at ha
    by_cases hg : ∃ e t, ev.op = .getDwellTime w e ∧ ev.res = .ok (.time t)
    · obtain ⟨e, t, hop, hres⟩ := hg
      obtain ⟨dt, hdt, hm⟩ := (C35_conserved (evs' := []) h).2.2 w e t hop hres
      unfold getTimeIncrement at hdt
      rw [hDev] at hdt
      cases hdt
      obtain ⟨dt', hdt', ht0, -⟩ := C36_bounded (evs' := []) h hop hres
      unfold ClusterSpec.book at ha
      rw [hop, hres] at ha
      simp only [if_true] at ha
      cases ho : stayOf (ids c1) w evs with
      | none =>
        rw [ho] at hm ha
        obtain ⟨tau, htau, hm⟩ := hm
        simp only [Option.some.injEq] at ha
        rw [htau] at ha
        subst ha
        simp only [Option.getD_some, Nat.cast_one, one_mul, sub_self, zero_mul, zero_lt_one, and_true]
        refine ⟨hm, ?_⟩
        rw [hm] at ht0
        exact ht0.trans_le (min_le_left _ _)
      | some b =>
        rw [ho] at hm ha
        simp only [Option.some.injEq] at ha
        subst ha
        obtain ⟨i1, i2, i3⟩ := ih ho
        simp only [Nat.cast_add, Nat.cast_one, add_sub_cancel_right]
        have hlt : (b.calls : K) * D < b.drawn := by
          by_contra hcon
          rw [min_eq_left (not_lt.1 hcon)] at i1
          linarith [hm.1]
        rw [min_eq_right hlt.le] at i1
        refine ⟨?_, hlt, Nat.succ_pos _⟩
        rw [hm.2, i1]
        rcases le_total (b.drawn - b.calls * D) D with hle | hle
        · rw [min_eq_left hle, min_eq_left (by linarith)]; ring
        · rw [min_eq_right hle, min_eq_right (by linarith)]; ring
    · apply ih
      rw [← ha]
      unfold ClusterSpec.book at ha ⊢
      split
      · next w' e t h1 h2 =>
        rw [if_neg]
        rintro rfl
        exact hg ⟨e, t, h1, h2⟩
      · next w' u n h1 h2 =>
        split
        · next hc => rw [h1, h2] at ha; simp only at ha; rw [if_pos hc] at ha; cases ha
        · rfl
      · rfl

/-- **C36, count.** While the cluster's time increment is `D`, a walker is kept by each of the first `n - 1` picks of its
stay and released by the `n`-th, where `n` is the dwell time drawn over `D`, rounded up. (One handout before each
pick.) -/
theorem C36_count {D : K} {ev : Event K} (h : Since env mem c1 (evs ++ ev :: evs') c2)
    (hD : ∀ e ∈ evs, e.pre.timeInc = some D) {w n : Int} {u : K}
    (hop : ev.op = .pickNewSiteId w u) (hres : ev.res = .ok (.num n)) :
    ∃ a, stayOf (ids c1) w evs = some a ∧ a.calls ≤ ⌈a.drawn / D⌉₊ ∧ (n ∉ ids c1 ↔ a.calls = ⌈a.drawn / D⌉₊) := by
  obtain ⟨a, ha, hcases⟩ := (C35_conserved h).2.1 w u n hop hres
  obtain ⟨c, c', hs, hpre, htr, hpos⟩ := h.split
  obtain ⟨h1, h2, h3⟩ := stay_count hs hD w ha
  have hDpos : 0 < D := by
    cases evs with
    | nil => simp [stayOf] at ha
    | cons e evs => exact hs.pos e (List.mem_cons_self ..) D (hD e (List.mem_cons_self ..))
  have hcast : ((a.calls - 1 : Nat) : K) = (a.calls : K) - 1 := by rw [Nat.cast_sub h3, Nat.cast_one]
  have hlt : a.calls - 1 < ⌈a.drawn / D⌉₊ := by
    rw [Nat.lt_ceil, hcast, lt_div_iff₀ hDpos]; exact h2
  have hle : a.calls ≤ ⌈a.drawn / D⌉₊ := by omega
  refine ⟨a, ha, hle, ?_⟩
  rcases hcases with ⟨hin, hc⟩ | ⟨hout, hc⟩
  · refine ⟨fun hh => absurd hin hh, fun hh => ?_⟩
    exfalso
    have : (a.calls : K) * D < a.drawn := by
      by_contra hcon
      rw [min_eq_left (not_lt.1 hcon)] at h1
      linarith
    have h4 : a.calls < ⌈a.drawn / D⌉₊ := by rw [Nat.lt_ceil, lt_div_iff₀ hDpos]; exact this
    omega
  · refine ⟨fun _ => le_antisymm hle ?_, fun _ => hout⟩
    rw [Nat.ceil_le, div_le_iff₀ hDpos]
    have := min_le_right a.drawn ((a.calls : K) * D)
    rw [← h1, hc] at this
    exact this

/-- A walker arrives with a drawn time of 2.5 time increments; another one comes and goes meanwhile. -/
def timeOps : List (Op ℚ) :=
  [.getDwellTime 7 (1/8), .pickNewSiteId 7 (1/3), .getDwellTime 8 (1/100), .getDwellTime 7 (1/2), .pickNewSiteId 8 (1/3),
    .pickNewSiteId 7 (9/10), .getDwellTime 7 (1/2), .pickNewSiteId 7 (1/2)]

/-- The hypotheses of C35 and C36 on the concrete cluster; the walker is moved to 1, to 2, and released to 3 by the third
pick. -/
example : Since witEnv witRates witC1 (runOps witEnv witRates witC1 timeOps).1 (runOps witEnv witRates witC1 timeOps).2 ∧
    (∀ ev ∈ (runOps witEnv witRates witC1 timeOps).1, ev.pre.timeInc = witC1.timeInc) ∧
    ((runOps witEnv witRates witC1 timeOps).1.map fun ev => match ev.op, ev.res with
      | .pickNewSiteId 7 _, .ok (.num n) => n
      | _, _ => 0) = [0, 1, 0, 0, 0, 2, 0, 3] := by
  have hinc : (∀ ev ∈ (runOps witEnv witRates witC1 timeOps).1, ev.pre.timeInc = witC1.timeInc) := by decide +kernel
  refine ⟨⟨⟨0, witEvs, witC0, witC0_trace, ?_, witC0_sound, witC0_mutual, witC0_exit, witC1_update⟩, runOps_trace (by decide +kernel), ?_,
    ?_⟩, hinc, by decide +kernel⟩
  · intro ev hev; simp [witEvs, runOps, witOps] at hev; rw [hev]; trivial
  · intro ev hev dt hdt
    rw [hinc ev hev] at hdt
    have : ∀ dt, witC1.timeInc = some dt → 0 < dt := by
      intro dt hdt
      have h : 0 < witC1.timeInc.getD 0 := by decide +kernel
      rw [hdt] at h; exact h
    exact this dt hdt
  · intro ev hev w u hop
    simp only [timeOps, runOps, List.mem_cons, List.not_mem_nil, or_false] at hev
    rcases hev with rfl | rfl | rfl | rfl | rfl | rfl | rfl | rfl <;> cases hop <;> constructor <;> norm_num

end Mythical
