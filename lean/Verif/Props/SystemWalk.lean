import Verif.Lemmas.SystemWalkLaw
import Verif.Lemmas.SystemWitness
import Verif.Props.ClusterLimit

/-! # Without clusters the walkers perform the exclusion process given by the rates (C77) -/

set_option linter.unusedSectionVars false
set_option linter.unusedVariables false

namespace Mythical
open World SystemSpec MeasureTheory

/-- **C77** (the hops return). In a history with proper calls of a system with positive rates, in which no cluster exists and every
site has rates out of it: if no attempt at coarse graining is due in the next `N` hops and fewer than 2^31 visits will have been
made by then, then these hops return, whichever walkers in the system make them, for all draws. -/
theorem C77_returns {env : Env ℝ} {mem : Addr → ℝ} {n : Nat} {evs : List (Event ℝ)} {w : World ℝ}
    (ht : Trace env (World.new n) evs w) (hu : Usage evs) (hf : RatesFixed mem evs) (hp : RatesPositive mem evs)
    (hs : SystemsReturn evs) (hd : Draws evs) (hk : SentToKnown evs) (hc : ∀ c, ¬ SystemSpec.Exists w c) (hr : ∀ i, ¬ Drain w i)
    {N : Nat} (hN : walkersIn evs + hopsIn evs + N < 2 ^ 31) (hdue : (pace evs).since + N ≤ (pace evs).thr)
    (hops : Nat → Int × Int) (hact : ∀ k, (hops k).2 ∈ active evs) (a : Nat → Choices ℝ) (x : Fin N → ℝ × ℝ)
    (hx : ∀ k, Uniform (x k)) (k : Fin N) :
    ∃ r, ((worldAfter env mem w hops a x k).step env mem (.hop (hops k).1 (hops k).2 (withDraws (a k) (x k)))).1 = .ok r := by
  have key : ∀ m ≤ N, ∃ evs', active evs' = active evs ∧ Ready env mem n evs' (worldAfter env mem w hops a x m) (N - m) := by
    intro m
    induction m with
    | zero => exact fun _ => ⟨evs, rfl, ht, hu, hf, hp, hs, hd, hk, hc, hr, hN, hdue⟩
    | succ m ih =>
      intro hm
      obtain ⟨evs', e, hready⟩ := ih (by omega)
      rw [show N - m = N - (m + 1) + 1 by omega] at hready
      have he : 0 < (withDraws (a m) (x ⟨m, hm⟩)).e := by
        show 0 < -Real.log (x ⟨m, hm⟩).1
        have := Real.log_neg (hx ⟨m, hm⟩).1.1 (hx ⟨m, hm⟩).1.2
        linarith
      obtain ⟨s, w2, -, -, -, -, hstep, -, -, h2⟩ := hready.hop (hops m).1 (h := (hops m).2) (e ▸ hact m)
        (withDraws (a m) (x ⟨m, hm⟩)) (hx _).2 he
      refine ⟨_, ?_, by rw [worldAfter, dif_pos (show m < N from hm), hstep]; exact h2⟩
      rw [active_snoc, ← e]; rfl
  obtain ⟨evs', e, hready⟩ := key k k.2.le
  rw [show N - (k : Nat) = N - (k + 1) + 1 by have := k.2; omega] at hready
  have he : 0 < (withDraws (a k) (x k)).e := by
    show 0 < -Real.log (x k).1
    have := Real.log_neg (hx k).1.1 (hx k).1.2
    linarith
  obtain ⟨s, w2, -, -, -, -, hstep, -⟩ := hready.hop (hops k).1 (h := (hops k).2) (e ▸ hact k) (withDraws (a k) (x k)) (hx _).2 he
  exact ⟨0, by rw [hstep]⟩

/-- **C77** (the law). In such a system, for independent uniform draws: the probability that the next `N` hops, made by the walkers
`hops`, hand out the next sites `out` and dwell times longer than `t` is the product over the hops of the share of the rate to the
next site in the rates out of the site on which the walker lands, and of the exponential of minus `t` times the sum of these rates.
The walker lands on its next site or, if some walker is there, where it was. -/
theorem C77_law {env : Env ℝ} {mem : Addr → ℝ} {n : Nat} {evs : List (Event ℝ)} {w : World ℝ}
    (ht : Trace env (World.new n) evs w) (hu : Usage evs) (hf : RatesFixed mem evs) (hp : RatesPositive mem evs)
    (hs : SystemsReturn evs) (hd : Draws evs) (hk : SentToKnown evs) (hc : ∀ c, ¬ SystemSpec.Exists w c) (hr : ∀ i, ¬ Drain w i)
    {N : Nat} (hN : walkersIn evs + hopsIn evs + N < 2 ^ 31) (hdue : (pace evs).since + N ≤ (pace evs).thr)
    (hops : Nat → Int × Int) (hact : ∀ k, (hops k).2 ∈ active evs) (a : Nat → Choices ℝ) (out : Nat → Int) (t : Nat → ℝ)
    (h0 : ∀ k, 0 ≤ t k) (land : Nat → Int)
    (hland : ∀ k < N, land k = landing (active evs) (placesAfter (active evs) (placesIn w) hops out k) (hops k).2) :
    volume {x : Fin N → ℝ × ℝ | (∀ k, Uniform (x k)) ∧ ∀ k : Fin N, ∃ y,
      (worldAfter env mem w hops a x (k + 1)).walkers.get? (hops k).2 = some y ∧ y.site = land k ∧ y.pot = out k ∧ t k < y.dwell} =
    ∏ k : Fin N, ENNReal.ofReal (rateTo mem w (land k) (out k) / rateOut mem w (land k) *
      Real.exp (-t k * rateOut mem w (land k))) := by
  have hready : Ready env mem n evs w N := ⟨ht, hu, hf, hp, hs, hd, hk, hc, hr, hN, hdue⟩
  have hset : {x : Fin N → ℝ × ℝ | (∀ k, Uniform (x k)) ∧ ∀ k : Fin N, ∃ y,
      (worldAfter env mem w hops a x (k + 1)).walkers.get? (hops k).2 = some y ∧ y.site = land k ∧ y.pot = out k ∧ t k < y.dwell} =
      Set.pi Set.univ fun k : Fin N => siteBox w (land k) (t k) (out k) := by
    ext x
    simp only [Set.mem_ofPred_eq, Set.mem_pi, Set.mem_univ, true_implies]
    have huni : ∀ k, (∀ k : Fin N, x k ∈ siteBox w (land k) (t k) (out k)) → Uniform (x k) := by
      intro k h
      have := h k
      unfold siteBox at this
      split at this
      · cases this
      · exact this.1
    -- what a hop does, after hops that followed the given ones
    have step : ∀ (k : Nat) (hk : k < N), Uniform (x ⟨k, hk⟩) → Reached env mem n (active evs) w (worldAfter env mem w hops a x k)
        (placesAfter (active evs) (placesIn w) hops out k) (N - k) →
        ((∃ y, (worldAfter env mem w hops a x (k + 1)).walkers.get? (hops k).2 = some y ∧ y.site = land k ∧ y.pot = out k ∧
          t k < y.dwell) ↔ x ⟨k, hk⟩ ∈ siteBox w (land k) (t k) (out k)) ∧
        (x ⟨k, hk⟩ ∈ siteBox w (land k) (t k) (out k) → Reached env mem n (active evs) w (worldAfter env mem w hops a x (k + 1))
          (placesAfter (active evs) (placesIn w) hops out (k + 1)) (N - (k + 1))) := by
      intro k hk hux hreach
      rw [show N - k = N - (k + 1) + 1 by omega] at hreach
      obtain ⟨-, h1, h2⟩ := hreach.hop (hops k).1 (hact k) (a k) hux (t k) (out k)
      rw [← hland k hk] at h1 h2
      rw [worldAfter, dif_pos hk]
      refine ⟨h1, fun h => ?_⟩
      have := h2 h
      rw [placesAfter, ← hland k hk]
      exact this
    have first : Reached env mem n (active evs) w (worldAfter env mem w hops a x 0)
        (placesAfter (active evs) (placesIn w) hops out 0) (N - 0) :=
      ⟨⟨evs, rfl, hready⟩, rfl, fun i => rel_self (fun s => .refl s) _⟩
    constructor
    · rintro ⟨h1, h2⟩
      have key : ∀ k ≤ N, Reached env mem n (active evs) w (worldAfter env mem w hops a x k)
          (placesAfter (active evs) (placesIn w) hops out k) (N - k) := by
        intro k
        induction k with
        | zero => exact fun _ => first
        | succ k ih =>
          intro hk
          obtain ⟨s1, s2⟩ := step k hk (h1 _) (ih (by omega))
          exact s2 (s1.1 (h2 ⟨k, hk⟩))
      intro k
      exact (step k k.2 (h1 _) (key k k.2.le)).1.1 (h2 k)
    · intro h
      have key : ∀ k ≤ N, Reached env mem n (active evs) w (worldAfter env mem w hops a x k)
          (placesAfter (active evs) (placesIn w) hops out k) (N - k) := by
        intro k
        induction k with
        | zero => exact fun _ => first
        | succ k ih =>
          intro hk
          exact (step k hk (huni _ h) (ih (by omega))).2 (h ⟨k, hk⟩)
      exact ⟨fun k => huni k h, fun k => (step k k.2 (huni k h) (key k k.2.le)).1.2 (h k)⟩
  rw [hset, volume_pi_pi]
  exact Finset.prod_congr rfl fun k _ => hready.siteBox_volume (land k) (h0 k) (out k)

/-- **C77** (one walker). If there is one walker in the system, then the probability that its next `N` hops take it along the path
`path`, with dwell times longer than `t`, and that it is then to go on to `path N`, is the product over the sites of the path of
the share of the rate to the next site in the rates out of the site, and of the exponential of minus `t` times the sum of these
rates: it is the random walk in continuous time with the rates of the user. -/
theorem C77_walk {env : Env ℝ} {mem : Addr → ℝ} {n : Nat} {evs : List (Event ℝ)} {w : World ℝ}
    (ht : Trace env (World.new n) evs w) (hu : Usage evs) (hf : RatesFixed mem evs) (hp : RatesPositive mem evs)
    (hs : SystemsReturn evs) (hd : Draws evs) (hk : SentToKnown evs) (hc : ∀ c, ¬ SystemSpec.Exists w c) (hr : ∀ i, ¬ Drain w i)
    {N : Nat} (hN : walkersIn evs + hopsIn evs + N < 2 ^ 31) (hdue : (pace evs).since + N ≤ (pace evs).thr)
    {h : Int} (hact : active evs = [h]) (wid : Int) (a : Nat → Choices ℝ) (path : Nat → Int) (t : Nat → ℝ) (h0 : ∀ k, 0 ≤ t k)
    {x0 : Walker ℝ} (hx0 : w.walkers.get? h = some x0) (hp0 : x0.pot = path 0) (hs0 : x0.site ≠ path 0)
    (hmove : ∀ k < N, path k ≠ path (k + 1)) :
    volume {x : Fin N → ℝ × ℝ | (∀ k, Uniform (x k)) ∧ ∀ k : Fin N, ∃ y,
      (worldAfter env mem w (fun _ => (wid, h)) a x (k + 1)).walkers.get? h = some y ∧ y.site = path k ∧ y.pot = path (k + 1) ∧
      t k < y.dwell} =
    ∏ k : Fin N, ENNReal.ofReal (rateTo mem w (path k) (path (k + 1)) / rateOut mem w (path k) *
      Real.exp (-t k * rateOut mem w (path k))) := by
  have places : ∀ k ≤ N, (placesAfter [h] (placesIn w) (fun _ => (wid, h)) (fun k => path (k + 1)) k h).2 = path k ∧
      (placesAfter [h] (placesIn w) (fun _ => (wid, h)) (fun k => path (k + 1)) k h).1 ≠ path k := by
    intro k
    induction k with
    | zero =>
      intro _
      rw [placesAfter]
      unfold placesIn
      rw [hx0]
      exact ⟨hp0, hs0⟩
    | succ k ih =>
      intro hkN
      specialize ih (by omega)
      rw [placesAfter]
      simp only [Function.update_self]
      refine ⟨trivial, ?_⟩
      unfold landing
      rw [if_neg, ih.1]
      · exact hmove k hkN
      · rintro ⟨h', hm, e⟩
        cases List.mem_singleton.1 hm
        exact ih.2 (e.trans ih.1)
  exact C77_law ht hu hf hp hs hd hk hc hr hN hdue (fun _ => (wid, h)) (fun _ => by rw [hact]; exact List.mem_singleton.2 rfl) a
    (fun k => path (k + 1)) t h0 path (fun k hkN => by
      rw [hact]
      unfold landing
      rw [if_neg, (places k hkN.le).1]
      rintro ⟨h', hm, e⟩
      cases List.mem_singleton.1 hm
      exact (places k hkN.le).2 (e.trans (places k hkN.le).1))

/-- A line of three sites with the rate 1 between neighbours. -/
def lineMap : IMap (IMap Addr) := [(1, [(2, 0)]), (2, [(1, 1), (3, 2)]), (3, [(2, 3)])]

/-- The worlds while the line and two walkers at its ends are set up and coarse graining is switched off. -/
noncomputable def lineWorld (i : Nat) : World ℝ :=
  { (World.new 0 : World ℝ) with
    timeRes := if i < 1 then none else some 1
    thresholdMin := if i < 8 then 1000 else infIterations
    threshold := if i < 8 then 1000 else infIterations
    sites := if i < 2 then [] else [
       (1, ⟨1, if i < 7 then 0 else 1, if i < 7 then 0 else 1, 1, unassignedId, [(2, 0)], [(2, 1)], none⟩),
       (2, ⟨2, 0, 0, 1 / 2, unassignedId, [(1, 1), (3, 2)], [(1, 1 / 2), (3, 1 / 2)], none⟩),
       (3, ⟨3, if i < 7 then 0 else 1, if i < 7 then 0 else if i < 9 then 1 else 0, 1, unassignedId, [(2, 3)], [(2, 1)], none⟩)]
    feats := if i < 2 then [] else [(1, .site 1), (2, .site 2), (3, .site 3)]
    walkers := if i < 3 then [] else if i < 4 then [(10, ⟨unassignedId, unassignedId, -1⟩)]
      else if i < 5 then [(10, ⟨1, unassignedId, -1⟩)]
      else if i < 6 then [(10, ⟨1, unassignedId, -1⟩), (11, ⟨unassignedId, unassignedId, -1⟩)]
      else if i < 7 then [(10, ⟨1, unassignedId, -1⟩), (11, ⟨3, unassignedId, -1⟩)]
      else [(10, ⟨1, 2, 1⟩), (11, ⟨3, 2, 1⟩)] }

/-- The calls that set it up. -/
noncomputable def lineOp : Nat → Op ℝ
  | 0 => .setTimeResolution 1
  | 1 => .initializeSystem lineMap
  | 2 => .newWalker 10
  | 3 => .walkerOccupy 10 1
  | 4 => .newWalker 11
  | 5 => .walkerOccupy 11 3
  | 6 => .initializeWalkers [⟨0, 10, 1, 1 / 2⟩, ⟨1, 11, 1, 1 / 2⟩]
  | 7 => .setMinThreshold infIterations
  | _ => .removeWalker 1 11

/-- Each call returns. -/
theorem line_step (i : Nat) (hi : i < 9) :
    (lineWorld i).step (realEnv 0) (fun _ => 1) (lineOp i) = (.ok 0, lineWorld (i + 1)) := by
  have e : drains lineMap = [] := by decide
  have e3 : truncInt (2⁻¹ : ℝ) = 0 := by
    have : (2⁻¹ : ℝ) < 1 := by norm_num
    simp [truncInt, this]
  have e2 : Site.TruncOk (2⁻¹ : ℝ) := by
    show FitsInt (truncInt (2⁻¹ : ℝ))
    rw [e3]; decide
  have e4 : (1 + 1 : ℝ) = 2 := by norm_num
  have e5 : ¬ (1 : ℝ) ≤ 0 := by norm_num
  have e6 : (2⁻¹ : ℝ) < 1 := by norm_num
  simp only [lineMap] at e
  rcases i with _ | _ | _ | _ | _ | _ | _ | _ | _ | i
  · simp [step, lineOp, setTimeResolution, lineWorld, World.new, Except.map, e5]
  · simp [step, lineOp, lineMap, initializeSystem, lineWorld, World.new, Except.map, initSites, initSite, initDrains, e,
      Site.new, Site.setRatesToNeighbors, Site.setRatesLoop, Site.recalc, Site.calcTau, Site.calcProb, Site.sumRates, IMap.set,
      ok_bind, IMap.has, IMap.get?, Site.setInsert, Site.compare, e2, e3, e4, SiteContainer.addSite, seedSite, nextSeed]
  · simp [step, lineOp, lineWorld, World.new, newWalker, IMap.set]
  · simp [step, lineOp, lineWorld, World.new, walkerOccupy, walkerOf, IMap.set, IMap.get?, ok_bind, simple]
  · simp [step, lineOp, lineWorld, World.new, newWalker, IMap.set]
  · simp [step, lineOp, lineWorld, World.new, walkerOccupy, walkerOf, IMap.set, IMap.get?, ok_bind, simple]
  · simp [step, lineOp, lineWorld, World.new, Except.map, initializeWalkers, initWalkers, initWalker, walkerOf, walkerSite,
      unassignedId, IMap.get?, ok_bind, IMap.set, IMap.has, feat, occupyFeat, dwellAt, pickAt, siteOf, Site.occupy,
      Site.getDwellTime, Site.pickNewSiteId, Site.pickLoop, chk, FitsInt, SiteContainer.put, e6, INT_MAX, INT_MIN]
  · simp [step, lineOp, lineWorld, World.new, World.setMinThreshold]
  · simp [step, lineOp, lineWorld, World.new, World.removeWalker, walkerOf, walkerSite, unassignedId, IMap.get?, ok_bind, removeAt,
      feat, siteOf, Site.vacate, chk, FitsInt, SiteContainer.put, IMap.set, INT_MAX, INT_MIN, simple]
  · omega

/-- The first `m` calls. -/
noncomputable def lineEvs (m : Nat) : List (Event ℝ) :=
  (List.range m).map fun i => ⟨lineWorld i, fun _ => 1, lineOp i, .ok 0, lineWorld (i + 1)⟩

theorem line_trace (m : Nat) (hm : m ≤ 9) : Trace (realEnv 0) (World.new 0) (lineEvs m) (lineWorld m) := by
  induction m with
  | zero =>
    have : lineWorld 0 = World.new 0 := by simp [lineWorld, World.new]
    rw [this]
    exact .nil _
  | succ m ih =>
    have e : lineEvs (m + 1) = lineEvs m ++ [⟨lineWorld m, fun _ => 1, lineOp m, .ok 0, lineWorld (m + 1)⟩] := by
      unfold lineEvs
      rw [List.range_succ, List.map_append]; rfl
    rw [e]
    exact .snoc _ (ih (by omega)) (line_step m (by omega)) trivial

/-- The hypotheses of C77 for the line with two walkers, and for the line after one of them has been removed. -/
theorem line_ready (m : Nat) (hm : m = 8 ∨ m = 9) : Usage (lineEvs m) ∧ RatesFixed (fun _ => 1) (lineEvs m) ∧
    RatesPositive (fun _ => 1) (lineEvs m) ∧ SystemsReturn (lineEvs m) ∧ Draws (lineEvs m) ∧ SentToKnown (lineEvs m) ∧
    (∀ c, ¬ SystemSpec.Exists (lineWorld m) c) ∧ (∀ i, ¬ Drain (lineWorld m) i) ∧
    (∀ N, N < 2 ^ 31 - 2 → walkersIn (lineEvs m) + hopsIn (lineEvs m) + N < 2 ^ 31 ∧
      (pace (lineEvs m)).since + N ≤ (pace (lineEvs m)).thr) := by
  refine ⟨?_, ?_, ?_, ?_, ?_, ?_, ?_, ?_, ?_⟩
  · refine usageB_iff ?_
    rcases hm with rfl | rfl <;>
      simp [lineEvs, List.range_succ, usageB, properB, lineOp, enter, whereIs, lineWorld, IMap.get?, isHop]
  · intro ev hev
    obtain ⟨i, -, rfl⟩ := List.mem_map.1 hev
    rfl
  · intro ev hev m' h1 ir h2 na h3
    exact one_pos
  · rcases hm with rfl | rfl <;>
      simp [lineEvs, List.range_succ, SystemsReturn, lineOp, lineMap, Mentions, unassignedId, INT_MIN] <;>
      · intro i x m hm hi
        rcases hm with ⟨rfl, rfl⟩ | ⟨rfl, rfl⟩ | ⟨rfl, rfl⟩ <;> simp at hi <;> omega
  · rcases hm with rfl | rfl <;>
      simp [lineEvs, List.range_succ, Draws, DrawsOf, lineOp, SiteSpec.Draw] <;> norm_num
  · rcases hm with rfl | rfl <;>
      simp [lineEvs, List.range_succ, SentToKnown, lineOp]
  · rcases hm with rfl | rfl <;>
      simp [SystemSpec.Exists, lineWorld, World.new, World.getClusters, ClusterContainer.getSiteIdsOfClusters, IMap.keys]
  · rcases hm with rfl | rfl <;>
      · rintro i ⟨⟨c, hc⟩, hi⟩
        unfold World.getClusterIdOfSite SiteContainer.getClusterIdOfSite SiteContainer.getSite at hc
        unfold ratesOf at hi
        by_cases e1 : i = 1
        · subst e1; simp [lineWorld, IMap.get?] at hi
        by_cases e2 : i = 2
        · subst e2; simp [lineWorld, IMap.get?] at hi
        by_cases e3 : i = 3
        · subst e3; simp [lineWorld, IMap.get?] at hi
        simp [lineWorld, IMap.get?, error_bind, Ne.symm e1, Ne.symm e2, Ne.symm e3] at hc
  · intro N hN
    rcases hm with rfl | rfl <;>
      simp [lineEvs, List.range_succ, walkersIn, newWalkers, hopsIn, isHop, pace, Pace.after, lineOp, infIterations, INT_MAX] <;>
      omega

/-- Two hops on the line: walker 10 goes to the middle, then walker 11, whose next site this is as well, is blocked and stays where
it is. The middle has two rates 1 out of it, the end one. -/
example (t : Nat → ℝ) (h0 : ∀ k, 0 ≤ t k) (a : Nat → Choices ℝ) :
    volume {x : Fin 2 → ℝ × ℝ | (∀ k, Uniform (x k)) ∧ ∀ k : Fin 2, ∃ y,
      (worldAfter (realEnv 0) (fun _ => 1) (lineWorld 8) (fun k => if k = 0 then (0, 10) else (1, 11)) a x (k + 1)).walkers.get?
        (if (k : Nat) = 0 then ((0 : Int), (10 : Int)) else (1, 11)).2 = some y ∧
      y.site = (if (k : Nat) = 0 then 2 else 3) ∧ y.pot = (if (k : Nat) = 0 then 3 else 2) ∧ t k < y.dwell} =
    ENNReal.ofReal (1 / 2 * Real.exp (-t 0 * 2)) * ENNReal.ofReal (Real.exp (-t 1)) := by
  obtain ⟨hu, hf, hp, hs, hd, hk, hc, hr, hN⟩ := line_ready 8 (.inl rfl)
  have hact : active (lineEvs 8) = [10, 11] := by simp [active, lineEvs, List.range_succ, enter, lineOp]
  have h1 : rateTo (fun _ => 1) (lineWorld 8) 2 3 = 1 := by simp [rateTo, ratesOf, lineWorld, IMap.get?]
  have h2 : rateOut (fun _ => 1) (lineWorld 8) 2 = 2 := by simp [rateOut, ratesOf, lineWorld, IMap.get?]; norm_num
  have h3 : rateTo (fun _ => 1) (lineWorld 8) 3 2 = 1 := by simp [rateTo, ratesOf, lineWorld, IMap.get?]
  have h4 : rateOut (fun _ => 1) (lineWorld 8) 3 = 1 := by simp [rateOut, ratesOf, lineWorld, IMap.get?]
  refine (C77_law (line_trace 8 (by omega)) hu hf hp hs hd hk hc hr (N := 2) (hN 2 (by norm_num)).1 (hN 2 (by norm_num)).2
    (fun k => if k = 0 then (0, 10) else (1, 11)) (fun k => by rw [hact]; split <;> decide) a
    (fun k => if k = 0 then 3 else 2) t h0 (fun k => if k = 0 then 2 else 3) ?_).trans ?_
  · intro k hk
    rw [hact]
    rcases k with _ | _ | k
    · simp [landing, placesAfter, placesIn, lineWorld, IMap.get?]
    · simp [landing, placesAfter, placesIn, lineWorld, IMap.get?, Function.update]
    · omega
  · rw [Fin.prod_univ_two]
    simp [h1, h2, h3, h4]

/-- A walker alone on the line: with coarse graining switched off, and fewer than 2^31 hops, C77 holds for every path. -/
example {N : Nat} (hN : N < 2 ^ 31 - 2) (a : Nat → Choices ℝ) (path : Nat → Int) (t : Nat → ℝ) (h0 : ∀ k, 0 ≤ t k)
    (hp0 : path 0 = 2) (hmove : ∀ k < N, path k ≠ path (k + 1)) :
    volume {x : Fin N → ℝ × ℝ | (∀ k, Uniform (x k)) ∧ ∀ k : Fin N, ∃ y,
      (worldAfter (realEnv 0) (fun _ => 1) (lineWorld 9) (fun _ => (0, 10)) a x (k + 1)).walkers.get? 10 = some y ∧
      y.site = path k ∧ y.pot = path (k + 1) ∧ t k < y.dwell} =
    ∏ k : Fin N, ENNReal.ofReal (rateTo (fun _ => 1) (lineWorld 9) (path k) (path (k + 1)) / rateOut (fun _ => 1) (lineWorld 9) (path k) *
      Real.exp (-t k * rateOut (fun _ => 1) (lineWorld 9) (path k))) := by
  obtain ⟨hu, hf, hp, hs, hd, hk, hc, hr, h⟩ := line_ready 9 (.inr rfl)
  refine C77_walk (line_trace 9 le_rfl) hu hf hp hs hd hk hc hr (h N hN).1 (h N hN).2 (h := 10) ?_ 0 a path t h0
    (x0 := ⟨1, 2, 1⟩) ?_ hp0.symm ?_ hmove
  · simp [active, lineEvs, List.range_succ, enter, lineOp]
  · simp [lineWorld, IMap.get?]
  · rw [hp0]; decide

end Mythical
