import Verif.Lemmas.BenchTotal
import Verif.Lemmas.ToFRun
import Verif.Props.Versus

/-! # The simulations with coarse graining return if the rates go both ways (C116) -/

set_option linter.unusedSectionVars false
set_option linter.unusedVariables false

namespace Mythical
open World SystemSpec ProgramSpec BenchSpec BoxSpec CrudeSpec Bench Versus
open _root_.Mythical.ToFSpec (escapeRate RowsWithin OnlyOverflow)
open _root_.Mythical.ToF (memOf layout)
variable {K : Type} [Field K] [LinearOrder K] [IsStrictOrderedRing K] [FloorRing K]
variable {env : Env K} {mem : Addr → K} {m : IMap (IMap Addr)} {sites : List Int} {seed threshold rate : Int} {cutoff : K} {luck luck' : Luck K}

/-- **C116** (partial: only for rates that go both ways, which those of the programs do not, see `C116_counterexample`). A simulation with
whatever threshold makes any number of rounds: nothing is thrown, no assertion of the library fails, nothing undefined happens and no call
goes on for ever. The only other outcomes are the overflow of a counter and the assertion of the program, that a walker hops before the
cutoff. -/
theorem C116_returns_partial (hS : Setting mem m sites cutoff rate luck) (h2 : TwoWay m) (hc : Covering mem luck) (n0 r : Nat) :
    ∃ N x, (∀ f ≥ N, part { env with fuel := f } mem m sites seed threshold cutoff rate luck ⟨World.new n0, []⟩ r = x) ∧
      (OnlyOverflow x ∨ x = .error .assertFail ∧ ∀ (k : Nat) i, sites[k]? = some i → cutoff ≤ (luck.first k).1 / escapeRate mem m i) := by
  cases h0 : start { env with fuel := 0 } mem m sites seed threshold cutoff rate luck ⟨World.new n0, []⟩ with
  | error f =>
    rcases start_spec (env := { env with fuel := 0 }) (n0 := n0) (seed := seed) (threshold := threshold) hS with ⟨s, h, -⟩ | ⟨h, hall⟩
    · rw [h0] at h; cases h
    · refine ⟨0, .error .assertFail, fun f _ => ?_, .inr ⟨rfl, hall⟩⟩
      unfold part
      rw [start_fuel (f' := 0), h]
      rfl
  | ok s =>
    have hst : ∀ f, start { env with fuel := f } mem m sites seed threshold cutoff rate luck ⟨World.new n0, []⟩ = .ok s := fun f => by
      rw [start_fuel (f' := 0), h0]
    obtain ⟨N, x, hx, hN⟩ := loops_returns (env := env) (n0 := n0) (s := s) (v := 0) (N := 0) hS h2 hc r
      (fun f _ => by
        rcases start_spec (env := { env with fuel := f }) (n0 := n0) (seed := seed) (threshold := threshold) hS with ⟨s', h, hI, -⟩ | ⟨h, -⟩
        · rw [hst f] at h; cases h; exact hI
        · rw [hst f] at h; cases h)
      (start_fair (hst 0))
    refine ⟨N, x, fun f hf => ?_, .inl hx⟩
    unfold part
    rw [hst f]
    exact hN f hf

/-- **C116** (no overflow). If the rates are at least `q` each and at most `Q` together for each site, and the threshold is not negative, no
counter overflows in `r` rounds with `(walkers + r) (Q / q² + 3) ≤ 2 (2³¹ - 1)` and `r < 2³⁰`. -/
theorem C116_moderate_partial (hS : Setting mem m sites cutoff rate luck) (h2 : TwoWay m) (hc : Covering mem luck) (h0 : 0 ≤ threshold)
    {q Q : K} (hq : 0 < q) (hQ : 0 < Q) (hw : RowsWithin mem m q Q) {n0 r : Nat}
    (h1 : ((sites.length + r : Nat) : K) * (Q / (q * q) + 3) ≤ 2 * 2147483647) (h3 : n0 + 2 * r ≤ 2147483647) (h4 : r < 2 ^ 30) :
    ∃ N x, (∀ f ≥ N, part { env with fuel := f } mem m sites seed threshold cutoff rate luck ⟨World.new n0, []⟩ r = x) ∧
      ((∃ s fin, x = .ok (s, fin)) ∨
        x = .error .assertFail ∧ ∀ (k : Nat) i, sites[k]? = some i → cutoff ≤ (luck.first k).1 / escapeRate mem m i) := by
  obtain ⟨N, x, hN, hx⟩ := C116_returns_partial (env := env) (seed := seed) (threshold := threshold) hS h2 hc n0 r
  have hcalm : Mythical.Calm x := by
    rw [← hN N le_rfl]
    unfold part
    rcases start_spec (env := { env with fuel := N }) (n0 := n0) (seed := seed) (threshold := threshold) hS with ⟨s, h, hI, -⟩ | ⟨h, -⟩
    · rw [h, ok_bind]
      exact loops_calm hS hI hq hQ hw (tally_start h0 h) (by rw [Nat.zero_add]; exact ⟨h1, h3, h4⟩)
    · rw [h, error_bind]
      exact .err soft_assert
  refine ⟨N, x, hN, ?_⟩
  rcases hx with (⟨⟨s, fin⟩, h⟩ | h | h) | h
  · exact .inl ⟨s, fin, h⟩
  · exact absurd rfl (hcalm _ h).1
  · exact absurd rfl (hcalm _ h).2
  · exact .inr h

/-- **C116** (end). If that many rounds are more than the bound of C111 the simulation ends, with all times past the cutoff. -/
theorem C116_ends_partial (hS : Setting mem m sites cutoff rate luck) (h2 : TwoWay m) (hc : Covering mem luck) (h0 : 0 ≤ threshold)
    {q Q ε δ : K} (hq : 0 < q) (hQ : 0 < Q) (hε : 0 < ε) (hw : RowsWithin mem m q Q) (hd : LuckAtLeast ε luck)
    (hδ : δ = min (ε / Q) (1 / Q / max 2 (Q / (q * q * (cutoff / rate))))) {n0 r : Nat} (hr : sites.length * (2 * cutoff / δ + 1) < (r : K))
    (h1 : ((sites.length + r : Nat) : K) * (Q / (q * q) + 3) ≤ 2 * 2147483647) (h3 : n0 + 2 * r ≤ 2147483647) (h4 : r < 2 ^ 30) :
    ∃ N x, (∀ f ≥ N, whole { env with fuel := f } mem m sites seed threshold cutoff rate luck ⟨World.new n0, []⟩ r = x) ∧
      ((∃ s, x = .ok s ∧ Consistent m sites.length cutoff s ∧ ∀ e ∈ s.times, cutoff ≤ e.2) ∨
        x = .error .assertFail ∧ ∀ (k : Nat) i, sites[k]? = some i → cutoff ≤ (luck.first k).1 / escapeRate mem m i) := by
  obtain ⟨N, x, hN, hx⟩ := C116_moderate_partial (env := env) (seed := seed) (n0 := n0) hS h2 hc h0 hq hQ hw h1 h3 h4
  rcases hx with ⟨s, fin, rfl⟩ | ⟨rfl, hall⟩
  · cases fin with
    | false => exact absurd (C111_rounds hS hq hQ hε hw hd hδ (hN N le_rfl)) (not_le.2 hr)
    | true =>
      obtain ⟨c1, c2, -⟩ := C111_run hS (hN N le_rfl)
      refine ⟨N, .ok s, fun f hf => ?_, .inl ⟨s, rfl, c1, c2 rfl⟩⟩
      unfold whole
      rw [hN f hf]
      rfl
  · refine ⟨N, .error .assertFail, fun f hf => ?_, .inr ⟨rfl, hall⟩⟩
    unfold whole
    rw [hN f hf]
    rfl

/-- **C116** (both simulations). Then the program runs to its end and prints a number of clusters, unless one of its two simulations has no
walker that hops before the cutoff. -/
theorem C116_both_partial (hS : Setting mem m sites cutoff rate luck) (hS' : Setting mem m sites cutoff rate luck') (h2 : TwoWay m)
    (hc : Covering mem luck') (h0 : 0 ≤ threshold)
    {q Q ε δ : K} (hq : 0 < q) (hQ : 0 < Q) (hε : 0 < ε) (hw : RowsWithin mem m q Q) (hd : LuckAtLeast ε luck) (hd' : LuckAtLeast ε luck')
    (hδ : δ = min (ε / Q) (1 / Q / max 2 (Q / (q * q * (cutoff / rate))))) {r : Nat} (hr : sites.length * (2 * cutoff / δ + 1) < (r : K))
    (hb : (r : Int) + sites.length ≤ INT_MAX)
    (h1 : ((sites.length + r : Nat) : K) * (Q / (q * q) + 3) ≤ 2 * 2147483647) (h4 : r < 2 ^ 30) :
    ∃ N x, (∀ f ≥ N, both { env with fuel := f } mem m sites seed threshold cutoff rate luck luck' r r = x) ∧
      ((∃ clusters, x = .ok clusters) ∨ x = .error .assertFail ∧
        ((∀ (k : Nat) i, sites[k]? = some i → cutoff ≤ (luck.first k).1 / escapeRate mem m i) ∨
          ∀ (k : Nat) i, sites[k]? = some i → cutoff ≤ (luck'.first k).1 / escapeRate mem m i)) := by
  obtain ⟨N, x, hN, hx⟩ := C116_ends_partial (env := env) (seed := seed) (n0 := 0) hS' h2 hc h0 hq hQ hε hw hd' hδ hr h1 (by omega) h4
  by_cases hall : ∀ (k : Nat) i, sites[k]? = some i → cutoff ≤ (luck.first k).1 / escapeRate mem m i
  · refine ⟨0, .error .assertFail, fun f _ => ?_, .inr ⟨rfl, .inl hall⟩⟩
    rcases C111_first (env := { env with fuel := f }) (n0 := 0) (seed := seed) hS hb with ⟨h, -⟩ | ⟨⟨k, i, hk, hlt⟩, -⟩
    · unfold both whole
      rw [h]
      rfl
    · exact absurd (hall k i hk) (not_le.2 hlt)
  · have hboth : ∀ f ≥ N, both { env with fuel := f } mem m sites seed threshold cutoff rate luck luck' r r =
        x.map fun s' => s'.prog.world.getClusters.length := fun f hf => by
      rcases C111_both (env := { env with fuel := f }) (seed := seed) (threshold := threshold) (luck' := luck') (r' := r) hS hb with ⟨-, h⟩ | ⟨⟨s, h⟩, -⟩ | ⟨-, h⟩
      · exact absurd h hall
      · exact absurd (C111_rounds hS hq hQ hε hw hd hδ h) (not_le.2 hr)
      · rw [h, hN f hf]
    refine ⟨N, _, hboth, ?_⟩
    rcases hx with ⟨s, rfl, -⟩ | ⟨rfl, hall'⟩
    · exact .inl ⟨_, rfl⟩
    · exact .inr ⟨rfl, .inr hall'⟩

/-! ## A case -/

open Classical in
/-- The draws of `luck`, with its times wherever they are those of paths in the basin, and such times elsewhere. -/
noncomputable def Bench.kindly (mem : Addr → K) (luck : Luck K) : Luck K where
  first := luck.first
  draw evs h := if ∀ v w, (ToFSpec.worldAfter evs).hopMove h h (luck.draw evs h) = .ok (v, w) → CoversTimes mem w v (luck.draw evs h)
    then luck.draw evs h else ToF.withTimes mem (luck.draw evs h) evs h

theorem Bench.kindly_covers (mem : Addr → K) (luck : Luck K) : Covering mem (kindly mem luck) := by
  intro evs h v w e
  by_cases hc : ∀ v w, (ToFSpec.worldAfter evs).hopMove h h (luck.draw evs h) = .ok (v, w) → CoversTimes mem w v (luck.draw evs h)
  · have : (kindly mem luck).draw evs h = luck.draw evs h := if_pos hc
    rw [this] at e ⊢
    exact hc v w e
  · have : (kindly mem luck).draw evs h = ToF.withTimes mem (luck.draw evs h) evs h := if_neg hc
    rw [this] at e ⊢
    exact ToF.withTimes_covers e

theorem Bench.kindly_draw (mem : Addr → K) (luck : Luck K) (evs : List (Event K)) (h : Int) :
    ((kindly mem luck).draw evs h).u = (luck.draw evs h).u ∧ ((kindly mem luck).draw evs h).e = (luck.draw evs h).e := by
  unfold kindly
  dsimp only
  split <;> exact ⟨rfl, rfl⟩

theorem Bench.kindly_setting (h : Setting mem m sites cutoff rate luck) : Setting mem m sites cutoff rate (kindly mem luck) :=
  ⟨h.proper, h.closed, h.apart, h.inside, h.walkers, h.fits, h.cutoff, h.rate, h.first, fun evs k => by
    rw [(kindly_draw mem luck evs k).1, (kindly_draw mem luck evs k).2]; exact h.draw evs k⟩

theorem Bench.kindly_least {ε : K} (h : LuckAtLeast ε luck) : LuckAtLeast ε (kindly mem luck) :=
  ⟨h.1, fun evs k => by rw [(kindly_draw mem luck evs k).2]; exact h.2 evs k⟩

theorem Bench.pair_twoWay : TwoWay sysMap := by unfold TwoWay; decide

/-- Both simulations of the chain of four sites run to their end. -/
example : ∃ N clusters, ∀ f ≥ N, both { Cluster.witEnv with fuel := f } sysRates sysMap [1, 3] 5 0 (1 / 8) 2 pairLuck (kindly sysRates pairLuck)
    100000 100000 = .ok clusters := by
  obtain ⟨N, x, h, ⟨c, rfl⟩ | ⟨-, h1 | h1⟩⟩ := C116_both_partial (env := Cluster.witEnv) (seed := 5) (threshold := 0) (r := 100000)
    (pair_setting (cutoff := 1 / 8) (by norm_num)) (kindly_setting (pair_setting (cutoff := 1 / 8) (by norm_num))) pair_twoWay
    (kindly_covers sysRates pairLuck) le_rfl (q := 1) (Q := 101) (ε := 1 / 10) (by norm_num) (by norm_num) (by norm_num) pair_within pair_luck
    (kindly_least pair_luck) rfl (by decide +kernel) (by decide) (by decide +kernel) (by decide)
  · exact ⟨N, c, h⟩
  · exact absurd (h1 0 1 rfl) (by decide +kernel)
  · exact absurd (h1 0 1 rfl) (by decide +kernel)

/-! ## The rates of the box -/

/-- Rates in a box of three sites per axis: 100 to and fro between the sites 4 and 5 of the lowest plane and from site 5 up to site 14,
1 for all other steps. -/
def Bench.slopeRates : IMap (IMap ℚ) :=
  (Box.cube 3).map fun p => (p.x + 3 * p.y + 3 * 3 * p.z, match Box.around 3 p with
    | .ok ns => ns.map fun nq => (nq.1, if (p.x + 3 * p.y + 3 * 3 * p.z, nq.1) ∈ [((4 : Int), (5 : Int)), (5, 4), (5, 14)] then 100 else 1)
    | .error _ => [])

theorem Bench.slopeRates_box : BoxRates 3 slopeRates := by
  have hwf : (slopeRates.map Prod.fst).Nodup := by decide +kernel
  intro i p hp
  obtain ⟨ns, hns, hnd, hmem⟩ := Box.around_ok (by norm_num) (by norm_num) hp
  refine ⟨ns.map fun nq => (nq.1, if (p.x + 3 * p.y + 3 * 3 * p.z, nq.1) ∈ [((4 : Int), (5 : Int)), (5, 4), (5, 14)] then 100 else 1),
    IMap.get?_of_mem hwf (List.mem_map.2 ⟨p, Box.mem_cube.2 hp.1, ?_⟩), ?_, fun j => ?_, fun jk h => ?_⟩
  · rw [hns, hp.2]
  · unfold IMap.WF
    rw [List.map_map]
    exact hnd
  · unfold IMap.keys
    rw [List.map_map, List.mem_map]
    constructor
    · rintro ⟨⟨j', q⟩, h, rfl⟩
      obtain ⟨a, b, c⟩ := (hmem _ _).1 h
      exact ⟨q, a, hp.1, a.1, b, c⟩
    · rintro ⟨q, a, -, -, b, c⟩
      exact ⟨(j, q), (hmem _ _).2 ⟨a, b, c⟩, rfl⟩
  · obtain ⟨nq, -, rfl⟩ := List.mem_map.1 h
    dsimp only
    split <;> norm_num

theorem Bench.slope_keys : ∀ ir ∈ slopeRates, ∃ p, At 3 ir.1 p := by
  intro ir hir
  obtain ⟨p, hp, rfl⟩ := List.mem_map.1 hir
  exact ⟨p, Box.at_of_inCube (Box.mem_cube.1 hp)⟩

/-- Draws for one walker. -/
def Bench.slopeLuck : Luck ℚ where
  first _ := (1, 1 / 2)
  draw _ _ := witChoice (1 / 2) [2 / 100]

theorem Bench.slope_setting : Setting (memOf slopeRates) (layout slopeRates) [4] 10 100 slopeLuck := by
  obtain ⟨occ, pos, hpl, hseat⟩ := (Crude.place_cases (d := 3) (by norm_num) (by norm_num) (n := 1) [⟨1, 1, 0⟩] 0 [] [] ∅ (by unfold InCube; decide)
    (Crude.seated_zero 3) (by simp) (Nat.zero_le _)).1 (by simp)
  have e : Crude.place 3 1 [⟨1, 1, 0⟩] 0 [] [] = .ok ([4], [(0, ⟨1, 1, 0⟩)]) := by decide +kernel
  rw [e] at hpl
  cases hpl
  exact setting_box (by norm_num) (by norm_num) (by unfold IMap.WF; decide +kernel) slopeRates_box slope_keys ⟨_, List.Perm.refl _, List.forall₂_same.2 fun a _ => ⟨rfl, List.Perm.refl _⟩⟩ (by norm_num) hseat
    (by decide +kernel) (by norm_num) (by norm_num) (fun k => by simp only [slopeLuck, SiteSpec.Draw]; norm_num)
    (fun evs h => by simp only [slopeLuck, witChoice, SiteSpec.Draw]; norm_num)

/-- The times given for a hop are large enough, by computation: from each site there is no step to others in the basin, or ways that take no
longer than one of the times. -/
def Bench.waysB (w : World ℚ) (mem : Addr → ℚ) (h : Int) (a : Choices ℚ) : Bool :=
  match w.hopMove h h a with
  | .error _ => false
  | .ok (v, w1) =>
    match Explorer.default.findBasin a.vis mem w1.sites w1.clusters v with
    | .error _ => false
    | .ok B => B.all fun x => (B.all fun j => (BasinSpec.rate mem w1.sites x j).isNone) || B.all fun y => decide (x = y) ||
        a.times.any fun t => (ways mem w1.sites B x 2).any fun yt => decide (yt.1 = y) && decide (yt.2 ≤ t)

theorem Bench.covers_of_waysB {w w1 : World ℚ} {mem : Addr → ℚ} {h v : Int} {a : Choices ℚ} (hB : waysB w mem h a = true)
    (hm : w.hopMove h h a = .ok (v, w1)) : CoversTimes mem w1 v a := by
  intro B hb x hx y hy hxy hr
  unfold waysB at hB
  rw [hm] at hB
  simp only at hB
  rw [hb] at hB
  simp only at hB
  have h1 := List.all_eq_true.1 hB x hx
  rcases Bool.or_eq_true_iff.1 h1 with h1 | h1
  · have hstuck : ∀ z, BasinSpec.Reach mem w1.sites B x z → z = x := by
      intro z hz
      induction hz with
      | start => rfl
      | hop _ hj q hq ih =>
        have := List.all_eq_true.1 h1 _ hj
        rw [ih] at hq
        rw [hq] at this
        cases this
    exact absurd (hstuck y hr).symm hxy
  · have h2 := List.all_eq_true.1 h1 y hy
    simp only [hxy, decide_false, Bool.false_or, List.any_eq_true, Bool.and_eq_true, decide_eq_true_eq] at h2
    obtain ⟨t, ht, ⟨z, s⟩, hz, rfl, hs⟩ := h2
    exact ⟨t, ht, s, hs, ways_path hz⟩

/-- The start of the walker on site 4, and what its first hop leads to. -/
theorem Bench.slope_start : ∃ s, start Cluster.witEnv (memOf slopeRates) (layout slopeRates) [4] 5 0 10 100 slopeLuck ⟨World.new 0, []⟩ = .ok s ∧
    waysB s.prog.world (memOf slopeRates) 0 (witChoice (1 / 2) [2 / 100]) = true ∧
    advance Cluster.witEnv (memOf slopeRates) 1 10 slopeLuck s = .error .assertFail ∧ s.times.head?.map Prod.fst = some 0 := by
  have h : (match start Cluster.witEnv (memOf slopeRates) (layout slopeRates) [4] 5 0 10 100 slopeLuck ⟨World.new 0, []⟩ with
      | .ok s => waysB s.prog.world (memOf slopeRates) 0 (witChoice (1 / 2) [2 / 100]) &&
          (match advance Cluster.witEnv (memOf slopeRates) 1 10 slopeLuck s with | .error .assertFail => true | _ => false) &&
          decide (s.times.head?.map Prod.fst = some 0)
      | .error _ => false) = true := by decide +kernel
  split at h
  · next s e =>
    simp only [Bool.and_eq_true, decide_eq_true_eq] at h
    refine ⟨s, e, h.1.1, ?_, h.2⟩
    have h2 := h.1.2
    split at h2
    · assumption
    · cases h2
  · cases h

/-- **C116 is false** of the rates of the programs, which do not lead back into the faces of the box through the origin (C85): a walker in
the lowest plane, whose two fast sites have a fast rate up. The three sites are made into a cluster with the first hop, and an assertion of
the library fails, as there is no rate back down. The simulation starts as it should, and its times are those of paths in the basin. -/
theorem C116_counterexample : BoxRates 3 slopeRates ∧ Covering (memOf slopeRates) (kindly (memOf slopeRates) slopeLuck) ∧
    Setting (memOf slopeRates) (layout slopeRates) [4] 10 100 (kindly (memOf slopeRates) slopeLuck) ∧
    (∃ s, part Cluster.witEnv (memOf slopeRates) (layout slopeRates) [4] 5 0 10 100 (kindly (memOf slopeRates) slopeLuck) ⟨World.new 0, []⟩ 0 =
      .ok (s, false)) ∧
    ∀ r, coarse Cluster.witEnv 3 slopeRates 1 [(0, ⟨1, 1, 0⟩)] 5 0 10 (kindly (memOf slopeRates) slopeLuck) (r + 1) = .error .assertFail := by
  obtain ⟨s, hs, hw, ha, hk⟩ := slope_start
  have hs' : start Cluster.witEnv (memOf slopeRates) (layout slopeRates) [4] 5 0 10 100 (kindly (memOf slopeRates) slopeLuck) ⟨World.new 0, []⟩ =
      .ok s := hs
  have hdraw : (kindly (memOf slopeRates) slopeLuck).draw s.prog.calls 0 = slopeLuck.draw s.prog.calls 0 := if_pos fun v w e =>
    covers_of_waysB hw (by rw [(start_fair hs).last] at e; exact e)
  have ha' : advance Cluster.witEnv (memOf slopeRates) 1 10 (kindly (memOf slopeRates) slopeLuck) s = .error .assertFail := by
    rw [← ha]
    unfold advance
    cases ht : s.times with
    | nil => rfl
    | cons e es =>
      rw [ht] at hk
      obtain ⟨k, t⟩ := e
      obtain rfl : k = 0 := by simpa using hk
      simp only
      rw [hdraw]
  refine ⟨slopeRates_box, kindly_covers _ _, kindly_setting slope_setting, ⟨s, ?_⟩, fun r => ?_⟩
  · unfold part
    rw [hs']
    rfl
  · have e : sitesOf 3 [(0, ⟨1, 1, 0⟩)] 1 = .ok [4] := by decide +kernel
    unfold coarse whole part
    rw [e, ok_bind, hs', ok_bind]
    show (loops _ _ 1 _ _ (r + 1) s >>= _) = _
    rw [loops, ha']
    rfl

end Mythical
