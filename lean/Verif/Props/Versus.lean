import Verif.Model.Versus
import Verif.Props.Bench
import Verif.Props.CrudeRun

/-! # The coarse-grained simulation of the programs that compare it with a crude one (C112) -/

set_option linter.unusedSectionVars false
set_option linter.unusedVariables false

namespace Mythical
open World SystemSpec ProgramSpec BenchSpec BoxSpec CrudeSpec Bench Versus
variable {K : Type} [Field K] [LinearOrder K] [IsStrictOrderedRing K] [FloorRing K]

/-- **C112** (what is left of it). Whenever both simulations end: the walkers of the crude one are on different sites of the box and none of
them is due before the cutoff; the coarse-grained one starts with the walkers on just these sites, the *last* ones of the crude one. It
ends with one entry for each walker in the list, in order and none before the cutoff, whose times are the sums of the dwell times; the walkers are
on different sites of the box. What is missing: that the simulations begin with the same sites, see `C112_counterexample`. -/
theorem C112_versus_partial {d : Int} (h3 : 3 ≤ d) (h1 : d ≤ 1290) {R : IMap (IMap K)} (hwf : R.WF) (hR : BoxRates d R)
    (hk : ∀ ir ∈ R, ∃ p, At d ir.1 p) {visit : IMap (IMap K) → List (Int × List (Int × K))} (hv : Rearranged (visit R) R) {n : Nat} (hn : 0 < n)
    {picks : List Cuboid.Pos} (hp : ∀ q ∈ picks, InCube d q) {e : Nat → K} {order : IMap K → List (Int × K)} (ho : ∀ t, (order t).Perm t)
    {cutoff : K} (hc : 0 < cutoff) {ues : List (K × K)} (hu : ∀ ue ∈ ues, ue.1 < 1) {env : Env K} {seed threshold : Int} {luck : Luck K}
    (hl : ∀ k, SiteSpec.Draw (luck.first k).2 ∧ 0 < (luck.first k).1)
    (hd : ∀ evs h, SiteSpec.Draw (luck.draw evs h).u ∧ 0 < (luck.draw evs h).e) {r : Nat} {s : Crude.State K} {s' : Sim K}
    (h : versus env d R visit n picks e order ues seed threshold cutoff luck r = .ok (s, s')) :
    Crude.simulate d R n picks e order cutoff ues = .ok s ∧ Sound d n s ∧ (∀ kt ∈ s.times, cutoff ≤ kt.2) ∧
    ∃ sites, sites.length = n ∧ (∀ (k : Nat) i, sites[k]? = some i → ∃ p, s.positions.get? k = some p ∧ At d i p) ∧
      Setting (ToF.memOf (visit R)) (ToF.layout (visit R)) sites cutoff 100 luck ∧
      part env (ToF.memOf (visit R)) (ToF.layout (visit R)) sites seed threshold cutoff 100 luck ⟨World.new 0, []⟩ r = .ok (s', true) ∧
      Consistent (ToF.layout (visit R)) n cutoff s' ∧ ∀ kt ∈ s'.times, cutoff ≤ kt.2 := by
  obtain ⟨s1, hsim, h⟩ := bind_eq_ok.1 h
  have hsound : Sound d n s1 ∧ ∀ kt ∈ s1.times, over cutoff s1 = true → cutoff ≤ kt.2 := by
    obtain ⟨hyes, hno⟩ := C88_simulation h3 h1 hR hn hp e ho cutoff hu
    rcases Nat.lt_or_ge picks.toFinset.card n with hcard | hcard
    · rw [hno hcard] at hsim
      cases hsim
    obtain ⟨s0, -, hfail, hrun⟩ := hyes hcard
    by_cases hex : ∃ kt ∈ s0.times, kt.2 < cutoff
    · obtain ⟨s2, rounds, e2, hs2, -⟩ := hrun hex
      rw [hsim] at e2
      cases e2
      refine ⟨hs2, fun kt hkt hov => ?_⟩
      have hsort := hs2.sorted
      unfold over at hov
      cases ht : s1.times with
      | nil => rw [ht] at hkt; cases hkt
      | cons a l =>
        rw [ht] at hov hkt hsort
        simp at hov
        rcases List.mem_cons.1 hkt with rfl | hkt
        · exact hov
        · exact hov.trans ((List.pairwise_cons.1 hsort).1 kt hkt)
    · push Not at hex
      rw [hfail hex] at hsim
      cases hsim
  split at h
  swap
  · cases h
  next hov =>
  obtain ⟨s2, hco, h⟩ := bind_eq_ok.1 h
  cases h
  obtain ⟨sites, hsites, hw⟩ := bind_eq_ok.1 hco
  obtain ⟨sites', e', hlen, -, hat⟩ := sitesOf_ok (by omega) h1 hsound.1.seated
  rw [hsites] at e'
  cases e'
  have hS := setting_box h3 h1 hwf hR hk hv hn hsound.1.seated hsites hc (rate := 100) (by norm_num) hl hd
  obtain ⟨⟨s3, fin⟩, hpart, hw⟩ := bind_eq_ok.1 hw
  split at hw
  swap
  · cases hw
  next hfin =>
  cases hw
  have hfin : fin = true := hfin
  subst hfin
  obtain ⟨c1, c2, -⟩ := C111_run hS hpart
  rw [hlen] at c1
  exact ⟨hsim, hsound.1, fun kt hkt => hsound.2 kt hkt hov, sites, hlen, hat, hS, hpart, c1, c2 rfl⟩

/-- Draws for one walker. -/
def Versus.oneLuck : Luck ℚ where
  first _ := (1, 1 / 2)
  draw _ _ := witChoice (1 / 2) [1 / 100]

theorem Versus.oneLuck_first (k : Nat) : SiteSpec.Draw (oneLuck.first k).2 ∧ 0 < (oneLuck.first k).1 := by
  simp only [oneLuck, SiteSpec.Draw]
  norm_num

theorem Versus.oneLuck_draw (evs : List (Event ℚ)) (h : Int) : SiteSpec.Draw (oneLuck.draw evs h).u ∧ 0 < (oneLuck.draw evs h).e := by
  simp only [oneLuck, witChoice, SiteSpec.Draw]
  norm_num

theorem Versus.unit_keys : ∀ ir ∈ Crude.unitRates, ∃ p, At 3 ir.1 p := by
  intro ir hir
  obtain ⟨p, hp, rfl⟩ := List.mem_map.1 hir
  exact ⟨p, Box.at_of_inCube (Box.mem_cube.1 hp)⟩

/-- Both simulations of a walker in a box of 27 sites with all rates 1. -/
def Versus.unitRun : Except Fault (Crude.State ℚ × Sim ℚ) :=
  versus Cluster.witEnv 3 Crude.unitRates (fun R => R) 1 [⟨1, 1, 1⟩] (fun _ => 1) id [(1 / 2, 1), (1 / 2, 1)] 5 infIterations (1 / 5) oneLuck 9

theorem Versus.unit_run : ∃ s s', unitRun = .ok (s, s') ∧ s.positions = [(0, ⟨2, 1, 1⟩)] ∧ s.times = [(0, 2 / 7)] ∧ s'.times = [(0, 2 / 7)] := by
  have h : (match unitRun with
      | .ok (s, s') => decide (s.positions = [(0, ⟨2, 1, 1⟩)] ∧ s.times = [(0, 2 / 7)] ∧ s'.times = [(0, 2 / 7)])
      | .error _ => false) = true := by decide +kernel
  split at h
  · next s s' e => exact ⟨s, s', e, of_decide_eq_true h⟩
  · cases h

/-- All hypotheses of the theorem hold of it. -/
example : ∃ s s', unitRun = .ok (s, s') ∧ Sound 3 1 s ∧ Consistent (ToF.layout Crude.unitRates) 1 (1 / 5) s' := by
  obtain ⟨s, s', h, -⟩ := unit_run
  obtain ⟨-, h1, -, sites, -, -, -, -, h2, -⟩ := C112_versus_partial (by norm_num) (by norm_num) (by unfold IMap.WF; decide +kernel) Crude.unitRates_box unit_keys
    (visit := fun R => R) ⟨_, List.Perm.refl _, List.forall₂_same.2 fun a _ => ⟨rfl, List.Perm.refl _⟩⟩ (by norm_num)
    (by unfold InCube; decide) (fun t => List.Perm.refl _) (by norm_num) (by decide +kernel) oneLuck_first oneLuck_draw h
  exact ⟨s, s', h, h1, h2⟩

/-- **C112** is false of the code: the only walker is put on site 13 for the crude simulation, which it leaves on site 14, and there the
coarse-grained one begins. -/
theorem C112_counterexample : BoxRates 3 Crude.unitRates ∧ ∃ s s' pos, unitRun = .ok (s, s') ∧
    Crude.place 3 1 [⟨1, 1, 1⟩] 0 [] [] = .ok ([13], pos) ∧ sitesOf 3 pos 1 = .ok [13] ∧ sitesOf 3 s.positions 1 = .ok [14] ∧
    part Cluster.witEnv (ToF.memOf Crude.unitRates) (ToF.layout Crude.unitRates) [14] 5 infIterations (1 / 5) 100 oneLuck ⟨World.new 0, []⟩ 9 = .ok (s', true) := by
  obtain ⟨s, s', h, hp, -⟩ := unit_run
  obtain ⟨-, -, -, sites, hlen, hat, -, hpart, -⟩ := C112_versus_partial (by norm_num) (by norm_num) (by unfold IMap.WF; decide +kernel) Crude.unitRates_box unit_keys
    (visit := fun R => R) ⟨_, List.Perm.refl _, List.forall₂_same.2 fun a _ => ⟨rfl, List.Perm.refl _⟩⟩ (by norm_num)
    (by unfold InCube; decide) (fun t => List.Perm.refl _) (by norm_num) (by decide +kernel) oneLuck_first oneLuck_draw h
  refine ⟨Crude.unitRates_box, s, s', [(0, ⟨1, 1, 1⟩)], h, by decide +kernel, by decide +kernel, by rw [hp]; decide +kernel, ?_⟩
  obtain ⟨i, rfl⟩ := List.length_eq_one_iff.1 hlen
  obtain ⟨p, hq, hi⟩ := hat 0 i rfl
  rw [hp] at hq
  obtain rfl : (⟨2, 1, 1⟩ : Cuboid.Pos) = p := Option.some.inj hq
  obtain rfl : i = 14 := hi.2
  exact hpart

end Mythical
