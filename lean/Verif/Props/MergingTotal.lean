import Verif.Lemmas.MergingTotal
import Verif.Lemmas.ToFRun
import Verif.Props.MergingBooks

/-! # The unit test in which two clusters are merged runs through (C120) -/

set_option linter.unusedSectionVars false
set_option linter.unusedVariables false

namespace Mythical
open World SystemSpec ProgramSpec EscapeSpec MergingSpec Merging
open _root_.Mythical.ToF (Prog layout memOf)
open _root_.Mythical.ToFSpec (OnlyOverflow)
variable {K : Type} [Field K] [LinearOrder K] [IsStrictOrderedRing K] [FloorRing K]
variable {env : Env K} {luck : Luck K}

/-- C120: a block, with whatever threshold, order of the rates and draws, makes any number of hops: nothing is thrown, no index is out of
range, no assertion of the library fails, nothing undefined happens and no call goes on for ever. Either the loop ends or a counter
overflows, or the time is still below 1000 after `r` hops. -/
theorem C120_returns {R R' : IMap (IMap K)} {g : Nat} (hR : (table : Except Fault (IMap (IMap K) × Nat)) = .ok (R, g)) (hv : Rearranged R' R)
    (hl : MergingSpec.Lucky luck) (hc : MergingSpec.Covering (memOf R') luck) (threshold : Int) (n0 r : Nat) :
    ∃ N x, (∀ f ≥ N, block { env with fuel := f } (memOf R') (layout R') threshold luck r ⟨World.new n0, []⟩ = x) ∧
      (OnlyOverflow x ∨ x = .error .outOfFuel ∧ ∃ evs w, Trace { env with fuel := N } (World.new n0) evs w ∧
        (stays evs).length = r ∧ time (stays evs) < 1000) := by
  rw [table_grid] at hR
  cases hR
  obtain ⟨N, x, h1, h2⟩ := block_total (env := env) (n0 := n0) (threshold := threshold) (grid_refers hv) hl hc r
  refine ⟨N, x, h1, h2.imp id ?_⟩
  rintro ⟨e, q, hq, h3, h4, -⟩
  exact ⟨e, q.calls, q.world, hq.log.trace, h3, h4⟩

/-- C120: if the exponential draws are at least `ε` the loop ends within `2 · 1000 / δ + 1` hops, where `δ` is the smaller one of
`ε / 10102` and `1 / 10102 / 101.02`, or a counter overflows. -/
theorem C120_ends {R R' : IMap (IMap K)} {g : Nat} (hR : (table : Except Fault (IMap (IMap K) × Nat)) = .ok (R, g)) (hv : Rearranged R' R)
    (hl : MergingSpec.Lucky luck) (hc : MergingSpec.Covering (memOf R') luck) (threshold : Int) {ε δ : K} (hε : 0 < ε) (h1 : ε ≤ luck.first.1)
    (h2 : ∀ evs, ε ≤ (luck.draw evs).e) (hδ : δ = min (ε / 10102) (1 / 10102 / (10102 / 100))) (n0 : Nat) {r : Nat} (hr : 2 * 1000 / δ + 1 < (r : K)) :
    ∃ N x, (∀ f ≥ N, block { env with fuel := f } (memOf R') (layout R') threshold luck r ⟨World.new n0, []⟩ = x) ∧ OnlyOverflow x := by
  rw [table_grid] at hR
  cases hR
  obtain ⟨N, x, h3, h4 | ⟨-, q, hq, h5, h6, h7⟩⟩ := block_total (env := env) (n0 := n0) (threshold := threshold) (grid_refers hv) hl hc r
  · exact ⟨N, x, h3, h4⟩
  · have hδ' : δ = min (ε / 10102) (1 / 10102 / max 2 (10102 / (1 * 1 * (1000 / 10)))) := by
      rw [hδ, max_eq_right (by norm_num)]
      norm_num
    have := hops_bound (grid_refers hv) hq h7 hε h1 h2 hδ' h6
    rw [h5] at this
    exact absurd this (not_le.2 hr)

/-! ## A case -/

open Classical in
/-- The draws of `luck` with times that are those of paths in the basins. -/
noncomputable def Merging.kindly (mem : Addr → K) (luck : Luck K) : Luck K where
  first := luck.first
  draw evs := { luck.draw evs with times := match (ToFSpec.worldAfter evs).hopMove 1 0 (luck.draw evs) with
    | .ok vw => (ToF.exists_times mem vw.2 vw.1 (luck.draw evs)).choose
    | .error _ => [] }

theorem Merging.kindly_covers (mem : Addr → K) (luck : Luck K) : MergingSpec.Covering mem (kindly mem luck) := by
  intro evs v w hm
  have hm : (ToFSpec.worldAfter evs).hopMove 1 0 (luck.draw evs) = .ok (v, w) := hm
  have e : (kindly mem luck).draw evs = { luck.draw evs with times := (ToF.exists_times mem w v (luck.draw evs)).choose } := by
    unfold kindly
    dsimp only
    rw [hm]
  rw [e]
  exact (ToF.exists_times mem w v (luck.draw evs)).choose_spec

theorem Merging.mid_lucky : MergingSpec.Lucky midLuck := by
  refine ⟨by simp only [midLuck, SiteSpec.Draw]; norm_num, fun evs => ?_⟩
  simp only [midLuck, witChoice, SiteSpec.Draw]
  constructor
  · split <;> norm_num
  · split <;> norm_num

theorem Merging.mid_least (evs : List (Event ℚ)) : 1 ≤ (midLuck.draw evs).e := by
  simp only [midLuck, witChoice]
  split <;> norm_num

theorem Merging.kindly_lucky {mem : Addr → K} (h : MergingSpec.Lucky luck) : MergingSpec.Lucky (kindly mem luck) := h

/-- A block with coarse graining that has any number of hops. -/
example (r : Nat) : ∃ N x, (∀ f ≥ N, block { Cluster.witEnv with fuel := f } (memOf (grid : IMap (IMap ℚ))) (layout (grid : IMap (IMap ℚ))) 0
    (kindly (memOf (grid : IMap (IMap ℚ))) midLuck) r ⟨World.new 0, []⟩ = x) ∧ (OnlyOverflow x ∨ x = .error .outOfFuel) := by
  obtain ⟨N, x, h1, h2⟩ := C120_returns (env := Cluster.witEnv) table_grid Escape.net_self (kindly_lucky mid_lucky) (kindly_covers (memOf grid) midLuck) 0 0 r
  exact ⟨N, x, h1, h2.imp id And.left⟩

/-- One that ends. -/
example : ∃ N x, (∀ f ≥ N, block { Cluster.witEnv with fuel := f } (memOf (grid : IMap (IMap ℚ))) (layout (grid : IMap (IMap ℚ))) 0
    (kindly (memOf (grid : IMap (IMap ℚ))) midLuck) 3000000000 ⟨World.new 0, []⟩ = x) ∧ OnlyOverflow x :=
  C120_ends table_grid Escape.net_self (kindly_lucky mid_lucky) (kindly_covers (memOf grid) midLuck) 0 (ε := 1) one_pos le_rfl
    mid_least rfl 0 (by decide +kernel)

end Mythical
