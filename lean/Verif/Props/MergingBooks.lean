import Verif.Lemmas.MergingBooks
import Verif.Props.Merging

/-! # The books of the unit test in which two clusters are merged (C119) -/

set_option linter.unusedSectionVars false
set_option linter.unusedVariables false

namespace Mythical
open World SystemSpec ProgramSpec EscapeSpec MergingSpec Merging
open _root_.Mythical.ToF (Prog layout memOf)
variable {K : Type} [Field K] [LinearOrder K] [IsStrictOrderedRing K] [FloorRing K]
variable {env : Env K} {luck : Luck K}

/-- Draws with which the electron goes from site 1 to site 2, back to 1 and again to 2. -/
def Merging.backLuck : Luck ℚ where
  first := (1, 1 / 4)
  draw _ := { witChoice (1 / 8) [] with e := 1000 }

/-- The block without coarse graining with these draws. -/
def Merging.backRun : Except Fault (Prog ℚ × Books ℚ) :=
  block Cluster.witEnv (memOf (grid : IMap (IMap ℚ))) (layout (grid : IMap (IMap ℚ))) infIterations backLuck 3 ⟨World.new 0, []⟩

theorem Merging.back_run : (backRun.toOption.map fun pb => (stays pb.1.calls, pb.2.times.take 2)) =
    some ([(2, 1000 / 3), (1, 500), (2, 1000 / 3)], [500, 1000 / 3]) := by decide +kernel

theorem Merging.back_second : ∃ p b, backRun = .ok (p, b) ∧ stays p.calls = [(2, 1000 / 3), (1, 500), (2, 1000 / 3)] ∧
    b.times.take 2 = [500, 1000 / 3] := by
  have h := back_run
  cases e : backRun with
  | error f => rw [e] at h; cases h
  | ok x =>
    rw [e] at h
    have h := Option.some.inj h
    simp only [Prod.mk.injEq] at h
    exact ⟨x.1, x.2, rfl, h.1, h.2⟩

/-- C119, in part: when a block is over, the number of hops to each site, the number of all hops and the time after them are what the
hops gave, and all hops were to the sites 1 to 16; for each site there is the time of the last stay on it.

Missing: that this is the time spent on the site, which is false (`C119_counterexample`). -/
theorem C119_books_partial {mem : Addr → K} {m : IMap (IMap Addr)} {threshold : Int} {n0 r : Nat} {p : Prog K} {b : Books K}
    (h : block env mem m threshold luck r ⟨World.new n0, []⟩ = .ok (p, b)) :
    Counted b (stays p.calls) ∧ TimesLast b (stays p.calls) ∧ ∀ x ∈ stays p.calls, 1 ≤ x.1 ∧ x.1 ≤ 16 :=
  ⟨(kept_block h).1.counted, (kept_block h).1.last, (kept_block h).1.sites⟩

/-- A block that is over. -/
example : ∃ p b, backRun = .ok (p, b) ∧ (stays p.calls).length = 3 ∧ b.count = 3 := by
  obtain ⟨p, b, h, h1, -⟩ := back_second
  exact ⟨p, b, h, by rw [h1]; rfl, by rw [(C119_books_partial h).1.count, h1]; rfl⟩

/-- C119: the block ends with the first hop after which the time is not below 1000, and there is such a hop. -/
theorem C119_ends {mem : Addr → K} {m : IMap (IMap Addr)} {threshold : Int} {n0 r : Nat} {p : Prog K} {b : Books K}
    (h : block env mem m threshold luck r ⟨World.new n0, []⟩ = .ok (p, b)) :
    ∃ l x, stays p.calls = l ++ [x] ∧ time l < 1000 ∧ 1000 ≤ time (stays p.calls) := by
  obtain ⟨h1, h2, h3⟩ := kept_block h
  rw [h1.counted.time] at h2
  dsimp only at h2 h3
  rcases List.eq_nil_or_concat (stays p.calls) with e | ⟨l, x, e⟩
  · rw [e] at h2
    exact absurd h2 (by simp [time])
  · rw [List.concat_eq_append] at e
    exact ⟨l, x, e, h3 l x e, h2⟩

/-- The times of such a block. -/
example : ∃ p b, backRun = .ok (p, b) ∧ ∃ l x, stays p.calls = l ++ [x] ∧ time l < 1000 ∧ 1000 ≤ time (stays p.calls) := by
  obtain ⟨p, b, h, -⟩ := back_second
  exact ⟨p, b, h, C119_ends h⟩

/-- C119: the times of the sites are right if no site is visited twice. -/
theorem C119_times_partial {mem : Addr → K} {m : IMap (IMap Addr)} {threshold : Int} {n0 r : Nat} {p : Prog K} {b : Books K}
    (h : block env mem m threshold luck r ⟨World.new n0, []⟩ = .ok (p, b)) (hn : ∀ j, (onSite (stays p.calls) j).length ≤ 1) :
    TimesKept b (stays p.calls) := by
  have hl := (kept_block h).1.last
  unfold TimesLast at hl
  unfold TimesKept
  dsimp only at hl
  rw [hl]
  apply List.map_congr_left
  intro j _
  have := hn ((j : Int) + 1)
  generalize onSite (stays p.calls) ((j : Int) + 1) = l at *
  match l, this with
  | [], _ => simp [time]
  | [x], _ => simp [time]
  | _ :: _ :: _, h => exact absurd h (by simp)

/-- A block in which the sites 2, 6 and 10 are visited once. -/
example : (midRun 2).toOption.map (fun pb => (stays pb.1.calls).map Prod.fst) = some [2, 6, 10] := by decide +kernel

/-- C119 is false: the electron is twice on site 2, but only the second stay is in `time_spent_on_sites`. -/
theorem C119_counterexample : ∃ p b, backRun = .ok (p, b) ∧ ¬ TimesKept b (stays p.calls) := by
  obtain ⟨p, b, h, h1, h2⟩ := back_second
  refine ⟨p, b, h, fun hk => ?_⟩
  unfold TimesKept at hk
  rw [hk, h1] at h2
  revert h2
  decide +kernel

end Mythical
