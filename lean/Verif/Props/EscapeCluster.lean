import Verif.Lemmas.EscapeCluster
import Verif.Props.Escape
import Verif.Props.BenchTotal

/-! # The one cluster of the program that lets electrons escape from five sites (C117) -/

set_option linter.unusedSectionVars false
set_option linter.unusedVariables false

namespace Mythical
open World SystemSpec ProgramSpec EscapeSpec Escape
open _root_.Mythical.ToF (Prog layout memOf)
variable {K : Type} [Field K] [LinearOrder K] [IsStrictOrderedRing K] [FloorRing K]
variable {env : Env K} {luck luck' : Luck K}

/-- C117: in every block of the program with a performance ratio of at least 1/5, whatever the order of the rates, the threshold, the draws
and the number of electrons and hops are, as long as the times from the graph library cover those of ways in the basins, there is after each
call either no cluster or just one, whose sites are 1 to 5. -/
theorem C117_cluster {R R' : IMap (IMap K)} {g n0 n r : Nat} (hR : (table : Except Fault (IMap (IMap K) × Nat)) = .ok (R, g))
    (hv : Rearranged R' R) {q : K} (hq : 1 / 5 ≤ q) {threshold : Int} {p : Prog K} {b : Books K}
    (h : block env (memOf R') (layout R') (some q) threshold luck n r ⟨World.new n0, []⟩ = .ok (p, b)) (hc : TimesCover p.calls) :
    (∀ ev ∈ p.calls, ev.post.getClusters = [] ∨ ∃ c l, ev.post.getClusters = [(c, l)] ∧ l.Perm [1, 2, 3, 4, 5]) ∧
      (p.world.getClusters = [] ∨ ∃ c l, p.world.getClusters = [(c, l)] ∧ l.Perm [1, 2, 3, 4, 5]) := by
  rw [table_net] at hR
  cases hR
  obtain ⟨ht, hcalls⟩ := block_calls (ratio := some q) (fun q' e => by cases e; exact hq) h
  have drop : ∀ w : World K, Shape w → w.getClusters = [] ∨ ∃ c l, w.getClusters = [(c, l)] ∧ l.Perm [1, 2, 3, 4, 5] := by
    rintro w (⟨h1, -⟩ | ⟨c, l, h1, h2, -⟩)
    · exact .inl h1
    · exact .inr ⟨c, l, h1, h2⟩
  exact ⟨fun ev hev => drop _ (trace_shapes (net_refers hv) ht hcalls hc ev hev), drop _ (trace_shape (net_refers hv) ht hcalls hc).1⟩

/-- C117: if both blocks of the program return, the one cluster that is found after the first has the sites 1 to 5. -/
theorem C117_both {visit visit' : IMap (IMap K) → IMap (IMap K)} (hv : ∀ R, Rearranged (visit R) R) {threshold : Int} {n r r' : Nat}
    {pb pb' : Prog K × Books K} (h : both env visit visit' threshold n luck luck' r r' = .ok (pb, pb')) (hc : TimesCover pb.1.calls) :
    ∃ c l, pb.1.world.getClusters = [(c, l)] ∧ l.Perm [1, 2, 3, 4, 5] := by
  unfold both at h
  obtain ⟨⟨R, g⟩, hR, h⟩ := bind_eq_ok.1 h
  obtain ⟨⟨p, b⟩, hb, h⟩ := bind_eq_ok.1 h
  dsimp only at h
  split at h
  · cases h
  · next hlen =>
    obtain ⟨pb1, -, h⟩ := bind_eq_ok.1 h
    have h := ok_inj.1 h
    simp only [Prod.mk.injEq] at h
    obtain ⟨rfl, -⟩ := h
    rcases (C117_cluster hR (hv R) le_rfl hb hc).2 with e | e
    · rw [e] at hlen; exact absurd (by simp) hlen
    · exact e

/-- C117: the exception after the first block, which is thrown if there is not one cluster and says that there are none, is thrown if
there are none; if there are any there is one. -/
theorem C117_assertion {visit visit' : IMap (IMap K) → IMap (IMap K)} (hv : ∀ R, Rearranged (visit R) R) {threshold : Int} {n r r' g : Nat}
    {R : IMap (IMap K)} (hR : (table : Except Fault (IMap (IMap K) × Nat)) = .ok (R, g)) {p : Prog K} {b : Books K}
    (h : block env (memOf (visit R)) (layout (visit R)) (some (1 / 5)) threshold luck n r ⟨World.new 0, []⟩ = .ok (p, b)) (hc : TimesCover p.calls) :
    (p.world.getClusters = [] → both env visit visit' threshold n luck luck' r r' = .error .runtimeError) ∧
      (p.world.getClusters ≠ [] → p.world.getClusters.length = 1) := by
  refine ⟨fun e => ?_, fun e => ?_⟩
  · unfold both
    rw [hR, ok_bind]
    dsimp only
    rw [h, ok_bind]
    dsimp only
    rw [if_pos (by rw [e]; simp)]
  · rcases (C117_cluster hR (hv R) le_rfl h hc).2 with e' | ⟨c, l, e', -⟩
    · exact absurd e' e
    · rw [e']; rfl

/-! ## A run with a cluster -/

/-- Draws with which the first electron hops to site 2, to site 4 and out; the times are those given. -/
def Escape.slowLuck (times : List ℚ) : Luck ℚ where
  first _ := (1, 1 / 4)
  draw _ _ := witChoice (1999 / 2000) times

/-- The first block with these draws and one electron. -/
def Escape.slowRun (times : List ℚ) (r : Nat) : Except Fault (Prog ℚ × Books ℚ) :=
  block Cluster.witEnv (memOf (net : IMap (IMap ℚ))) (layout (net : IMap (IMap ℚ))) (some (1 / 5)) 0 (slowLuck times) 1 r ⟨World.new 0, []⟩

/-- The times in a hop cover ways in the basin, by computation. -/
def Escape.coveredB (ev : Event ℚ) : Bool :=
  match ev.op with
  | .hop wid h a =>
    match ev.pre.hopMove wid h a with
    | .error _ => false
    | .ok (v, w1) =>
      match Explorer.default.findBasin a.vis ev.mem w1.sites w1.clusters v with
      | .error _ => false
      | .ok B => B.all fun x => B.all fun y => decide (x = y) ||
          a.times.any fun t => (ways ev.mem w1.sites B x 3).any fun yt => decide (yt.1 = y) && decide (yt.2 ≤ t)
  | _ => true

theorem Escape.cover_of_coveredB {evs : List (Event ℚ)} (h : evs.all coveredB = true) : TimesCover evs := by
  intro ev hev wid k a v w1 B ho hm hb x hx y hy hxy hr
  have hB := List.all_eq_true.1 h ev hev
  unfold coveredB at hB
  rw [ho] at hB
  simp only at hB
  rw [hm] at hB
  simp only at hB
  rw [hb] at hB
  simp only at hB
  have h2 := List.all_eq_true.1 (List.all_eq_true.1 hB x hx) y hy
  simp only [hxy, decide_false, Bool.false_or, List.any_eq_true, Bool.and_eq_true, decide_eq_true_eq] at h2
  obtain ⟨t, ht, ⟨z, s⟩, hz, rfl, hs⟩ := h2
  exact ⟨t, ht, s, hs, ways_path hz⟩

/-- With times of 8 the sites 2 and 4 do not become a cluster in the first hop, and the sites 1 to 5 do in the second. -/
theorem Escape.slow_run : ∃ p b, slowRun [8] 3 = .ok (p, b) ∧ p.calls.all coveredB = true ∧ p.world.getClusters ≠ [] := by
  have h : (match slowRun [8] 3 with
    | .ok (p, _) => p.calls.all coveredB && decide (p.world.getClusters ≠ [])
    | .error _ => false) = true := by decide +kernel
  split at h
  · next p b e =>
    simp only [Bool.and_eq_true, decide_eq_true_eq] at h
    exact ⟨p, b, e, h.1, h.2⟩
  · cases h

example : ∃ p b, slowRun [8] 3 = .ok (p, b) ∧ ∃ c l, p.world.getClusters = [(c, l)] ∧ l.Perm [1, 2, 3, 4, 5] := by
  obtain ⟨p, b, h, hc, hne⟩ := slow_run
  rcases (C117_cluster table_net net_self le_rfl h (cover_of_coveredB hc)).2 with e | e
  · exact absurd e hne
  · exact ⟨p, b, h, e⟩

/-- C117 needs the times: with times that are too short, the sites 2 and 4 become a cluster. -/
theorem C117_short_times : ∃ p b, slowRun [1 / 100] 4 = .ok (p, b) ∧ ∃ ev ∈ p.calls, ∃ c l, ev.post.getClusters = [(c, l)] ∧ l.Perm [2, 4] := by
  have h : (match slowRun [1 / 100] 4 with
    | .ok (p, _) => p.calls.any fun ev => decide (ev.post.getClusters = [(0, [2, 4])])
    | .error _ => false) = true := by decide +kernel
  split at h
  · next p b e =>
    obtain ⟨ev, hev, h⟩ := List.any_eq_true.1 h
    exact ⟨p, b, e, ev, hev, 0, [2, 4], of_decide_eq_true h, .refl _⟩
  · cases h

end Mythical
