import Verif.Lemmas.MergingCluster
import Verif.Lemmas.SystemPace

/-! # The block without coarse graining of the unit test in which two clusters are merged (for C118) -/

set_option linter.unusedSectionVars false
set_option linter.unusedVariables false

namespace Mythical.Merging
open World SystemSpec ProgramSpec
variable {K : Type} [Field K] [LinearOrder K] [IsStrictOrderedRing K] [FloorRing K]
variable {env : Env K} {mem : Addr → K} {m : IMap (IMap Addr)} {n0 : Nat} {p p' : ToF.Prog K}

/-- No clusters so far. -/
structure Bare (env : Env K) (n0 : Nat) (p : ToF.Prog K) : Prop where
  trace : Trace env (World.new n0) p.calls p.world
  hops : HopsReturn p.calls
  none : p.world.getClusters = []

theorem Bare.call (h : Bare env n0 p) {op : Op K} (hc : p.call env mem op = .ok p')
    (hop : ∀ wid k a, op = .hop wid k a → (pace p.calls).min = infIterations) :
    Bare env n0 p' ∧ ∃ ev, ev.op = op ∧ p'.calls = p.calls ++ [ev] := by
  obtain ⟨r, h1, h2⟩ := ToF.call_ok hc
  have hst := h.trace.struct h.hops
  have ht : Trace env (World.new n0) p'.calls p'.world := by rw [h2]; exact .snoc mem h.trace h1 trivial
  have hh : HopsReturn p'.calls := by
    rw [h2]
    intro ev hev wid k a ho
    rcases List.mem_append.1 hev with hev | hev
    · exact h.hops ev hev wid k a ho
    · rw [List.mem_singleton.1 hev]; exact ⟨r, rfl⟩
  refine ⟨⟨ht, hh, ?_⟩, _, rfl, h2⟩
  by_cases hho : ∃ wid k a, op = .hop wid k a
  · obtain ⟨wid, k, a, rfl⟩ := hho
    obtain ⟨-, -, p3⟩ := h.trace.pace h.hops
    rw [hop wid k a rfl] at p3
    obtain ⟨j, w1, hmv, hk, -, hcase⟩ := hop_event hst h1
    have hk' : Keep env p.world p'.world := by
      rcases hcase with ⟨-, e1⟩ | ⟨-, -, e1⟩ | ⟨-, e2, -⟩ | ⟨-, e2, -⟩
      · rw [e1]; exact hk.scalars
      · rw [e1]; exact hk.scalars
      · exact absurd p3 e2
      · exact absurd p3 e2
    exact (hk'.getClusters hst).trans h.none
  · rcases step_cases hst h1 trivial (fun wid k a e => absurd ⟨wid, k, a, e⟩ hho) with hk | ⟨m', -, ha⟩ | ⟨wid, k, a, _, _, _, _, _, e, -⟩
    · exact (hk.getClusters hst).trans h.none
    · have : p'.world.getClusters = p.world.getClusters := by unfold World.getClusters; rw [ha.clusters]
      exact this.trans h.none
    · exact absurd ⟨wid, k, a, e⟩ hho

/-- The block without coarse graining ends without clusters. -/
theorem block_bare {luck : Luck K} {r : Nat} {pb : ToF.Prog K × Books K}
    (e : block env mem m infIterations luck r ⟨World.new n0, []⟩ = .ok pb) : Bare env n0 pb.1 := by
  have hroam : ∀ (r : Nat) (q : ToF.Prog K) (b : Books K), Bare env n0 q → (pace q.calls).min = infIterations →
      roam env mem luck r q b = .ok pb → Bare env n0 pb.1 := by
    clear e
    intro r
    induction r with
    | zero =>
      intro q b h7 hm e
      unfold roam at e
      split at e
      · cases e
      · rw [← ok_inj.1 e]; exact h7
    | succ r ih =>
      intro q b h7 hm e
      unfold roam at e
      split at e
      · obtain ⟨⟨q', b'⟩, e1, e⟩ := bind_eq_ok.1 e
        unfold hopOnce at e1
        obtain ⟨q1, c, e1⟩ := bind_eq_ok.1 e1
        obtain ⟨z, -, e1⟩ := bind_eq_ok.1 e1
        obtain ⟨j, -, e1⟩ := bind_eq_ok.1 e1
        obtain ⟨times, -, e1⟩ := bind_eq_ok.1 e1
        obtain ⟨hops, -, e1⟩ := bind_eq_ok.1 e1
        obtain ⟨count, -, e1⟩ := bind_eq_ok.1 e1
        have e1 := ok_inj.1 e1
        simp only [Prod.mk.injEq] at e1
        obtain ⟨h8, ev, ho, hcalls⟩ := h7.call c fun _ _ _ _ => hm
        rw [e1.1] at h8 hcalls
        refine ih q' b' h8 ?_ e
        rw [hcalls, pace_snoc]
        unfold Pace.after
        rw [ho]
        simp only
        rw [if_pos hm]
        split <;> exact hm
      · rw [← ok_inj.1 e]; exact h7
  unfold block at e
  obtain ⟨p1, c1, e⟩ := bind_eq_ok.1 e
  obtain ⟨p2, c2, e⟩ := bind_eq_ok.1 e
  obtain ⟨p3, c3, e⟩ := bind_eq_ok.1 e
  obtain ⟨p4, c4, e⟩ := bind_eq_ok.1 e
  obtain ⟨p5, c5, e⟩ := bind_eq_ok.1 e
  obtain ⟨p6, c6, e⟩ := bind_eq_ok.1 e
  obtain ⟨p7, c7, e⟩ := bind_eq_ok.1 e
  have h0 : Bare env n0 (⟨World.new n0, []⟩ : ToF.Prog K) := ⟨.nil _, fun ev hev => (by cases hev), rfl⟩
  obtain ⟨h1, -⟩ := h0.call c1 (by intro _ _ _ e; cases e)
  obtain ⟨h2, -⟩ := h1.call c2 (by intro _ _ _ e; cases e)
  obtain ⟨h3, ev3, o3, l3⟩ := h2.call c3 (by intro _ _ _ e; cases e)
  obtain ⟨h4, ev4, o4, l4⟩ := h3.call c4 (by intro _ _ _ e; cases e)
  obtain ⟨h5, ev5, o5, l5⟩ := h4.call c5 (by intro _ _ _ e; cases e)
  obtain ⟨h6, ev6, o6, l6⟩ := h5.call c6 (by intro _ _ _ e; cases e)
  obtain ⟨h7, ev7, o7, l7⟩ := h6.call c7 (by intro _ _ _ e; cases e)
  have s3 : (pace p3.calls).min = infIterations := by rw [l3, pace_snoc]; unfold Pace.after; simp only [o3]
  have s4 : (pace p4.calls).min = infIterations := by rw [l4, pace_snoc]; unfold Pace.after; simp only [o4]; exact s3
  have s5 : (pace p5.calls).min = infIterations := by rw [l5, pace_snoc]; unfold Pace.after; simp only [o5]; exact s4
  have s6 : (pace p6.calls).min = infIterations := by rw [l6, pace_snoc]; unfold Pace.after; simp only [o6]; exact s5
  have s7 : (pace p7.calls).min = infIterations := by rw [l7, pace_snoc]; unfold Pace.after; simp only [o7]; exact s6
  exact hroam r p7 _ h7 s7 e

end Mythical.Merging
