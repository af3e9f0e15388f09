import Verif.Props.MergingTotal

/-! # What the unit test in which two clusters are merged can fail by (C121) -/

set_option linter.unusedSectionVars false
set_option linter.unusedVariables false

namespace Mythical
open World SystemSpec ProgramSpec EscapeSpec MergingSpec Merging
open _root_.Mythical.ToF (Prog layout memOf)
open _root_.Mythical.ToFSpec (OnlyOverflow)
variable {K : Type} [Field K] [LinearOrder K] [IsStrictOrderedRing K] [FloorRing K]
variable {env : Env K} {luck luck' : Luck K}

/-- C121: if the exponential draws of both blocks are at least `ε`, the whole test comes to an end within the number of hops of C120 per
block. But for the overflow of a counter, it passes just if its second block ends with one cluster, of four sites, with the id 0; it fails
by an assertion just if the clusters at the end are not one of four sites, and by an exception just if that cluster has another id. -/
theorem C121_outcome {R : IMap (IMap K)} {g : Nat} (hR : (table : Except Fault (IMap (IMap K) × Nat)) = .ok (R, g))
    {visit visit' : IMap (IMap K) → IMap (IMap K)} (hv : ∀ R, Rearranged (visit R) R) (hv' : ∀ R, Rearranged (visit' R) R)
    (hl : MergingSpec.Lucky luck) (hc : MergingSpec.Covering (memOf (visit R)) luck)
    (hl' : MergingSpec.Lucky luck') (hc' : MergingSpec.Covering (memOf (visit' R)) luck') (threshold : Int) {ε δ : K} (hε : 0 < ε)
    (h1 : ε ≤ luck.first.1) (h2 : ∀ evs, ε ≤ (luck.draw evs).e) (h1' : ε ≤ luck'.first.1) (h2' : ∀ evs, ε ≤ (luck'.draw evs).e)
    (hδ : δ = min (ε / 10102) (1 / 10102 / (10102 / 100))) (n0 : Nat) {r r' : Nat} (hr : 2 * 1000 / δ + 1 < (r : K))
    (hr' : 2 * 1000 / δ + 1 < (r' : K)) :
    ∃ N x, (∀ f ≥ N, both { env with fuel := f } visit visit' threshold n0 luck luck' r r' = x) ∧
      (x = .error (.ub .intOverflow) ∨ x = .error (.ub .floatToInt) ∨
        ∃ n p b, block { env with fuel := N } (memOf (visit' R)) (layout (visit' R)) threshold luck' r' ⟨World.new n, []⟩ = .ok (p, b) ∧ n0 ≤ n ∧
          Announced p.world.getClusters ∧
          (((∃ q, x = .ok q) ∧ ∃ l, p.world.getClusters = [(0, l)] ∧ l.length = 4) ∨
            (x = .error .outOfRange ∧ ∃ k l, k ≠ 0 ∧ p.world.getClusters = [(k, l)] ∧ l.length = 4) ∨
            (x = .error .assertFail ∧ ¬ ∃ k l, p.world.getClusters = [(k, l)] ∧ l.length = 4))) := by
  obtain ⟨N₁, x₁, e₁, ho₁⟩ := C120_ends (env := env) hR (hv R) hl hc infIterations hε h1 h2 hδ n0 hr
  have run : ∀ f ≥ N₁, both { env with fuel := f } visit visit' threshold n0 luck luck' r r' = (do
      let pb ← x₁
      if pb.1.world.getClusters.length ≠ 0 then .error .assertFail else do
        let pb' ← block { env with fuel := f } (memOf (visit' R)) (layout (visit' R)) threshold luck' r' ⟨{ World.new 0 with nextId := pb.1.world.nextId }, []⟩
        found pb'.1.world.getClusters
        .ok (pb, pb')) := by
    intro f hf
    unfold both
    rw [hR, ok_bind]
    dsimp only
    rw [e₁ f hf]
  rcases ho₁ with ⟨⟨p, b⟩, rfl⟩ | rfl | rfl
  rotate_left
  · exact ⟨N₁, _, fun f hf => (run f hf).trans rfl, .inl rfl⟩
  · exact ⟨N₁, _, fun f hf => (run f hf).trans rfl, .inr (.inl rfl)⟩
  have hb := e₁ N₁ le_rfl
  have hn : (n0 : Int) ≤ p.world.nextId := by
    have hR' := hR
    rw [table_grid] at hR'
    cases hR'
    obtain ⟨ht, hcalls⟩ := block_calls hb
    exact (trace_pairs (grid_refers (hv _)) ht hcalls).1.1.next
  obtain ⟨n, hn'⟩ : ∃ n : Nat, p.world.nextId = n := ⟨p.world.nextId.toNat, by omega⟩
  obtain ⟨N₂, x₂, e₂, ho₂⟩ := C120_ends (env := env) hR (hv' R) hl' hc' threshold hε h1' h2' hδ n hr'
  have run' : ∀ f ≥ max N₁ N₂, both { env with fuel := f } visit visit' threshold n0 luck luck' r r' = (do
      let pb' ← x₂
      found pb'.1.world.getClusters
      .ok ((p, b), pb')) := by
    intro f hf
    rw [run f (le_trans (le_max_left _ _) hf), ok_bind, if_neg (by rw [C118_without hb]; simp)]
    dsimp only
    rw [hn', show ({ World.new 0 with nextId := (n : Int) } : World K) = World.new n from rfl, e₂ f (le_trans (le_max_right _ _) hf)]
  rcases ho₂ with ⟨⟨p', b'⟩, rfl⟩ | rfl | rfl
  rotate_left
  · exact ⟨_, _, fun f hf => (run' f hf).trans rfl, .inl rfl⟩
  · exact ⟨_, _, fun f hf => (run' f hf).trans rfl, .inr (.inl rfl)⟩
  have hb' := e₂ (max N₁ N₂) (le_max_right _ _)
  have ha := (C118_clusters hR (hv' R) hb').2
  obtain ⟨hc1, hc2⟩ := C118_checks ha
  refine ⟨max N₁ N₂, _, run', .inr (.inr ⟨n, p', b', hb', by omega, ha, ?_⟩)⟩
  rw [ok_bind]
  dsimp only
  by_cases h4 : ∃ k l, p'.world.getClusters = [(k, l)] ∧ l.length = 4
  · rcases hc2 h4 with hf | hf
    · obtain ⟨l, e, hp⟩ := hc1.1 hf
      rw [hf]
      exact .inl ⟨⟨_, rfl⟩, l, e, hp.length_eq⟩
    · refine .inr (.inl ⟨by rw [hf]; rfl, ?_⟩)
      obtain ⟨k, l, e, hl4⟩ := h4
      refine ⟨k, l, ?_, e, hl4⟩
      rintro rfl
      rw [e] at hf
      unfold found at hf
      rw [if_neg (by simp), if_neg (by simpa using hl4), show IMap.get? [((0 : Int), l)] 0 = some l from rfl] at hf
      dsimp only at hf
      split at hf <;> cases hf
  · refine .inr (.inr ⟨?_, h4⟩)
    have : found p'.world.getClusters = .error .assertFail := by
      unfold found
      by_cases h1 : p'.world.getClusters.length = 1
      · obtain ⟨⟨k, l⟩, e⟩ := List.length_eq_one_iff.1 h1
        rw [e, if_neg (by simp), if_pos]
        intro hl4
        exact h4 ⟨k, l, e, hl4⟩
      · rw [if_pos h1]
    rw [this]
    rfl

/-- A test that ends. -/
example : ∃ N x, (∀ f ≥ N, both { Cluster.witEnv with fuel := f } id id 0 0 (kindly (memOf (grid : IMap (IMap ℚ))) midLuck)
    (kindly (memOf (grid : IMap (IMap ℚ))) midLuck) 3000000000 3000000000 = x) ∧ x ≠ .error .outOfFuel := by
  obtain ⟨N, x, h, ho⟩ := C121_outcome (env := Cluster.witEnv) (visit := id) (visit' := id) table_grid (fun _ => Escape.net_self) (fun _ => Escape.net_self)
    (kindly_lucky mid_lucky) (kindly_covers (memOf (grid : IMap (IMap ℚ))) midLuck) (kindly_lucky mid_lucky)
    (kindly_covers (memOf (grid : IMap (IMap ℚ))) midLuck) 0 (ε := 1) one_pos le_rfl mid_least le_rfl mid_least rfl 0 (r := 3000000000)
    (r' := 3000000000) (by decide +kernel) (by decide +kernel)
  refine ⟨N, x, h, ?_⟩
  rcases ho with rfl | rfl | ⟨n, p, b, -, -, -, ⟨⟨q, rfl⟩, -⟩ | ⟨rfl, -⟩ | ⟨rfl, -⟩⟩ <;> (intro e; cases e)

end Mythical
