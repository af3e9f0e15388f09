import Verif.Lemmas.MergingIdle
import Verif.Props.BenchTotal
import Verif.Props.Escape

/-! # The unit test in which two clusters are merged (C118) -/

set_option linter.unusedSectionVars false
set_option linter.unusedVariables false

namespace Mythical
open World SystemSpec ProgramSpec MergingSpec Merging
open _root_.Mythical.ToF (Prog layout memOf)
variable {K : Type} [Field K] [LinearOrder K] [IsStrictOrderedRing K] [FloorRing K]
variable {env : Env K} {luck luck' : Luck K}

/-! ## Runs -/

/-- Draws with which the electron stays long on site 2 and hops then over 6 to 10. -/
def Merging.midLuck : Luck ℚ where
  first := (1, 1 / 4)
  draw h := { witChoice (if h.length = 7 then 7 / 8 else 1 / 2) (List.replicate 40 (1 / 1000)) with e := if h.length = 7 then 299999 / 100 else 1 }

/-- A block with these draws, the threshold 0 and `n0` ids given before. -/
def Merging.midRun (n0 : Nat) : Except Fault (Prog ℚ × Books ℚ) :=
  block Cluster.witEnv (memOf (grid : IMap (IMap ℚ))) (layout (grid : IMap (IMap ℚ))) 0 midLuck 3 ⟨World.new n0, []⟩

/-- Draws for the block without coarse graining: one long stay. -/
def Merging.longLuck : Luck ℚ where
  first := (1, 1 / 4)
  draw _ := { witChoice (1 / 2) [] with e := 10000 }

theorem Merging.mid_run : ((midRun 2).toOption.map fun pb => (pb.1.world.getClusters, found pb.1.world.getClusters)) =
    some ([(2, [6, 10, 11, 7])], .error .outOfRange) := by decide +kernel

theorem Merging.mid_both : ((both Cluster.witEnv id id 0 0 longLuck midLuck 1 3).toOption.map fun q =>
    (q.1.1.world.getClusters, q.2.1.world.getClusters)) = some ([], [(0, [6, 10, 11, 7])]) := by decide +kernel

theorem Merging.mid_second : ∃ p b, midRun 2 = .ok (p, b) ∧ p.world.getClusters = [(2, [6, 10, 11, 7])] := by
  have h := mid_run
  cases e : midRun 2 with
  | error f => rw [e] at h; cases h
  | ok x =>
    rw [e] at h
    have h := Option.some.inj h
    simp only [Prod.mk.injEq] at h
    exact ⟨x.1, x.2, rfl, h.1⟩

theorem Merging.mid_passes : ∃ pb pb', both Cluster.witEnv id id 0 0 longLuck midLuck 1 3 = .ok (pb, pb') := by
  have h := mid_both
  cases e : both Cluster.witEnv id id 0 0 longLuck midLuck 1 3 with
  | error f => rw [e] at h; cases h
  | ok x => exact ⟨x.1, x.2, rfl⟩

/-- C118: in a block of the test, whatever the order of the rates, the threshold, the draws and the times from the graph library are, the
clusters are after each call as announced: none, the pair 6 and 10, the pair 7 and 11, both pairs, or one cluster of both. -/
theorem C118_clusters {R R' : IMap (IMap K)} {g n0 r : Nat} (hR : (table : Except Fault (IMap (IMap K) × Nat)) = .ok (R, g))
    (hv : Rearranged R' R) {threshold : Int} {p : Prog K} {b : Books K}
    (h : block env (memOf R') (layout R') threshold luck r ⟨World.new n0, []⟩ = .ok (p, b)) :
    (∀ ev ∈ p.calls, Announced ev.post.getClusters) ∧ Announced p.world.getClusters := by
  rw [table_grid] at hR
  cases hR
  obtain ⟨ht, hcalls⟩ := block_calls h
  obtain ⟨⟨h1, -⟩, h2⟩ := trace_pairs (grid_refers hv) ht hcalls
  exact ⟨fun ev hev => ((h2 ev hev).2.announced (h2 ev hev).1).1, (h1.announced (ht.struct hcalls.hops)).1⟩

/-- A run at whose end there is a cluster. -/
example : ∃ p b, midRun 2 = .ok (p, b) ∧ p.world.getClusters ≠ [] ∧ Announced p.world.getClusters := by
  obtain ⟨p, b, h, hc⟩ := mid_second
  exact ⟨p, b, h, by rw [hc]; simp, (C118_clusters table_grid Escape.net_self h).2⟩

/-- C118: the ids of the clusters are not below the number of ids that have been given before. -/
theorem C118_ids {R R' : IMap (IMap K)} {g n0 r : Nat} (hR : (table : Except Fault (IMap (IMap K) × Nat)) = .ok (R, g))
    (hv : Rearranged R' R) {threshold : Int} {p : Prog K} {b : Books K}
    (h : block env (memOf R') (layout R') threshold luck r ⟨World.new n0, []⟩ = .ok (p, b)) :
    ∀ kl ∈ p.world.getClusters, (n0 : Int) ≤ kl.1 := by
  rw [table_grid] at hR
  cases hR
  obtain ⟨ht, hcalls⟩ := block_calls h
  exact ((trace_pairs (grid_refers hv) ht hcalls).1.1.announced (ht.struct hcalls.hops)).2

/-- The id of its cluster. -/
example : ∃ p b, midRun 2 = .ok (p, b) ∧ p.world.getClusters ≠ [] ∧ ∀ kl ∈ p.world.getClusters, (2 : Int) ≤ kl.1 := by
  obtain ⟨p, b, h, hc⟩ := mid_second
  exact ⟨p, b, h, by rw [hc]; simp, C118_ids (n0 := 2) table_grid Escape.net_self h⟩

/-- C118: the block without coarse graining ends without clusters, so that its assertion holds. -/
theorem C118_without {R' : IMap (IMap K)} {n0 r : Nat} {p : Prog K} {b : Books K}
    (h : block env (memOf R') (layout R') infIterations luck r ⟨World.new n0, []⟩ = .ok (p, b)) : p.world.getClusters = [] :=
  (block_bare h).none

/-- A block that ends. -/
example : (block Cluster.witEnv (memOf (grid : IMap (IMap ℚ))) (layout (grid : IMap (IMap ℚ))) infIterations longLuck 1
    ⟨World.new 0, []⟩).isOk = true := by decide +kernel

/-- C118: for clusters as announced, the checks at the end pass just if there is one cluster, of four sites, with the id 0; the
assertions on the four sites never fail. -/
theorem C118_checks {cl : IMap (List Int)} (hcl : Announced cl) :
    (found cl = .ok () ↔ ∃ l, cl = [(0, l)] ∧ l.Perm [6, 7, 10, 11]) ∧
      ((∃ k l, cl = [(k, l)] ∧ l.length = 4) → found cl = .ok () ∨ found cl = .error .outOfRange) := by
  have four : ∀ {l : List Int}, Paired l → l.length = 4 → l.Perm [6, 7, 10, 11] := by
    rintro l (h | h | h) e
    · rw [h.length_eq] at e; cases e
    · rw [h.length_eq] at e; cases e
    · exact h
  have key : ∀ k l, cl = [(k, l)] → l.length = 4 → found cl = (if k = 0 then .ok () else .error .outOfRange) := by
    rintro k l rfl hl
    have hp : Paired l := by
      rcases hcl with e | ⟨a, l', e, h⟩ | ⟨a, l', b, l'', e, -⟩
      · cases e
      · cases e; exact h
      · cases e
    have hf := four hp hl
    unfold found
    rw [if_neg (by simp), if_neg (by simpa using hl)]
    by_cases hk : k = 0
    · subst hk
      rw [show IMap.get? [((0 : Int), l)] 0 = some l from rfl, if_pos rfl]
      exact if_pos ⟨hf.symm.subset (by simp), hf.symm.subset (by simp), hf.symm.subset (by simp), hf.symm.subset (by simp)⟩
    · rw [show IMap.get? [(k, l)] 0 = none by simp [IMap.get?, hk], if_neg hk]
  refine ⟨⟨fun h => ?_, ?_⟩, ?_⟩
  · rcases hcl with rfl | ⟨k, l, rfl, hp⟩ | ⟨a, l, b, l', rfl, -⟩
    · cases h
    · by_cases hl : l.length = 4
      · rw [key k l rfl hl] at h
        split at h
        · next hk => subst hk; exact ⟨l, rfl, four hp hl⟩
        · cases h
      · unfold found at h
        rw [if_neg (by simp), if_pos (by simpa using hl)] at h
        cases h
    · unfold found at h
      rw [if_pos (by simp)] at h
      cases h
  · rintro ⟨l, rfl, hl⟩
    rw [key 0 l rfl hl.length_eq, if_pos rfl]
  · rintro ⟨k, l, rfl, hl⟩
    rw [key k l rfl hl]
    split
    · exact .inl rfl
    · exact .inr rfl

/-- Clusters that pass and clusters that do not. -/
example : Announced [(0, [6, 10, 11, 7])] ∧ found [(0, [6, 10, 11, 7])] = .ok () ∧ Announced [(0, [6, 10]), (1, [7, 11])] ∧
    found [(0, [6, 10]), (1, [7, 11])] = .error .assertFail :=
  ⟨.inr (.inl ⟨0, _, rfl, .inr (.inr (by decide))⟩), rfl, .inr (.inr ⟨0, _, 1, _, rfl, .inl ⟨by decide, by decide⟩⟩), rfl⟩

/-- C118: if the test passes, the two clusters have been merged, no cluster has been made in the process before, and the one that there
is has the id 0.

Missing: that the test passes whenever the clusters have been merged, which is false (`C118_counterexample`). -/
theorem C118_partial {visit visit' : IMap (IMap K) → IMap (IMap K)} (hv : ∀ R, Rearranged (visit R) R) (hv' : ∀ R, Rearranged (visit' R) R)
    {threshold : Int} {n0 r r' : Nat} {pb pb' : Prog K × Books K}
    (h : both env visit visit' threshold n0 luck luck' r r' = .ok (pb, pb')) :
    n0 = 0 ∧ pb.1.world.getClusters = [] ∧ ∃ l, pb'.1.world.getClusters = [(0, l)] ∧ l.Perm [6, 7, 10, 11] := by
  unfold both at h
  obtain ⟨⟨R, g⟩, hR, h⟩ := bind_eq_ok.1 h
  obtain ⟨⟨p, b⟩, hb, h⟩ := bind_eq_ok.1 h
  dsimp only at h
  split at h
  · cases h
  · obtain ⟨⟨p', b'⟩, hb', h⟩ := bind_eq_ok.1 h
    obtain ⟨u, hf, h⟩ := bind_eq_ok.1 h
    have h := ok_inj.1 h
    simp only [Prod.mk.injEq] at h
    obtain ⟨rfl, rfl⟩ := h
    have hn : (n0 : Int) ≤ p.world.nextId := by
      have hR' := hR
      rw [table_grid] at hR'
      cases hR'
      obtain ⟨ht, hcalls⟩ := block_calls hb
      exact (trace_pairs (grid_refers (hv _)) ht hcalls).1.1.next
    obtain ⟨n, hn'⟩ : ∃ n : Nat, p.world.nextId = n := ⟨p.world.nextId.toNat, by omega⟩
    rw [hn', show ({ World.new 0 with nextId := (n : Int) } : World K) = World.new n from rfl] at hb'
    have ha := (C118_clusters hR (hv' R) hb').2
    obtain ⟨l, hl, hp⟩ := (C118_checks ha).1.1 hf
    have := C118_ids hR (hv' R) hb' (0, l) (by rw [hl]; simp)
    simp only at this
    exact ⟨by omega, C118_without hb, l, hl, hp⟩

/-- A test that passes. -/
example : ∃ pb pb', both Cluster.witEnv id id 0 0 longLuck midLuck 1 3 = .ok (pb, pb') ∧
    ∃ l, pb'.1.world.getClusters = [(0, l)] ∧ l.Perm [6, 7, 10, 11] := by
  obtain ⟨pb, pb', h⟩ := mid_passes
  exact ⟨pb, pb', h, (C118_partial (fun _ => Escape.net_self) (fun _ => Escape.net_self) h).2.2⟩

/-- C118 is false: if any cluster has been made in the process before, the test does not pass, whatever it does; so it is after a run
that ends, as it should, with the one cluster of 6, 7, 10 and 11, where `clusters.at(0)` throws. -/
theorem C118_counterexample : (∀ (visit visit' : IMap (IMap ℚ) → IMap (IMap ℚ)), (∀ R, Rearranged (visit R) R) → (∀ R, Rearranged (visit' R) R) →
      ∀ (env : Env ℚ) (threshold : Int) (n0 r r' : Nat) (luck luck' : Luck ℚ), n0 ≠ 0 → ∀ q, both env visit visit' threshold n0 luck luck' r r' ≠ .ok q) ∧
    ∃ p b l, midRun 2 = .ok (p, b) ∧ p.world.getClusters = [(2, l)] ∧ l.Perm [6, 7, 10, 11] ∧ found p.world.getClusters = .error .outOfRange := by
  refine ⟨fun visit visit' hv hv' env threshold n0 r r' luck luck' hn q h => hn (C118_partial hv hv' (pb := q.1) (pb' := q.2) h).1, ?_⟩
  obtain ⟨p, b, h, hc⟩ := mid_second
  exact ⟨p, b, _, h, hc, by decide, by rw [hc]; rfl⟩

end Mythical
