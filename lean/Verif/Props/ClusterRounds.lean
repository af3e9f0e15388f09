import Verif.Lemmas.ClusterRounds
import Verif.Props.ClusterProb

/-! # The number of rounds of the master equation (C67) -/

set_option linter.unusedSectionVars false
set_option linter.unusedVariables false

namespace Mythical
open Cluster ClusterSpec
variable {K : Type} [Field K] [LinearOrder K] [IsStrictOrderedRing K] [FloorRing K]
variable {mem : Addr → K} {c c' : Cluster K} {env : Env K} {evs : List (Cluster.Event K)} {id : Int}

/-- **C67.** After an update the occupation probabilities are those of the averaged hopping iteration from the uniform
distribution: with the methods by iterations after exactly the number of rounds asked for (times the number of sites, for
the method per site), and with a positive tolerance after the first round that changes the distribution by at most the
tolerance. The settings are those the user made last, or the default ones. -/
theorem C67 (ht : Trace env (Cluster.new id) evs c) (hs : Sound mem c) (hm : Mutual mem c)
    (hu : c.update env mem = (.ok (), c')) :
    ((settingsOf evs).method = .iterationsPerCluster → ∀ i ∈ ids c, occ c' i = rounds mem c (settingsOf evs).rounds.toNat i) ∧
    ((settingsOf evs).method = .iterationsPerSite →
      ∀ i ∈ ids c, occ c' i = rounds mem c ((settingsOf evs).rounds.toNat * (ids c).card) i) ∧
    ((settingsOf evs).method = .tolerance → 0 < (settingsOf evs).tolerance → ∃ N,
      (∀ i ∈ ids c, occ c' i = rounds mem c (N + 1) i) ∧ change mem c N ≤ (settingsOf evs).tolerance ^ 2 ∧
      ∀ n < N, (settingsOf evs).tolerance ^ 2 < change mem c n) := by
  obtain ⟨m1, m2, m3⟩ := has_of_trace ht
  rw [← m1, ← m2, ← m3, Int.toNat_natCast]
  obtain ⟨e0, -, -, -, freqs, c1, hvo, hr⟩ := after_update ht hs hm hu
  have hi := (CInv.new id).trace ht
  obtain ⟨e1, e2, e3, e4⟩ := visitsOnly_fields hvo
  have e5 : c1.iterations = c.iterations := by obtain ⟨⟨v, p, rfl⟩, -⟩ := hvo; rfl
  have hs1 := hs.congr e1
  have hm1 := Mutual.congr e1 hm
  have hne : c1.sites ≠ [] := hr.ne_nil
  have hsol := hr.solved
  have hd1 : Dist c1.initProb := initProb_dist hs1.wf (hi.visitsOnly hvo).prob hne
  have hs2 : Sound mem c1.initProb := Sound.congr (c := c1) rfl hs1
  have hm2 : Mutual mem c1.initProb := Mutual.congr (c := c1) rfl hm1
  have hid : ids c1.initProb = ids c := ids_congr (c' := c1.initProb) (c := c) e1
  have hrd : ∀ n, rounds mem c1.initProb n = rounds mem c n := rounds_congr (c' := c1.initProb) (c := c) e1
  have h0 : ∀ i ∈ ids c1.initProb, c1.initProb.prob i = rounds mem c1.initProb 0 i := by
    intro i hi
    show c1.initProb.probOn.at0 i = 1 / _
    rw [initProb_at0 hs1.wf (by rw [ids_congr e1, ← hid]; exact hi)]
    congr 2
    rw [← card_ids hs1.wf]; rfl
  have hocc : ∀ i ∈ ids c, occ c' i = c'.probOn.at0 i := fun i hi => occ_eq (by rw [ids_congr e0]; exact hi)
  have hlen : c1.sites.length = (ids c).card := by rw [card_ids hs.wf, e1]
  unfold solveProb at hsol
  simp only at hsol
  rw [show c1.initProb.method = c.method from e2, show c1.initProb.iterations = c.iterations from e5,
    show c1.initProb.sites.length = (ids c).card from hlen, show c1.initProb.tol = c.tol from e3] at hsol
  refine ⟨fun hM i hi => ?_, fun hM i hi => ?_, fun hM htol => ?_⟩
  · rw [hM] at hsol
    have := iterateN_rounds hs2 hm2 hd1 hsol (n := 0) h0 i (by rw [hid]; exact hi)
    rw [hrd, Nat.zero_add] at this
    rw [hocc i hi]; exact this
  · rw [hM] at hsol
    have := iterateN_rounds hs2 hm2 hd1 hsol (n := 0) h0 i (by rw [hid]; exact hi)
    rw [hrd, Nat.zero_add] at this
    rw [hocc i hi]; exact this
  · rw [hM] at hsol
    simp only at hsol
    rw [if_pos (by linarith)] at hsol
    obtain ⟨N, -, r1, r2, r3⟩ := toleranceLoop_rounds' hs2 hm2 hd1 hsol (n := 0) h0
    have hc : ∀ j, change mem c1.initProb j = change mem c j := fun j => by unfold change; rw [hid, hrd, hrd]
    rw [show c1.initProb.tol = c.tol from e3] at r2 r3
    refine ⟨N, fun i hi => ?_, by rw [← hc]; exact r2, fun n hn => by rw [← hc]; exact r3 n (Nat.zero_le _) hn⟩
    have := r1 i (by rw [hid]; exact hi)
    rw [hrd] at this
    rw [hocc i hi]; exact this

/-- Two rounds for the whole cluster. -/
def roundOps : List (Op ℚ) := witOps ++ [.setConvergenceMethod .iterationsPerCluster, .setConvergenceIterations 2]

/-- The hypotheses of C67 on the concrete cluster of two sites with its default settings, and with two rounds for the whole
cluster; the numbers of rounds show in the probabilities. -/
example : (settingsOf witEvs).method = .iterationsPerSite ∧ (settingsOf witEvs).rounds = 3 ∧
    Trace witEnv (Cluster.new 0) witEvs witC0 ∧ Sound witRates witC0 ∧ Mutual witRates witC0 ∧
    witC0.update witEnv witRates = (.ok (), witC1) ∧ occ witC1 1 = rounds witRates witC0 6 1 ∧
    rounds witRates witC0 6 1 ≠ rounds witRates witC0 5 1 ∧
    ∃ evs c c', Trace witEnv (Cluster.new 0) evs c ∧ Sound witRates c ∧ Mutual witRates c ∧
      c.update witEnv witRates = (.ok (), c') ∧ (settingsOf evs).method = .iterationsPerCluster ∧
      (settingsOf evs).rounds = 2 ∧ occ c' 1 = rounds witRates c 2 1 := by
  refine ⟨by decide +kernel, by decide +kernel, witC0_trace, witC0_sound, witC0_mutual, witC1_update, by decide +kernel,
    by decide +kernel, _, (runOps witEnv witRates (Cluster.new 0) roundOps).2,
    ((runOps witEnv witRates (Cluster.new 0) roundOps).2.update witEnv witRates).2,
    runOps_trace (env := witEnv) (mem := witRates) (ops := roundOps) (by decide +kernel),
    sound_of (by decide +kernel) (by decide +kernel), ?_, by decide +kernel, by decide +kernel, by decide +kernel,
    by decide +kernel⟩
  unfold Mutual; decide +kernel

end Mythical
