import Verif.Lemmas.ClusterTerm
import Verif.Lemmas.ClusterTrace

/-! # Lemmas about the cluster: settings and rounds of the master equation -/

set_option linter.unusedSectionVars false
set_option linter.unusedVariables false

namespace Mythical
open Cluster ClusterSpec
variable {K : Type} [Field K] [LinearOrder K] [IsStrictOrderedRing K] [FloorRing K]
variable {mem : Addr → K} {c c' : Cluster K} {env : Env K} {evs : List (Cluster.Event K)} {id : Int}

/-! ## The settings are those of the history -/

/-- The cluster has the settings `s`. -/
def Cluster.Has (c : Cluster K) (s : Settings K) : Prop := c.method = s.method ∧ (c.iterations : Int) = s.rounds ∧ c.tol = s.tolerance

theorem Cluster.Has.frame {s : Settings K} (h : c.Has s) (hf : Frame c c') : c'.Has s :=
  ⟨hf.method.trans h.1, by rw [hf.iterations]; exact h.2.1, hf.tol.trans h.2.2⟩

theorem Cluster.Has.step {s : Settings K} (h : c.Has s) {op : Op K} {res : Except Fault (Out K)}
    (hs : c.step env mem op = (res, c')) : c'.Has (setting s ⟨c, op, res⟩) := by
  cases hq : op.isQuiet with
  | true =>
    have hf := step_quiet (c := c) (env := env) (mem := mem) hq
    rw [hs] at hf
    have : setting s ⟨c, op, res⟩ = s := by cases op <;> first | rfl | cases hq
    rw [this]; exact h.frame hf
  | false =>
    rcases step_loud hq hs with ⟨e, rfl, rfl⟩ | h1
    · have : setting s ⟨c', op, .error e⟩ = s := by cases op <;> rfl
      rw [this]; exact h
    · have same : c'.method = c.method → c'.iterations = c.iterations → c'.tol = c.tol → c'.Has s := fun a b d =>
        ⟨a.trans h.1, by rw [b]; exact h.2.1, d.trans h.2.2⟩
      cases op with
      | addSite | addSites | update | migrateSitesFrom | getVisitFrequency | setVisitFrequency => cases hq
      | occupySite id => obtain ⟨-, -, rfl⟩ := occupySite_ok h1.1; exact same rfl rfl rfl
      | vacateSite id => obtain ⟨-, -, rfl⟩ := vacateSite_ok h1.1; exact same rfl rfl rfl
      | removeWalker w id => obtain ⟨-, -, rfl⟩ := vacateSite_ok h1.1; exact same rfl rfl rfl
      | occupy => rw [occupy_ok h1.1]; exact ⟨h.1, h.2.1, h.2.2⟩
      | vacate => rw [vacate_ok h1.1]; exact ⟨h.1, h.2.1, h.2.2⟩
      | getDwellTime w e =>
        obtain ⟨t, h1, -⟩ := h1
        obtain ⟨tau, dt, -, -, rfl, -⟩ := getDwellTime_ok h1
        exact same rfl rfl rfl
      | pickNewSiteId w u =>
        obtain ⟨t, h1, -⟩ := h1
        obtain ⟨r, -, ⟨-, -, rfl⟩ | ⟨-, -, rfl⟩⟩ := pickNewSiteId_ok h1
        · exact h
        · exact same rfl rfl rfl
      | setResolution r => obtain ⟨-, rfl⟩ := h1; exact same rfl rfl rfl
      | setConvergenceMethod m =>
        cases hs
        exact ⟨rfl, h.2.1, h.2.2⟩
      | setConvergenceTolerance t =>
        obtain ⟨h0, rfl⟩ := h1
        simp only [Cluster.step, setConvergenceTolerance, if_pos h0, simple, Prod.mk.injEq] at hs
        rw [← hs.1]
        exact ⟨h.1, h.2.1, rfl⟩
      | setConvergenceIterations n =>
        obtain ⟨h0, rfl⟩ := h1
        simp only [Cluster.step, setConvergenceIterations, if_pos h0, simple, Prod.mk.injEq] at hs
        rw [← hs.1]
        exact ⟨h.1, Int.toNat_of_nonneg h0.le, h.2.2⟩
      | setRandomSeed n => rw [h1]; exact ⟨h.1, h.2.1, h.2.2⟩

theorem Cluster.has_of_trace (ht : Trace env (Cluster.new id) evs c) : c.Has (settingsOf evs) := by
  have key : ∀ {a b : Cluster K} {l : List (Cluster.Event K)} {s : Settings K}, Trace env a l b → a.Has s → b.Has (l.foldl setting s) := by
    intro a b l s ht
    induction ht generalizing s with
    | nil => exact fun h => h
    | cons mem h hr ht ih => exact fun hs => ih (hs.step h)
  exact key ht ⟨rfl, rfl, rfl⟩

/-! ## The rounds -/

theorem Cluster.afterHop_eq (p q : Int → K) (h : ∀ i ∈ ids c, p i = q i) (i : Int) :
    afterHop mem c p i = inflow mem c q i / ∑ j ∈ ids c, inflow mem c q j := by
  have : ∀ j, ∑ n ∈ ids c, p n * hopProb mem c n j = inflow mem c q j := fun j =>
    Finset.sum_congr rfl fun n hn => by rw [h n hn, mul_comm]
  unfold afterHop
  rw [this]
  congr 1
  exact Finset.sum_congr rfl fun j _ => this j

theorem Cluster.rounds_congr (e : c'.sites = c.sites) (n : Nat) : rounds mem c' n = rounds mem c n := by
  induction n with
  | zero => funext i; unfold rounds; rw [ids_congr e]
  | succ n ih => funext i; unfold rounds; rw [ih]; unfold afterHop; rw [ids_congr e, hopProb_congr e]

theorem Cluster.iterate_rounds (hs : Sound mem c) (hm : Mutual mem c) (hd : Dist c) (h : c.iterate = .ok c') {n : Nat}
    (hn : ∀ i ∈ ids c, c.prob i = rounds mem c n i) : ∀ i ∈ ids c, c'.prob i = rounds mem c (n + 1) i := by
  intro i hi
  obtain ⟨-, hv⟩ := iterate_prob hs hm hd h
  rw [hv i hi]
  show _ = (rounds mem c n i + afterHop mem c (rounds mem c n) i) / 2
  rw [afterHop_eq _ c.prob fun i hi => (hn i hi).symm, ← hn i hi, add_comm]

theorem Cluster.iterateN_rounds {k : Nat} (hs : Sound mem c) (hm : Mutual mem c) (hd : Dist c) (h : iterateN k c = .ok c')
    {n : Nat} (hn : ∀ i ∈ ids c, c.prob i = rounds mem c n i) : ∀ i ∈ ids c, c'.prob i = rounds mem c (n + k) i := by
  induction k generalizing c n with
  | zero => cases h; exact hn
  | succ k ih =>
    unfold iterateN at h
    obtain ⟨c1, h1, h⟩ := bind_eq_ok.1 h
    have e := iterate_sites h1
    have := ih (hs.congr e) (Mutual.congr e hm) (iterate_dist hs hm hd h1) h (n := n + 1) (by
      rw [ids_congr e, rounds_congr e]; exact iterate_rounds hs hm hd h1 hn)
    rw [ids_congr e, rounds_congr e] at this
    rw [show n + (k + 1) = n + 1 + k by omega]
    exact this

theorem Cluster.toleranceLoop_rounds' {k : Nat} (hs : Sound mem c) (hm : Mutual mem c) (hd : Dist c)
    (h : toleranceLoop k c = .ok c') {n : Nat} (hn : ∀ i ∈ ids c, c.prob i = rounds mem c n i) :
    ∃ N ≥ n, (∀ i ∈ ids c, c'.prob i = rounds mem c (N + 1) i) ∧ change mem c N ≤ c.tol ^ 2 ∧
      ∀ j, n ≤ j → j < N → c.tol ^ 2 < change mem c j := by
  induction k generalizing c n with
  | zero => cases h
  | succ k ih =>
    unfold toleranceLoop at h
    obtain ⟨c1, h1, h⟩ := bind_eq_ok.1 h
    have e := iterate_sites h1
    have hr := iterate_rounds hs hm hd h1 hn
    have herr : errorSq c c1 = change mem c n := by
      rw [errorSq_eq hd.keys]
      refine Finset.sum_congr rfl fun i hi => ?_
      rw [hn i hi, hr i hi]; ring
    split at h
    · next hgt =>
      obtain ⟨N, hN, r1, r2, r3⟩ := ih (hs.congr e) (Mutual.congr e hm) (iterate_dist hs hm hd h1) h (n := n + 1) (by
        rw [ids_congr e, rounds_congr e]; exact hr)
      have ht : c1.tol = c.tol := by rw [iterate_shape h1]
      have hc : ∀ j, change mem c1 j = change mem c j := fun j => by
        unfold change; rw [ids_congr e, rounds_congr e, rounds_congr e]
      rw [ids_congr e, rounds_congr e] at r1
      rw [ht, hc] at r2
      refine ⟨N, by omega, r1, r2, fun j h1 h2 => ?_⟩
      rcases Nat.eq_or_lt_of_le h1 with rfl | h1
      · rw [← herr]; exact hgt
      · have := r3 j h1 h2
        rw [ht, hc] at this; exact this
    · next hle =>
      cases h
      exact ⟨n, le_rfl, hr, by rw [← herr]; exact not_lt.1 hle, fun j h1 h2 => absurd h2 (by omega)⟩


end Mythical
