import Verif.Lemmas.BenchBox
import Verif.Lemmas.SystemWitness
import Mathlib.Data.Rat.Floor

/-! # The program that simulates with and without clusters (C111) -/

set_option linter.unusedSectionVars false
set_option linter.unusedVariables false

namespace Mythical
open World SystemSpec ProgramSpec BenchSpec Bench
open _root_.Mythical.ToF (Prog)
open _root_.Mythical.ToFSpec (escapeRate RowsWithin)
variable {K : Type} [Field K] [LinearOrder K] [IsStrictOrderedRing K] [FloorRing K]
variable {env : Env K} {mem : Addr → K} {m : IMap (IMap Addr)} {sites : List Int} {seed threshold rate : Int} {cutoff : K} {luck luck' : Luck K}

/-- Draws for two walkers. -/
def Bench.pairLuck : Luck ℚ where
  first k := (if k = 0 then 1 else 1 / 10, 1 / 2)
  draw _ h := witChoice (if h = 0 then 1 / 2 else 3 / 4) [1 / 100]

/-- Walkers on the sites 1 and 3 of a chain of four. -/
theorem Bench.pair_setting {cutoff : ℚ} (hc : 0 < cutoff) : Setting sysRates sysMap [1, 3] cutoff 2 pairLuck := by
  have hm : ∀ i, Mentions sysMap i → i = 1 ∨ i = 2 ∨ i = 3 ∨ i = 4 := by
    rintro i ⟨ir, hir, h⟩
    have : ∀ ir ∈ sysMap, (ir.1 = 1 ∨ ir.1 = 2 ∨ ir.1 = 3 ∨ ir.1 = 4) ∧ ∀ na ∈ ir.2, na.1 = 1 ∨ na.1 = 2 ∨ na.1 = 3 ∨ na.1 = 4 := by decide
    rcases h with rfl | ⟨na, hna, rfl⟩
    · exact (this ir hir).1
    · exact (this ir hir).2 na hna
  refine ⟨⟨by unfold IMap.WF; decide, ?_⟩, fun i hi => ?_, by decide, ?_, by decide, by decide, hc, by decide, fun k => ⟨?_, ?_⟩, fun evs h => ⟨?_, ?_⟩⟩
  · unfold IMap.WF
    decide +kernel
  · rcases hm i hi with rfl | rfl | rfl | rfl
    · exact ⟨by decide, _, by simp [sysMap]; rfl⟩
    · exact ⟨by decide, _, by simp [sysMap]; rfl⟩
    · exact ⟨by decide, _, by simp [sysMap]; rfl⟩
    · exact ⟨by decide, _, by simp [sysMap]; rfl⟩
  · intro i hi
    rcases (by simpa using hi : i = 1 ∨ i = 3) with rfl | rfl
    · exact ⟨(1, [(2, 0)]), by simp [sysMap], .inl rfl⟩
    · exact ⟨(3, [(2, 1), (4, 2)]), by simp [sysMap], .inl rfl⟩
  · show SiteSpec.Draw (1 / 2 : ℚ)
    unfold SiteSpec.Draw; norm_num
  · show (0 : ℚ) < if k = 0 then 1 else 1 / 10
    split <;> norm_num
  · show SiteSpec.Draw (if h = 0 then 1 / 2 else 3 / 4 : ℚ)
    unfold SiteSpec.Draw; split <;> norm_num
  · show (0 : ℚ) < 1
    norm_num

theorem Bench.pair_within : RowsWithin sysRates sysMap 1 101 := by unfold RowsWithin; decide +kernel

theorem Bench.pair_luck : LuckAtLeast (1 / 10) pairLuck :=
  ⟨fun k => by show (1 / 10 : ℚ) ≤ if k = 0 then 1 else 1 / 10; split <;> norm_num, fun evs h => by show (1 / 10 : ℚ) ≤ 1; norm_num⟩

/-- A simulation with these walkers. -/
def Bench.pairRun (threshold : Int) (cutoff : ℚ) (r : Nat) : Except Fault (Sim ℚ × Bool) :=
  part Cluster.witEnv sysRates sysMap [1, 3] 5 threshold cutoff 2 pairLuck ⟨World.new 0, []⟩ r

/-- The state is as given: whether the loop is over, the list of times, and the numbers of calls and of clusters. -/
def Bench.Sees (x : Except Fault (Sim ℚ × Bool)) (fin : Bool) (times : List (Int × ℚ)) (calls clusters : Nat) : Bool :=
  match x with
  | .ok (s, f) => decide (f = fin ∧ s.times = times ∧ s.prog.calls.length = calls ∧ s.prog.world.getClusters.length = clusters)
  | .error _ => false

theorem Bench.sees_ok {x : Except Fault (Sim ℚ × Bool)} {fin : Bool} {times : List (Int × ℚ)} {calls clusters : Nat}
    (h : Bench.Sees x fin times calls clusters = true) :
    ∃ s, x = .ok (s, fin) ∧ s.times = times ∧ s.prog.calls.length = calls ∧ s.prog.world.getClusters.length = clusters := by
  unfold Bench.Sees at h
  split at h
  · obtain ⟨h1, h2⟩ := of_decide_eq_true h
    exact ⟨_, by rw [h1], h2⟩
  · cases h

/-- Without coarse graining the walker on site 1 hops to and fro, and the loop is over after 13 rounds. -/
theorem Bench.pair_first : ∃ s, pairRun infIterations (1 / 8) 14 = .ok (s, true) ∧ s.times = [(0, 1307 / 10100), (1, 21 / 20)] ∧
    s.prog.calls.length = 22 ∧ s.prog.world.getClusters.length = 0 := sees_ok (by decide +kernel)

/-- With the threshold 0 there is a cluster after the first round, and the loop is over after 4. -/
theorem Bench.pair_second : ∃ s, pairRun 0 (1 / 8) 5 = .ok (s, true) ∧ s.times = [(0, 2927 / 20200), (1, 21 / 20)] ∧
    s.prog.calls.length = 13 ∧ s.prog.world.getClusters.length = 1 := sees_ok (by decide +kernel)

/-- **C111** (what a simulation does). At every moment of either simulation, with whatever threshold: the list has one entry for each walker
and is in order; the time of a walker is the sum of the dwell times it got, all but the last of which ended before the cutoff; the walkers
are on sites of the system, no two of them on the same. When the loop is over no walker's time is before the cutoff. The number of dwell
times handed out is that of the rounds and of the walkers together. -/
theorem C111_run (hS : Setting mem m sites cutoff rate luck) {n0 r : Nat} {s : Sim K} {fin : Bool}
    (h : part env mem m sites seed threshold cutoff rate luck ⟨World.new n0, []⟩ r = .ok (s, fin)) :
    Consistent m sites.length cutoff s ∧ (fin = true → ∀ e ∈ s.times, cutoff ≤ e.2) ∧
    ∃ j ≤ r, (fin = false → j = r) ∧ ((List.range sites.length).map fun k : Nat => (staysOf (k : Int) s.prog.calls).length).sum = j + sites.length := by
  obtain ⟨s0, h0, h⟩ := bind_eq_ok.1 h
  obtain ⟨s1, h1, hI, -⟩ | ⟨h1, -⟩ := start_spec (env := env) (n0 := n0) (seed := seed) (threshold := threshold) hS
  swap
  · rw [h0] at h1; cases h1
  rw [h0] at h1; cases h1
  obtain ⟨j, hj, hI, hf, hfin⟩ := loops_steps (P := fun v s => Inv env mem m n0 sites.length cutoff v s)
    (fun v s s' hI ha => inv_advance hS hI ha) hI h
  rw [Nat.zero_add] at hI
  obtain ⟨hp, hap⟩ := C53 env n0 _ _ hI.log.trace hI.log.usage
  have hact : ∀ k : Nat, k < sites.length → (k : Int) ∈ active s.prog.calls := fun k hk => by
    rw [hI.act]
    exact List.mem_map.2 ⟨k, List.mem_range.2 hk, rfl⟩
  refine ⟨⟨hI.ids, hI.ordered, hI.clock, hI.before, fun k hk => ?_, fun k k' hk hk' i h1 h2 => ?_⟩, fun hfin' e he => ?_, j, hj, hf, hI.count⟩
  · obtain ⟨i, h1, t, ht⟩ := hp k (hact k hk)
    exact ⟨i, h1, hI.log.mentioned ht⟩
  · exact_mod_cast hap k (hact k hk) k' (hact k' hk') i h1 h2
  · obtain ⟨k, t, rest, ht, hc⟩ := advance_none (hfin hfin')
    have ho := hI.ordered
    rw [ht] at ho he
    rcases List.mem_cons.1 he with rfl | he
    · exact hc
    · exact hc.trans ((List.pairwise_cons.1 ho).1 e he)

/-- After two rounds with coarse graining. -/
example : ∃ s, pairRun 0 (1 / 8) 2 = .ok (s, false) ∧ Consistent sysMap 2 (1 / 8) s ∧ s.times = [(1, 1 / 20), (0, 3329 / 40400)] ∧
    s.prog.world.getClusters.length = 1 := by
  obtain ⟨s, h, ht, -, hc⟩ := sees_ok (x := pairRun 0 (1 / 8) 2) (fin := false) (times := [(1, 1 / 20), (0, 3329 / 40400)]) (calls := 11)
    (clusters := 1) (by decide +kernel)
  exact ⟨s, h, (C111_run (pair_setting (by norm_num)) h).1, ht, hc⟩

/-- At the end of it. -/
example : ∃ s, pairRun 0 (1 / 8) 5 = .ok (s, true) ∧ (∀ e ∈ s.times, 1 / 8 ≤ e.2) ∧
    ((List.range 2).map fun k : Nat => (staysOf (k : Int) s.prog.calls).length).sum ≤ 5 + 2 := by
  obtain ⟨s, h, -⟩ := pair_second
  obtain ⟨-, h1, j, hj, -, h2⟩ := C111_run (pair_setting (by norm_num)) h
  exact ⟨s, h, h1 rfl, h2.trans_le (by simpa using hj)⟩

/-- **C111** (no clusters without coarse graining). The first simulation, whose threshold means that there is no coarse graining, is stopped
by the assertion if no walker leaves its first site before the cutoff. Otherwise it does not fail as long as the rounds and the walkers
together are no more than an `int` can count; it makes no clusters, so that the exception in line 273 is never thrown, and it takes no
id of a cluster. -/
theorem C111_first (hS : Setting mem m sites cutoff rate luck) {n0 r : Nat} (hb : (r : Int) + sites.length ≤ INT_MAX) :
    (part env mem m sites seed infIterations cutoff rate luck ⟨World.new n0, []⟩ r = .error .assertFail ∧
        ∀ (k : Nat) i, sites[k]? = some i → cutoff ≤ (luck.first k).1 / escapeRate mem m i) ∨
    (∃ (k : Nat) (i : Int), sites[k]? = some i ∧ (luck.first k).1 / escapeRate mem m i < cutoff) ∧
      ∃ s fin, part env mem m sites seed infIterations cutoff rate luck ⟨World.new n0, []⟩ r = .ok (s, fin) ∧
        s.prog.world.getClusters = [] ∧ check s = .ok () ∧ s.prog.world.nextId = n0 := by
  rcases start_spec (env := env) (n0 := n0) (seed := seed) (threshold := infIterations) hS with ⟨s0, h0, hI, hq, -, k, i, hk, hlt⟩ | ⟨h0, hall⟩
  swap
  · refine .inl ⟨?_, hall⟩
    unfold part
    rw [h0]
    rfl
  refine .inr ⟨⟨k, i, hk, hlt⟩, ?_⟩
  obtain ⟨s, fin, j, hl, -, hq⟩ := loops_total (env := env) (mem := mem) (cutoff := cutoff) (luck := luck) (n := sites.length) (r := r) (k := 0)
    (P := fun v s => Inv env mem m n0 sites.length cutoff v s ∧ Still (n0 : Int) v sites.length s.prog.world)
    (fun v s hv ⟨hI, hq⟩ => by
      obtain ⟨o, ho, hs⟩ := advance_still hS hI hq (by omega)
      exact ⟨o, ho, fun s' e => ⟨inv_advance hS hI (by rw [ho, e]), hs s' e⟩⟩) ⟨hI, by simpa using hq rfl⟩
  have hc : s.prog.world.getClusters = [] := by
    unfold World.getClusters
    rw [hq.clusters]
    rfl
  refine ⟨s, fin, ?_, hc, ?_, hq.next⟩
  · unfold part
    rw [h0, ok_bind]
    exact hl
  · unfold check
    rw [hc]
    rfl

/-- The first alternative: with the cutoff 1/200 the assertion fails. -/
example : pairRun infIterations (1 / 200) 4 = .error .assertFail := by
  rcases C111_first (env := Cluster.witEnv) (n0 := 0) (seed := 5) (r := 4) (pair_setting (cutoff := 1 / 200) (by norm_num)) (by decide) with
    ⟨h, -⟩ | ⟨⟨k, i, hk, hlt⟩, -⟩
  · exact h
  · exfalso
    match k, hk with
    | 0, hk =>
      obtain rfl : (1 : Int) = i := by simpa using hk
      exact absurd hlt (by decide +kernel)
    | 1, hk =>
      obtain rfl : (3 : Int) = i := by simpa using hk
      exact absurd hlt (by decide +kernel)
    | k + 2, hk => simp at hk

/-- The second: no clusters after any number of rounds, whereas with another threshold there is one. -/
example : (∀ r : Nat, r < 2147483640 → ∃ s fin, pairRun infIterations (1 / 8) r = .ok (s, fin) ∧ s.prog.world.getClusters = []) ∧
    ∃ s, pairRun 0 (1 / 8) 5 = .ok (s, true) ∧ s.prog.world.getClusters.length = 1 := by
  refine ⟨fun r hr => ?_, ?_⟩
  · rcases C111_first (env := Cluster.witEnv) (n0 := 0) (seed := 5) (r := r) (pair_setting (cutoff := 1 / 8) (by norm_num))
      (by simp only [INT_MAX, List.length_cons, List.length_nil]; omega) with ⟨-, h⟩ | ⟨-, s, fin, h, hc, -⟩
    · exact absurd (h 0 1 rfl) (by decide +kernel)
    · exact ⟨s, fin, h, hc⟩
  · obtain ⟨s, h, -, -, hc⟩ := pair_second
    exact ⟨s, h, hc⟩

/-- **C111** (the loops end). If the rates are at least `r` each and at most `R` together for each site, and the exponential draws are at
least `ε`, then either loop is over after `walkers (2 cutoff / δ + 1)` rounds, where `δ` is the smaller one of `ε/R` and
`(1/R) / max(2, R/(r² resolution))`. -/
theorem C111_rounds (hS : Setting mem m sites cutoff rate luck) {r R ε δ : K} (hr : 0 < r) (hR : 0 < R) (hε : 0 < ε) (hm : RowsWithin mem m r R)
    (hd : LuckAtLeast ε luck) (hδ : δ = min (ε / R) (1 / R / max 2 (R / (r * r * (cutoff / rate))))) {n0 N : Nat} {s : Sim K}
    (h : part env mem m sites seed threshold cutoff rate luck ⟨World.new n0, []⟩ N = .ok (s, false)) :
    (N : K) ≤ sites.length * (2 * cutoff / δ + 1) := by
  obtain ⟨s0, h0, h⟩ := bind_eq_ok.1 h
  obtain ⟨s1, h1, hI, -, ho, -⟩ | ⟨h1, -⟩ := start_spec (env := env) (n0 := n0) (seed := seed) (threshold := threshold) hS
  swap
  · rw [h0] at h1; cases h1
  rw [h0] at h1; cases h1
  obtain ⟨j, hj, ⟨hI, ho⟩, hf, -⟩ := loops_steps
    (P := fun v s => Inv env mem m n0 sites.length cutoff v s ∧ ToF.AllOps (Pause (cutoff / rate) ε) s.prog)
    (fun v s s' hI ha => ⟨inv_advance hS hI.1 ha, pause_advance hd.2 hI.2 ha⟩) ⟨hI, ho ε hd.1⟩ h
  rw [Nat.zero_add, hf rfl] at hI
  have hrate : (0 : K) < (rate : K) := by exact_mod_cast hS.rate
  have hda : DrawsAtLeast ε s.prog.calls := fun ev hev => by
    obtain ⟨h1, h2, -⟩ := ho ev hev
    cases ho : ev.op with
    | initializeWalkers l => exact h1 l ho
    | hop wid h a => exact h2 wid h a ho
    | _ => trivial
  have hone : ∀ k : Int, ((staysOf k s.prog.calls).length : K) ≤ 2 * cutoff / δ + 2 := by
    intro k
    obtain ⟨h0, hpos, hlen, -⟩ := C78 env n0 _ _ hI.log.trace hI.log.usage mem hI.log.fixed (hI.log.pos hS.proper) r R (cutoff / rate) ε hr hR
      (div_pos hS.cutoff hrate) hε (within_iff.2 (hI.log.within hS.proper hS.closed hm)) (fun ev hev t n e _ => (ho ev hev).2.2 t e) hda k δ hδ
    have hb := hI.before k
    generalize staysOf k s.prog.calls = l at hpos hlen hb
    have h3 := World.sum_of_count h0.le (l := l.dropLast) fun t ht => hpos t (List.dropLast_subset l ht)
    have h4 : l.countP (fun t => δ ≤ t) ≤ l.dropLast.countP (fun t => δ ≤ t) + 1 := by
      rcases List.eq_nil_or_concat l with rfl | ⟨l', x, rfl⟩
      · simp
      · rw [List.concat_eq_append, List.dropLast_concat, List.countP_append]
        have : [x].countP (fun t => decide (δ ≤ t)) ≤ 1 := List.countP_le_length
        omega
    have h6 : ((l.length : ℕ) : K) ≤ 2 * (l.dropLast.countP (fun t => δ ≤ t) : ℕ) + 2 := by
      have : l.length ≤ 2 * l.dropLast.countP (fun t => δ ≤ t) + 2 := by omega
      exact_mod_cast this
    have h7 : ((l.dropLast.countP (fun t => δ ≤ t) : ℕ) : K) ≤ cutoff / δ := by
      rw [le_div_iff₀ h0]
      linarith
    have : 2 * cutoff / δ = 2 * (cutoff / δ) := by ring
    rw [this]
    linarith
  have hsum : ∀ n : Nat, ((((List.range n).map fun k : Nat => (staysOf (k : Int) s.prog.calls).length).sum : ℕ) : K) ≤
      n * (2 * cutoff / δ + 2) := by
    intro n
    induction n with
    | zero => simp
    | succ n ih =>
      simp only [List.range_succ, List.map_append, List.sum_append, List.map_cons, List.map_nil, List.sum_cons, List.sum_nil, add_zero]
      have := hone (n : Int)
      push_cast
      push_cast at ih
      linarith
  have h1 := hsum sites.length
  have h2 := hI.count
  unfold stayCount at h2
  rw [h2] at h1
  push_cast at h1
  linarith

/-- A bound on the rounds with the threshold 0. -/
example {N : Nat} {s : Sim ℚ} (h : pairRun 0 (1 / 8) N = .ok (s, false)) : (N : ℚ) ≤ 81610 := by
  have := C111_rounds (pair_setting (by norm_num)) (r := 1) (R := 101) (ε := 1 / 10) (by norm_num) (by norm_num) (by norm_num) pair_within pair_luck rfl h
  exact this.trans (by decide +kernel)

/-- **C111** (the first simulation). So the first simulation ends as it is meant to, with no clusters and all times past the cutoff, unless
it is stopped by the assertion, if it is given enough rounds and these are no more than an `int` can count. -/
theorem C111_ends (hS : Setting mem m sites cutoff rate luck) {r R ε δ : K} (hr : 0 < r) (hR : 0 < R) (hε : 0 < ε) (hm : RowsWithin mem m r R)
    (hd : LuckAtLeast ε luck) (hδ : δ = min (ε / R) (1 / R / max 2 (R / (r * r * (cutoff / rate))))) {n0 N : Nat}
    (hN : sites.length * (2 * cutoff / δ + 1) < (N : K)) (hb : (N : Int) + sites.length ≤ INT_MAX) :
    (whole env mem m sites seed infIterations cutoff rate luck ⟨World.new n0, []⟩ N = .error .assertFail ∧
        ∀ (k : Nat) i, sites[k]? = some i → cutoff ≤ (luck.first k).1 / escapeRate mem m i) ∨
    ∃ s, whole env mem m sites seed infIterations cutoff rate luck ⟨World.new n0, []⟩ N = .ok s ∧ Consistent m sites.length cutoff s ∧
      (∀ e ∈ s.times, cutoff ≤ e.2) ∧ check s = .ok () := by
  rcases C111_first (env := env) (n0 := n0) (seed := seed) hS hb with ⟨h, hall⟩ | ⟨-, s, fin, h, -, hc, -⟩
  · refine .inl ⟨?_, hall⟩
    unfold whole
    rw [h]
    rfl
  · cases fin with
    | false => exact absurd (C111_rounds hS hr hR hε hm hd hδ h) (not_le.2 hN)
    | true =>
      obtain ⟨h1, h2, -⟩ := C111_run hS h
      refine .inr ⟨s, ?_, h1, h2 rfl, hc⟩
      unfold whole
      rw [h]
      rfl

/-- The first simulation ends with all times past the cutoff. -/
example : ∃ s, whole Cluster.witEnv sysRates sysMap [1, 3] 5 infIterations (1 / 8) 2 pairLuck ⟨World.new 0, []⟩ 100000 = .ok s ∧
    (∀ e ∈ s.times, 1 / 8 ≤ e.2) ∧ check s = .ok () := by
  rcases C111_ends (env := Cluster.witEnv) (n0 := 0) (seed := 5) (N := 100000) (pair_setting (cutoff := 1 / 8) (by norm_num)) (r := 1) (R := 101)
    (ε := 1 / 10) (by norm_num) (by norm_num) (by norm_num) pair_within pair_luck rfl (by decide +kernel) (by decide) with ⟨-, h⟩ | ⟨s, h, -, h1, h2⟩
  · exact absurd (h 0 1 rfl) (by decide +kernel)
  · exact ⟨s, h, h1, h2⟩

/-- **C111** (both simulations). The program is stopped by the assertion in the first simulation; or this goes on for longer than `r` rounds;
or it ends, and then the second starts with a system in the same state as the first did, also what the counter of clusters concerns,
and the number printed is that of its clusters. -/
theorem C111_both (hS : Setting mem m sites cutoff rate luck) {r r' : Nat} (hb : (r : Int) + sites.length ≤ INT_MAX) :
    both env mem m sites seed threshold cutoff rate luck luck' r r' = .error .assertFail ∧
        (∀ (k : Nat) i, sites[k]? = some i → cutoff ≤ (luck.first k).1 / escapeRate mem m i) ∨
    (∃ s, part env mem m sites seed infIterations cutoff rate luck ⟨World.new 0, []⟩ r = .ok (s, false)) ∧
        both env mem m sites seed threshold cutoff rate luck luck' r r' = .error .outOfFuel ∨
    (∃ s, part env mem m sites seed infIterations cutoff rate luck ⟨World.new 0, []⟩ r = .ok (s, true)) ∧
        both env mem m sites seed threshold cutoff rate luck luck' r r' =
          (whole env mem m sites seed threshold cutoff rate luck' ⟨World.new 0, []⟩ r').map fun s' => s'.prog.world.getClusters.length := by
  rcases C111_first (env := env) (n0 := 0) (seed := seed) hS hb with ⟨h, hall⟩ | ⟨-, s, fin, h, -, hc, hx⟩
  · refine .inl ⟨?_, hall⟩
    unfold both whole
    rw [h]
    rfl
  · cases fin with
    | false =>
      refine .inr (.inl ⟨⟨s, h⟩, ?_⟩)
      unfold both whole
      rw [h]
      rfl
    | true =>
      refine .inr (.inr ⟨⟨s, h⟩, ?_⟩)
      have hw : whole env mem m sites seed infIterations cutoff rate luck ⟨World.new 0, []⟩ r = .ok s := by
        unfold whole
        rw [h]
        rfl
      have hn : ({ World.new 0 with nextId := s.prog.world.nextId } : World K) = World.new 0 := by rw [hx]; rfl
      unfold both
      rw [hw, ok_bind, hc, ok_bind, hn]
      cases whole env mem m sites seed threshold cutoff rate luck' ⟨World.new 0, []⟩ r' <;> rfl

/-- Both simulations: one cluster is reported. -/
example : both Cluster.witEnv sysRates sysMap [1, 3] 5 0 (1 / 8) 2 pairLuck pairLuck 14 5 = .ok 1 := by
  obtain ⟨s, h, -⟩ := pair_first
  obtain ⟨s', h', -, -, hc⟩ := pair_second
  rcases C111_both (env := Cluster.witEnv) (seed := 5) (threshold := 0) (luck' := pairLuck) (r := 14) (r' := 5)
    (pair_setting (cutoff := 1 / 8) (by norm_num)) (by decide) with ⟨-, h1⟩ | ⟨⟨s1, h1⟩, -⟩ | ⟨-, h1⟩
  · exact absurd (h1 0 1 rfl) (by decide +kernel)
  · rw [show part _ _ _ _ _ _ _ _ _ _ _ = pairRun infIterations (1 / 8) 14 from rfl, h] at h1
    cases h1
  · rw [h1]
    have hw : whole Cluster.witEnv sysRates sysMap [1, 3] 5 0 (1 / 8) 2 pairLuck ⟨World.new 0, []⟩ 5 = .ok s' := by
      unfold whole
      rw [show part _ _ _ _ _ _ _ _ _ _ _ = pairRun 0 (1 / 8) 5 from rfl, h']
      rfl
    rw [hw, ← hc]
    rfl

/-- **C111** (the whole program). With the rates of a box, gone through in any order, with as many different random positions as there are
walkers, at least one, and with possible random numbers, the simulations are given what the theorems above ask for: as many different
sites of the box as there are walkers. -/
theorem C111_main {d walkers : Int} (h3 : 3 ≤ d) (h1 : d ≤ 1290) {energies : List ℝ} {E : Int → ℝ} (hE : BoxSpec.Energies d energies E)
    {visit : IMap (IMap ℝ) → List (Int × List (Int × ℝ))} (hv : ∀ R, Rearranged (visit R) R) (hseed : FitsInt (seed + 1)) (hw : 0 < walkers)
    {picks : List Cuboid.Pos} (hp : ∀ q ∈ picks, BoxSpec.InCube d q) (hcard : walkers.toNat ≤ picks.toFinset.card) {cutoff : ℝ} (hc : 0 < cutoff)
    (hr : 0 < rate) {env : Env ℝ} {luck luck' : Luck ℝ} (hl : ∀ k, SiteSpec.Draw (luck.first k).2 ∧ 0 < (luck.first k).1)
    (hd : ∀ evs h, SiteSpec.Draw (luck.draw evs h).u ∧ 0 < (luck.draw evs h).e) {r r' : Nat} :
    ∃ R sites, Box.rates d energies 0 = .ok R ∧ (sites.length : Int) = walkers ∧
      (∀ i ∈ sites, ∃ q ∈ picks, BoxSpec.At d i q) ∧
      Setting (ToF.memOf (visit R)) (ToF.layout (visit R)) sites cutoff rate luck ∧
      Bench.main env d walkers seed threshold rate cutoff energies visit picks luck luck' r r' =
        both env (ToF.memOf (visit R)) (ToF.layout (visit R)) sites seed threshold cutoff rate luck luck' r r' := by
  obtain ⟨R, hR, hs⟩ := Box.rates_ok h3 h1 hE 0
  obtain ⟨occ, pos, hpl, hseat⟩ := (Crude.place_cases (by omega) h1 (n := walkers.toNat) picks 0 [] [] ∅ hp (Crude.seated_zero d) (by simp)
    (Nat.zero_le _)).1 (by simpa using hcard)
  obtain ⟨sites, hsites, hlen, -, hat⟩ := sitesOf_ok (by omega) h1 hseat
  have hS := setting_box h3 h1 hs.neat.1 (Crude.boxRates_of_stored h3 h1 hs) (stored_keys hs) (hv R) (by omega) hseat hsites hc hr hl hd
  refine ⟨R, sites, hR, by omega, fun i hi => ?_, hS, ?_⟩
  · obtain ⟨k, hk⟩ := List.mem_iff_getElem?.1 hi
    obtain ⟨q, hq, ha⟩ := hat k i hk
    rcases place_from _ _ _ _ _ _ hpl _ _ hq with h | h
    · cases h
    · exact ⟨q, h, ha⟩
  · have hdist : Cuboid.mkDistribution d = .ok () := by
      unfold Cuboid.mkDistribution
      rw [chk_ok (fitsInt_of (by omega) (by omega)), ok_bind, if_pos (by omega)]
    unfold Bench.main
    rw [hR, ok_bind, chk_ok hseed, ok_bind, hdist, ok_bind, hpl, ok_bind]
    dsimp only
    rw [hsites, ok_bind]

/-- Three walkers in a box of 27 sites with all energies zero; one position is drawn twice. -/
example {env : Env ℝ} {luck' : Luck ℝ} : ∃ R sites, Box.rates 3 (List.replicate 27 0) 0 = .ok R ∧ sites.length = 3 ∧
    Bench.main env 3 3 5 10 100 1 (List.replicate 27 0) (fun R => R) [⟨0, 0, 0⟩, ⟨1, 2, 0⟩, ⟨0, 0, 0⟩, ⟨2, 2, 2⟩]
        ⟨fun _ => (1, 1 / 2), fun _ _ => ⟨1, 1 / 2, witVis, [], fun l => l, fun l => List.Perm.refl l⟩⟩ luck' 1000 1000 =
      both env (ToF.memOf R) (ToF.layout R) sites 5 10 1 100
        ⟨fun _ => (1, 1 / 2), fun _ _ => ⟨1, 1 / 2, witVis, [], fun l => l, fun l => List.Perm.refl l⟩⟩ luck' 1000 1000 := by
  have hE : BoxSpec.Energies 3 (List.replicate 27 0) fun _ => 0 := fun i h0 h1 => by
    rw [List.getElem?_replicate, if_pos (by omega)]
  have hu : SiteSpec.Draw (1 / 2 : ℝ) := by unfold SiteSpec.Draw; norm_num
  obtain ⟨R, sites, hR, hl, -, -, h⟩ := C111_main (seed := 5) (threshold := 10) (rate := 100) (walkers := 3) (by norm_num) (by norm_num) hE
    (visit := fun R => R) (fun R => ⟨R, List.Perm.refl R, List.forall₂_same.2 fun a _ => ⟨rfl, List.Perm.refl _⟩⟩) (by decide) (by decide)
    (picks := [⟨0, 0, 0⟩, ⟨1, 2, 0⟩, ⟨0, 0, 0⟩, ⟨2, 2, 2⟩]) (by unfold BoxSpec.InCube; decide) (by decide) (cutoff := 1) (by norm_num) (by decide) (env := env)
    (luck := ⟨fun _ => (1, 1 / 2), fun _ _ => ⟨1, 1 / 2, witVis, [], fun l => l, fun l => List.Perm.refl l⟩⟩) (luck' := luck')
    (fun k => ⟨hu, by norm_num⟩) (fun evs h => ⟨hu, by norm_num⟩) (r := 1000) (r' := 1000)
  exact ⟨R, sites, hR, by omega, h⟩

end Mythical
