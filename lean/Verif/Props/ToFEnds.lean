import Verif.Lemmas.ToFEnds
import Verif.Props.ToFMain
import Verif.Props.SystemStays

/-! # The time-of-flight program ends (C79) -/

set_option linter.unusedSectionVars false
set_option linter.unusedVariables false

namespace Mythical
open Cuboid CuboidSpec World SystemSpec ToF ToFSpec
variable {K : Type} [Field K] [LinearOrder K] [IsStrictOrderedRing K] [FloorRing K]
variable {env : Env K} {mem : Addr → K} {c : Cuboid} {m : IMap (IMap Addr)} {cfg : Config K} {ch : Chances K}

/-- **C79** (clocks). At every moment in the loops the time of a charge in the queue is the sum of all dwell times that it got,
so that no time is lost or counted twice. All dwell times but the last of any charge end before the cutoff time plus one sampling
interval. The number of steps made is that of the hops (one less than the dwell times of each charge), samples and
entries into the inner loop. -/
theorem C79_clocks (hS : Setting c mem m cfg ch) {n : Nat} {s : Sim K} {fin : Bool} (h : program env mem c m cfg ch n = .ok (s, fin)) :
    (∀ e ∈ s.queue.entries, e.2 = (staysOf e.1 s.prog.calls).sum) ∧
    (∀ k : Int, (staysOf k s.prog.calls).dropLast.sum < cfg.cutoffTime + cfg.dt) ∧
    (∀ k : Int, 0 ≤ k → k < cfg.charges → staysOf k s.prog.calls ≠ []) ∧
    ∃ j ≤ n, (fin = false → j = n) ∧ j = ((List.range cfg.charges).map fun k : Nat => (staysOf (k : Int) s.prog.calls).length - 1).sum +
      2 * s.samples.length + (if s.inside then 1 else 0) := by
  obtain ⟨j, hj, hC, hf⟩ := program_clock hS h
  refine ⟨hC.times, hC.before, hC.nonempty, j, hj, hf, ?_⟩
  have h1 := hC.steps
  unfold staysNumber at h1
  have h2 : ((List.range cfg.charges).map fun k : Nat => (staysOf (k : Int) s.prog.calls).length).sum =
      ((List.range cfg.charges).map fun k : Nat => (staysOf (k : Int) s.prog.calls).length - 1).sum + cfg.charges := by
    have : ∀ N ≤ cfg.charges, ((List.range N).map fun k : Nat => (staysOf (k : Int) s.prog.calls).length).sum =
      ((List.range N).map fun k : Nat => (staysOf (k : Int) s.prog.calls).length - 1).sum + N := by
      intro N hN
      induction N with
      | zero => rfl
      | succ N ih =>
        have := List.length_pos_iff.2 (hC.nonempty N (by omega) (by omega))
        simp only [List.range_succ, List.map_append, List.sum_append, List.map_cons, List.map_nil, List.sum_cons, List.sum_nil]
        have := ih (by omega)
        omega
    exact this _ le_rfl
  omega

/-- **C79** (hops). If the rates are at least `r` each and at most `R` together for each site, and the exponential draws
at least `ε`, then every charge makes at most `2 (cutoff + dt) / δ + 1` hops, where `δ` is the smaller one of
`ε/R` and `(1/R) / max(2, R/(r² dt))`. -/
theorem C79_hops (hS : Setting c mem m cfg ch) {r R ε δ : K} (hr : 0 < r) (hR : 0 < R) (hε : 0 < ε) (hm : RowsWithin mem m r R)
    (hd : ChancesAtLeast ε ch) (hδ : δ = min (ε / R) (1 / R / max 2 (R / (r * r * cfg.dt)))) {n : Nat} {s : Sim K} {fin : Bool}
    (h : program env mem c m cfg ch n = .ok (s, fin)) (k : Int) :
    (((staysOf k s.prog.calls).length - 1 : ℕ) : K) ≤ 2 * (cfg.cutoffTime + cfg.dt) / δ + 1 := by
  obtain ⟨hI, -⟩ := program_ok hS h
  obtain ⟨j, -, hC, -⟩ := program_clock hS h
  obtain ⟨h1, h2⟩ := program_slow hd h
  obtain ⟨h0, hpos, hlen, -⟩ := C78 env 0 _ _ hI.story.trace hI.story.usage mem hI.story.fixed (hI.story.pos hS.suits) r R cfg.dt ε hr hR
    hS.sensible.dt hε (within_iff.2 (hI.story.within hS.suits hm)) h2 h1 k δ hδ
  have hb := hC.before k
  generalize staysOf k s.prog.calls = l at hpos hlen hb
  have h3 := World.sum_of_count h0.le (l := l.dropLast) fun t ht => hpos t (List.dropLast_subset l ht)
  have h4 : l.countP (fun t => δ ≤ t) ≤ l.dropLast.countP (fun t => δ ≤ t) + 1 := by
    rcases List.eq_nil_or_concat l with rfl | ⟨l', x, rfl⟩
    · simp
    · rw [List.concat_eq_append, List.dropLast_concat, List.countP_append]
      have : [x].countP (fun t => decide (δ ≤ t)) ≤ 1 := List.countP_le_length
      omega
  have h5 : l.length - 1 ≤ 2 * l.dropLast.countP (fun t => δ ≤ t) + 1 := by omega
  have h6 : ((l.length - 1 : ℕ) : K) ≤ 2 * (l.dropLast.countP (fun t => δ ≤ t) : ℕ) + 1 := by exact_mod_cast h5
  have h7 : ((l.dropLast.countP (fun t => δ ≤ t) : ℕ) : K) ≤ (cfg.cutoffTime + cfg.dt) / δ := by
    rw [le_div_iff₀ h0]
    linarith
  calc ((l.length - 1 : ℕ) : K) ≤ 2 * (l.dropLast.countP (fun t => δ ≤ t) : ℕ) + 1 := h6
    _ ≤ 2 * ((cfg.cutoffTime + cfg.dt) / δ) + 1 := by linarith
    _ = _ := by ring

/-- **C79** (steps). Under the same conditions the loops are over after
`charges (2 (cutoff + dt) / δ + 1) + 2 (cutoff/dt + 1) + 1` steps. -/
theorem C79_steps (hS : Setting c mem m cfg ch) {r R ε δ : K} (hr : 0 < r) (hR : 0 < R) (hε : 0 < ε) (hm : RowsWithin mem m r R)
    (hd : ChancesAtLeast ε ch) (hδ : δ = min (ε / R) (1 / R / max 2 (R / (r * r * cfg.dt)))) {n : Nat} {s : Sim K}
    (h : program env mem c m cfg ch n = .ok (s, false)) :
    (n : K) ≤ cfg.charges * (2 * (cfg.cutoffTime + cfg.dt) / δ + 1) + 2 * (cfg.cutoffTime / cfg.dt + 1) + 1 := by
  obtain ⟨-, -, -, j, -, hj, hn⟩ := C79_clocks hS h
  rw [hj rfl] at hn
  obtain ⟨j', -, hC, -⟩ := program_clock hS h
  have hsum : ∀ N : Nat, ((((List.range N).map fun k : Nat => (staysOf (k : Int) s.prog.calls).length - 1).sum : ℕ) : K) ≤
      N * (2 * (cfg.cutoffTime + cfg.dt) / δ + 1) := by
    intro N
    induction N with
    | zero => simp
    | succ N ih =>
      simp only [List.range_succ, List.map_append, List.sum_append, List.map_cons, List.map_nil, List.sum_cons, List.sum_nil, add_zero]
      have := C79_hops hS hr hR hε hm hd hδ h (N : Int)
      push_cast
      push_cast at ih
      linarith
  have h1 := hsum cfg.charges
  have h2 : (s.samples.length : K) ≤ cfg.cutoffTime / cfg.dt + 1 := by
    have h3 := hC.samples
    have hdt := hS.sensible.dt
    have h4 : (s.samples.length : K) < (cfg.cutoffTime + cfg.dt) / cfg.dt := by
      rw [lt_div_iff₀ hdt, mul_comm]
      exact h3
    rw [add_div, div_self hdt.ne'] at h4
    exact h4.le
  have h3 : (((if s.inside then 1 else 0) : ℕ) : K) ≤ 1 := by split <;> simp
  rw [hn]
  push_cast at h1 h3 ⊢
  linarith

/-- **C79** (end). So the program ends, however long it is allowed to run: after more steps than that bound the loops are over,
or the program was ended by the `assert` in `createQueue` or by the overflow of a counter. -/
theorem C79_ends (hS : Setting c mem m cfg ch) {r R ε δ : K} (hr : 0 < r) (hR : 0 < R) (hε : 0 < ε) (hm : RowsWithin mem m r R)
    (hd : ChancesAtLeast ε ch) (hδ : δ = min (ε / R) (1 / R / max 2 (R / (r * r * cfg.dt)))) (n : Nat)
    (hn : cfg.charges * (2 * (cfg.cutoffTime + cfg.dt) / δ + 1) + 2 * (cfg.cutoffTime / cfg.dt + 1) + 1 < (n : K)) :
    ∃ N res, (∀ f ≥ N, program { env with fuel := f } mem c m cfg ch n = res) ∧
      ((∃ s, res = .ok (s, true) ∧ ∀ e ∈ s.queue.entries, cfg.cutoffTime ≤ e.2) ∨ res = .error .assertFail ∨
        res = .error (.ub .intOverflow) ∨ res = .error (.ub .floatToInt)) := by
  obtain ⟨N, res, hN, hres⟩ := C73_returns (env := env) hS n
  refine ⟨N, res, hN, ?_⟩
  rcases hres with (⟨⟨s, fin⟩, rfl⟩ | rfl | rfl) | rfl
  · have h := hN N le_rfl
    cases fin with
    | false => exact absurd (C79_steps hS hr hR hε hm hd hδ h) (not_le.2 hn)
    | true =>
      exact .inl ⟨s, rfl, (C73_state hS h).2.2.2 rfl⟩
  · exact .inr (.inr (.inl rfl))
  · exact .inr (.inr (.inr rfl))
  · exact .inr (.inl rfl)

/-! ## A run -/

theorem ToF.strip_rows : RowsWithin stripMem stripRates 1 6 := by
  unfold RowsWithin
  decide +kernel

theorem ToF.strip_chances : ChancesAtLeast 3 stripChances := by
  refine ⟨fun k => ?_, fun evs h => ?_⟩
  · show (3 : ℚ) ≤ 3 + k
    have : (0 : ℚ) ≤ k := Nat.cast_nonneg k
    linarith
  · show (3 : ℚ) ≤ if h = 1 then 4 else 3
    split <;> norm_num

/-- The time of the charge that is left after six steps, 8/5, is the sum of its two dwell times. -/
example : ∃ s, stripRun 6 = .ok (s, false) ∧ (staysOf 1 s.prog.calls).sum = 8 / 5 ∧
    ((staysOf 0 s.prog.calls).length - 1) + ((staysOf 1 s.prog.calls).length - 1) = 3 := by
  obtain ⟨s, h, hs, hq, hin, -⟩ := ToF.strip_six
  obtain ⟨h1, -, -, j, -, h3, h4⟩ := C79_clocks strip_setting h
  refine ⟨s, h, (h1 (1, 8 / 5) (by rw [hq]; simp)).symm, ?_⟩
  rw [h3 rfl, hs, hin] at h4
  rw [show stripCfg.charges = 2 from rfl, show List.range 2 = [0, 1] from rfl] at h4
  simp at h4
  omega

/-- With the rates of the run, `δ` is 1/36, and no charge makes more than 361 hops. -/
example (n : Nat) (s : Sim ℚ) (fin : Bool) (h : stripRun n = .ok (s, fin)) (k : Int) :
    (((staysOf k s.prog.calls).length - 1 : ℕ) : ℚ) ≤ 361 := by
  have := C79_hops strip_setting (r := 1) (R := 6) (ε := 3) (δ := 1 / 36) (by norm_num) (by norm_num) (by norm_num) strip_rows strip_chances
    (by decide +kernel) h k
  refine this.trans ?_
  show 2 * ((4 : ℚ) + 1) / (1 / 36) + 1 ≤ 361
  norm_num

/-- It is over after 734 steps. -/
example : ∃ N res, (∀ f ≥ N, program { Cluster.witEnv with fuel := f } stripMem strip stripRates stripCfg stripChances 734 = res) ∧
      ((∃ s, res = .ok (s, true) ∧ ∀ e ∈ s.queue.entries, stripCfg.cutoffTime ≤ e.2) ∨ res = .error .assertFail ∨
        res = .error (.ub .intOverflow) ∨ res = .error (.ub .floatToInt)) :=
  C79_ends strip_setting (r := 1) (R := 6) (ε := 3) (δ := 1 / 36) (by norm_num) (by norm_num) (by norm_num) strip_rows strip_chances
    (by decide +kernel) 734 (by
      show ((2 : ℕ) : ℚ) * (2 * ((4 : ℚ) + 1) / (1 / 36) + 1) + 2 * (4 / 1 + 1) + 1 < (734 : ℕ)
      norm_num)

end Mythical
