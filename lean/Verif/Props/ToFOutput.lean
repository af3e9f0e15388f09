import Verif.Lemmas.ToFWhole
import Verif.Props.ToFEnds
import Verif.Props.Queue
import Verif.Props.ClusterLimit

/-! # What the time-of-flight program writes, and `main` as a whole (C80) -/

set_option linter.unusedSectionVars false
set_option linter.unusedVariables false

namespace Mythical
open Cuboid CuboidSpec World SystemSpec ToF ToFSpec

section
variable {K : Type} [Field K] [LinearOrder K] [IsStrictOrderedRing K] [FloorRing K]
variable {env : Env K} {mem : Addr → K} {c : Cuboid} {m : IMap (IMap Addr)} {cfg : Config K} {ch : Chances K}

/-- **C80** (file). The file written after the loops has a row for each sample, and the rows tell what happened: row `i` has the
time `dt (i + 1)`, the current made by all charges in the hops of the interval of length `dt` that ends then, and
the number of charges that had not arrived at the last plane by then. All hops were made before the time in the last row. If the file cannot be
opened, the exception `runtime_error` is thrown. -/
theorem C80_file (hS : Setting c mem m cfg ch) {n : Nat} {s : Sim K} (h : program env mem c m cfg ch n = .ok (s, true)) :
    (∃ f, printTransientCurrent true (s.samples.map Prod.fst) (s.samples.map Prod.snd) cfg.dt = .ok f ∧
      f.rows.length = s.samples.length ∧ Tells c cfg s.prog.calls f ∧
      ∀ (k : Int), ∀ l ∈ leaps c k 0 s.prog.calls, l.time < cfg.dt * (f.rows.length : K)) ∧
    printTransientCurrent false (s.samples.map Prod.fst) (s.samples.map Prod.snd) cfg.dt = .error .runtimeError := by
  have hT := program_told hS h
  obtain ⟨hI, -, -, hfin⟩ := program_ok hS h
  have hin : s.inside = false := by
    rcases advance_ok (hfin rfl) with ⟨-, -, s', -, h⟩ | ⟨-, -, s', -, h⟩ | ⟨-, -, h⟩ | ⟨h, -, -⟩
    · cases h
    · cases h
    · cases h
    · exact h
  refine ⟨?_, rfl⟩
  obtain ⟨rows, h1, h2, h3⟩ := writeRows_ok (cur := s.samples.map Prod.fst) (charges := s.samples.map Prod.snd) (dt := cfg.dt) (by simp)
    (left := s.samples.length) (ind := 0) (t := 0) (by simp)
  refine ⟨⟨"Transient Current", s.samples.length, rows⟩, ?_, h2, ⟨rfl, h2.symm, fun i r hr => ?_⟩, fun k l hl => ?_⟩
  · unfold printTransientCurrent
    rw [if_pos rfl, List.length_map, h1]
    rfl
  · obtain ⟨e1, e2, e3⟩ := (h3 i r).1 hr
    rw [zero_add, List.getElem?_map] at e2 e3
    cases hp : s.samples[i]? with
    | none => rw [hp] at e2; cases e2
    | some p =>
      rw [hp] at e2 e3
      obtain ⟨i1, i2⟩ := hT.rows i p.1 p.2 hp
      have e2 : p.1 = r.current := by injection e2
      have e3 : p.2 = r.left := by injection e3
      rw [e3] at i1 i2
      rw [e2] at i2
      rw [zero_add] at e1
      exact ⟨e1, by rw [e1]; exact i1, i2⟩
  · have := hT.past k l hl
    rw [hin, hI.time] at this
    show l.time < cfg.dt * (rows.length : K)
    rw [h2]
    simp only [Bool.false_eq_true, if_false] at this
    linarith

end

/-- **C80** (main). For constants that make sense, any site energies and any orders in which the maps are gone through, the lattice and the rates
are computed, and for random numbers bounded away from 0 there is a number of steps after which `main` has ended, with a file that tells what
happened up to the cutoff time, or with `runtime_error` because the file could not be opened. It may also be ended by the `assert` in
`createQueue` or by the overflow of a counter. -/
theorem C80_main {S : Setup} (hS : Sound S) (energy : Nat → ℝ) {visit visit' : IMap (IMap ℝ) → List (Int × List (Int × ℝ))}
    (hv : Visits visit) (hv' : Visits visit') :
    ∃ c R, Cuboid.construct S.len S.wid S.hei S.spacing S.xb S.yb S.zb = .ok c ∧
      calculateRates c S.params ((List.range (S.len * S.wid * S.hei).toNat).map energy) visit = .ok R ∧
      ∀ ε > 0, ∃ B : Nat, ∀ ch, Possible c (memOf (visit' R)) ch → S.charges ≤ ch.picks.dedup.length → ChancesAtLeast ε ch →
        ∀ (env : Env ℝ) (opens : Bool), ∀ n ≥ B,
          ∃ N res, (∀ f ≥ N, main { env with fuel := f } S energy visit visit' ch opens n = res) ∧
            ((opens = true ∧ ∃ s file, res = .ok (s, some file) ∧ Tells c (asked S) s.prog.calls file ∧
                (∀ e ∈ s.queue.entries, S.cutoffTime ≤ e.2) ∧
                ∀ (k : Int), ∀ l ∈ leaps c k 0 s.prog.calls, l.time < S.dt * (file.rows.length : ℝ)) ∨
              (opens = false ∧ res = .error .runtimeError) ∨ res = .error .assertFail ∨ res = .error (.ub .intOverflow) ∨
              res = .error (.ub .floatToInt)) := by
  have hcfg : S.config = asked S := by
    unfold Setup.config asked
    congr 1
    push_cast
    ring
  obtain ⟨c, R, hc, hR, hb, hlen, hs, hmain⟩ := main_prefix hS energy hv hv'
  refine ⟨c, R, hc, hR, fun ε hε => ?_⟩
  obtain ⟨r, Q, hr, hQ, hrow⟩ := rows_within hs
  obtain ⟨δ, hδ⟩ : ∃ δ : ℝ, δ = min (ε / Q) (1 / Q / max 2 (Q / (r * r * S.config.dt))) := ⟨_, rfl⟩
  obtain ⟨B, hB⟩ := exists_nat_gt ((S.config.charges : ℝ) * (2 * (S.config.cutoffTime + S.config.dt) / δ + 1) +
    2 * (S.config.cutoffTime / S.config.dt + 1) + 1)
  refine ⟨B, fun ch hp hpick hd env opens n hn => ?_⟩
  have hset : Setting c (memOf (visit' R)) (layout (visit' R)) S.config ch := ⟨hb, hlen, hs, by rw [hcfg]; exact hS.sensible, hp, hpick⟩
  obtain ⟨N, res, hN, hres⟩ := C79_ends (env := env) hset hr hQ hε hrow hd hδ n (hB.trans_le (by exact_mod_cast hn))
  have hrun : ∀ f ≥ N, main { env with fuel := f } S energy visit visit' ch opens n = (do
        let (s, fin) ← res
        if fin then do
          let file ← printTransientCurrent opens (s.samples.map Prod.fst) (s.samples.map Prod.snd) S.dt
          .ok (s, some file)
        else .ok (s, none)) := fun f hf => by rw [hmain, hN f hf]
  refine ⟨N, _, hrun, ?_⟩
  rcases hres with ⟨s, rfl, hend⟩ | rfl | rfl | rfl
  · obtain ⟨⟨file, h1, -, h2, h3⟩, h4⟩ := C80_file hset (hN N le_rfl)
    cases opens with
    | false =>
      refine .inr (.inl ⟨rfl, ?_⟩)
      rw [ok_bind]
      show (printTransientCurrent false (s.samples.map Prod.fst) (s.samples.map Prod.snd) S.config.dt >>= _) = _
      rw [h4]
      rfl
    | true =>
      refine .inl ⟨rfl, s, file, ?_, by rw [← hcfg]; exact h2, hend, h3⟩
      rw [ok_bind]
      show (printTransientCurrent true (s.samples.map Prod.fst) (s.samples.map Prod.snd) S.config.dt >>= _) = _
      rw [h1]
      rfl
  · exact .inr (.inr (.inl rfl))
  · exact .inr (.inr (.inr (.inl rfl)))
  · exact .inr (.inr (.inr (.inr rfl)))

/-! ## The example's own constants -/

theorem ToF.setup_sound : Sound setup where
  len := by show (2 : Int) ≤ 200; norm_num
  wid := by show (0 : Int) < 80; norm_num
  hei := by show (0 : Int) < 80; norm_num
  fits := by show (200 * 80 * 80 : Int) ≤ 2147483647; norm_num
  spacing := by show (0 : ℝ) < 1; norm_num
  lambda := by show (0 : ℝ) < 0.02; norm_num
  temp := by show (0 : ℝ) < 300; norm_num
  coupling := by show (8 : ℝ) ≠ 0; norm_num
  near := by show (1 : ℝ) ≤ 2; norm_num
  far := by
    show ⌊(2 : ℝ) / 1⌋ ≤ 26754
    rw [div_one, show (2 : ℝ) = ((2 : Int) : ℝ) by norm_num, Int.floor_intCast]
    norm_num
  sensible := ⟨by show 0 < 200; norm_num, by show FitsInt (200 : Nat); decide, by show (0 : ℝ) < 2e-9 / 300; norm_num⟩

/-- Draws for the example: 200 different sites of the first plane, and every hop takes its mean time. -/
noncomputable def ToF.setupChances (mem : Addr → ℝ) : Chances ℝ where
  picks := (List.range 200).map fun k : Nat => ((k % 80 : Nat), (k / 80 : Nat))
  order l := l
  order_perm l := List.Perm.refl l
  first _ := (1, 1 / 2)
  sort := SortCall.insertion ℝ
  draw evs h := withTimes mem ⟨1, 1 / 2, witVis, [], fun l => l, fun l => List.Perm.refl l⟩ evs h

/-- With the constants of the example and any site energies the program ends with a file that tells what happened (or with an
overflow, or the `assert`). -/
example (energy : Nat → ℝ) : ∃ c R, Cuboid.construct 200 80 80 1 .fixed .periodic .periodic = .ok c ∧
    calculateRates c params ((List.range 1280000).map energy) (fun m => m) = .ok R ∧
    ∃ B : Nat, ∀ n ≥ B, ∃ N res, (∀ f ≥ N, main { realEnv 1 with fuel := f } setup energy (fun m => m) (fun m => m.reverse.map fun ir => (ir.1, ir.2.reverse))
        (setupChances (memOf (R.reverse.map fun ir => (ir.1, ir.2.reverse)))) true n = res) ∧
      ((∃ s file, res = .ok (s, some file) ∧ Tells c (asked setup) s.prog.calls file) ∨ res = .error .assertFail ∨
        res = .error (.ub .intOverflow) ∨ res = .error (.ub .floatToInt)) := by
  obtain ⟨c, R, hc, hR, hrun⟩ := C80_main setup_sound energy visits_id visits_reverse
  have hc' : Cuboid.construct 200 80 80 1 .fixed .periodic .periodic = .ok c := hc
  refine ⟨c, R, hc', hR, ?_⟩
  obtain ⟨B, hB⟩ := hrun 1 one_pos
  have hcc := (construct_eq_ok.1 hc').2.2.2.2.2.2.2.2
  have hp : Possible c (memOf (R.reverse.map fun ir => (ir.1, ir.2.reverse))) (setupChances (memOf (R.reverse.map fun ir => (ir.1, ir.2.reverse)))) := by
    refine ⟨?_, fun k => ⟨?_, ?_⟩, fun evs h => ⟨?_, ?_⟩, fun evs h v w hm => withTimes_covers hm⟩
    · intro d hd
      obtain ⟨k, hk, rfl⟩ := List.mem_map.1 hd
      have := List.mem_range.1 hk
      rw [hcc]
      show (0 ≤ ((k % 80 : Nat) : Int) ∧ ((k % 80 : Nat) : Int) < 80) ∧ 0 ≤ ((k / 80 : Nat) : Int) ∧ ((k / 80 : Nat) : Int) < 80
      omega
    · show SiteSpec.Draw (1 / 2 : ℝ)
      unfold SiteSpec.Draw; norm_num
    · show (0 : ℝ) < 1; norm_num
    · show SiteSpec.Draw (1 / 2 : ℝ)
      unfold SiteSpec.Draw; norm_num
    · show (0 : ℝ) < 1; norm_num
  have hpick : setup.charges ≤ (setupChances (memOf (R.reverse.map fun ir => (ir.1, ir.2.reverse)))).picks.dedup.length := by
    show 200 ≤ ((List.range 200).map fun k : Nat => (((k % 80 : Nat) : Int), ((k / 80 : Nat) : Int))).dedup.length
    rw [List.Nodup.dedup]
    · simp
    · refine List.Nodup.map_on ?_ List.nodup_range
      intro a _ b _ e
      simp only [Prod.mk.injEq] at e
      omega
  refine ⟨B, fun n hn => ?_⟩
  obtain ⟨N, res, h1, h2⟩ := hB _ hp hpick ⟨fun _ => le_rfl, fun _ _ => le_rfl⟩ (realEnv 1) true n hn
  refine ⟨N, res, h1, ?_⟩
  rcases h2 with ⟨-, s, file, h2, h3, -⟩ | ⟨h, -⟩ | h | h | h
  · exact .inl ⟨s, file, h2, h3⟩
  · cases h
  · exact .inr (.inl h)
  · exact .inr (.inr (.inl h))
  · exact .inr (.inr (.inr h))

/-! ## A run -/

/-- The file of the run on the strip: the last charge arrives between the times 2 and 3, and the current in the last row is not a number. -/
example : ∃ s f, stripRun 12 = .ok (s, true) ∧
    printTransientCurrent true (s.samples.map Prod.fst) (s.samples.map Prod.snd) stripCfg.dt = .ok f ∧
    f = ⟨"Transient Current", 3, [⟨1, some (1 / 6), 2⟩, ⟨2, some (1 / 3), 1⟩, ⟨3, none, 0⟩]⟩ ∧
    stillThere strip 2 s.prog.calls 2 = 1 ∧ covered strip 2 s.prog.calls 1 2 = 2 ∧ stillThere strip 2 s.prog.calls 3 = 0 := by
  obtain ⟨s, h, hs, -⟩ := ToF.strip_end
  obtain ⟨⟨f, h1, h2, ⟨h3, h4, h5⟩, -⟩, -⟩ := C80_file strip_setting h
  have hf : f = ⟨"Transient Current", 3, [⟨1, some (1 / 6), 2⟩, ⟨2, some (1 / 3), 1⟩, ⟨3, none, 0⟩]⟩ := by
    rw [hs] at h1
    have : printTransientCurrent true [some (1 / 6 : ℚ), some (1 / 3), none] [2, 1, 0] stripCfg.dt =
      .ok ⟨"Transient Current", 3, [⟨1, some (1 / 6), 2⟩, ⟨2, some (1 / 3), 1⟩, ⟨3, none, 0⟩]⟩ := by decide +kernel
    exact ok_inj.1 (h1.symm.trans this)
  refine ⟨s, f, h, h1, hf, ?_, ?_, ?_⟩
  · obtain ⟨-, i2, -⟩ := h5 1 ⟨2, some (1 / 3), 1⟩ (by rw [hf]; rfl)
    have i2 : (1 : Int) = (stillThere strip 2 s.prog.calls 2 : Nat) := i2
    omega
  · obtain ⟨-, -, i3, -⟩ := h5 1 ⟨2, some (1 / 3), 1⟩ (by rw [hf]; rfl)
    have := i3 (by norm_num) (by show (6 : ℚ) ≠ 0; norm_num)
    rw [show stripCfg.dt * ((1 : ℕ) : ℚ) = 1 by decide +kernel, show (1 : ℚ) + stripCfg.dt = 2 by decide +kernel] at this
    have e : (1 / 3 : ℚ) = 1 * 1 * (covered strip 2 s.prog.calls 1 2 : ℚ) / (1 * 6) := Option.some.inj this
    have : (covered strip 2 s.prog.calls 1 2 : ℚ) = 2 := by linarith
    exact_mod_cast this
  · obtain ⟨-, i2, -⟩ := h5 2 ⟨3, none, 0⟩ (by rw [hf]; rfl)
    have i2 : (0 : Int) = (stillThere strip 2 s.prog.calls 3 : Nat) := i2
    omega

end Mythical
