import Verif.Lemmas.ToFOverflow
import Verif.Props.ToFOutput

/-! # No counter of the time-of-flight program overflows in runs of moderate length (C82) -/

set_option linter.unusedSectionVars false
set_option linter.unusedVariables false

namespace Mythical
open Cuboid CuboidSpec World SystemSpec ToF ToFSpec

section
variable {K : Type} [Field K] [LinearOrder K] [IsStrictOrderedRing K] [FloorRing K]
variable {env : Env K} {mem : Addr → K} {c : Cuboid} {m : IMap (IMap Addr)} {cfg : Config K} {ch : Chances K}

/-- **C82**. If the rates are at least `r` each and at most `R` together for each site, the first `n` steps in the loops are made
without the overflow of a counter, provided that `(charges + n) (R / r² + 3) ≤ 2 (2³¹ - 1)` and `n < 2³⁰`. -/
theorem C82 (hS : Setting c mem m cfg ch) {r R : K} (hr : 0 < r) (hR : 0 < R) (hm : RowsWithin mem m r R) (n : Nat)
    (h1 : ((cfg.charges + n : Nat) : K) * (R / (r * r) + 3) ≤ 2 * 2147483647) (h2 : n < 2 ^ 30) :
    ∃ N res, (∀ f ≥ N, program { env with fuel := f } mem c m cfg ch n = res) ∧ ((∃ s fin, res = .ok (s, fin)) ∨ res = .error .assertFail) := by
  obtain ⟨N, res, hN, hres⟩ := C73_returns (env := env) hS n
  have hc := program_calm (env := { env with fuel := N }) hS hr hR hm h1 h2
  rw [hN N le_rfl] at hc
  refine ⟨N, res, hN, ?_⟩
  rcases hres with (⟨⟨s, fin⟩, h⟩ | h | h) | h
  · exact .inl ⟨s, fin, h⟩
  · exact absurd rfl (hc _ h).1
  · exact absurd rfl (hc _ h).2
  · exact .inr h

/-- **C82** (end). If the bound of C79 on the number of steps meets these conditions, the program ends: with the loops over,
and no charge due before the cutoff time, or by the `assert` in `createQueue` (when that is, tells `C73_start`). -/
theorem C82_ends (hS : Setting c mem m cfg ch) {r R ε δ : K} (hr : 0 < r) (hR : 0 < R) (hε : 0 < ε) (hm : RowsWithin mem m r R)
    (hd : ChancesAtLeast ε ch) (hδ : δ = min (ε / R) (1 / R / max 2 (R / (r * r * cfg.dt)))) {B : K}
    (hB : B = cfg.charges * (2 * (cfg.cutoffTime + cfg.dt) / δ + 1) + 2 * (cfg.cutoffTime / cfg.dt + 1) + 1)
    (h1 : (cfg.charges + B + 1) * (R / (r * r) + 3) ≤ 2 * 2147483647) (h2 : B + 1 < 2 ^ 30) :
    ∃ N res, (∀ f ≥ N, ∀ n : Nat, B < n → program { env with fuel := f } mem c m cfg ch n = res) ∧
      ((∃ s, res = .ok (s, true) ∧ ∀ e ∈ s.queue.entries, cfg.cutoffTime ≤ e.2) ∨ res = .error .assertFail) := by
  have hpos : 0 < R / (r * r) + 3 := by
    have : 0 < R / (r * r) := div_pos hR (mul_pos hr hr)
    linarith
  have key : ∀ n : Nat, B < n → (n : K) ≤ B + 1 → ∃ N res, (∀ f ≥ N, program { env with fuel := f } mem c m cfg ch n = res) ∧
      ((∃ s, res = .ok (s, true) ∧ ∀ e ∈ s.queue.entries, cfg.cutoffTime ≤ e.2) ∨ res = .error .assertFail) := by
    intro n hn hn'
    obtain ⟨N, res, hN, hres⟩ := C82 (env := env) hS hr hR hm n
      (by
        refine le_trans (mul_le_mul_of_nonneg_right ?_ hpos.le) h1
        push_cast
        linarith)
      (by
        have : (n : K) < ((2 ^ 30 : Nat) : K) := by
          push_cast
          linarith
        exact_mod_cast this)
    refine ⟨N, res, hN, ?_⟩
    rcases hres with ⟨s, fin, rfl⟩ | rfl
    · have h := hN N le_rfl
      cases fin with
      | false => exact absurd (C79_steps hS hr hR hε hm hd hδ h) (not_le.2 (by rw [← hB]; exact hn))
      | true => exact .inl ⟨s, rfl, (C73_state hS h).2.2.2 rfl⟩
    · exact .inr rfl
  cases h0 : start { env with fuel := 0 } mem c m cfg ch with
  | error e =>
    refine ⟨0, .error e, fun f _ n _ => ?_, .inr ?_⟩
    · unfold program
      rw [start_fuel (f' := 0), h0]
      rfl
    · obtain ⟨sites, -, -, -, ⟨s, i1, -⟩ | ⟨i1, -⟩⟩ :=
        start_spec (env := { env with fuel := 0 }) hS.built hS.suits hS.possible hS.sensible hS.length hS.enough
      · rw [h0] at i1; cases i1
      · rw [h0] at i1; cases i1; rfl
  | ok s0 =>
    have hst : ∀ f, start { env with fuel := f } mem c m cfg ch = .ok s0 := fun f => by rw [start_fuel (f' := 0), h0]
    obtain ⟨p, -, -, -, -, hsm⟩ := start_calls h0
    have hdt := hS.sensible.dt
    have hcut : 0 < cfg.cutoffTime + cfg.dt := by
      have := (clock_start hS h0).samples
      rw [hsm] at this
      simpa using this
    have hδ0 : 0 < δ := by
      rw [hδ]
      exact lt_min (div_pos hε hR) (div_pos (one_div_pos.2 hR) (lt_of_lt_of_le two_pos (le_max_left _ _)))
    have hB0 : 0 ≤ B := by
      have e1 : 0 < 2 * (cfg.cutoffTime + cfg.dt) / δ := by positivity
      have e2 : 0 < cfg.cutoffTime / cfg.dt + 1 := by
        rw [← div_self hdt.ne', ← add_div]
        exact div_pos hcut hdt
      have e3 : (0 : K) ≤ cfg.charges * (2 * (cfg.cutoffTime + cfg.dt) / δ + 1) := mul_nonneg (Nat.cast_nonneg _) (by linarith)
      rw [hB]
      linarith
    have hn0 : B < ((⌊B⌋₊ + 1 : Nat) : K) := by
      push_cast
      exact Nat.lt_floor_add_one B
    obtain ⟨N, res, hN, hres⟩ := key (⌊B⌋₊ + 1) hn0 (by
      push_cast
      have := Nat.floor_le hB0
      linarith)
    refine ⟨N, res, fun f hf n hn => ?_, hres⟩
    obtain ⟨k, rfl⟩ : ∃ k, n = ⌊B⌋₊ + 1 + k := ⟨n - (⌊B⌋₊ + 1), by
      have := (Nat.floor_lt hB0).2 hn
      omega⟩
    have h := hN f hf
    unfold program at h ⊢
    rw [hst f, ok_bind] at h ⊢
    rcases hres with ⟨s, rfl, -⟩ | rfl
    · exact loops_done h
    · obtain ⟨N', r', hr', hN'⟩ := loops_total (env := env) (s := s0) (N := 0) hS.built hS.suits hS.possible (⌊B⌋₊ + 1)
        fun f _ => (start_ok hS (hst f)).1
      have i1 := hN (max N N') (le_max_left _ _)
      unfold program at i1
      rw [hst, ok_bind, hN' _ (le_max_right _ _)] at i1
      rw [i1] at hr'
      rcases hr' with ⟨_, h⟩ | h | h <;> cases h

end

/-- **C82** (`main`). The same for the whole of `main`, with the rates that it calculates: no run of `n` steps is ended by an overflow. -/
theorem C82_main {S : Setup} (hS : Sound S) (energy : Nat → ℝ) {visit visit' : IMap (IMap ℝ) → List (Int × List (Int × ℝ))}
    (hv : Visits visit) (hv' : Visits visit') :
    ∃ c R, Cuboid.construct S.len S.wid S.hei S.spacing S.xb S.yb S.zb = .ok c ∧
      calculateRates c S.params ((List.range (S.len * S.wid * S.hei).toNat).map energy) visit = .ok R ∧
      ∀ r Q : ℝ, 0 < r → 0 < Q → (∀ ir ∈ R, (∀ na ∈ ir.2, r ≤ na.2) ∧ (ir.2.map Prod.snd).sum ≤ Q) →
      ∀ ch, Possible c (memOf (visit' R)) ch → S.charges ≤ ch.picks.dedup.length → ∀ (env : Env ℝ) (opens : Bool) (n : Nat),
        (S.charges + n) * (Q / (r * r) + 3) ≤ 2 * 2147483647 → n < 2 ^ 30 →
          ∃ N res, (∀ f ≥ N, main { env with fuel := f } S energy visit visit' ch opens n = res) ∧
            ((∃ x, res = .ok x) ∨ (opens = false ∧ res = .error .runtimeError) ∨ res = .error .assertFail) := by
  have hcfg : S.config = asked S := by
    unfold Setup.config asked
    congr 1
    push_cast
    ring
  obtain ⟨c, R, hc, hR, hb, hlen, hs, hmain⟩ := main_prefix hS energy hv hv'
  refine ⟨c, R, hc, hR, fun r Q hr hQ hrow ch hp hpick env opens n h1 h2 => ?_⟩
  have hset : Setting c (memOf (visit' R)) (layout (visit' R)) S.config ch := ⟨hb, hlen, hs, by rw [hcfg]; exact hS.sensible, hp, hpick⟩
  have hrow' : RowsWithin (memOf (visit' R)) (layout (visit' R)) r Q := by
    intro ir hir
    have hh := layout_holds (visit' R)
    unfold Holds at hh
    obtain ⟨R1, hp, hf⟩ := hv' R
    have h1 : (ir.1, ir.2.map fun na => (na.1, memOf (visit' R) na.2)) ∈ visit' R := by
      have := List.mem_map_of_mem (f := fun ir : Int × IMap Addr => (ir.1, ir.2.map fun na => (na.1, memOf (visit' R) na.2))) hir
      rw [hh] at this
      exact this
    obtain ⟨b, hb, hab⟩ : ∃ b ∈ R1, (ir.2.map fun na => (na.1, memOf (visit' R) na.2)).Perm b.2 := by
      obtain ⟨k, hk, he⟩ := List.getElem_of_mem h1
      have hk' : k < R1.length := by rw [← hf.length_eq]; exact hk
      have h2 := (List.forall₂_iff_get.1 hf).2 k hk hk'
      simp only [List.get_eq_getElem] at h2
      rw [he] at h2
      exact ⟨_, List.getElem_mem hk', h2.2⟩
    obtain ⟨i1, i2⟩ := hrow b (hp.subset hb)
    refine ⟨fun na hna => ?_, ?_⟩
    · have : (na.1, memOf (visit' R) na.2) ∈ b.2 := hab.subset (List.mem_map_of_mem hna)
      exact i1 _ this
    · refine le_trans (le_of_eq ?_) i2
      rw [← (hab.map Prod.snd).sum_eq, List.map_map]
      rfl
  obtain ⟨N, res, hN, hres⟩ := C82 (env := env) hset hr hQ hrow' n (by push_cast; exact h1) h2
  have hrun : ∀ f ≥ N, main { env with fuel := f } S energy visit visit' ch opens n = (do
        let (s, fin) ← res
        if fin then do
          let file ← printTransientCurrent opens (s.samples.map Prod.fst) (s.samples.map Prod.snd) S.dt
          .ok (s, some file)
        else .ok (s, none)) := fun f hf => by rw [hmain, hN f hf]
  refine ⟨N, _, hrun, ?_⟩
  rcases hres with ⟨s, fin, rfl⟩ | rfl
  · cases fin with
    | false => exact .inl ⟨_, rfl⟩
    | true =>
      obtain ⟨⟨file, i1, -⟩, i2⟩ := C80_file hset (hN N le_rfl)
      cases opens with
      | false =>
        refine .inr (.inl ⟨rfl, ?_⟩)
        rw [ok_bind]
        show (printTransientCurrent false (s.samples.map Prod.fst) (s.samples.map Prod.snd) S.config.dt >>= _) = _
        rw [i2]
        rfl
      | true =>
        refine .inl ⟨(s, some file), ?_⟩
        rw [ok_bind]
        show (printTransientCurrent true (s.samples.map Prod.fst) (s.samples.map Prod.snd) S.config.dt >>= _) = _
        rw [i1]
        rfl
  · exact .inr (.inr rfl)

/-! ## A run -/

/-- The run on the strip is over after 734 steps. -/
example : ∃ N res, (∀ f ≥ N, ∀ n : Nat, (733 : ℚ) < n → program { Cluster.witEnv with fuel := f } stripMem strip stripRates stripCfg stripChances n = res) ∧
    ((∃ s, res = .ok (s, true) ∧ ∀ e ∈ s.queue.entries, stripCfg.cutoffTime ≤ e.2) ∨ res = .error .assertFail) :=
  C82_ends strip_setting (r := 1) (R := 6) (ε := 3) (δ := 1 / 36) (by norm_num) (by norm_num) (by norm_num) strip_rows strip_chances
    (by decide +kernel) (by decide +kernel)
    (by show (((2 : ℕ) : ℚ) + 733 + 1) * (6 / (1 * 1) + 3) ≤ 2 * 2147483647; norm_num) (by norm_num)

/-- Two sites and a coupling for which the rates between them are 1. -/
noncomputable def ToF.pairSetup (A : ℝ) : Setup :=
  ⟨2, 1, 1, 1, .fixed, .fixed, .fixed, ⟨1, 1, 300, 0, A, 0, 1⟩, 1, 4, 1, 7, 1, 1⟩

/-- A draw for the site of the single charge; every hop takes its mean time. -/
noncomputable def ToF.pairChances (mem : Addr → ℝ) : Chances ℝ where
  picks := [(0, 0)]
  order l := l
  order_perm l := List.Perm.refl l
  first _ := (1, 1 / 2)
  sort := SortCall.insertion ℝ
  draw evs h := withTimes mem ⟨1, 1 / 2, witVis, [], fun l => l, fun l => List.Perm.refl l⟩ evs h

theorem ToF.pair_sound {A : ℝ} (hA : A ≠ 0) : Sound (pairSetup A) where
  len := le_rfl
  wid := one_pos
  hei := one_pos
  fits := by show (2 * 1 * 1 : Int) ≤ 2147483647; norm_num
  spacing := one_pos
  lambda := one_pos
  temp := by show (0 : ℝ) < 300; norm_num
  coupling := hA
  near := le_rfl
  far := by
    show ⌊(1 : ℝ) / 1⌋ ≤ 26754
    norm_num
  sensible := ⟨one_pos, by show FitsInt (1 : Nat); decide, one_pos⟩

/-- With rates of 1 between two sites, the conditions of `C82_main` hold for a billion steps: they are made, or the file cannot be
opened, or no charge is due before the cutoff time. -/
example : ∃ A : ℝ, ∃ c R, Cuboid.construct 2 1 1 1 .fixed .fixed .fixed = .ok c ∧
    calculateRates c (pairSetup A).params ((List.range 2).map fun _ => 0) (fun m => m) = .ok R ∧
    ∃ N res, (∀ f ≥ N, main { realEnv 1 with fuel := f } (pairSetup A) (fun _ => 0) (fun m => m) (fun m => m) (pairChances (memOf R)) true 1000000000 = res) ∧
      ((∃ x, res = .ok x) ∨ res = .error .assertFail) := by
  obtain ⟨k0, h0, h1, h2⟩ := C22_nonneg 1 300 0 0 1 one_pos (by norm_num)
  have hk0 : 0 < k0 := lt_of_le_of_ne h1 fun h => absurd (h2.1 h.symm) one_ne_zero
  obtain ⟨A, hA⟩ : ∃ A : ℝ, A = 1 / Real.sqrt k0 := ⟨_, rfl⟩
  have hA0 : A ≠ 0 := by
    have := Real.sqrt_pos.2 hk0
    rw [hA]
    positivity
  have hone : ∀ k, MarcusRate 1 300 0 0 A k → k = 1 := by
    intro k hk
    rw [← mul_one A] at hk
    rw [C22_quadratic one_pos (by norm_num) h0 hk, hA, div_pow, Real.sq_sqrt hk0.le]
    field_simp
  obtain ⟨c, R, hc, hR, hrun⟩ := C82_main (pair_sound hA0) (fun _ => 0) visits_id visits_id
  have hc' : Cuboid.construct 2 1 1 1 .fixed .fixed .fixed = .ok c := hc
  have hR' : calculateRates c (pairSetup A).params ((List.range 2).map fun _ => 0) (fun m => m) = .ok R := hR
  have hcc := (construct_eq_ok.1 hc').2.2.2.2.2.2.2.2
  have hb : Built c := by
    unfold Built
    subst hcc
    exact hc'
  have hsp : 0 < c.spacing := by rw [hcc]; exact one_pos
  obtain ⟨D, hD⟩ : ∃ D, c.getAllNeighborDistances (pairSetup A).params.cutoff = .ok D := by
    apply C20_getAll_returns hb hsp
    · show (0 : ℝ) ≤ 1; norm_num
    · rw [hcc]
      show ⌊(1 : ℝ) / 1⌋ ≤ 26754
      norm_num
  have hE : Energies c ((List.range 2).map fun _ => (0 : ℝ)) (fun _ => 0) := by
    intro i hi
    have h2 := hi.2
    have h1 := hi.1
    rw [hcc] at h2
    have h2 : i < 2 := by simpa using h2
    rcases (by omega : i = 0 ∨ i = 1) with rfl | rfl <;> rfl
  obtain ⟨R', i1, i2, -, i4⟩ := C71_rates hb hsp (p := (pairSetup A).params) one_pos (by show (0 : ℝ) < 300; norm_num) hA0 hE hD visits_id
  obtain rfl := ok_inj.1 (hR'.symm.trans i1)
  obtain ⟨x, -, hx2⟩ := xOf hb
  obtain ⟨R', j1, j2, j3⟩ := calculateRates_ok hb hsp (p := (pairSetup A).params) one_pos (by show (0 : ℝ) < 300; norm_num) hE hD hx2 visits_id
  obtain rfl := ok_inj.1 (hR'.symm.trans j1)
  have hval : ∀ i j k, get2 R i j = some k → k = 1 ∧ i ≠ j ∧ (0 ≤ i ∧ i < 2) ∧ 0 ≤ j ∧ j < 2 := by
    intro i j k hk
    obtain ⟨-, a, b, b', ha, hb', -, -, hrate⟩ := i4 i j k hk
    have hij := ((i2 i j).1 (by rw [hk]; rfl)).1
    have h1 : k = 1 := by
      refine hone k ?_
      have e1 : energyInField c (pairSetup A).params ((fun _ => 0) i) a = 0 := by
        show (0 : ℝ) - 0 * 1 * _ = 0
        ring
      have e2 : energyInField c (pairSetup A).params ((fun _ => 0) j) b = 0 := by
        show (0 : ℝ) - 0 * 1 * _ = 0
        ring
      have e3 : (pairSetup A).params.A * Real.exp (-(pairSetup A).params.alpha * euclid c a b') = A := by
        show A * Real.exp (-0 * _) = A
        simp
      rw [e1, e2, e3] at hrate
      exact hrate
    have g := good_of_built hb
    have h2 := siteAt_bounds g ha
    have h3 := siteAt_bounds g hb'
    unfold ValidIndex at h2 h3
    rw [hcc] at h2 h3
    simp only at h2 h3
    exact ⟨h1, hij, by omega, by omega⟩
  refine ⟨A, c, R, hc', hR', ?_⟩
  have hrows : ∀ ir ∈ R, (∀ na ∈ ir.2, (1 : ℝ) ≤ na.2) ∧ (ir.2.map Prod.snd).sum ≤ 1 := by
    intro ir hir
    obtain ⟨hw, hne⟩ := j2.2 ir hir
    have hall : ∀ na ∈ ir.2, na.2 = 1 ∧ ir.1 ≠ na.1 ∧ (0 ≤ ir.1 ∧ ir.1 < 2) ∧ 0 ≤ na.1 ∧ na.1 < 2 := by
      intro na hna
      refine hval ir.1 na.1 na.2 ?_
      unfold get2
      rw [IMap.get?_of_mem j2.1 hir]
      exact IMap.get?_of_mem hw hna
    refine ⟨fun na hna => (hall na hna).1.ge, ?_⟩
    obtain ⟨a, l, hl⟩ := List.exists_cons_of_ne_nil hne
    have hnil : l = [] := by
      cases l with
      | nil => rfl
      | cons b l =>
        exfalso
        rw [hl] at hw hall
        have h1 := hall a (by simp)
        have h2 := hall b (by simp)
        have h3 : a.1 ≠ b.1 := fun e => by
          unfold IMap.WF at hw
          simp [e] at hw
        omega
    rw [hl, hnil]
    have := (hall a (by rw [hl]; simp)).1
    simp [this]
  have hposs : Possible c (memOf R) (pairChances (memOf R)) := by
    refine ⟨?_, fun k => ⟨?_, ?_⟩, fun evs h => ⟨?_, ?_⟩, fun evs h v w hm => withTimes_covers hm⟩
    · intro d hd
      rw [List.mem_singleton.1 hd, hcc]
      decide
    · show SiteSpec.Draw (1 / 2 : ℝ)
      unfold SiteSpec.Draw; norm_num
    · show (0 : ℝ) < 1; norm_num
    · show SiteSpec.Draw (1 / 2 : ℝ)
      unfold SiteSpec.Draw; norm_num
    · show (0 : ℝ) < 1; norm_num
  obtain ⟨N, res, hN, hres⟩ := hrun 1 1 one_pos one_pos hrows (pairChances (memOf R)) hposs
    (by show 1 ≤ ([(0, 0)] : List (Int × Int)).dedup.length; decide) (realEnv 1) true 1000000000
    (by show (((1 : Nat) : ℝ) + (1000000000 : Nat)) * (1 / (1 * 1) + 3) ≤ 2 * 2147483647; norm_num) (by norm_num)
  refine ⟨N, res, hN, ?_⟩
  rcases hres with h | ⟨h, -⟩ | h
  · exact .inl h
  · cases h
  · exact .inr h

end Mythical
