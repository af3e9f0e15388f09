import Verif.Lemmas.SystemReverse
import Verif.Props.ToF
import Verif.Props.ToFOutput

/-! # Walks forwards and backwards (C105) -/

set_option linter.unusedSectionVars false

open MeasureTheory

namespace Mythical
open World SystemSpec Cuboid CuboidSpec ToF ToFSpec

/-- **C105** (reversal). Rates in detailed balance for the weights `B`, and a walker alone: the probability of hopping along a
path, with dwell times longer than given ones on the sites, and that of hopping along the path backwards from its end differ
by the weights of the first and the last site and by the mean stays on them only. -/
theorem C105_reversal {env : Env ℝ} {mem : Addr → ℝ} {w w' : World ℝ} {h h' : Int} {N : Nat} {path : Nat → Int}
    (hw : Alone env mem w h (path 0) N) (hw' : Alone env mem w' h' (path N) N) (hsame : ∀ i, ratesOf w i = ratesOf w' i)
    {B : Int → ℝ} (hB : ∀ i, 0 ≤ B i) (hbal : DetailedBalance B mem w) (hmove : ∀ k < N, path k ≠ path (k + 1)) {t : Int → ℝ}
    (h0 : ∀ i, 0 ≤ t i) (wid wid' : Int) (a a' : Nat → Choices ℝ) :
    ENNReal.ofReal (B (path 0) * (Real.exp (-t (path N) * rateOut mem w (path N)) / rateOut mem w (path N))) *
        volume (Along env mem w wid h a N path t) =
      ENNReal.ofReal (B (path N) * (Real.exp (-t (path 0) * rateOut mem w (path 0)) / rateOut mem w (path 0))) *
        volume (Along env mem w' wid' h' a' N (fun k => path (N - k)) t) := by
  have eT : ∀ i j, rateTo mem w' i j = rateTo mem w i j := fun i j => by unfold rateTo; rw [hsame]
  have eO : ∀ i, rateOut mem w' i = rateOut mem w i := fun i => by unfold rateOut; rw [hsame]
  have hs : ∀ i, 0 ≤ Real.exp (-t i * rateOut mem w i) / rateOut mem w i := fun i =>
    div_nonneg (Real.exp_pos _).le (hw.rates i i).2
  rw [hw.law wid a rfl hmove h0, hw'.law wid' a' (path := fun k => path (N - k)) rfl (fun k hk => by
    have := hmove (N - (k + 1)) (by omega)
    rw [show N - (k + 1) + 1 = N - k by omega] at this
    exact this.symm) h0]
  rw [← ENNReal.ofReal_prod_of_nonneg fun k _ => mul_nonneg (hw.rates _ _).1 (hs _),
    ← ENNReal.ofReal_prod_of_nonneg fun k _ => mul_nonneg (hw'.rates _ _).1 (by rw [eO]; exact hs _),
    ← ENNReal.ofReal_mul (mul_nonneg (hB _) (hs _)), ← ENNReal.ofReal_mul (mul_nonneg (hB _) (hs _))]
  congr 1
  simp only [eT, eO]
  have key := prod_swap (P := fun k => rateTo mem w (path k) (path (k + 1))) (Q := fun k => rateTo mem w (path (k + 1)) (path k))
    (B := fun k => B (path k)) (s := fun k => Real.exp (-t (path k) * rateOut mem w (path k)) / rateOut mem w (path k))
    (fun k => hbal _ _) N
  rw [Finset.prod_range, ← Finset.prod_range_reflect, Finset.prod_range] at key
  refine key.trans ?_
  congr 1
  refine Finset.prod_congr rfl fun k _ => ?_
  have := k.2
  rw [show N - 1 - (k : Nat) + 1 = N - k by omega, show N - 1 - (k : Nat) = N - (k + 1) by omega]

/-- **C105** (loop). A walker alone goes along a closed path as often as along the same path the other way round, with the same
dwell times: there are no currents around loops. -/
theorem C105_loop {env : Env ℝ} {mem : Addr → ℝ} {w : World ℝ} {h : Int} {N : Nat} {path : Nat → Int}
    (hw : Alone env mem w h (path 0) N) (hloop : path N = path 0) {B : Int → ℝ} (hB : ∀ i, 0 < B i)
    (hbal : DetailedBalance B mem w) (hmove : ∀ k < N, path k ≠ path (k + 1)) {t : Int → ℝ}
    (h0 : ∀ i, 0 ≤ t i) (wid : Int) (a a' : Nat → Choices ℝ) :
    volume (Along env mem w wid h a N path t) = volume (Along env mem w wid h a' N (fun k => path (N - k)) t) := by
  have hmove' : ∀ k < N, path (N - k) ≠ path (N - (k + 1)) := fun k hk => by
    have := hmove (N - (k + 1)) (by omega)
    rw [show N - (k + 1) + 1 = N - k by omega] at this
    exact this.symm
  rcases (hw.rates (path 0) (path 0)).2.eq_or_lt with he | hlt
  · rcases Nat.eq_zero_or_pos N with rfl | hN
    · rw [hw.law wid a rfl hmove h0, hw.law wid a' (path := fun k => path (0 - k)) rfl hmove' h0]
      simp
    · rw [hw.law wid a rfl hmove h0, hw.law wid a' (path := fun k => path (N - k)) hloop hmove' h0,
        Finset.prod_eq_zero (Finset.mem_univ (⟨0, hN⟩ : Fin N)) (by simp [← he]),
        Finset.prod_eq_zero (Finset.mem_univ (⟨0, hN⟩ : Fin N)) (by simp [hloop, ← he])]
  · have := C105_reversal hw (hloop ▸ hw) (fun _ => rfl) (fun i => (hB i).le) hbal hmove h0 wid wid a a'
    rw [hloop] at this
    refine (ENNReal.mul_right_inj ?_ ENNReal.ofReal_ne_top).1 this
    rw [ne_eq, ENNReal.ofReal_eq_zero, not_le]
    exact mul_pos (hB _) (div_pos (Real.exp_pos _) hlt)

/-- **C105** (example). In the time-of-flight example the rates of the sites are at every moment in detailed balance for the
Boltzmann weights of the energies in the field. -/
theorem C105_tof {env : Env ℝ} {mem : Addr → ℝ} {c : Cuboid} {m : IMap (IMap Addr)} {cfg : Config ℝ} {ch : Chances ℝ}
    (hS : Setting c mem m cfg ch) (hsp : 0 < c.spacing) {p : Params} (hl : 0 < p.lambda) (hT : 0 < p.temp)
    {energies : List ℝ} {E : Int → ℝ} (hE : Energies c energies E)
    {visit : IMap (IMap ℝ) → List (Int × List (Int × ℝ))} (hv : Visits visit)
    {R R' : IMap (IMap ℝ)} (hR : calculateRates c p energies visit = .ok R) (hR' : ∀ i j, get2 R' i j = get2 R i j)
    (hm : Holds mem m R') {n : Nat} {s : Sim ℝ} {fin : Bool} (h : program env mem c m cfg ch n = .ok (s, fin))
    {pos : Int → Pos} (hpos : ∀ i, ValidIndex c i → SiteAt c i (pos i)) :
    DetailedBalance (fun i => Real.exp (-energyInField c p (E i) (pos i) / (8.617333262145e-5 * p.temp))) mem s.prog.world := by
  have hst := (program_ok hS h).1.story
  have hb := hst.trace.bothWays hst.usage.hopsReturn (hst.sys hS.suits) (hst.maps hS.suits) (hst.two hS.suits)
  have hrate : ∀ i t j, s.prog.world.sites.get? i = some t → rateTo mem s.prog.world i j = (get2 R i j).getD 0 := by
    intro i t j ht
    rw [hst.rateTo hS.suits ht, ← hR', ← hm, get2, get?_map_snd]
    cases m.get? i with
    | none => rfl
    | some r => simp only [Option.map_some, Option.bind_some, get?_map_snd]
  have hsome : ∀ i j k, get2 R i j = some k → ValidIndex c i ∧ ValidIndex c j ∧ ∃ k', get2 R j i = some k' := by
    intro i j k hk
    obtain ⟨x, hx1, hx2⟩ := xOf hS.built
    obtain ⟨D, hD⟩ : ∃ D, c.getAllNeighborDistances p.cutoff = .ok D := by
      unfold calculateRates at hR
      obtain ⟨_, -, hR⟩ := bind_eq_ok.1 hR
      obtain ⟨D, hD, -⟩ := bind_eq_ok.1 hR
      exact ⟨D, hD⟩
    obtain ⟨R1, h1, -, h2⟩ := calculateRates_ok hS.built hsp hl hT hE hD hx2 hv
    rw [hR] at h1
    obtain rfl := ok_inj.1 h1
    rw [h2] at hk
    obtain ⟨d, hd, -⟩ := Option.map_eq_some_iff.1 hk
    obtain ⟨hsym, -, hdist⟩ := C18_octants_partial hS.built hsp hD i j
    obtain ⟨a, b, -, i1, i2, -⟩ := hdist d hd
    refine ⟨siteAt_bounds (good_of_built hS.built) i1, siteAt_bounds (good_of_built hS.built) i2, ?_⟩
    rw [hsym] at hd
    exact ⟨_, by rw [h2, hd]; rfl⟩
  have hzero : ∀ i j, s.prog.world.sites.get? i = none → rateTo mem s.prog.world i j = 0 := by
    intro i j hi
    unfold rateTo ratesOf
    rw [hi]; rfl
  have hmiss : ∀ i j t, s.prog.world.sites.get? i = none → s.prog.world.sites.get? j = some t → rateTo mem s.prog.world j i = 0 := by
    intro i j t hi hj
    unfold rateTo ratesOf
    rw [hj]
    have : List.filter (fun na : Int × Addr => decide (na.1 = i)) t.neigh = [] := by
      rw [List.filter_eq_nil_iff]
      intro na hna he
      obtain ⟨-, t', ht', -⟩ := (hb.1 j t hj).2 i (of_decide_eq_true he ▸ List.mem_map_of_mem (f := Prod.fst) hna)
      rw [hi] at ht'; cases ht'
    show ((List.filter (fun na : Int × Addr => decide (na.1 = i)) t.neigh).map fun na => mem na.2).sum = 0
    rw [this]; rfl
  intro i j
  cases hi : s.prog.world.sites.get? i with
  | none =>
    cases hj : s.prog.world.sites.get? j with
    | none => rw [hzero i j hi, hzero j i hj, mul_zero, mul_zero]
    | some t => rw [hzero i j hi, hmiss i j t hi hj, mul_zero, mul_zero]
  | some t =>
    cases hj : s.prog.world.sites.get? j with
    | none => rw [hzero j i hj, hmiss j i t hj hi, mul_zero, mul_zero]
    | some t' =>
      rw [hrate i t j hi, hrate j t' i hj]
      cases hk : get2 R i j with
      | none =>
        cases hk' : get2 R j i with
        | none => simp
        | some k' =>
          obtain ⟨-, -, k, hk1⟩ := hsome j i k' hk'
          rw [hk] at hk1; cases hk1
      | some k =>
        obtain ⟨v1, v2, k', hk'⟩ := hsome i j k hk
        rw [hk']
        exact C71_balance hS.built hsp hl hT hE hv hR (hpos i v1) (hpos j v2) hk hk'

/-- The line of C77 with one walker, whose rates are all 1: it goes 2, 3, 2, 1, 2 as often as 2, 1, 2, 3, 2. -/
example (a a' : Nat → Choices ℝ) (t : Int → ℝ) (h0 : ∀ i, 0 ≤ t i) :
    volume (Along (realEnv 0) (fun _ => 1) (lineWorld 9) 0 10 a 4 (fun k => [2, 3, 2, 1, 2].getD k 0) t) =
      volume (Along (realEnv 0) (fun _ => 1) (lineWorld 9) 0 10 a' 4 (fun k => [2, 3, 2, 1, 2].getD (4 - k) 0) t) := by
  obtain ⟨hu, hf, hp, hs, hd, hk, hc, hr, h⟩ := line_ready 9 (.inr rfl)
  refine C105_loop (B := fun _ => 1) (path := fun k => [2, 3, 2, 1, 2].getD k 0) ⟨⟨0, _, line_trace 9 le_rfl, hu, hf, hp, hs, hd, hk, (h 4 (by norm_num)).1,
    (h 4 (by norm_num)).2, ?_⟩, hc, hr, ⟨1, 2, 1⟩, ?_, rfl, by decide⟩ rfl (fun _ => one_pos) ?_ ?_ h0 0 a a'
  · simp [active, lineEvs, List.range_succ, enter, lineOp]
  · simp [lineWorld, IMap.get?]
  · intro i j
    by_cases i1 : 1 = i <;> by_cases i2 : 2 = i <;> by_cases i3 : 3 = i <;> by_cases j1 : 1 = j <;> by_cases j2 : 2 = j <;>
      by_cases j3 : 3 = j <;> first | omega | (subst_vars; simp [rateTo, ratesOf, lineWorld, IMap.get?, *])
  · decide

/-- A lattice of three sites in a row. -/
noncomputable def row3 : Cuboid := ⟨3, 1, 1, 3, 1, .fixed, .fixed, .fixed⟩

/-- One charge starts on the first site of the row. -/
noncomputable def rowChances (mem : Addr → ℝ) : Chances ℝ where
  picks := [(0, 0)]
  order l := l
  order_perm l := List.Perm.refl l
  first _ := (1, 1 / 2)
  sort := SortCall.insertion ℝ
  draw evs h := withTimes mem ⟨1, 1 / 2, witVis, [], fun l => l, fun l => List.Perm.refl l⟩ evs h

/-- The program with the example's constants on the row, at its first step. -/
example : ∃ (R : IMap (IMap ℝ)) (cfg : Config ℝ) (s : Sim ℝ), calculateRates row3 params [0.1, 0, 0.2] (fun m => m) = .ok R ∧
    program (realEnv 0) (memOf R) row3 (layout R) cfg (rowChances (memOf R)) 0 = .ok (s, false) ∧
    DetailedBalance (fun i => Real.exp (-energyInField row3 params (if i = 0 then 0.1 else if i = 1 then 0 else 0.2) ⟨i, 0, 0⟩ /
      (8.617333262145e-5 * 300))) (memOf R) s.prog.world := by
  have hb : Built row3 := built_of_good ⟨by decide, by decide, by decide, by decide, by decide⟩
  have hE : Energies row3 [0.1, 0, 0.2] fun i => if i = 0 then 0.1 else if i = 1 then 0 else 0.2 := by
    intro i hi
    have h1 := hi.1; have h2 := hi.2
    simp only [row3] at h2
    obtain rfl | rfl | rfl : i = 0 ∨ i = 1 ∨ i = 2 := by omega
    all_goals simp
  obtain ⟨D, hD⟩ : ∃ D, row3.getAllNeighborDistances params.cutoff = .ok D := by
    apply C20_getAll_returns hb (by norm_num [row3]) (by norm_num [params])
    have : ⌊params.cutoff / row3.spacing⌋ = 2 := by norm_num [row3, params]
    rw [this]; decide
  obtain ⟨R, hR, hsu⟩ := C73_rates hb (by decide) (by norm_num [row3]) (by norm_num [params]) (by norm_num [params])
    (by norm_num [params]) (by norm_num [row3, params]) hE hD visits_id
  have hS : ∀ T, Setting row3 (memOf R) (layout R) ⟨1, T, 1, 0, 1, 1, 1⟩ (rowChances (memOf R)) := fun T => by
    refine ⟨hb, by decide, hsu _ _ (layout_holds R), ⟨one_pos, (by decide : FitsInt (1 : Nat)), one_pos⟩,
      ⟨fun d hd => ?_, fun k => ⟨?_, one_pos⟩, fun evs h => ⟨?_, one_pos⟩, fun evs h v w hm => withTimes_covers hm⟩, le_rfl⟩
    · cases List.mem_singleton.1 hd; decide
    · show SiteSpec.Draw (1 / 2 : ℝ)
      unfold SiteSpec.Draw; norm_num
    · show SiteSpec.Draw (1 / 2 : ℝ)
      unfold SiteSpec.Draw; norm_num
  obtain ⟨sites, -, h2, h3, h4, -⟩ := C73_start (env := realEnv 0) (hS (1 / escapeRate (memOf R) (layout R) 0 + 1))
  obtain ⟨i, rfl⟩ := List.length_eq_one_iff.1 h2
  obtain ⟨a, ⟨⟨-, ⟨y0, y1⟩, z0, z1⟩, e⟩, hx⟩ := h3 i (List.mem_singleton.2 rfl)
  simp only [row3] at y1 z1 e
  obtain rfl : i = 0 := by omega
  obtain ⟨s, hs, -⟩ := h4 ⟨0, 0, rfl, lt_add_one _⟩
  exact ⟨R, _, s, hR, hs, C105_tof (hS _) (by norm_num [row3]) (by norm_num [params]) (by norm_num [params]) hE visits_id hR
    (fun _ _ => rfl) (layout_holds R) hs fun i hi => by
      have h1 := hi.1; have h2 := hi.2
      simp only [row3] at h2
      exact ⟨⟨⟨h1, by simp only [row3]; omega⟩, by simp [row3], by simp [row3]⟩, by simp [row3]⟩⟩

end Mythical
