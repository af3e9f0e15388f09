import Verif.Lemmas.Correlated

/-!
# C109: correlating the energies (performance/test_crude_vs_coarsegrain_correlated.cpp)
-/

namespace Mythical
open Cuboid hiding distance
open BoxSpec CorrelatedSpec Correlated

variable {d : Int} {draws : List Int} {E : List ℝ} {f : Pos → ℝ} {ps : List Pos}

/-- **C109**. The program gets through the correlation, and every site keeps the product of the parts that the seeds leave of its energy.
The seeds are as many of the drawn sites as there are thousands of sites. -/
theorem C109_energies (h0 : 0 < d) (h1 : d ≤ 1290) (hE : Given d E f) (hn : d ^ 3 / 1000 ≤ draws.length)
    (hps : List.Forall₂ (At d) (draws.take (d ^ 3 / 1000).toNat) ps) :
    ∃ E', correlate d draws E = .ok E' ∧ Given d E' fun q => f q * (ps.map fun p => kept p q).prod :=
  correlate_ok h0 h1 hE hn hps

theorem CorrelatedSpec.kept_bounds (p q : Pos) : 0 ≤ kept p q ∧ kept p q ≤ 1 ∧ (kept p q = 0 ↔ q = p) := by
  unfold kept
  split
  · next h => exact ⟨le_rfl, zero_le_one, by simp [h]⟩
  · next h =>
    split
    · have hpos : 0 < offset p q := by
        unfold offset
        refine Real.sqrt_pos.2 ?_
        have : (q.x : ℝ) + 1 / 2 - p.x ≠ 0 := by
          intro e
          have e' : ((2 * (q.x - p.x) + 1 : Int) : ℝ) = 0 := by push_cast; linarith
          have : 2 * (q.x - p.x) + 1 = 0 := by exact_mod_cast e'
          omega
        positivity
      have h1 : Real.exp (-offset p q / 3) < 1 := Real.exp_lt_one_iff.2 (by linarith)
      have h2 := Real.exp_pos (-offset p q / 3)
      exact ⟨by linarith, by linarith, ⟨fun e => by linarith, fun e => absurd e h⟩⟩
    · exact ⟨zero_le_one, le_rfl, ⟨fun e => by norm_num at e, fun e => absurd e h⟩⟩

theorem CorrelatedSpec.prod_bounds (ps : List Pos) (q : Pos) :
    0 ≤ (ps.map fun p => kept p q).prod ∧ (ps.map fun p => kept p q).prod ≤ 1 ∧ ((ps.map fun p => kept p q).prod = 0 ↔ q ∈ ps) := by
  induction ps with
  | nil => simp
  | cons p ps ih =>
    obtain ⟨a, b, c⟩ := kept_bounds p q
    rw [List.map_cons, List.prod_cons, mul_eq_zero, c, ih.2.2, List.mem_cons]
    exact ⟨mul_nonneg a ih.1, mul_le_one₀ b ih.1 ih.2.1, Iff.rfl⟩

/-- **C109**. No energy grows or changes its sign, and exactly the seeds, and the sites whose energy was zero, end with energy zero. -/
theorem C109_shrinks (h0 : 0 < d) (h1 : d ≤ 1290) (hE : Given d E f) (hn : d ^ 3 / 1000 ≤ draws.length)
    (hps : List.Forall₂ (At d) (draws.take (d ^ 3 / 1000).toNat) ps) {E' : List ℝ} (hr : correlate d draws E = .ok E') {i : Int} {q : Pos}
    (hq : At d i q) {e' : ℝ} (he : E'[i.toNat]? = some e') :
    |e'| ≤ |f q| ∧ 0 ≤ f q * e' ∧ (e' = 0 ↔ f q = 0 ∨ q ∈ ps) := by
  obtain ⟨E'', h, g⟩ := correlate_ok h0 h1 hE hn hps
  rw [hr] at h
  obtain rfl := ok_inj.1 h
  rw [g.2 i q hq] at he
  obtain rfl := Option.some_inj.1 he
  obtain ⟨a, b, c⟩ := prod_bounds ps q
  refine ⟨?_, ?_, ?_⟩
  · rw [abs_mul, abs_of_nonneg a]
    exact mul_le_of_le_one_right (abs_nonneg _) b
  · rw [← mul_assoc]
    exact mul_nonneg (mul_self_nonneg _) a
  · rw [mul_eq_zero, c]

theorem CorrelatedSpec.given_unique (h0 : 0 < d) (h1 : d ≤ 1290) {E' : List ℝ} (h : Given d E f) (h' : Given d E' f) : E = E' := by
  refine List.ext_getElem? fun k => ?_
  have e : d ^ 3 = d * d * d := by ring
  have l := h.1
  have l' := h'.1
  by_cases hk : (k : Int) < d * d * d
  · obtain ⟨p, hp⟩ := Box.at_exists h0 h1 (i := (k : Int)) (by omega) hk
    have a := h.2 _ p hp
    have b := h'.2 _ p hp
    rw [Int.toNat_natCast] at a b
    rw [a, b]
  · rw [List.getElem?_eq_none (by omega), List.getElem?_eq_none (by omega)]

/-- **C109**. The order of the seeds does not matter. -/
theorem C109_order (h0 : 0 < d) (h1 : d ≤ 1290) (hE : Given d E f) (hn : d ^ 3 / 1000 ≤ draws.length)
    (hps : List.Forall₂ (At d) (draws.take (d ^ 3 / 1000).toNat) ps) {draws' : List Int} (hn' : d ^ 3 / 1000 ≤ draws'.length)
    (hp : (draws'.take (d ^ 3 / 1000).toNat).Perm (draws.take (d ^ 3 / 1000).toNat)) : correlate d draws' E = correlate d draws E := by
  obtain ⟨ps', hps', hpp⟩ : ∃ ps', List.Forall₂ (At d) (draws'.take (d ^ 3 / 1000).toNat) ps' ∧ ps'.Perm ps := by
    have := List.perm_comp_forall₂ hp hps
    obtain ⟨l, a, b⟩ := this
    exact ⟨l, a, b⟩
  obtain ⟨E1, e1, g1⟩ := correlate_ok h0 h1 hE hn hps
  obtain ⟨E2, e2, g2⟩ := correlate_ok h0 h1 hE hn' hps'
  rw [e1, e2]
  congr 1
  refine given_unique h0 h1 g2 (given_congr g1 fun q _ => ?_)
  rw [(hpp.map _).prod_eq]

/-- A box of 10 sites per axis, all of energy 1, with one seed, site 555 in the middle. -/
theorem CorrelatedSpec.ones : Given 10 (List.replicate 1000 1) (fun _ => 1) ∧ (10 : Int) ^ 3 / 1000 ≤ ([555] : List Int).length ∧
    List.Forall₂ (At 10) (([555] : List Int).take ((10 : Int) ^ 3 / 1000).toNat) [⟨5, 5, 5⟩] := by
  refine ⟨⟨by rw [List.length_replicate]; norm_num, fun i p hp => ?_⟩, by decide, ?_⟩
  · have := Box.at_bounds (by decide) (by decide) hp
    rw [List.getElem?_replicate, if_pos (by omega)]
  · have : (([555] : List Int).take ((10 : Int) ^ 3 / 1000).toNat) = [555] := by decide
    rw [this]
    exact .cons (by decide) .nil

example : ∃ E', correlate 10 [555] (List.replicate 1000 1) = .ok E' ∧ E'[555]? = some 0 ∧ E'[444]? = some (1 - Real.exp (-Real.sqrt 0.75 / 3)) := by
  obtain ⟨E', e, g⟩ := C109_energies (by decide) (by decide) ones.1 ones.2.1 ones.2.2
  refine ⟨E', e, ?_, ?_⟩
  · exact (g.2 555 ⟨5, 5, 5⟩ (by decide)).trans (by simp [kept])
  · refine (g.2 444 ⟨4, 4, 4⟩ (by decide)).trans ?_
    have : Near ⟨5, 5, 5⟩ ⟨4, 4, 4⟩ := by decide
    simp only [List.map_cons, List.map_nil, List.prod_cons, List.prod_nil, mul_one, one_mul, kept, Pos.mk.injEq]
    rw [if_neg (by decide), if_pos this]
    unfold offset
    norm_num

/-- **C109** (what holds of the decay with the distance). The part taken from the energy of a site near a seed is `exp(-r/3)` up to a factor
of `exp(√3/6)`, about 4/3. Missing: that it is that number, and that the sites near a seed are those up to a distance of 4.5. -/
theorem C109_decay_partial {p q : Pos} (hq : q ≠ p) (h : Near p q) :
    Real.exp (-(Real.sqrt 3 / 6)) * Real.exp (-distance p q / 3) ≤ 1 - kept p q ∧
      1 - kept p q ≤ Real.exp (Real.sqrt 3 / 6) * Real.exp (-distance p q / 3) := by
  have key : ∀ a b c : ℝ, |Real.sqrt ((a + 1 / 2) ^ 2 + (b + 1 / 2) ^ 2 + (c + 1 / 2) ^ 2) - Real.sqrt (a ^ 2 + b ^ 2 + c ^ 2)| ≤ Real.sqrt 3 / 2 := by
    intro a b c
    set u := Real.sqrt ((a + 1 / 2) ^ 2 + (b + 1 / 2) ^ 2 + (c + 1 / 2) ^ 2)
    set v := Real.sqrt (a ^ 2 + b ^ 2 + c ^ 2)
    have hu0 : 0 ≤ u := Real.sqrt_nonneg _
    have hv0 : 0 ≤ v := Real.sqrt_nonneg _
    have hu : u ^ 2 = (a + 1 / 2) ^ 2 + (b + 1 / 2) ^ 2 + (c + 1 / 2) ^ 2 := Real.sq_sqrt (by positivity)
    have hv : v ^ 2 = a ^ 2 + b ^ 2 + c ^ 2 := Real.sq_sqrt (by positivity)
    have ht : Real.sqrt 3 ^ 2 = 3 := Real.sq_sqrt (by norm_num)
    have huv : a * (a + 1 / 2) + b * (b + 1 / 2) + c * (c + 1 / 2) ≤ u * v := by
      refine le_of_sq_le_sq ?_ (mul_nonneg hu0 hv0)
      rw [mul_pow, hu, hv]
      nlinarith [sq_nonneg (a * (b + 1 / 2) - b * (a + 1 / 2)), sq_nonneg (a * (c + 1 / 2) - c * (a + 1 / 2)),
        sq_nonneg (b * (c + 1 / 2) - c * (b + 1 / 2))]
    refine abs_le_of_sq_le_sq ?_ (by positivity)
    rw [div_pow, ht]
    nlinarith
  have h' := key ((q.x : ℝ) - p.x) ((q.y : ℝ) - p.y) ((q.z : ℝ) - p.z)
  have eo : offset p q = Real.sqrt (((q.x : ℝ) - p.x + 1 / 2) ^ 2 + ((q.y : ℝ) - p.y + 1 / 2) ^ 2 + ((q.z : ℝ) - p.z + 1 / 2) ^ 2) := by
    unfold offset
    congr 1
    ring
  rw [← eo, abs_le] at h'
  change _ ≤ offset p q - distance p q ∧ offset p q - distance p q ≤ _ at h'
  have ek : 1 - kept p q = Real.exp (-offset p q / 3) := by
    unfold kept
    rw [if_neg hq, if_pos h]
    ring
  rw [ek, ← Real.exp_add, ← Real.exp_add]
  exact ⟨Real.exp_le_exp.2 (by linarith), Real.exp_le_exp.2 (by linarith)⟩

example : (⟨4, 4, 4⟩ : Pos) ≠ ⟨5, 5, 5⟩ ∧ Near ⟨5, 5, 5⟩ ⟨4, 4, 4⟩ := by decide

/-- **C109** (what is false). In the box above, the sites 556 and 554 on the two sides of the seed end with different energies, site 559 at
distance 4 from the seed keeps its energy, and site 550 at distance 5, beyond the greatest distance of 4.5, does not. -/
theorem C109_counterexample : ∃ E', correlate 10 [555] (List.replicate 1000 1) = .ok E' ∧
    distance ⟨5, 5, 5⟩ ⟨6, 5, 5⟩ = 1 ∧ distance ⟨5, 5, 5⟩ ⟨4, 5, 5⟩ = 1 ∧ (∃ a b, E'[556]? = some a ∧ E'[554]? = some b ∧ b < a) ∧
    distance ⟨5, 5, 5⟩ ⟨9, 5, 5⟩ = 4 ∧ E'[559]? = some 1 ∧
    distance ⟨5, 5, 5⟩ ⟨0, 5, 5⟩ = 5 ∧ ∃ c, E'[550]? = some c ∧ c < 1 := by
  obtain ⟨E', e, g⟩ := C109_energies (by decide) (by decide) ones.1 ones.2.1 ones.2.2
  have hd : ∀ x r : Int, 0 ≤ r → (x - 5) ^ 2 = r ^ 2 → distance ⟨5, 5, 5⟩ ⟨x, 5, 5⟩ = r := by
    intro x r hr hx
    unfold distance
    have hx' : ((x : ℝ) - 5) ^ 2 = (r : ℝ) ^ 2 := by exact_mod_cast hx
    simp only [Int.cast_ofNat, sub_self, hx']
    rw [show (r : ℝ) ^ 2 + 0 ^ 2 + 0 ^ 2 = (r : ℝ) ^ 2 by ring]
    exact Real.sqrt_sq (by exact_mod_cast hr)
  have hk : ∀ x : Int, x ≠ 5 → -5 ≤ x - 5 ∧ x - 5 ≤ 3 →
      kept ⟨5, 5, 5⟩ ⟨x, 5, 5⟩ = 1 - Real.exp (-Real.sqrt (((x : ℝ) + 1 / 2 - 5) ^ 2 + 1 / 4 + 1 / 4) / 3) := by
    intro x h5 hx
    unfold kept
    rw [if_neg (by simpa using h5), if_pos ⟨hx, by dsimp; decide, by dsimp; decide⟩]
    unfold offset
    norm_num
  have g1 := g.2 556 ⟨6, 5, 5⟩ (by decide)
  have g2 := g.2 554 ⟨4, 5, 5⟩ (by decide)
  have g3 := g.2 559 ⟨9, 5, 5⟩ (by decide)
  have g4 := g.2 550 ⟨0, 5, 5⟩ (by decide)
  simp only [List.map_cons, List.map_nil, List.prod_cons, List.prod_nil, mul_one, one_mul] at g1 g2 g3 g4
  refine ⟨E', e, by exact_mod_cast hd 6 1 (by decide) (by decide), by exact_mod_cast hd 4 1 (by decide) (by decide), ⟨_, _, g1, g2, ?_⟩,
    by exact_mod_cast hd 9 4 (by decide) (by decide), ?_, by exact_mod_cast hd 0 5 (by decide) (by decide), _, g4, ?_⟩
  · rw [hk 6 (by decide) (by decide), hk 4 (by decide) (by decide)]
    refine sub_lt_sub_left (Real.exp_lt_exp.2 ?_) _
    have : Real.sqrt ((((4 : Int) : ℝ) + 1 / 2 - 5) ^ 2 + 1 / 4 + 1 / 4) < Real.sqrt ((((6 : Int) : ℝ) + 1 / 2 - 5) ^ 2 + 1 / 4 + 1 / 4) :=
      Real.sqrt_lt_sqrt (by positivity) (by norm_num)
    linarith
  · rw [show kept ⟨5, 5, 5⟩ ⟨9, 5, 5⟩ = 1 by unfold kept; rw [if_neg (by decide), if_neg (by decide)]] at g3
    exact g3
  · rw [hk 0 (by decide) (by decide)]
    have := Real.exp_pos (-Real.sqrt ((((0 : Int) : ℝ) + 1 / 2 - 5) ^ 2 + 1 / 4 + 1 / 4) / 3)
    linarith

end Mythical
