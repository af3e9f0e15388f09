import Verif.Lemmas.RangeMarcus
import Verif.Props.RoundedToF

/-! # Lemmas on the range of `double` in `Cuboid` and in the rates of the time-of-flight example -/

set_option linter.unusedSectionVars false

namespace Mythical
open Rounded Cuboid CuboidSpec RoundSpec ToF ToFSpec
variable {fl ex sq rt : ℝ → ℝ} {ε : ℝ}

theorem bind_congr_ok {α β : Type} {x : Except Fault α} {f g : α → Except Fault β} (h : ∀ v, x = .ok v → f v = g v) :
    x >>= f = x >>= g := by
  cases x with
  | error e => rfl
  | ok v => exact h v rfl

theorem root_mag_int (T : Root rt ε) (h1 : ε ≤ 1 / 2) {n : Int} (h0 : 0 ≤ n) (hn : n ≤ INT_MAX) :
    rt n = 0 ∨ Mag (-1) 17 (rt n) := by
  have a := T.err n h0
  rcases h0.lt_or_eq with hp | rfl
  · right
    have s1 : (1 : ℝ) ≤ Real.sqrt n := by
      rw [Real.one_le_sqrt]; exact_mod_cast hp
    have s2 : Real.sqrt n ≤ 2 ^ 16 := by
      rw [Real.sqrt_le_left (by norm_num)]
      have : (n : ℝ) ≤ INT_MAX := by exact_mod_cast hn
      refine this.trans ?_
      norm_num [INT_MAX]
    have b := mul_le_mul_of_nonneg_right h1 (by linarith : 0 ≤ Real.sqrt n)
    rw [abs_le] at a
    exact ⟨by norm_num [zpow_neg]; linarith [a.1], by norm_num at s2 ⊢; linarith [a.2]⟩
  · left
    simpa using a

theorem distance_range (I : Ieee fl) (T : Root rt ε) (h1 : ε ≤ 1 / 2) {c : Cuboid} (hs : Mag (-500) 500 c.spacing) (p q : Pos) :
    Rounded.distance fl rt c p q = Rounded.distance binary64 rt c p q := by
  unfold Rounded.distance
  refine bind_congr_ok fun _ h1 => bind_congr_ok fun _ h2 => bind_congr_ok fun _ h3 => bind_congr_ok fun _ h4 =>
    bind_congr_ok fun _ h5 => bind_congr_ok fun _ h6 => bind_congr_ok fun _ h7 => bind_congr_ok fun s h8 => ?_
  rw [chk_eq_ok] at h4 h5 h6 h7 h8
  obtain ⟨rfl, -⟩ := h4
  obtain ⟨rfl, -⟩ := h5
  obtain ⟨rfl, -⟩ := h6
  obtain ⟨rfl, -⟩ := h7
  obtain ⟨rfl, hf⟩ := h8
  congr 1
  rcases root_mag_int T ‹_› (by nlinarith [mul_self_nonneg ‹Int›] : (0 : Int) ≤ _) hf.2 with h | h
  · rw [h, zero_mul, I.zero, binary64_zero]
  · exact I.eq (h.mul hs) (by norm_num) (by norm_num)

theorem numSites_range (I : Ieee fl) {c : Cuboid} (hs : Mag (-500) 500 c.spacing) {cutoff : ℝ} (hc : cutoff = 0 ∨ Mag (-500) 500 cutoff) :
    Rounded.numSites fl c cutoff = Rounded.numSites binary64 c cutoff := by
  unfold Rounded.numSites
  have : fl (cutoff / c.spacing) = binary64 (cutoff / c.spacing) := by
    rcases hc with rfl | h
    · rw [zero_div, I.zero, binary64_zero]
    · exact I.eq (h.div hs) (by norm_num) (by norm_num)
  rw [this]

theorem search_range (I : Ieee fl) (T : Root rt ε) (h1 : ε ≤ 1 / 2) {c : Cuboid} (hs : Mag (-500) 500 c.spacing) {cutoff : ℝ}
    (hc : cutoff = 0 ∨ Mag (-500) 500 cutoff) :
    (∀ i, Rounded.getNeighbors fl rt c i cutoff = Rounded.getNeighbors binary64 rt c i cutoff) ∧
    (∀ i, Rounded.getNeighborDistances fl rt c i cutoff = Rounded.getNeighborDistances binary64 rt c i cutoff) ∧
    Rounded.getAllNeighborDistances fl rt c cutoff = Rounded.getAllNeighborDistances binary64 rt c cutoff := by
  have hd : ∀ p q, Rounded.distance fl rt c p q = Rounded.distance binary64 rt c p q := distance_range I T h1 hs
  have hn := numSites_range I hs hc
  refine ⟨fun i => ?_, fun i => ?_, ?_⟩
  · unfold Rounded.getNeighbors
    simp only [hd, hn]
  · unfold Rounded.getNeighborDistances Rounded.neighborDistances
    simp only [hd, hn]
  · unfold Rounded.getAllNeighborDistances
    have : ∀ n, Rounded.latticeWrites fl rt c n cutoff = Rounded.latticeWrites binary64 rt c n cutoff := by
      intro n
      funext i
      unfold Rounded.latticeWrites
      simp only [hd]
    simp only [hn, this]

end Mythical
