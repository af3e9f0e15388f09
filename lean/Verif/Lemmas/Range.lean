import Verif.Model.Range
import Verif.Spec.Range
import Verif.Lemmas.Rounding
import Mathlib.Tactic.Linarith

/-! # Lemmas on the range of `double` -/

set_option linter.unusedSectionVars false

namespace Mythical
open Rounded RoundSpec
variable {K : Type} [Field K] [LinearOrder K] [IsStrictOrderedRing K] [FloorRing K] {fl : K → K}

theorem binary64_pow (a : Int) : binary64 ((2 : K) ^ a) = 2 ^ a := by
  have := binary64_fixed (K := K) 1 a (by norm_num)
  simpa using this

theorem pow_le {a b : Int} (h : a ≤ b) : (2 : K) ^ a ≤ 2 ^ b := zpow_le_zpow_right₀ (by norm_num) h

theorem double_ieee : Ieee (double : K → K) where
  zero := by
    unfold double
    rw [if_pos (by rw [abs_zero]; exact zpow_pos (by norm_num) _), zero_div]
    have := nearest_int (K := K) 0
    rw [Int.cast_zero] at this
    rw [this]; simp
  normal := fun x h _ => by
    unfold double
    rw [if_neg (not_lt.2 h)]

namespace RoundSpec

theorem Mag.pos {a b : Int} {x : K} (h : Mag a b x) : 0 < x := lt_of_lt_of_le (zpow_pos (by norm_num) _) h.1

theorem Mag.mono {a b a' b' : Int} {x : K} (h : Mag a b x) (ha : a' ≤ a) (hb : b ≤ b') : Mag a' b' x :=
  ⟨(pow_le ha).trans h.1, h.2.trans (pow_le hb)⟩

theorem Mag.mul {a b c d : Int} {x y : K} (h : Mag a b x) (h' : Mag c d y) : Mag (a + c) (b + d) (x * y) := by
  have p := h.pos
  have q := h'.pos
  unfold Mag
  rw [zpow_add₀ (by norm_num), zpow_add₀ (by norm_num)]
  exact ⟨mul_le_mul h.1 h'.1 (zpow_pos (by norm_num) _).le p.le, mul_le_mul h.2 h'.2 q.le (zpow_pos (by norm_num) _).le⟩

theorem Mag.div {a b c d : Int} {x y : K} (h : Mag a b x) (h' : Mag c d y) : Mag (a - d) (b - c) (x / y) := by
  have q := h'.pos
  unfold Mag
  rw [zpow_sub₀ (by norm_num), zpow_sub₀ (by norm_num)]
  exact ⟨div_le_div₀ h.pos.le h.1 q h'.2, div_le_div₀ (zpow_pos (by norm_num) _).le h.2 (zpow_pos (by norm_num) _) h'.1⟩

theorem Mag.pow (a : Int) : Mag a a ((2 : K) ^ a) := ⟨le_refl _, le_refl _⟩

theorem Mag.one : Mag 0 0 (1 : K) := by unfold Mag; simp

theorem Mag.round {a b : Int} {x : K} (h : Mag a b x) : Mag a b (binary64 x) := by
  have h1 := binary64_mono h.1
  have h2 := binary64_mono h.2
  rw [binary64_pow] at h1 h2
  exact ⟨h1, h2⟩

/-- In the range the two roundings are the same. -/
theorem Ieee.eq (I : Ieee fl) {a b : Int} {x : K} (h : Mag a b x) (ha : -1022 ≤ a) (hb : b ≤ 1023) : fl x = binary64 x := by
  apply I.normal <;> rw [abs_of_pos h.pos]
  · exact (pow_le ha).trans h.1
  · exact h.2.trans (pow_le hb)

theorem Ieee.neg (I : Ieee fl) {a b : Int} {x : K} (h : Mag a b x) (ha : -1022 ≤ a) (hb : b ≤ 1023) : fl (-x) = binary64 (-x) := by
  apply I.normal <;> rw [abs_neg, abs_of_pos h.pos]
  · exact (pow_le ha).trans h.1
  · exact h.2.trans (pow_le hb)

end RoundSpec

/-- Adding up at most `2^20` numbers of like size stays in the range; `k` were added before. -/
theorem sum_range (I : Ieee fl) {a b : Int} (ha : -1022 ≤ a) (hb : b + 20 ≤ 1023) {α : Type} (f : α → K) (l : List α)
    (hl : ∀ x ∈ l, Mag a b (f x)) (k : Nat) (hk : k + l.length ≤ 2 ^ 20) (acc : K) (h0 : 0 ≤ acc) (h1 : acc ≤ k * 2 ^ b)
    (h2 : k ≠ 0 → 2 ^ a ≤ acc) :
    l.foldl (fun t x => fl (t + f x)) acc = l.foldl (fun t x => binary64 (t + f x)) acc ∧
    (k + l.length ≠ 0 → Mag a (b + 20) (l.foldl (fun t x => binary64 (t + f x)) acc)) := by
  have hb0 : (0 : K) < 2 ^ b := zpow_pos (by norm_num) _
  have cap : ∀ m : Nat, m ≤ 2 ^ 20 → (m : K) * 2 ^ b ≤ 2 ^ (b + 20) := by
    intro m hm
    rw [zpow_add₀ (by norm_num), mul_comm]
    apply mul_le_mul_of_nonneg_left _ hb0.le
    have : (m : K) ≤ ((2 ^ 20 : Nat) : K) := by exact_mod_cast hm
    refine this.trans (le_of_eq ?_)
    norm_num
  induction l generalizing k acc with
  | nil =>
    refine ⟨rfl, fun hn => ⟨h2 (by simpa using hn), h1.trans (cap k (by simpa using hk))⟩⟩
  | cons x l ih =>
    simp only [List.length_cons] at hk
    have hx := hl x (by simp)
    have m : Mag a (b + 20) (acc + f x) := by
      refine ⟨by linarith [hx.1], le_trans ?_ (cap (k + 1) (by omega))⟩
      push_cast
      linarith [hx.2]
    have hle : binary64 (acc + f x) ≤ ((k + 1 : Nat) : K) * 2 ^ b := by
      have e := binary64_fixed (K := K) ((k + 1 : Nat) : Int) b (by
        rw [abs_of_nonneg (by omega)]
        have : (2 : Int) ^ 20 ≤ 2 ^ 53 := by norm_num
        have : ((k + 1 : Nat) : Int) ≤ 2 ^ 20 := by exact_mod_cast (by omega : k + 1 ≤ 2 ^ 20)
        omega)
      rw [Int.cast_natCast] at e
      rw [← e]
      apply binary64_mono
      push_cast
      linarith [hx.2]
    simp only [List.foldl_cons]
    rw [I.eq m ha hb]
    have := ih (fun y hy => hl y (by simp [hy])) (k + 1) (by omega) (binary64 (acc + f x)) m.round.pos.le hle
      (fun _ => m.round.1)
    refine ⟨this.1, fun _ => this.2 (by omega)⟩

end Mythical
