import Verif.Lemmas.RoundedSite
import Verif.Lemmas.MapSum

/-! # Lemmas on the tables of a cluster in rounded arithmetic -/

set_option linter.unusedSectionVars false
set_option linter.unusedVariables false

namespace Mythical.Rounded
open Mythical RoundSpec
variable {K : Type} [Field K] [LinearOrder K] [IsStrictOrderedRing K] [FloorRing K]
variable {fl : K → K} {ε : K}

/-- `y` is `x` up to `m` roundings. -/
structure Rel (ε : K) (m : Nat) (x y : K) : Prop where
  left : 0 ≤ x
  right : 0 ≤ y
  low : (1 - ε) ^ m * x ≤ y
  high : (1 - ε) ^ m * y ≤ x

section Calculus
variable (h0 : 0 ≤ ε) (h1 : ε ≤ 1) {m k : Nat} {x y z x' y' : K}
include h0 h1

theorem Rel.refl (hx : 0 ≤ x) : Rel ε 0 x x := ⟨hx, hx, by simp, by simp⟩

theorem Rel.mono (h : Rel ε m x y) (hk : m ≤ k) : Rel ε k x y := by
  have : (1 - ε) ^ k ≤ (1 - ε) ^ m := pow_le_pow_of_le_one (by linarith) (by linarith) hk
  exact ⟨h.left, h.right, le_trans (mul_le_mul_of_nonneg_right this h.left) h.low,
    le_trans (mul_le_mul_of_nonneg_right this h.right) h.high⟩

theorem Rel.trans (h : Rel ε m x y) (g : Rel ε k y z) : Rel ε (m + k) x z := by
  have p1 : 0 ≤ (1 - ε) ^ m := pow_nonneg (by linarith) _
  have p2 : 0 ≤ (1 - ε) ^ k := pow_nonneg (by linarith) _
  refine ⟨h.left, g.right, ?_, ?_⟩
  · calc (1 - ε) ^ (m + k) * x = (1 - ε) ^ k * ((1 - ε) ^ m * x) := by rw [pow_add]; ring
      _ ≤ (1 - ε) ^ k * y := mul_le_mul_of_nonneg_left h.low p2
      _ ≤ z := g.low
  · calc (1 - ε) ^ (m + k) * z = (1 - ε) ^ m * ((1 - ε) ^ k * z) := by rw [pow_add]; ring
      _ ≤ (1 - ε) ^ m * y := mul_le_mul_of_nonneg_left g.high p1
      _ ≤ x := h.high

theorem Rel.add (h : Rel ε m x y) (g : Rel ε m x' y') : Rel ε m (x + x') (y + y') :=
  ⟨add_nonneg h.left g.left, add_nonneg h.right g.right, by rw [mul_add]; exact add_le_add h.low g.low, by
    rw [mul_add]; exact add_le_add h.high g.high⟩

theorem Rel.mul (h : Rel ε m x y) (g : Rel ε k x' y') : Rel ε (m + k) (x * x') (y * y') := by
  have p1 : 0 ≤ (1 - ε) ^ m := pow_nonneg (by linarith) _
  have p2 : 0 ≤ (1 - ε) ^ k := pow_nonneg (by linarith) _
  refine ⟨mul_nonneg h.left g.left, mul_nonneg h.right g.right, ?_, ?_⟩
  · calc (1 - ε) ^ (m + k) * (x * x') = ((1 - ε) ^ m * x) * ((1 - ε) ^ k * x') := by rw [pow_add]; ring
      _ ≤ y * y' := mul_le_mul h.low g.low (mul_nonneg p2 g.left) h.right
  · calc (1 - ε) ^ (m + k) * (y * y') = ((1 - ε) ^ m * y) * ((1 - ε) ^ k * y') := by rw [pow_add]; ring
      _ ≤ x * x' := mul_le_mul h.high g.high (mul_nonneg p2 g.right) h.left

theorem Rel.inv (h : Rel ε m x y) (hx : 0 < x) (hy : 0 < y) : Rel ε m (1 / x) (1 / y) := by
  refine ⟨by positivity, by positivity, ?_, ?_⟩
  · rw [← mul_div_assoc, mul_one, div_le_div_iff₀ hx hy, one_mul]; exact h.high
  · rw [← mul_div_assoc, mul_one, div_le_div_iff₀ hy hx, one_mul]; exact h.low

theorem Rel.round (R : Rounding fl ε) (hx : 0 ≤ x) : Rel ε 1 x (fl x) := by
  obtain ⟨b1, b2⟩ := R.bounds hx
  refine ⟨hx, R.nonneg hx, by rw [pow_one]; exact b1, ?_⟩
  rw [pow_one]
  calc (1 - ε) * fl x ≤ (1 - ε) * ((1 + ε) * x) := mul_le_mul_of_nonneg_left b2 (by linarith)
    _ ≤ x := by nlinarith [mul_nonneg (mul_nonneg h0 h0) hx]

theorem Rel.total (R : Rounding fl ε) {l : List K} (hl : ∀ x ∈ l, 0 ≤ x) : Rel ε l.length l.sum (total fl 0 l) := by
  have key : ∀ (l : List K) (t t' : K) (m : Nat), Rel ε m t t' → (∀ x ∈ l, 0 ≤ x) →
      Rel ε (m + l.length) (t + l.sum) (Rounded.total fl t' l) := by
    intro l
    induction l with
    | nil => intro t t' m h _; simpa [Rounded.total] using h
    | cons x l ih =>
      intro t t' m h hl
      have hx := hl x (List.mem_cons_self ..)
      have h2 : Rel ε m (t + x) (t' + x) := Rel.add h0 h1 h ((Rel.refl h0 h1 hx).mono h0 h1 (Nat.zero_le _))
      have h3 := h2.trans h0 h1 (Rel.round h0 h1 R h2.right)
      have := ih _ _ _ h3 fun y hy => hl y (List.mem_cons_of_mem _ hy)
      rw [total_cons, List.sum_cons, List.length_cons, ← add_assoc t]
      rw [← add_assoc, add_right_comm]; exact this
  have := key l 0 0 0 (Rel.refl h0 h1 (le_refl _)) hl
  rwa [zero_add, zero_add] at this

omit h0 in
theorem Rel.bounds (h0 : 0 ≤ ε) (h : Rel ε m x y) (hm : 2 * (m * ε) ≤ 1) : (1 - m * ε) * x ≤ y ∧ y ≤ (1 + 2 * (m * ε)) * x := by
  have p1 := one_sub_pow h0 h1 m
  have hx0 : 0 ≤ (m : K) * ε := by positivity
  refine ⟨le_trans (mul_le_mul_of_nonneg_right p1 h.left) h.low, ?_⟩
  have h2 : (1 - m * ε) * y ≤ x := le_trans (mul_le_mul_of_nonneg_right p1 h.right) h.high
  generalize (m : K) * ε = a at *
  have ha : 0 < 1 - a := by linarith
  rw [← mul_le_mul_iff_right₀ ha]
  refine le_trans h2 ?_
  have : 1 ≤ (1 - a) * (1 + 2 * a) := by nlinarith
  have h3 := h.left
  nlinarith

end Calculus

/-- A table made of weights: `q n` is the rounded share of weight `W n`. -/
theorem near_of_rel (h0 : 0 ≤ ε) (h1 : ε ≤ 1) {l : List (Int × K)} {W : Int → K} {M : Nat} (hw : IMap.WF l)
    (hr : ∀ np ∈ l, Rel ε M (W np.1) np.2) (hone : (l.map fun np => W np.1).sum = 1) (hM : 2 * (M * ε) ≤ 1) :
    Near l W (M * ε) (2 * (M * ε)) :=
  ⟨hw, fun np h => (hr np h).left, fun np h => ((hr np h).bounds h1 h0 hM).1, fun np h => ((hr np h).bounds h1 h0 hM).2, hone⟩

theorem pickCum_cumulate (u t : K) (l : List (Int × K)) : Cluster.pickCum u (cumulate fl t l) = pickLoop fl u t l := by
  induction l generalizing t with
  | nil => rfl
  | cons x l ih =>
    obtain ⟨n, p⟩ := x
    unfold cumulate Cluster.pickCum pickLoop
    rw [add_comm p t, ih]

/-- What a table of weights does with the draws. -/
theorem table_law (R : Rounding fl ε) (h0 : 0 ≤ ε) {l : List (Int × K)} {W : Int → K} {M : Nat} (hw : IMap.WF l)
    (hr : ∀ np ∈ l, Rel ε M (W np.1) np.2) (hone : (l.map fun np => W np.1).sum = 1) (hM : 8 * (M * ε) ≤ 1)
    (hlen : l.length ≤ M) (hm : (-1 : Int) ∉ IMap.keys l) :
    ∃ last : K, |last - 1| ≤ 6 * M * ε ∧
      (∀ u, 0 ≤ u → (Cluster.pickCum u (cumulate fl 0 l) ∈ IMap.keys l ↔ u < last) ∧
        (Cluster.pickCum u (cumulate fl 0 l) = -1 ↔ last ≤ u)) ∧
      ∀ n ∈ IMap.keys l, ∃ lo hi : K, 0 ≤ lo ∧ lo ≤ hi ∧ hi ≤ last ∧ |hi - lo - W n| ≤ 2 * (M + 1) * ε ∧
        ∀ u, 0 ≤ u → (Cluster.pickCum u (cumulate fl 0 l) = n ↔ lo ≤ u ∧ u < hi) := by
  have hne : l ≠ [] := by rintro rfl; simp at hone
  have hl1 : 1 ≤ l.length := List.length_pos_of_ne_nil hne
  have hlK : (l.length : K) ≤ M := by exact_mod_cast hlen
  have hl1K : (1 : K) ≤ l.length := by exact_mod_cast hl1
  have h1 : ε ≤ 1 := by nlinarith
  have hx0 : 0 ≤ (M : K) * ε := by positivity
  have N := near_of_rel h0 h1 hw hr hone (by linarith)
  have hlx : (l.length : K) * ε ≤ M * ε := mul_le_mul_of_nonneg_right hlK h0
  have hlx0 : 0 ≤ (l.length : K) * ε := by positivity
  have e1 : 8 * ((l.length : K) * ε) ≤ 1 := by linarith
  obtain ⟨t1, t2⟩ := N.total R h0 e1 hx0 (by linarith) (by linarith) (by linarith)
  have hnn := N.nonneg (by linarith)
  have hoff : ∀ u, Cluster.pickCum u (cumulate fl 0 l) = -1 ↔ Rounded.total fl 0 (l.map Prod.snd) ≤ u := by
    intro u
    rw [pickCum_cumulate, pickLoop_off R hnn hm R.zero]
    exact ⟨fun h => h.resolve_left hne, .inr⟩
  have hin : ∀ (l : List (Int × K)) (t u : K), pickLoop fl u t l = -1 ∨ pickLoop fl u t l ∈ IMap.keys l := by
    intro l
    induction l with
    | nil => intro t u; exact .inl rfl
    | cons x l ih =>
      intro t u
      obtain ⟨k, p⟩ := x
      unfold pickLoop
      simp only [IMap.keys, List.map_cons, List.mem_cons]
      split
      · exact .inr (.inl rfl)
      · rcases ih (fl (t + p)) u with h | h
        · exact .inl h
        · exact .inr (.inr h)
  refine ⟨Rounded.total fl 0 (l.map Prod.snd), ?_, fun u hu => ⟨?_, hoff u⟩, ?_⟩
  · rw [abs_le]
    constructor <;> linarith
  · rw [← not_le, ← hoff]
    constructor
    · intro h e; rw [e] at h; exact hm h
    · intro h; rw [pickCum_cumulate] at h ⊢; exact (hin _ _ _).resolve_left h
  · intro n hn
    obtain ⟨p, hp⟩ := IMap.mem_keys_iff_get?.1 hn
    obtain ⟨i1, i2, i3, i4, i5⟩ := N.interval R h0 e1 hx0 (by linarith) (by linarith) (by linarith) hp
    have hW0 : 0 ≤ W n := N.pos _ (IMap.mem_of_get? hp)
    have hW1 : W n ≤ 1 := by
      rw [← hone]
      apply List.single_le_sum (l := l.map fun np => W np.1)
      · intro x hx; obtain ⟨np, hnp, rfl⟩ := List.mem_map.1 hx; exact N.pos _ hnp
      · exact List.mem_map.2 ⟨_, IMap.mem_of_get? hp, rfl⟩
    refine ⟨_, _, i1, i2, i3, ?_, fun u hu => by rw [pickCum_cumulate]; exact pickLoop_start R hnn hm hw hp R.zero hu⟩
    rw [abs_le]
    constructor <;> nlinarith

end Mythical.Rounded
