import Verif.Lemmas.Rounding
import Verif.Lemmas.Site
import Mathlib.Algebra.Order.Ring.Pow
import Mathlib.Algebra.BigOperators.Group.List.Basic

/-! # Lemmas on sums and tables in rounded arithmetic -/

set_option linter.unusedSectionVars false
set_option linter.unusedVariables false

namespace Mythical.Rounded
open Mythical RoundSpec SiteSpec
variable {K : Type} [Field K] [LinearOrder K] [IsStrictOrderedRing K] [FloorRing K]
variable {fl : K → K} {ε : K}

theorem _root_.Mythical.RoundSpec.Rounding.zero (R : Rounding fl ε) : fl 0 = 0 := by
  have := R.err 0
  rw [abs_zero, mul_zero, sub_zero] at this
  exact abs_eq_zero.1 (le_antisymm this (abs_nonneg _))

theorem _root_.Mythical.RoundSpec.Rounding.nonneg (R : Rounding fl ε) {x : K} (h : 0 ≤ x) : 0 ≤ fl x := by
  rw [← R.zero]; exact R.mono h

theorem _root_.Mythical.RoundSpec.Rounding.bounds (R : Rounding fl ε) {x : K} (h : 0 ≤ x) :
    (1 - ε) * x ≤ fl x ∧ fl x ≤ (1 + ε) * x := by
  have := R.err x
  rw [abs_of_nonneg h, abs_le] at this
  constructor <;> linarith

theorem _root_.Mythical.RoundSpec.Rounding.pos (R : Rounding fl ε) (h1 : ε < 1) {x : K} (h : 0 < x) : 0 < fl x :=
  lt_of_lt_of_le (mul_pos (by linarith) h) (R.bounds h.le).1

/-- Rounded running total. -/
def total (fl : K → K) (t : K) (l : List K) : K := l.foldl (fun t x => fl (t + x)) t

theorem total_cons (t x : K) (l : List K) : total fl t (x :: l) = total fl (fl (t + x)) l := rfl

theorem total_append (t : K) (l l' : List K) : total fl t (l ++ l') = total fl (total fl t l) l' :=
  List.foldl_append

/-- A rounded sum of `n` nonnegative numbers. -/
theorem total_bounds (R : Rounding fl ε) (h0 : 0 ≤ ε) (h1 : ε ≤ 1) {l : List K} (hl : ∀ x ∈ l, 0 ≤ x) {t : K} (ht : 0 ≤ t) :
    (1 - ε) ^ l.length * (t + l.sum) ≤ total fl t l ∧ total fl t l ≤ (1 + ε) ^ l.length * (t + l.sum) := by
  induction l generalizing t with
  | nil => simp [total]
  | cons x l ih =>
    have hx : 0 ≤ x := hl x (List.mem_cons_self ..)
    have hs : 0 ≤ l.sum := List.sum_nonneg fun y hy => hl y (List.mem_cons_of_mem _ hy)
    obtain ⟨b1, b2⟩ := R.bounds (add_nonneg ht hx)
    obtain ⟨i1, i2⟩ := ih (fun y hy => hl y (List.mem_cons_of_mem _ hy)) (R.nonneg (add_nonneg ht hx))
    rw [total_cons, List.length_cons, List.sum_cons, pow_succ, pow_succ]
    have p1 : 0 ≤ (1 - ε) ^ l.length := pow_nonneg (by linarith) _
    have p2 : 0 ≤ (1 + ε) ^ l.length := pow_nonneg (by linarith) _
    constructor
    · refine le_trans ?_ i1
      rw [mul_assoc]
      apply mul_le_mul_of_nonneg_left _ p1
      nlinarith
    · refine le_trans i2 ?_
      rw [mul_assoc]
      apply mul_le_mul_of_nonneg_left _ p2
      nlinarith

/-- Running totals grow. -/
theorem total_ge (R : Rounding fl ε) {l : List K} (hl : ∀ x ∈ l, 0 ≤ x) {t : K} (hf : fl t = t) :
    t ≤ total fl t l ∧ fl (total fl t l) = total fl t l := by
  induction l generalizing t with
  | nil => exact ⟨le_refl _, hf⟩
  | cons x l ih =>
    have hx : 0 ≤ x := hl x (List.mem_cons_self ..)
    obtain ⟨h1, h2⟩ := ih (fun y hy => hl y (List.mem_cons_of_mem _ hy)) (t := fl (t + x)) (R.idem _)
    refine ⟨le_trans ?_ h1, h2⟩
    calc t = fl t := hf.symm
      _ ≤ fl (t + x) := R.mono (by linarith)

theorem one_sub_pow (h0 : 0 ≤ ε) (h1 : ε ≤ 1) (n : Nat) : 1 - n * ε ≤ (1 - ε) ^ n := by
  have := one_add_mul_le_pow (a := -ε) (by linarith) n
  calc 1 - n * ε = 1 + n * -ε := by ring
    _ ≤ _ := this
    _ = _ := by ring_nf

/-- `(1+ε)^n ≤ 1/(1-nε)`. -/
theorem pow_mul_le (h0 : 0 ≤ ε) (h1 : ε ≤ 1) (n : Nat) : (1 + ε) ^ n * (1 - n * ε) ≤ 1 := by
  have h2 := one_sub_pow h0 h1 n
  have p : 0 ≤ (1 + ε) ^ n := pow_nonneg (by linarith) _
  calc (1 + ε) ^ n * (1 - n * ε) ≤ (1 + ε) ^ n * (1 - ε) ^ n := mul_le_mul_of_nonneg_left h2 p
    _ = (1 - ε * ε) ^ n := by rw [← mul_pow]; congr 1; ring
    _ ≤ 1 := pow_le_one₀ (by nlinarith) (by nlinarith)

/-! ## The loop over a table -/

/-- Where the entry `n` begins. -/
def start (fl : K → K) (n : Int) : K → List (Int × K) → K
  | t, [] => t
  | t, (k, p) :: l => if k = n then t else start fl n (fl (t + p)) l

variable {l : List (Int × K)}

theorem pickLoop_off (R : Rounding fl ε) (hl : ∀ np ∈ l, 0 ≤ np.2) (hm : (-1 : Int) ∉ IMap.keys l) {t u : K} (hf : fl t = t) :
    (pickLoop fl u t l = -1 ↔ l = [] ∨ total fl t (l.map Prod.snd) ≤ u) := by
  induction l generalizing t with
  | nil => simp [pickLoop]
  | cons x l ih =>
    obtain ⟨k, p⟩ := x
    have hp : 0 ≤ p := hl (k, p) (List.mem_cons_self ..)
    have hl' : ∀ np ∈ l, 0 ≤ np.2 := fun np h => hl np (List.mem_cons_of_mem _ h)
    have hge := (total_ge R (l := l.map Prod.snd) (by simpa using fun a b h => hl' (b, a) h) (t := fl (t + p)) (R.idem _)).1
    have hk : k ≠ -1 ∧ (-1 : Int) ∉ IMap.keys l := by
      simp only [IMap.keys, List.map_cons, List.mem_cons, not_or] at hm
      exact ⟨fun e => hm.1 e.symm, hm.2⟩
    unfold pickLoop
    rw [List.map_cons, total_cons]
    simp only [reduceCtorEq, false_or]
    split
    · next hu => exact ⟨fun e => absurd e hk.1, fun h => absurd (lt_of_lt_of_le hu hge) (not_lt.2 h)⟩
    · next hu =>
      rw [ih hl' hk.2 (R.idem _)]
      constructor
      · rintro (h | h)
        · rw [h]; exact not_lt.1 hu
        · exact h
      · exact .inr

theorem pickLoop_start (R : Rounding fl ε) (hl : ∀ np ∈ l, 0 ≤ np.2) (hm : (-1 : Int) ∉ IMap.keys l) (hw : IMap.WF l) {n : Int}
    {p : K} (hn : IMap.get? l n = some p) {t u : K} (hf : fl t = t) (hu : t ≤ u) :
    (pickLoop fl u t l = n ↔ start fl n t l ≤ u ∧ u < fl (start fl n t l + p)) := by
  induction l generalizing t with
  | nil => cases hn
  | cons x l ih =>
    obtain ⟨k, q⟩ := x
    have hq : 0 ≤ q := hl (k, q) (List.mem_cons_self ..)
    have hl' : ∀ np ∈ l, 0 ≤ np.2 := fun np h => hl np (List.mem_cons_of_mem _ h)
    have hm' : k ≠ -1 ∧ (-1 : Int) ∉ IMap.keys l := by
      simp only [IMap.keys, List.map_cons, List.mem_cons, not_or] at hm
      exact ⟨fun e => hm.1 e.symm, hm.2⟩
    have hw' : k ∉ IMap.keys l ∧ IMap.WF l := List.nodup_cons.1 hw
    unfold pickLoop start
    by_cases hk : k = n
    · subst hk
      have : p = q := by
        rw [IMap.get?] at hn; simpa using hn.symm
      subst this
      rw [if_pos rfl]
      split
      · next h => exact ⟨fun _ => ⟨hu, h⟩, fun _ => rfl⟩
      · next h =>
        refine ⟨fun e => ?_, fun g => absurd g.2 h⟩
        exfalso
        have : ∀ (l : List (Int × K)) (t : K), k ∉ IMap.keys l → k ≠ -1 → pickLoop fl u t l ≠ k := by
          intro l
          induction l with
          | nil => intro t _ h; exact fun e => h e.symm
          | cons y l ih =>
            obtain ⟨j, r⟩ := y
            intro t hj h
            simp only [IMap.keys, List.map_cons, List.mem_cons, not_or] at hj
            unfold pickLoop
            split
            · exact fun e => hj.1 e.symm
            · exact ih _ hj.2 h
        exact this l _ hw'.1 hm'.1 e
    · have hn' : IMap.get? l n = some p := by
        rw [IMap.get?] at hn; simpa [hk] using hn
      rw [if_neg hk]
      split
      · next h =>
        refine ⟨fun e => absurd e hk, fun g => ?_⟩
        have : ∀ (l : List (Int × K)) (t : K), (∀ np ∈ l, 0 ≤ np.2) → fl t = t → t ≤ start fl n t l := by
          intro l
          induction l with
          | nil => intro t _ _; exact le_refl _
          | cons y l ih =>
            obtain ⟨j, r⟩ := y
            intro t hl ht
            unfold start
            split
            · exact le_refl _
            · have hr : 0 ≤ r := hl (j, r) (List.mem_cons_self ..)
              refine le_trans ?_ (ih _ (fun np h => hl np (List.mem_cons_of_mem _ h)) (R.idem _))
              calc t = fl t := ht.symm
                _ ≤ fl (t + r) := R.mono (by linarith)
        exact absurd (lt_of_lt_of_le h (this l _ hl' (R.idem _))) (not_lt.2 g.1)
      · next h => exact ih hl' hm'.2 hw'.2 hn' (R.idem _) (not_lt.1 h)

theorem start_facts (R : Rounding fl ε) (hl : ∀ np ∈ l, 0 ≤ np.2) {n : Int}
    {p : K} (hn : IMap.get? l n = some p) {t : K} (hf : fl t = t) :
    t ≤ start fl n t l ∧ fl (start fl n t l) = start fl n t l ∧ fl (start fl n t l + p) ≤ total fl t (l.map Prod.snd) := by
  induction l generalizing t with
  | nil => cases hn
  | cons x l ih =>
    obtain ⟨k, q⟩ := x
    have hq : 0 ≤ q := hl (k, q) (List.mem_cons_self ..)
    have hl' : ∀ np ∈ l, 0 ≤ np.2 := fun np h => hl np (List.mem_cons_of_mem _ h)
    unfold start
    rw [List.map_cons, total_cons]
    by_cases hk : k = n
    · subst hk
      have : p = q := by
        rw [IMap.get?] at hn; simpa using hn.symm
      subst this
      rw [if_pos rfl]
      exact ⟨le_refl _, hf, (total_ge R (l := l.map Prod.snd) (by simpa using fun a b h => hl' (b, a) h) (R.idem _)).1⟩
    · have hn' : IMap.get? l n = some p := by
        rw [IMap.get?] at hn; simpa [hk] using hn
      rw [if_neg hk]
      obtain ⟨h1, h2, h3⟩ := ih hl' hn' (t := fl (t + q)) (R.idem _)
      refine ⟨le_trans ?_ h1, h2, h3⟩
      calc t = fl t := hf.symm
        _ ≤ fl (t + q) := R.mono (by linarith)

end Mythical.Rounded
