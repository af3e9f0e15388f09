import Verif.Lemmas.RoundedTables

/-! # Lemmas on the time constants of a cluster in rounded arithmetic -/

set_option linter.unusedSectionVars false
set_option linter.unusedVariables false

namespace Mythical.Rounded
open Mythical RoundSpec
variable {K : Type} [Field K] [LinearOrder K] [IsStrictOrderedRing K] [FloorRing K]
variable {fl : K → K} {ε : K}

/-- No rounding. -/
abbrev noRound : K → K := fun x => x

theorem sumVals_total (m : IMap K) : sumVals fl m = total fl 0 (m.map Prod.snd) := by
  unfold sumVals total
  rw [List.foldl_map]

theorem total_noRound (t : K) (l : List K) : total noRound t l = t + l.sum := by
  induction l generalizing t with
  | nil => simp [total]
  | cons x l ih => rw [total_cons, ih, List.sum_cons, add_assoc]

section Ext
variable (h0 : 0 ≤ ε) (h1 : ε < 1) {m k : Nat} {x y : K}
include h1

theorem Rel.zero_iff (h : Rel ε m x y) : x = 0 ↔ y = 0 := by
  have p : 0 < (1 - ε) ^ m := pow_pos (by linarith) _
  constructor
  · intro e
    have := h.high
    rw [e] at this
    have := h.right
    nlinarith
  · intro e
    have := h.low
    rw [e] at this
    have := h.left
    nlinarith

theorem Rel.pos_iff (h : Rel ε m x y) : 0 < x ↔ 0 < y := by
  have := h.zero_iff h1
  constructor
  · intro e; exact lt_of_le_of_ne h.right fun e' => e.ne' (this.2 e'.symm)
  · intro e; exact lt_of_le_of_ne h.left fun e' => e.ne' (this.1 e'.symm)

include h0

theorem Rel.div {x' y' : K} (h : Rel ε m x y) (g : Rel ε k x' y') (hx : 0 < x') : Rel ε (m + k) (x / x') (y / y') := by
  have := h.mul h0 h1.le (g.inv h0 h1.le hx ((g.pos_iff h1).1 hx))
  rwa [mul_one_div, mul_one_div] at this

theorem Rel.rnd (R : Rounding fl ε) (h : Rel ε m x y) : Rel ε (m + 1) x (fl y) :=
  h.trans h0 h1.le (Rel.round h0 h1.le R h.right)

/-- Sums of corresponding entries. -/
theorem Rel.foldl {l l' : List K} (R : Rounding fl ε) (h : List.Forall₂ (Rel ε m) l l') :
    Rel ε (m + l.length) l.sum (Rounded.total fl 0 l') := by
  have hn : ∀ x ∈ l', 0 ≤ x := by
    induction h with
    | nil => intro x hx; cases hx
    | cons a _ ih =>
      intro x hx
      rcases List.mem_cons.1 hx with rfl | hx
      · exact a.right
      · exact ih x hx
  have hs : Rel ε m l.sum l'.sum := by
    clear hn
    induction h with
    | nil => exact (Rel.refl h0 h1.le (le_refl _)).mono h0 h1.le (Nat.zero_le _)
    | cons a _ ih => rw [List.sum_cons, List.sum_cons]; exact a.add h0 h1.le ih
  have := hs.trans h0 h1.le (Rel.total h0 h1.le R hn)
  rwa [← h.length_eq] at this

end Ext

/-- Two maps with the same keys in the same order and entries that are equal up to `m` roundings. -/
def MRel (ε : K) (m : Nat) (a b : IMap K) : Prop := List.Forall₂ (fun x y : Int × K => x.1 = y.1 ∧ Rel ε m x.2 y.2) a b

section Maps
variable (h0 : 0 ≤ ε) (h1 : ε < 1) {m k : Nat} {a b : IMap K}
include h0 h1

theorem MRel.mono (h : MRel ε m a b) (hk : m ≤ k) : MRel ε k a b :=
  List.Forall₂.imp (fun _ _ g => ⟨g.1, g.2.mono h0 h1.le hk⟩) h

theorem MRel.sumVals (R : Rounding fl ε) (h : MRel ε m a b) :
    Rel ε (m + a.length) (sumVals noRound a) (sumVals fl b) := by
  rw [sumVals_total, sumVals_total, total_noRound, zero_add]
  have := Rel.foldl h0 h1 R (l := a.map Prod.snd) (l' := b.map Prod.snd) (m := m)
    (by rw [List.forall₂_map_left_iff, List.forall₂_map_right_iff]; exact List.Forall₂.imp (fun _ _ g => g.2) h)
  rwa [List.length_map] at this

theorem MRel.at0 (h : MRel ε m a b) (n : Int) : Rel ε m (a.at0 n) (b.at0 n) := by
  induction h with
  | nil => exact (Rel.refl h0 h1.le (le_refl _)).mono h0 h1.le (Nat.zero_le _)
  | @cons x y l l' g _ ih =>
    obtain ⟨i, p⟩ := x
    obtain ⟨j, q⟩ := y
    obtain ⟨e, g⟩ := g
    dsimp only at e g
    subst e
    simp only [IMap.at0, IMap.get?] at ih ⊢
    by_cases hn : i = n
    · simpa [hn] using g
    · simpa [hn] using ih

theorem MRel.set (h : MRel ε m a b) {x y : K} (g : Rel ε m x y) (n : Int) : MRel ε m (a.set n x) (b.set n y) := by
  induction h with
  | nil => exact .cons ⟨rfl, g⟩ .nil
  | @cons u v l l' e hr ih =>
    obtain ⟨i, p⟩ := u
    obtain ⟨j, q⟩ := v
    obtain ⟨e, e2⟩ := e
    dsimp only at e e2
    subst e
    unfold IMap.set
    by_cases hn : i = n
    · simp only [hn, if_true]; exact .cons ⟨rfl, g⟩ hr
    · simp only [hn, if_false]; exact .cons ⟨rfl, e2⟩ ih

theorem MRel.keys (h : MRel ε m a b) : a.keys = b.keys := by
  induction h with
  | nil => rfl
  | cons e _ ih => simp only [IMap.keys, List.map_cons] at ih ⊢; rw [e.1, ih]

end Maps

theorem mrel_map {V : Type} {m : Nat} {l : List (Int × V)} {f g : Int × V → K} (h : ∀ x ∈ l, Rel ε m (f x) (g x)) :
    MRel ε m (l.map fun x => (x.1, f x)) (l.map fun x => (x.1, g x)) := by
  unfold MRel
  rw [List.forall₂_map_left_iff, List.forall₂_map_right_iff, List.forall₂_same]
  exact fun x hx => ⟨rfl, h x hx⟩

theorem mrel_map₂ {m k : Nat} {a b : IMap K} {f g : Int × K → K} (h : MRel ε m a b)
    (hf : ∀ x y : Int × K, x.1 = y.1 → Rel ε m x.2 y.2 → Rel ε k (f x) (g y)) :
    MRel ε k (a.map fun x => (x.1, f x)) (b.map fun x => (x.1, g x)) := by
  unfold MRel
  rw [List.forall₂_map_left_iff, List.forall₂_map_right_iff]
  exact List.Forall₂.imp (fun x y e => ⟨e.1, hf x y e.1 e.2⟩) h

end Mythical.Rounded
