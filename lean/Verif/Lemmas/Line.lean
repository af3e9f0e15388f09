import Verif.Spec.Line
import Verif.Lemmas.BoxRates

/-! # The rates on the line: helper lemmas -/

set_option linter.unusedSectionVars false

namespace Mythical.Line
open Cuboid CuboidSpec LineSpec Box

theorem mem_axis' {d i : Int} : i ∈ Box.axis d ↔ 0 ≤ i ∧ i < d := by
  unfold Box.axis
  rw [List.mem_map]
  constructor
  · rintro ⟨k, hk, rfl⟩
    have := List.mem_range.1 hk
    omega
  · rintro ⟨h0, h1⟩
    exact ⟨i.toNat, List.mem_range.2 (by omega), by omega⟩

theorem nodup_axis' (d : Int) : (Box.axis d).Nodup := by
  unfold Box.axis
  exact List.nodup_range.map fun a b h => by simpa using h

theorem line_energyAt {d i : Int} (h0 : 0 ≤ i) (h1 : i < d) : ToF.energyAt (energies d) i = .ok (level i) := by
  have : (energies d)[i.toNat]? = some (level i) := by
    unfold energies Box.axis
    rw [List.map_map, List.getElem?_map, List.getElem?_range (by omega)]
    simp only [Option.map_some, Function.comp]
    congr 1
    have e : ((i.toNat : Nat) : Int) = i := Int.toNat_of_nonneg h0
    unfold level reorganization
    refine if_congr ?_ (by norm_num) rfl
    show ((i.toNat : Nat) : Int).tmod 8 = 0 ∨ ((i.toNat : Nat) : Int).tmod 9 = 1 ↔ _
    rw [e, Int.tmod_eq_emod_of_nonneg h0, Int.tmod_eq_emod_of_nonneg h0]
  unfold ToF.energyAt
  rw [if_neg (by omega), this]

theorem line_rate {d i j : Int} (i0 : 0 ≤ i) (i1 : i < d) (j0 : 0 ≤ j) (j1 : j < d) (field : ℝ) (dx : Int) :
    rate (energies d) field dx i j = .ok (value level field dx i j) := by
  unfold rate value
  rw [line_energyAt j0 j1, ok_bind, line_energyAt i0 i1, ok_bind]
  simp only
  congr 6
  ring

/-- The sites that get a rate from `x`. -/
def Next (d x y : Int) : Prop := Beside d x y ∧ ¬ (x = 1 ∧ y = 0)

theorem line_span {d x : Int} (h1 : d ≤ INT_MAX) (x0 : 0 ≤ x) (x1 : x < d) : ∃ l, span d x = .ok l ∧
    ∀ y, y ∈ l ↔ y = x ∨ Next d x y := by
  unfold INT_MAX at h1
  unfold span low high
  rw [chk_ok (fitsInt_of (by omega) (by omega)), ok_bind, ok_bind, chk_ok (fitsInt_of (by omega) (by omega)), ok_bind, ok_bind]
  obtain ⟨l, hl⟩ := loopRange_ok (lo := if x - 1 > 0 then x - 1 else x) (hi := if x + 1 < d then x + 1 else x)
    (by split <;> exact fitsInt_of (by omega) (by omega))
  obtain ⟨m1, -, -⟩ := loopRange_eq_ok hl
  refine ⟨l, hl, fun y => ?_⟩
  rw [m1]
  unfold Next Beside
  split <;> split <;> omega

/-- The inner loop for one site. -/
theorem line_setRates {d : Int} (hd : d ≤ INT_MAX) (field : ℝ) {x : Int} (x0 : 0 ≤ x) (x1 : x < d) : ∀ (l : List Int),
    (∀ y ∈ l, 0 ≤ y ∧ y < d) → ∀ R : IMap (IMap ℝ), ToF.Neat R → ∃ R', l.foldlM (setRate d field x) R = .ok R' ∧ ToF.Neat R' ∧
      ∀ a b, get2 R' a b = if a = x ∧ b ≠ x ∧ b ∈ l then some (value level field (b - x) x b) else get2 R a b
  | [], _, R, hR => ⟨R, rfl, hR, fun a b => by simp⟩
  | y :: l, hl, R, hR => by
    obtain ⟨y0, y1⟩ := hl y (by simp)
    have ht := fun z hz => hl z (List.mem_cons_of_mem y hz)
    unfold INT_MAX at hd
    rw [List.foldlM_cons]
    by_cases hxy : x = y
    · have : setRate d field x R y = .ok R := by
        unfold setRate
        rw [if_pos ⟨y0, y1⟩, if_neg (not_not.2 hxy)]
      rw [this, ok_bind]
      obtain ⟨R', e, hn, hg⟩ := line_setRates (by unfold INT_MAX; omega) field x0 x1 l ht R hR
      refine ⟨R', e, hn, fun a b => ?_⟩
      rw [hg]
      have : (a = x ∧ b ≠ x ∧ b ∈ l) ↔ (a = x ∧ b ≠ x ∧ b ∈ y :: l) := by
        rw [List.mem_cons]
        constructor
        · exact fun ⟨h1, h2, h3⟩ => ⟨h1, h2, .inr h3⟩
        · rintro ⟨h1, h2, h3 | h3⟩
          · exact absurd (h3.trans hxy.symm) h2
          · exact ⟨h1, h2, h3⟩
      rw [if_congr this rfl rfl]
    · have : setRate d field x R y = .ok (set2 R x y (value level field (y - x) x y)) := by
        unfold setRate
        rw [if_pos ⟨y0, y1⟩, if_pos hxy, chk_ok (fitsInt_of (by omega) (by omega)), ok_bind, line_rate x0 x1 y0 y1, ok_bind]
      rw [this, ok_bind]
      obtain ⟨R', e, hn, hg⟩ := line_setRates (by unfold INT_MAX; omega) field x0 x1 l ht _ (ToF.neat_set2 hR x y (value level field (y - x) x y))
      refine ⟨R', e, hn, fun a b => ?_⟩
      rw [hg, get2_set2]
      by_cases hb : a = x ∧ b = y
      · obtain ⟨rfl, rfl⟩ := hb
        simp [Ne.symm hxy]
      · rw [if_neg hb]
        have : (a = x ∧ b ≠ x ∧ b ∈ l) ↔ (a = x ∧ b ≠ x ∧ b ∈ y :: l) := by
          rw [List.mem_cons]
          constructor
          · exact fun ⟨h1, h2, h3⟩ => ⟨h1, h2, .inr h3⟩
          · rintro ⟨h1, h2, h3 | h3⟩
            · exact absurd ⟨h1, h3⟩ hb
            · exact ⟨h1, h2, h3⟩
        rw [if_congr this rfl rfl]

/-- The rates that have been stored once the sites in `xs` have been dealt with. -/
structure Stored (d : Int) (field : ℝ) (xs : List Int) (R : IMap (IMap ℝ)) : Prop where
  neat : ToF.Neat R
  iff : ∀ i j k, get2 R i j = some k ↔ i ∈ xs ∧ Next d i j ∧ k = value level field (j - i) i j

theorem row_nonempty {R : IMap (IMap ℝ)} (hn : ToF.Neat R) (x : Int) : ((R.get? x).getD []).length ≠ 0 ↔ ∃ j k, get2 R x j = some k := by
  unfold get2
  cases hg : R.get? x with
  | none => simp
  | some r =>
    simp only [Option.getD_some]
    constructor
    · intro h
      cases r with
      | nil => exact absurd rfl h
      | cons jk r => exact ⟨jk.1, jk.2, IMap.get?_of_mem (hn.2 _ (IMap.mem_of_get? hg)).1 (by simp)⟩
    · rintro ⟨j, k, h⟩ e
      have : r = [] := List.length_eq_zero_iff.1 e
      subst this
      cases h

theorem line_site {d : Int} (hd : d ≤ INT_MAX) (field : ℝ) {x : Int} (x0 : 0 ≤ x) (x1 : x < d) {xs : List Int} {R : IMap (IMap ℝ)}
    (hR : Stored d field xs R) :
    ((∃ y, Next d x y) → ∃ R', siteRates d field R x = .ok R' ∧ Stored d field (xs ++ [x]) R') ∧
      ((¬ ∃ y, Next d x y) → x ∉ xs → siteRates d field R x = .error .assertFail) := by
  obtain ⟨l, hl, hm⟩ := line_span hd x0 x1
  obtain ⟨R', e, hn, hg⟩ := line_setRates hd field x0 x1 l (fun y hy => by
    rcases (hm y).1 hy with rfl | ⟨h, -⟩
    · exact ⟨x0, x1⟩
    · exact h.2.1) R hR.neat
  have hs : siteRates d field R x = if ((R'.get? x).getD []).length ≠ 0 then .ok R' else .error .assertFail := by
    unfold siteRates
    rw [hl, ok_bind, e, ok_bind]
  have hst : Stored d field (xs ++ [x]) R' := by
    refine ⟨hn, fun i j k => ?_⟩
    rw [hg, List.mem_append, List.mem_singleton]
    split
    · next h =>
      obtain ⟨rfl, h2, h3⟩ := h
      have h3 := ((hm j).1 h3).resolve_left h2
      rw [Option.some_inj]
      exact ⟨fun e => ⟨.inr rfl, h3, e.symm⟩, fun h => h.2.2.symm⟩
    · next h =>
      rw [hR.iff]
      refine ⟨fun ⟨a, b⟩ => ⟨.inl a, b⟩, fun ⟨a, b⟩ => ⟨a.resolve_right fun hx => h ⟨hx, ?_, ?_⟩, b⟩⟩
      · rintro rfl
        have := b.1.1.2.2
        omega
      · subst hx
        exact (hm j).2 (.inr b.1)
  rw [hs]
  refine ⟨fun ⟨y, hy⟩ => ⟨R', if_pos ((row_nonempty hn x).2 ⟨y, _, (hst.iff _ _ _).2 ⟨by simp, hy, rfl⟩⟩), hst⟩, fun h _ => if_neg ?_⟩
  rw [row_nonempty hn]
  rintro ⟨j, k, hk⟩
  exact h ⟨j, ((hst.iff _ _ _).1 hk).2.1⟩

theorem stored_nil' (d : Int) (field : ℝ) : Stored d field [] [] :=
  ⟨⟨List.nodup_nil, fun _ h => absurd h List.not_mem_nil⟩, fun i j k => by simp [get2, IMap.get?]⟩

theorem line_fold {d : Int} (hd : d ≤ INT_MAX) (field : ℝ) : ∀ (l xs : List Int) (R : IMap (IMap ℝ)), Stored d field xs R →
    (∀ x ∈ l, (0 ≤ x ∧ x < d) ∧ ∃ y, Next d x y) → ∃ R', l.foldlM (siteRates d field) R = .ok R' ∧ Stored d field (xs ++ l) R'
  | [], xs, R, hR, _ => ⟨R, rfl, by rw [List.append_nil]; exact hR⟩
  | x :: l, xs, R, hR, h => by
    obtain ⟨⟨x0, x1⟩, hy⟩ := h x (by simp)
    obtain ⟨R1, e1, h1⟩ := (line_site hd field x0 x1 hR).1 hy
    obtain ⟨R', e, h2⟩ := line_fold hd field l (xs ++ [x]) R1 h1 fun z hz => h z (List.mem_cons_of_mem x hz)
    refine ⟨R', by rw [List.foldlM_cons, e1]; exact e, ?_⟩
    rw [List.append_assoc] at h2
    exact h2

theorem next_exists {d x : Int} (h3 : 3 ≤ d) (x0 : 0 ≤ x) (x1 : x < d) : ∃ y, Next d x y := by
  by_cases h : x + 1 < d
  · exact ⟨x + 1, by unfold Next Beside; omega⟩
  · exact ⟨x - 1, by unfold Next Beside; omega⟩

theorem line_rates {d : Int} (h3 : 3 ≤ d) (hd : d ≤ INT_MAX) (field : ℝ) : ∃ R, rates d field = .ok R ∧ Stored d field (Box.axis d) R := by
  unfold rates
  rw [if_neg (by omega)]
  obtain ⟨R, e, h⟩ := line_fold hd field (Box.axis d) [] [] (stored_nil' d field) fun x hx =>
    ⟨mem_axis'.1 hx, next_exists h3 (mem_axis'.1 hx).1 (mem_axis'.1 hx).2⟩
  exact ⟨R, e, by simpa using h⟩

theorem line_rates_one (field : ℝ) : rates 1 field = .error .assertFail := by
  have h := (line_site (d := 1) (by decide) field le_rfl (by decide) (stored_nil' 1 field)).2
    (by rintro ⟨y, hy⟩; unfold Next Beside at hy; omega) List.not_mem_nil
  unfold rates
  rw [if_neg (by decide), show Box.axis 1 = [0] from rfl, List.foldlM_cons, h]
  rfl

theorem line_rates_two (field : ℝ) : rates 2 field = .error .assertFail := by
  obtain ⟨R, e, hR⟩ := (line_site (d := 2) (by decide) field le_rfl (by decide) (stored_nil' 2 field)).1
    ⟨1, by unfold Next Beside; omega⟩
  have h := (line_site (d := 2) (x := 1) (by decide) field (by decide) (by decide) hR).2
    (by rintro ⟨y, hy⟩; unfold Next Beside at hy; omega) (by decide)
  unfold rates
  rw [if_neg (by decide), show Box.axis 2 = [0, 1] from rfl, List.foldlM_cons, e, ok_bind, List.foldlM_cons, h]
  rfl

end Mythical.Line
