import Verif.Lemmas.Crude
import Verif.Props.Box

/-! # The crude Monte Carlo simulation in the programs under src/tests: the choice of the next site (C87) -/

namespace Mythical
open Cuboid (Pos)
open BoxSpec CrudeSpec Crude

/-- **C87** (for every order). The tables are made, the mean time of a stay on a site is the inverse of the sum of the rates out of
it, and in whatever order the entries of a site are met, each random number leads to a site to which there is a rate. -/
theorem C87_choice_neighbor {d : Int} (h3 : 3 ≤ d) (h1 : d ≤ 1290) {R : IMap (IMap ℝ)} (hR : BoxRates d R) :
    ∃ T, tables d R = .ok T ∧ ∀ i p, At d i p → T.sojourn.get? i = some (1 / outRate R i) ∧ ∃ t, T.cumul.get? i = some t ∧
      ∀ l, l.Perm t → ∀ u, u < 1 → ∃ j, choose u l = some j ∧ 0 < rateOf R i j := by
  obtain ⟨T, hT, h⟩ := tables_ok h3 h1 hR
  refine ⟨T, hT, fun i p hp => ?_⟩
  obtain ⟨ns, -, e⟩ := h i p hp
  refine ⟨e.sojourn, _, e.cumul, fun l hl u hu => ?_⟩
  cases hc : choose u l with
  | none =>
    obtain ⟨init, n, he⟩ := entries_last ((R.get? i).getD []) (outRate R i) (ns.map Prod.fst) 0 e.nonempty
    have := choose_none hc _ (hl.mem_iff.2 (by rw [he]; exact List.mem_append_right _ (List.mem_singleton.2 rfl)))
    have hs : (ns.map Prod.fst).map (val ((R.get? i).getD [])) = (ns.map Prod.fst).map (rateOf R i) :=
      List.map_congr_left fun j _ => by unfold val rateOf; cases R.get? i <;> rfl
    rw [hs, e.sum, div_self e.outPos.ne'] at this
    linarith
  | some j =>
    refine ⟨j, rfl, e.pos j ?_⟩
    have := choose_mem hc
    rw [(hl.map Prod.fst).mem_iff, entries_keys] at this
    exact this

/-- **C87** (the law for every order). An entry with the value `c` that is met after the entries `pre` is chosen with the probability by
which `c` exceeds all the values before (0 if it does not). -/
theorem C87_any_order {d : Int} (h3 : 3 ≤ d) (h1 : d ≤ 1290) {R : IMap (IMap ℝ)} (hR : BoxRates d R) {T : Tables ℝ}
    (hT : tables d R = .ok T) {i : Int} {p : Pos} (hp : At d i p) {t : IMap ℝ} (ht : T.cumul.get? i = some t)
    {pre post : List (Int × ℝ)} {j : Int} {c : ℝ} (hl : (pre ++ (j, c) :: post).Perm t) :
    MeasureTheory.volume {u : ℝ | (0 ≤ u ∧ u < 1) ∧ choose u (pre ++ (j, c) :: post) = some j} = ENNReal.ofReal (c - before pre) := by
  obtain ⟨T', hT', h⟩ := tables_ok h3 h1 hR
  rw [hT] at hT'
  obtain rfl := ok_inj.1 hT'
  obtain ⟨ns, -, e⟩ := h i p hp
  obtain rfl : _ = t := Option.some.inj (e.cumul.symm.trans ht)
  have hn : ((pre ++ (j, c) :: post).map Prod.fst).Nodup := by
    rw [(hl.map Prod.fst).nodup_iff, entries_keys]; exact e.nodup
  rw [List.map_append, List.map_cons, List.nodup_middle, List.nodup_cons, List.mem_append, not_or] at hn
  refine choose_volume hn.1.1 hn.1.2 ?_
  have hv : ∀ j, val ((R.get? i).getD []) j = rateOf R i j := fun j => by unfold val rateOf; cases R.get? i <;> rfl
  have := entries_le e.outPos (ns.map Prod.fst) (fun n hn => by rw [hv]; exact e.pos n hn) 0 (j, c) (hl.mem_iff.1 (by simp))
  rw [List.map_congr_left fun j _ => hv j, e.sum, div_self e.outPos.ne', zero_add] at this
  exact this

/-- **C87** (partial: the order in which the loop meets the entries is that of a hash map). The next site is chosen with the share of
its rate in the rates out of the site exactly if the loop meets the entries in the order of their values. -/
theorem C87_choice_partial {d : Int} (h3 : 3 ≤ d) (h1 : d ≤ 1290) {R : IMap (IMap ℝ)} (hR : BoxRates d R) {T : Tables ℝ}
    (hT : tables d R = .ok T) {i : Int} {p : Pos} (hp : At d i p) {t : IMap ℝ} (ht : T.cumul.get? i = some t)
    {l : List (Int × ℝ)} (hl : l.Perm t) :
    (∀ j, MeasureTheory.volume {u : ℝ | (0 ≤ u ∧ u < 1) ∧ choose u l = some j} = ENNReal.ofReal (rateOf R i j / outRate R i)) ↔
      Ascending l := by
  have hT' := hT
  have ht' := ht
  obtain ⟨T', hT'', h⟩ := tables_ok h3 h1 hR
  rw [hT] at hT''
  obtain rfl := ok_inj.1 hT''
  obtain ⟨ns, -, e⟩ := h i p hp
  obtain rfl : _ = t := Option.some.inj (e.cumul.symm.trans ht)
  have hv : ∀ j, val ((R.get? i).getD []) j = rateOf R i j := fun j => by unfold val rateOf; cases R.get? i <;> rfl
  have hpos : ∀ n ∈ ns.map Prod.fst, 0 < val ((R.get? i).getD []) n := fun n hn => by rw [hv]; exact e.pos n hn
  constructor
  · intro hall
    unfold Ascending
    rw [List.pairwise_iff_forall_sublist]
    intro a b hab
    obtain ⟨pre, post, rfl, ha⟩ : ∃ pre post, l = pre ++ b :: post ∧ a ∈ pre := by
      rw [show [a, b] = [a] ++ [b] from rfl, List.append_sublist_iff] at hab
      obtain ⟨l1, l2, rfl, s1, s2⟩ := hab
      obtain ⟨m1, m2, rfl⟩ := List.append_of_mem (List.singleton_sublist.1 s2)
      exact ⟨l1 ++ m1, m2, by simp, List.mem_append_left _ (List.singleton_sublist.1 s1)⟩
    have hb : b.1 ∈ ns.map Prod.fst := by
      rw [← entries_keys ((R.get? i).getD []) (outRate R i) (ns.map Prod.fst) 0, ← (hl.map Prod.fst).mem_iff]
      simp
    have hlaw := C87_any_order h3 h1 hR hT' hp ht' hl
    rw [hall] at hlaw
    have hs := ENNReal.ofReal_pos.2 (div_pos (e.pos _ hb) e.outPos)
    rw [hlaw, ENNReal.ofReal_pos] at hs
    have := (before_le (pre := pre) (u := b.2)).1 (by linarith)
    exact this.2 a ha
  · intro hasc
    have hl' : l = entries ((R.get? i).getD []) (outRate R i) 0 (ns.map Prod.fst) := by
      have hst := entries_strict e.outPos (ns.map Prod.fst) hpos 0
      have hinj : ∀ a ∈ l, ∀ b ∈ l, a.2 ≤ b.2 → b.2 ≤ a.2 → a = b := by
        intro a ha b hb hab hba
        by_contra hne
        have : Std.Symm fun a b : Int × ℝ => a ≠ b → a.2 ≠ b.2 := ⟨fun _ _ h hn => (h hn.symm).symm⟩
        have := List.Pairwise.forall_of_forall (R := fun a b : Int × ℝ => a ≠ b → a.2 ≠ b.2)
          (fun _ _ h => absurd rfl h) (hst.imp fun h _ => h.ne) (hl.mem_iff.1 ha) (hl.mem_iff.1 hb) hne
        exact this (le_antisymm hab hba)
      exact hl.eq_of_pairwise (fun a b ha hb => hinj a ha b (hl.mem_iff.2 hb)) hasc (hst.imp fun h => h.le)
    intro j
    by_cases hj : j ∈ ns.map Prod.fst
    · have := entries_volume e.outPos (ns.map Prod.fst) 0 e.nodup hpos (le_refl _)
        (by rw [List.map_congr_left fun j _ => hv j, e.sum, div_self e.outPos.ne', zero_add]) j hj
      rw [hl', this, hv]
    · have h0 : rateOf R i j = 0 := by
        unfold rateOf
        cases hc : (R.get? i).bind fun row => IMap.get? row j with
        | none => rfl
        | some k => exact absurd ((e.rates j).2 ⟨k, hc⟩) hj
      rw [h0, zero_div, ENNReal.ofReal_zero]
      convert MeasureTheory.measure_empty (μ := MeasureTheory.volume)
      rw [Set.eq_empty_iff_forall_notMem]
      rintro u ⟨-, hu⟩
      have := choose_mem hu
      rw [hl', entries_keys] at this
      exact hj this

/-- **C87** (what is false). A hash map may list its entries in the reverse of the order in which they were made. Then the simulation is
not random at all: from each site all random numbers lead to the same neighbour, though there are others with rates. -/
theorem C87_reversed_counterexample {d : Int} (h3 : 3 ≤ d) (h1 : d ≤ 1290) {R : IMap (IMap ℝ)} (hR : BoxRates d R) :
    ∃ T, tables d R = .ok T ∧ ∀ i p, At d i p → ∃ t j, T.cumul.get? i = some t ∧ (∀ u, u < 1 → choose u t.reverse = some j) ∧
      ∃ j', j' ≠ j ∧ 0 < rateOf R i j' := by
  obtain ⟨T, hT, h⟩ := tables_ok h3 h1 hR
  refine ⟨T, hT, fun i p hp => ?_⟩
  obtain ⟨ns, hns, e⟩ := h i p hp
  have hv : ∀ j, val ((R.get? i).getD []) j = rateOf R i j := fun j => by unfold val rateOf; cases R.get? i <;> rfl
  obtain ⟨init, n, he⟩ := entries_last ((R.get? i).getD []) (outRate R i) (ns.map Prod.fst) 0 e.nonempty
  rw [List.map_congr_left fun j _ => hv j, e.sum, div_self e.outPos.ne', zero_add] at he
  refine ⟨_, n, e.cumul, fun u hu => ?_, ?_⟩
  · rw [he, List.reverse_append, List.reverse_singleton, List.singleton_append, choose, if_pos hu]
  · obtain ⟨j, j', hne, hj, hj'⟩ := Box.two_neighbors h3 h1 hp hns
    by_cases hjn : j = n
    · exact ⟨j', fun e' => hne (hjn.trans e'.symm), e.pos j' hj'⟩
    · exact ⟨j, hjn, e.pos j hj⟩

/-- The rates of the programs are rates of a box, whatever the energies and the field. -/
theorem C87_rates {d : Int} (h3 : 3 ≤ d) (h1 : d ≤ 1290) {energies : List ℝ} {E : Int → ℝ} (hE : Energies d energies E) (field : ℝ) :
    ∃ R, Box.rates d energies field = .ok R ∧ BoxRates d R := by
  obtain ⟨R, hR, hs⟩ := Box.rates_ok h3 h1 hE field
  exact ⟨R, hR, boxRates_of_stored h3 h1 hs⟩

/-- In a box of 3 sites per axis with energies 0: the right law in the order of the loops, a single neighbour in the reverse order. -/
example : ∃ (R : IMap (IMap ℝ)) (T : Tables ℝ) (t : IMap ℝ), Box.rates 3 (List.replicate 27 0) 0 = .ok R ∧ BoxRates 3 R ∧ tables 3 R = .ok T ∧ At 3 14 ⟨2, 1, 1⟩ ∧
    T.cumul.get? 14 = some t ∧ ∃ j, ∀ u, u < 1 → choose u t.reverse = some j := by
  obtain ⟨R, hR, hb⟩ := C87_rates (by norm_num) (by norm_num) flatEnergies 0
  obtain ⟨T, hT, h⟩ := C87_reversed_counterexample (by norm_num) (by norm_num) hb
  have ha : At 3 14 ⟨2, 1, 1⟩ := by decide +kernel
  obtain ⟨t, j, ht, hj, -⟩ := h 14 _ ha
  exact ⟨R, T, t, hR, hb, hT, ha, ht, j, hj⟩

end Mythical
