import Verif.Lemmas.RoundedTimes
import Verif.Spec.RoundedCluster

/-! # What a cluster computes from its occupation probabilities, with and without rounding -/

set_option linter.unusedSectionVars false
set_option linter.unusedVariables false

namespace Mythical.Rounded
open Mythical RoundSpec
variable {K : Type} [Field K] [LinearOrder K] [IsStrictOrderedRing K] [FloorRing K]
variable {fl : K → K} {ε : K} {mem : Addr → K} {c c' c1 : Cluster K} {env : Env K}

/-! ## Facts on the input -/

theorem Nonneg_siteAt (hc : Nonneg mem c) (i : Int) : 0 ≤ (c.siteAt i).tau := by
  unfold Cluster.siteAt
  cases h : c.sites.get? i with
  | none => exact le_refl _
  | some s => exact hc.tau (i, s) (IMap.mem_of_get? h)

theorem Nonneg_at0 (hc : Nonneg mem c) (i : Int) : 0 ≤ c.probOn.at0 i := by
  unfold IMap.at0
  cases h : c.probOn.get? i with
  | none => exact le_refl _
  | some p => exact hc.on (i, p) (IMap.mem_of_get? h)

theorem rates_facts (P : Int → Bool) (hc : Nonneg mem c) {ir : Int × IMap K}
    (h : ir ∈ (c.sites.map fun is => (is.1, (is.2.neigh.filter fun na => P na.1).map fun na => (na.1, mem na.2))).filter
      fun ir => !ir.2.isEmpty) : ir.2.length ≤ links c ∧ ∀ nr ∈ ir.2, 0 ≤ nr.2 := by
  obtain ⟨h, -⟩ := List.mem_filter.1 h
  obtain ⟨is, his, rfl⟩ := List.mem_map.1 h
  constructor
  · simp only [List.length_map]
    refine le_trans (List.length_filter_le _ _) ?_
    unfold links
    exact List.single_le_sum (fun _ _ => Nat.zero_le _) _ (List.mem_map.2 ⟨is, his, rfl⟩)
  · intro nr hnr
    obtain ⟨na, hna, rfl⟩ := List.mem_map.1 hnr
    exact hc.rate is his na (List.mem_filter.1 hna).1

theorem ratesInternal_facts (hc : Nonneg mem c) {ir : Int × IMap K} (h : ir ∈ c.ratesInternal mem) :
    ir.2.length ≤ links c ∧ ∀ nr ∈ ir.2, 0 ≤ nr.2 := rates_facts _ hc h

theorem ratesToNeighbors_facts (hc : Nonneg mem c) {ir : Int × IMap K} (h : ir ∈ c.ratesToNeighbors mem) :
    ir.2.length ≤ links c ∧ ∀ nr ∈ ir.2, 0 ≤ nr.2 := rates_facts (fun n => !c.siteIsInCluster n) hc h

theorem ratesToNeighbors_length : ((c.ratesToNeighbors mem).map fun ir => ir.2.length).sum ≤ links c := by
  have : ∀ (l : List (Int × Site K)) (P : Int → Bool),
      (((l.map fun is => (is.1, ((is.2.neigh.filter fun na => P na.1).map fun na => (na.1, mem na.2) : IMap K))).filter
        fun ir => !ir.2.isEmpty).map fun ir => ir.2.length).sum ≤ (l.map fun is => is.2.neigh.length).sum := by
    intro l P
    induction l with
    | nil => exact le_refl _
    | cons x l ih =>
      simp only [List.map_cons, List.filter_cons, List.sum_cons]
      split
      · simp only [List.map_cons, List.sum_cons, List.length_map]
        exact add_le_add (List.length_filter_le _ _) ih
      · exact le_trans ih (Nat.le_add_left _ _)
  exact this c.sites fun n => !c.siteIsInCluster n

theorem rates_length (P : Int → Bool) : ((c.sites.map fun is =>
    (is.1, ((is.2.neigh.filter fun na => P na.1).map fun na => (na.1, mem na.2) : IMap K))).filter
      fun ir => !ir.2.isEmpty).length ≤ c.sites.length := by
  refine le_trans (List.length_filter_le _ _) ?_
  rw [List.length_map]

theorem ratesInternal_length : (c.ratesInternal mem).length ≤ c.sites.length := rates_length _

/-! ## Sums of rates -/

section
variable (h0 : 0 ≤ ε) (h1 : ε < 1) (R : Rounding fl ε) (hc : Nonneg mem c)
include h0 h1 R

theorem rel_of_rates {l : IMap K} {E : Nat} (hE : l.length ≤ E) (hn : ∀ nr ∈ l, 0 ≤ nr.2) :
    Rel ε E (sumVals noRound l) (sumVals fl l) := by
  rw [sumVals_total, sumVals_total, total_noRound, zero_add]
  have := Rel.total h0 h1.le R (l := l.map Prod.snd) (by
    intro x hx; obtain ⟨nr, h, rfl⟩ := List.mem_map.1 hx; exact hn nr h)
  rw [List.length_map] at this
  exact this.mono h0 h1.le hE

theorem rel_sumFirst {l : IMap K} {E : Nat} (hE : l.length ≤ E) (hn : ∀ nr ∈ l, 0 ≤ nr.2) :
    Rel ε E (sumFirst noRound l) (sumFirst fl l) := by
  cases l with
  | nil => exact (Rel.refl h0 h1.le (le_refl _)).mono h0 h1.le (Nat.zero_le _)
  | cons x l =>
    have key : ∀ (l : IMap K) (t t' : K) (m : Nat), Rel ε m t t' → (∀ nr ∈ l, 0 ≤ nr.2) →
        Rel ε (m + l.length) (l.foldl (fun t nr => t + nr.2) t) (l.foldl (fun t nr => fl (t + nr.2)) t') := by
      intro l
      induction l with
      | nil => intro t t' m h _; exact h
      | cons x l ih =>
        intro t t' m h hl
        have hx := hl x (List.mem_cons_self ..)
        have h3 := ((h.add h0 h1.le ((Rel.refl h0 h1.le hx).mono h0 h1.le (Nat.zero_le _)))).rnd h0 h1 R
        have := ih _ _ _ h3 fun y hy => hl y (List.mem_cons_of_mem _ hy)
        rw [List.length_cons, ← add_assoc, add_right_comm]
        exact this
    have := key l x.2 x.2 0 (Rel.refl h0 h1.le (hn x (List.mem_cons_self ..))) fun y hy => hn y (List.mem_cons_of_mem _ hy)
    refine this.mono h0 h1.le ?_
    rw [zero_add]
    exact le_trans (Nat.le_succ _) hE

theorem rel_sumRatesOff (hc : Nonneg mem c) : Rel ε (links c) (sumRatesOff noRound mem c) (sumRatesOff fl mem c) := by
  have flat : ∀ (f : K → K), sumRatesOff f mem c = total f 0 ((c.ratesToNeighbors mem).flatMap fun ir => ir.2.map Prod.snd) := by
    intro f
    unfold sumRatesOff total
    rw [List.foldl_flatMap]
    congr 1
    funext t ir
    rw [List.foldl_map]
  rw [flat, flat, total_noRound, zero_add]
  refine (Rel.total h0 h1.le R ?_).mono h0 h1.le ?_
  · intro x hx
    obtain ⟨ir, hir, hx⟩ := List.mem_flatMap.1 hx
    obtain ⟨nr, hnr, rfl⟩ := List.mem_map.1 hx
    exact (ratesToNeighbors_facts hc hir).2 nr hnr
  · rw [List.length_flatMap]
    simp only [List.length_map]
    exact ratesToNeighbors_length

/-! ## Tables -/

theorem rel_foldl_tau (l : IMap K) (hn : ∀ i, 0 ≤ (c.siteAt i).tau) :
    Rel ε l.length (l.foldl (fun t ip => noRound (t + (c.siteAt ip.1).tau)) 0)
      (l.foldl (fun t ip => fl (t + (c.siteAt ip.1).tau)) 0) := by
  have e : ∀ f : K → K, l.foldl (fun t ip => f (t + (c.siteAt ip.1).tau)) 0 = total f 0 (l.map fun ip => (c.siteAt ip.1).tau) := by
    intro f; unfold total; rw [List.foldl_map]
  rw [e, e, total_noRound, zero_add]
  have := Rel.total h0 h1.le R (l := l.map fun ip => (c.siteAt ip.1).tau) (by
    intro x hx; obtain ⟨nr, h, rfl⟩ := List.mem_map.1 hx; exact hn _)
  rwa [List.length_map] at this

/-- The sum over a table of a time constant. -/
theorem rel_fold_rate {a b : IMap K} {u v : IMap K} {m k : Nat} (h : MRel ε m a b) (g : MRel ε k u v) :
    Rel ε (m + k + 2 + a.length)
      (a.foldl (fun t ip => if u.at0 ip.1 > 0 then noRound (t + noRound (noRound (1 / u.at0 ip.1) * ip.2)) else t) 0)
      (b.foldl (fun t ip => if v.at0 ip.1 > 0 then fl (t + fl (fl (1 / v.at0 ip.1) * ip.2)) else t) 0) := by
  have key : ∀ (a b : IMap K), MRel ε m a b → ∀ (t t' : K) (j : Nat), m + k + 2 ≤ j → Rel ε j t t' →
      Rel ε (j + a.length)
      (a.foldl (fun t ip => if u.at0 ip.1 > 0 then noRound (t + noRound (noRound (1 / u.at0 ip.1) * ip.2)) else t) t)
      (b.foldl (fun t ip => if v.at0 ip.1 > 0 then fl (t + fl (fl (1 / v.at0 ip.1) * ip.2)) else t) t') := by
    intro a b h
    induction h with
    | nil => intro t t' j _ h; exact h
    | @cons x y l l' e _ ih =>
      intro t t' j hj h
      have hr := g.at0 h0 h1 x.1
      rw [List.foldl_cons, List.foldl_cons, List.length_cons, ← add_assoc, add_right_comm, ← e.1]
      by_cases hp : u.at0 x.1 > 0
      · rw [if_pos hp, if_pos ((hr.pos_iff h1).1 hp)]
        refine ih _ _ (j + 1) (by omega) ?_
        have q := ((hr.inv h0 h1.le hp ((hr.pos_iff h1).1 hp)).rnd h0 h1 R).mul h0 h1.le e.2
        have q := (q.rnd h0 h1 R).mono h0 h1.le (k := j) (by omega)
        exact (h.add h0 h1.le q).rnd h0 h1 R
      · rw [if_neg hp, if_neg (fun q => hp ((hr.pos_iff h1).2 q))]
        exact ih _ _ (j + 1) (by omega) (h.mono h0 h1.le (Nat.le_succ _))
  exact key a b h 0 0 _ (le_refl _) ((Rel.refl h0 h1.le (le_refl _)).mono h0 h1.le (Nat.zero_le _))

theorem mrel_normalise {a b : IMap K} {m : Nat} (h : MRel ε m a b) (hz : sumVals noRound a ≠ 0) :
    MRel ε (2 * m + a.length + 1) (a.map fun ip => (ip.1, noRound (ip.2 / sumVals noRound a)))
      (b.map fun ip => (ip.1, fl (ip.2 / sumVals fl b))) := by
  have hs := h.sumVals h0 h1 R
  have hp : 0 < sumVals noRound a := lt_of_le_of_ne hs.left (Ne.symm hz)
  refine mrel_map₂ h fun x y _ e => ?_
  exact ((e.div h0 h1 hs hp).rnd h0 h1 R).mono h0 h1.le (by omega)

theorem mrel_normalise_mul {a b : IMap K} {m : Nat} (h : MRel ε m a b) (hz : sumVals noRound a ≠ 0) :
    MRel ε (2 * m + a.length + 2) (a.map fun ip => (ip.1, noRound (ip.2 * noRound (1 / sumVals noRound a))))
      (b.map fun ip => (ip.1, fl (ip.2 * fl (1 / sumVals fl b)))) := by
  have hs := h.sumVals h0 h1 R
  have hp : 0 < sumVals noRound a := lt_of_le_of_ne hs.left (Ne.symm hz)
  refine mrel_map₂ h fun x y _ e => ?_
  have q := (hs.inv h0 h1.le hp ((hs.pos_iff h1).1 hp)).rnd h0 h1 R
  exact ((e.mul h0 h1.le q).rnd h0 h1 R).mono h0 h1.le (by omega)

theorem mrel_foldl_set {a b u v : IMap K} {m k d : Nat} {S S' : K} (hu : MRel ε m u v) (h : MRel ε k a b) (hS : Rel ε d S S')
    (hp : 0 < S) (ha : a.WF) :
    MRel ε (m + d + 1) (a.foldl (fun m ib => m.set ib.1 (noRound (m.at0 ib.1 / S))) u)
      (b.foldl (fun m ib => m.set ib.1 (fl (m.at0 ib.1 / S'))) v) := by
  have key : ∀ (a b : IMap K), MRel ε k a b → a.WF → ∀ (u v : IMap K), MRel ε (m + d + 1) u v →
      (∀ n ∈ a.keys, Rel ε m (u.at0 n) (v.at0 n)) →
      MRel ε (m + d + 1) (a.foldl (fun m ib => m.set ib.1 (noRound (m.at0 ib.1 / S))) u)
        (b.foldl (fun m ib => m.set ib.1 (fl (m.at0 ib.1 / S'))) v) := by
    intro a b h
    induction h with
    | nil => intro _ u v h _; exact h
    | @cons x y l l' e _ ih =>
      intro hw u v h hk
      have hw' : x.1 ∉ IMap.keys l ∧ IMap.WF l := by simpa [IMap.WF, IMap.keys] using hw
      rw [List.foldl_cons, List.foldl_cons, ← e.1]
      refine ih hw'.2 _ _ (h.set h0 h1 ?_ _) ?_
      · exact ((hk x.1 (by simp [IMap.keys])).div h0 h1 hS hp).rnd h0 h1 R
      · intro n hn
        have hne : x.1 ≠ n := by rintro rfl; exact hw'.1 hn
        rw [IMap.at0_set, if_neg hne, IMap.at0_set, if_neg hne]
        exact hk n (by simp only [IMap.keys, List.map_cons, List.mem_cons]; exact .inr hn)
  exact key a b h ha u v (hu.mono h0 h1 (by omega)) fun n _ => hu.at0 h0 h1 n

end

end Mythical.Rounded
