import Verif.Lemmas.ClusterDist

/-! # Lemmas about the cluster: the hop tables and the time constant after an update -/

set_option linter.unusedSectionVars false

namespace Mythical.Cluster
open Mythical ClusterSpec
variable {K : Type} [Field K] [LinearOrder K] [IsStrictOrderedRing K] [FloorRing K]
variable {env : Env K} {mem : Addr → K} {c c' : Cluster K}

/-! ## Sampling -/

theorem pickCum_append {l : List (Int × K)} (hl : ∀ np ∈ l, 0 ≤ np.2) {u t : K} (ht : t ≤ u)
    (hu : u < t + (l.map Prod.snd).sum) (rest : List (Int × K)) :
    pickCum u (cumulate t l ++ rest) = Site.pickLoop u t l := by
  induction l generalizing t with
  | nil => simp at hu; exact absurd hu (not_lt.2 ht)
  | cons x l ih =>
    obtain ⟨n, p⟩ := x
    unfold cumulate Site.pickLoop
    rw [List.cons_append]
    unfold pickCum
    rw [add_comm p t]
    split
    · rfl
    · next h =>
      apply ih (fun np hnp => hl np (by simp [hnp])) (not_lt.1 h)
      rw [List.map_cons, List.sum_cons] at hu
      rw [add_assoc]; exact hu

theorem pickCum_cumulate (l : List (Int × K)) (u t : K) : pickCum u (cumulate t l) = Site.pickLoop u t l := by
  induction l generalizing t with
  | nil => rfl
  | cons x l ih =>
    obtain ⟨n, p⟩ := x
    unfold cumulate pickCum Site.pickLoop
    rw [add_comm p t, ih]

theorem map_wf_of_perm {V : Type} {l m : List (Int × V)} (h : l.Perm m) (hm : IMap.WF m) : IMap.WF l :=
  (h.map Prod.fst).nodup_iff.2 hm

theorem keys_of_perm {V : Type} {l m : List (Int × V)} (h : l.Perm m) (k : Int) : k ∈ IMap.keys l ↔ k ∈ IMap.keys m :=
  (h.map Prod.fst).mem_iff

/-! ## Rates -/

section Rates
variable (hs : Sound mem c)
include hs

theorem _root_.Mythical.ClusterSpec.Sound.filter_get? {i : Int} {s : Site K} (h : c.sites.get? i = some s)
    (q : Int → Bool) (j : Int) :
    IMap.get? ((s.neigh.filter fun na => q na.1).map fun na => (na.1, mem na.2)) j =
      if q j then (s.neigh.get? j).map mem else none := by
  have hw := hs.neighWF i s h
  have hwf : IMap.WF (s.neigh.filter fun na => q na.1) := by
    unfold IMap.WF
    exact hw.sublist (List.filter_sublist.map Prod.fst)
  rw [IMap.get?_map]
  cases hg : IMap.get? (s.neigh.filter fun na => q na.1) j with
  | some a =>
    have hm := IMap.mem_of_get? hg
    rw [List.mem_filter] at hm
    rw [if_pos hm.2, (IMap.get?_eq_some_iff hw).2 hm.1]
  | none =>
    split
    · next hq =>
      cases hn : s.neigh.get? j with
      | none => rfl
      | some a =>
        exfalso
        rw [IMap.get?_eq_none_iff] at hg
        exact hg (IMap.mem_keys_of_mem (List.mem_filter.2 ⟨IMap.mem_of_get? hn, hq⟩))
    · rfl

theorem _root_.Mythical.ClusterSpec.Sound.filter_sum {i : Int} {s : Site K} (h : c.sites.get? i = some s)
    (q : Int → Bool) (S : Finset Int) (hS : ∀ j, j ∈ s.neigh.keys → q j = true → j ∈ S) (hq : ∀ j ∈ S, q j = true) :
    IMap.sumVals ((s.neigh.filter fun na => q na.1).map fun na => (na.1, mem na.2)) = ∑ j ∈ S, rate mem c i j := by
  have hw := hs.neighWF i s h
  have hwf : IMap.WF (s.neigh.filter fun na => q na.1) := by
    unfold IMap.WF
    exact hw.sublist (List.filter_sublist.map Prod.fst)
  rw [IMap.sumVals_keys (IMap.wf_map hwf _), IMap.keys_map]
  have hv : ∀ j ∈ (IMap.keys (s.neigh.filter fun na => q na.1)).toFinset,
      IMap.at0 ((s.neigh.filter fun na => q na.1).map fun na => (na.1, mem na.2)) j = rate mem c i j := by
    intro j hj
    rw [List.mem_toFinset, IMap.mem_keys_iff] at hj
    obtain ⟨a, ha⟩ := hj
    have hqj := (List.mem_filter.1 ha).2
    unfold IMap.at0
    rw [hs.filter_get? h q j, if_pos hqj, rate_of_site h]
  rw [Finset.sum_congr rfl hv]
  apply Finset.sum_subset
  · intro j hj
    rw [List.mem_toFinset, IMap.mem_keys_iff] at hj
    obtain ⟨a, ha⟩ := hj
    have := List.mem_filter.1 ha
    exact hS j (IMap.mem_keys_of_mem this.1) this.2
  · intro j hj hnj
    rw [rate_of_site h]
    cases hn : s.neigh.get? j with
    | none => rfl
    | some a =>
      exfalso
      apply hnj
      rw [List.mem_toFinset]
      exact IMap.mem_keys_of_mem (List.mem_filter.2 ⟨IMap.mem_of_get? hn, hq j hj⟩)

theorem sum_inside {i : Int} {s : Site K} (h : c.sites.get? i = some s) :
    IMap.sumVals ((s.neigh.filter fun na => c.siteIsInCluster na.1).map fun na => (na.1, mem na.2)) = inRate mem c i :=
  hs.filter_sum h c.siteIsInCluster (ids c) (fun _ _ hq => siteIsIn_iff.1 hq) fun _ hj => siteIsIn_iff.2 hj

theorem sum_outside {i : Int} {s : Site K} (h : c.sites.get? i = some s) :
    IMap.sumVals ((s.neigh.filter fun na => !c.siteIsInCluster na.1).map fun na => (na.1, mem na.2)) =
      exitRate mem c i := by
  refine hs.filter_sum h (fun j => !c.siteIsInCluster j) (exits c) (fun j hj hq => ?_) fun j hj => ?_
  · unfold exits
    rw [Finset.mem_sdiff]
    refine ⟨neigh_mem_reach h hj, fun hc => ?_⟩
    rw [siteIsIn_iff.2 hc] at hq
    cases hq
  · unfold exits at hj
    rw [Finset.mem_sdiff] at hj
    simp only [Bool.not_eq_true']
    rw [← Bool.not_eq_true, siteIsIn_iff]
    exact hj.2

end Rates

theorem get?_filter_map {V W : Type} {m : IMap V} (hm : m.WF) (f : Int × V → W) (q : W → Bool) (k : Int) :
    IMap.get? ((m.map fun kv => (kv.1, f kv)).filter fun ir => q ir.2) k =
      (m.get? k).bind fun v => if q (f (k, v)) then some (f (k, v)) else none := by
  have hw : IMap.WF (m.map fun kv => (kv.1, f kv)) := IMap.wf_map hm f
  have hwf : IMap.WF ((m.map fun kv => (kv.1, f kv)).filter fun ir => q ir.2) := by
    unfold IMap.WF
    exact hw.sublist (List.filter_sublist.map Prod.fst)
  cases hk : m.get? k with
  | none =>
    simp only [Option.bind_none]
    rw [IMap.get?_eq_none_iff, IMap.mem_keys_iff]
    rintro ⟨v, hv⟩
    have := (List.mem_filter.1 hv).1
    have := IMap.mem_keys_of_mem this
    rw [IMap.keys_map] at this
    exact (IMap.get?_eq_none_iff.1 hk) this
  | some v =>
    simp only [Option.bind_some]
    have hmem : (k, f (k, v)) ∈ m.map fun kv => (kv.1, f kv) :=
      List.mem_map.2 ⟨(k, v), IMap.mem_of_get? hk, rfl⟩
    split
    · next hq => exact (IMap.get?_eq_some_iff hwf).2 (List.mem_filter.2 ⟨hmem, hq⟩)
    · next hq =>
      rw [IMap.get?_eq_none_iff, IMap.mem_keys_iff]
      rintro ⟨w, hw2⟩
      obtain ⟨h1, h2⟩ := List.mem_filter.1 hw2
      have e1 := IMap.get?_of_mem hw h1
      have e2 := IMap.get?_of_mem hw hmem
      rw [e1] at e2
      cases e2
      exact hq h2

theorem wf_filter_map {V W : Type} {m : IMap V} (hm : m.WF) (f : Int × V → W) (q : W → Bool) :
    IMap.WF ((m.map fun kv => (kv.1, f kv)).filter fun ir => q ir.2) := by
  unfold IMap.WF
  exact (IMap.wf_map hm f).sublist (List.filter_sublist.map Prod.fst)

theorem wf_ratesInternal (hw : c.sites.WF) : (c.ratesInternal mem).WF := wf_filter_map hw _ (fun r : IMap K => !r.isEmpty)
theorem wf_ratesToNeighbors (hw : c.sites.WF) : (c.ratesToNeighbors mem).WF := wf_filter_map hw _ (fun r : IMap K => !r.isEmpty)

/-- A filtered list of rates is empty exactly if the rates sum to zero. -/
theorem isEmpty_iff_sum {m : IMap Addr} (h : ∀ na ∈ m, 0 < mem na.2) (q : Int × Addr → Bool) :
    ((m.filter q).map fun na => (na.1, mem na.2)).isEmpty = true ↔
      IMap.sumVals ((m.filter q).map fun na => (na.1, mem na.2)) = 0 := by
  rw [IMap.sumVals_eq, List.map_map, List.isEmpty_iff]
  constructor
  · intro hh
    rw [List.map_eq_nil_iff] at hh
    rw [hh]; rfl
  · intro hh
    by_contra hne
    rw [List.map_eq_nil_iff] at hne
    have : 0 < ((m.filter q).map (Prod.snd ∘ fun na => (na.1, mem na.2))).sum := by
      apply List.sum_pos
      · intro x hx
        obtain ⟨na, hna, rfl⟩ := List.mem_map.1 hx
        exact h na (List.mem_filter.1 hna).1
      · simpa using hne
    rw [hh] at this
    exact lt_irrefl _ this

theorem sumInternal_at0 (hs : Sound mem c) {i : Int} :
    IMap.get? ((c.ratesInternal mem).map fun ir => (ir.1, IMap.sumVals ir.2)) i =
      if i ∈ ids c ∧ inRate mem c i ≠ 0 then some (inRate mem c i) else none := by
  rw [IMap.get?_map]
  unfold ratesInternal
  rw [get?_filter_map hs.wf (fun is : Int × Site K =>
    (is.2.neigh.filter fun na => c.siteIsInCluster na.1).map fun na => (na.1, mem na.2)) (fun r => !r.isEmpty)]
  cases h : c.sites.get? i with
  | none =>
    rw [if_neg]
    · rfl
    · rintro ⟨hi, -⟩
      obtain ⟨s, hs'⟩ := mem_ids.1 hi
      rw [h] at hs'; cases hs'
  | some s =>
    have hi : i ∈ ids c := mem_ids.2 ⟨s, h⟩
    simp only [Option.bind_some]
    have he := isEmpty_iff_sum (hs.pos i s h) fun na => c.siteIsInCluster na.1
    rw [sum_inside hs h] at he
    by_cases hz : inRate mem c i = 0
    · rw [he.2 hz, if_neg (show ¬(i ∈ ids c ∧ inRate mem c i ≠ 0) from fun hh => hh.2 hz)]; rfl
    · have : ((s.neigh.filter fun na => c.siteIsInCluster na.1).map fun na => (na.1, mem na.2)).isEmpty = false := by
        rw [← Bool.not_eq_true, he]; exact hz
      rw [this, if_pos (show i ∈ ids c ∧ inRate mem c i ≠ 0 from ⟨hi, hz⟩)]
      simp only [Bool.not_false, if_true, Option.map_some]
      rw [sum_inside hs h]

theorem sumEscape_at0 (hs : Sound mem c) {i : Int} :
    IMap.get? ((c.ratesToNeighbors mem).map fun ir => (ir.1, IMap.sumVals ir.2)) i =
      if i ∈ ids c ∧ exitRate mem c i ≠ 0 then some (exitRate mem c i) else none := by
  rw [IMap.get?_map]
  unfold ratesToNeighbors
  rw [get?_filter_map hs.wf (fun is : Int × Site K =>
    (is.2.neigh.filter fun na => !c.siteIsInCluster na.1).map fun na => (na.1, mem na.2)) (fun r => !r.isEmpty)]
  cases h : c.sites.get? i with
  | none =>
    rw [if_neg]
    · rfl
    · rintro ⟨hi, -⟩
      obtain ⟨s, hs'⟩ := mem_ids.1 hi
      rw [h] at hs'; cases hs'
  | some s =>
    have hi : i ∈ ids c := mem_ids.2 ⟨s, h⟩
    simp only [Option.bind_some]
    have he := isEmpty_iff_sum (hs.pos i s h) fun na => !c.siteIsInCluster na.1
    rw [sum_outside hs h] at he
    by_cases hz : exitRate mem c i = 0
    · rw [he.2 hz, if_neg (show ¬(i ∈ ids c ∧ exitRate mem c i ≠ 0) from fun hh => hh.2 hz)]; rfl
    · have : ((s.neigh.filter fun na => !c.siteIsInCluster na.1).map fun na => (na.1, mem na.2)).isEmpty = false := by
        rw [← Bool.not_eq_true, he]; exact hz
      rw [this, if_pos (show i ∈ ids c ∧ exitRate mem c i ≠ 0 from ⟨hi, hz⟩)]
      simp only [Bool.not_false, if_true, Option.map_some]
      rw [sum_outside hs h]

theorem _root_.Mythical.ClusterSpec.Sound.exitRate_nonneg (hs : Sound mem c) (i : Int) : 0 ≤ exitRate mem c i :=
  Finset.sum_nonneg fun j _ => hs.rate_nonneg i j

theorem _root_.Mythical.ClusterSpec.Sound.inRate_nonneg (hs : Sound mem c) (i : Int) : 0 ≤ inRate mem c i :=
  Finset.sum_nonneg fun j _ => hs.rate_nonneg i j

theorem _root_.Mythical.ClusterSpec.Sound.exitRate_pos_iff (hs : Sound mem c) {i : Int} (hi : i ∈ ids c) :
    0 < exitRate mem c i ↔ ∃ j, j ∉ ids c ∧ 0 < rate mem c i j := by
  unfold exitRate
  rw [Finset.sum_pos_iff_of_nonneg fun j _ => hs.rate_nonneg i j]
  constructor
  · rintro ⟨j, hj, hr⟩; exact ⟨j, (hs.mem_exits.1 hj).1, hr⟩
  · rintro ⟨j, hj, hr⟩; exact ⟨j, hs.mem_exits.2 ⟨hj, i, hi, hr⟩, hr⟩

theorem _root_.Mythical.ClusterSpec.Sound.inRate_pos_iff (hs : Sound mem c) {i : Int} :
    0 < inRate mem c i ↔ ∃ j ∈ ids c, 0 < rate mem c i j := by
  unfold inRate
  rw [Finset.sum_pos_iff_of_nonneg fun j _ => hs.rate_nonneg i j]

theorem sumRatesOff_eq (hs : Sound mem c) : c.sumRatesOff mem = ∑ i ∈ ids c, exitRate mem c i := by
  have h1 : c.sumRatesOff mem = IMap.sumVals ((c.ratesToNeighbors mem).map fun ir => (ir.1, IMap.sumVals ir.2)) := by
    unfold sumRatesOff IMap.sumVals
    rw [List.foldl_map]
    congr 1
    funext t ir
    rw [IMap.foldl_add_start (fun kv : Int × K => kv.2), IMap.foldl_add_start (fun kv : Int × K => kv.2)]
    simp
  rw [h1, IMap.sumVals_keys (IMap.wf_map (wf_ratesToNeighbors hs.wf) _)]
  have hsub : (IMap.keys ((c.ratesToNeighbors mem).map fun ir => (ir.1, IMap.sumVals ir.2))).toFinset ⊆ ids c := by
    intro i hi
    rw [List.mem_toFinset, IMap.mem_keys_iff_get?] at hi
    obtain ⟨v, hv⟩ := hi
    rw [sumEscape_at0 hs] at hv
    split at hv
    · next h => exact h.1
    · cases hv
  have hval : ∀ i ∈ ids c, IMap.at0 ((c.ratesToNeighbors mem).map fun ir => (ir.1, IMap.sumVals ir.2)) i =
      exitRate mem c i := by
    intro i hi
    unfold IMap.at0
    rw [sumEscape_at0 hs]
    by_cases hz : exitRate mem c i = 0
    · rw [if_neg (fun hh => hh.2 hz), hz]; rfl
    · rw [if_pos ⟨hi, hz⟩]; rfl
  rw [← Finset.sum_congr rfl hval]
  apply Finset.sum_subset hsub
  intro i hi hni
  rw [List.mem_toFinset] at hni
  exact IMap.at0_of_not_mem hni

theorem ratesToNeighbors_ne_nil (hs : Sound mem c) (hx : HasExit mem c) : c.ratesToNeighbors mem ≠ [] := by
  obtain ⟨i, hi, j, hj, hr⟩ := hx
  have hpos := (hs.exitRate_pos_iff hi).2 ⟨j, hj, hr⟩
  intro he
  have := sumEscape_at0 (i := i) hs
  rw [he, if_pos ⟨hi, hpos.ne'⟩] at this
  cases this

/-! ## Exit table -/

/-- Add `v` to the entry of `n` for every pair `(n, v)`. -/
def addAll (m : IMap K) (l : List (Int × K)) : IMap K := l.foldl (fun acc nv => IMap.set acc nv.1 (IMap.at0 acc nv.1 + nv.2)) m

theorem addAll_keys (m : IMap K) (l : List (Int × K)) (k : Int) :
    k ∈ (addAll m l).keys ↔ k ∈ m.keys ∨ k ∈ l.map Prod.fst := by
  induction l generalizing m with
  | nil => simp [addAll]
  | cons x l ih =>
    unfold addAll at ih ⊢
    rw [List.foldl_cons, ih, IMap.mem_keys_set, List.map_cons, List.mem_cons]
    tauto

theorem addAll_wf {m : IMap K} (h : m.WF) (l : List (Int × K)) : (addAll m l).WF := by
  induction l generalizing m with
  | nil => exact h
  | cons x l ih => exact ih (h.set _ _)

theorem addAll_at0 (m : IMap K) (l : List (Int × K)) (k : Int) :
    (addAll m l).at0 k = m.at0 k + (l.map fun x => if x.1 = k then x.2 else 0).sum := by
  induction l generalizing m with
  | nil => simp [addAll]
  | cons x l ih =>
    unfold addAll at ih ⊢
    rw [List.foldl_cons, ih, IMap.at0_set, List.map_cons, List.sum_cons]
    split
    · next h => rw [h]; ring
    · ring

theorem sum_flatMap' {α : Type} (l : List α) (f : α → List K) : (l.flatMap f).sum = (l.map fun a => (f a).sum).sum := by
  induction l with
  | nil => rfl
  | cons a l ih => rw [List.flatMap_cons, List.sum_append, ih, List.map_cons, List.sum_cons]

/-- The contributions of one site to the exit table. -/
def exitTerms (mem : Addr → K) (c : Cluster K) (i : Int) (s : Site K) : List (Int × K) :=
  (s.neigh.keys.filter fun n => !c.siteIsInCluster n).map fun n => (n, hopProb mem c i n * c.probOn.at0 i)

theorem hopNeighTemp_eq (hs : Sound mem c) :
    c.hopNeighTemp = .ok (addAll [] (c.sites.flatMap fun is => exitTerms mem c is.1 is.2)) := by
  have hinner : ∀ acc : IMap K, ∀ is ∈ c.sites,
      is.2.getNeighborSiteIds.foldlM (c.hopNeighStep is.1 is.2) acc = .ok (addAll acc (exitTerms mem c is.1 is.2)) := by
    rintro acc ⟨i, s⟩ his
    have h := IMap.get?_of_mem hs.wf his
    have hstep : ∀ acc : IMap K, ∀ n ∈ s.getNeighborSiteIds, c.hopNeighStep i s acc n =
        .ok (if c.siteIsInCluster n then acc else acc.set n (acc.at0 n + hopProb mem c i n * c.probOn.at0 i)) := by
      intro acc n hn
      unfold hopNeighStep
      split
      · rfl
      · rw [hs.probabilityTo h hn, ok_bind]
    simp only
    rw [foldlM_ok hstep, ok_inj]
    unfold addAll exitTerms Site.getNeighborSiteIds
    rw [List.foldl_map, List.foldl_filter]
    congr 1
    funext acc n
    by_cases hn : c.siteIsInCluster n = true
    · simp [hn]
    · simp [hn]
  unfold hopNeighTemp
  rw [foldlM_ok hinner, ok_inj]
  unfold addAll
  rw [List.foldl_flatMap]

theorem exitTable (hs : Sound mem c) :
    let T := addAll [] (c.sites.flatMap fun is => exitTerms mem c is.1 is.2)
    T.WF ∧ (∀ k, k ∈ T.keys ↔ k ∈ exits c) ∧
    ∀ n, n ∉ ids c → T.at0 n = ∑ i ∈ ids c, hopProb mem c i n * c.probOn.at0 i := by
  intro T
  refine ⟨addAll_wf (m := []) List.nodup_nil _, fun k => ?_, fun n hn => ?_⟩
  · show k ∈ (addAll [] _).keys ↔ _
    rw [addAll_keys, hs.mem_exits]
    have : k ∉ IMap.keys ([] : IMap K) := by simp [IMap.keys]
    rw [or_iff_right this, List.mem_map]
    constructor
    · rintro ⟨x, hx, rfl⟩
      rw [List.mem_flatMap] at hx
      obtain ⟨⟨i, s⟩, his, hx⟩ := hx
      unfold exitTerms at hx
      rw [List.mem_map] at hx
      obtain ⟨n, hn, rfl⟩ := hx
      rw [List.mem_filter] at hn
      have h := IMap.get?_of_mem hs.wf his
      refine ⟨fun hc => ?_, i, mem_ids.2 ⟨s, h⟩, (hs.rate_pos_iff h n).2 hn.1⟩
      have := hn.2
      rw [siteIsIn_iff.2 hc] at this
      cases this
    · rintro ⟨hk, i, hi, hr⟩
      obtain ⟨s, h⟩ := mem_ids.1 hi
      refine ⟨(k, hopProb mem c i k * c.probOn.at0 i), ?_, rfl⟩
      rw [List.mem_flatMap]
      refine ⟨(i, s), IMap.mem_of_get? h, ?_⟩
      unfold exitTerms
      rw [List.mem_map]
      refine ⟨k, List.mem_filter.2 ⟨(hs.rate_pos_iff h k).1 hr, ?_⟩, rfl⟩
      rw [Bool.not_eq_true', ← Bool.not_eq_true, siteIsIn_iff]
      exact hk
  · show (addAll [] _).at0 n = _
    rw [addAll_at0, IMap.at0_nil, zero_add, List.map_flatMap, sum_flatMap']
    have : ∀ i s, (i, s) ∈ c.sites → (List.map (fun x => if x.1 = n then x.2 else 0) (exitTerms mem c i s)).sum =
        hopProb mem c i n * c.probOn.at0 i := by
      intro i s his
      have h := IMap.get?_of_mem hs.wf his
      have hni : c.siteIsInCluster n = false := by rw [← Bool.not_eq_true, siteIsIn_iff]; exact hn
      unfold exitTerms
      rw [List.map_map]
      have hnd : (s.neigh.keys.filter fun n => !c.siteIsInCluster n).Nodup := List.Nodup.filter _ (hs.neighWF i s h)
      have e : ((s.neigh.keys.filter fun n => !c.siteIsInCluster n).map
          ((fun x : Int × K => if x.1 = n then x.2 else 0) ∘ fun n => (n, hopProb mem c i n * c.probOn.at0 i))).sum =
          ∑ k ∈ (s.neigh.keys.filter fun n => !c.siteIsInCluster n).toFinset,
            if k = n then hopProb mem c i k * c.probOn.at0 i else 0 := (List.sum_toFinset _ hnd).symm
      rw [e, Finset.sum_ite_eq']
      split
      · rfl
      · next hnm =>
        have : ¬ 0 < rate mem c i n := by
          intro hr
          apply hnm
          rw [List.mem_toFinset, List.mem_filter, hni]
          exact ⟨(hs.rate_pos_iff h n).1 hr, rfl⟩
        have hz : rate mem c i n = 0 := le_antisymm (not_lt.1 this) (hs.rate_nonneg i n)
        unfold hopProb
        rw [hz]; simp
    rw [IMap.sum_map_keys hs.wf (fun i s => (List.map (fun x => if x.1 = n then x.2 else 0) (exitTerms mem c i s)).sum)
      (fun i => hopProb mem c i n * c.probOn.at0 i) this]
    rfl

/-- The probability that the next hop of a walker inside the cluster leaves it. -/
def leak (mem : Addr → K) (c : Cluster K) : K :=
  ∑ i ∈ ids c, c.probOn.at0 i * siteTime mem c i * exitRate mem c i

theorem sum_exitTable (mem : Addr → K) (c : Cluster K) :
    ∑ n ∈ exits c, ∑ i ∈ ids c, hopProb mem c i n * c.probOn.at0 i = leak mem c := by
  rw [Finset.sum_comm]
  unfold leak
  apply Finset.sum_congr rfl
  intro i _
  unfold exitRate hopProb siteTime
  rw [Finset.mul_sum]
  apply Finset.sum_congr rfl
  intro n _
  ring

theorem leak_pos (hs : Sound mem c) (hd : Dist c) (hx : HasExit mem c) : 0 < leak mem c := by
  obtain ⟨i, hi, j, hj, hr⟩ := hx
  apply Finset.sum_pos'
  · intro k hk
    exact mul_nonneg (mul_nonneg (hd.pos k hk).le (hs.siteTime_pos hk).le) (hs.exitRate_nonneg k)
  · exact ⟨i, hi, mul_pos (mul_pos (hd.pos i hi) (hs.siteTime_pos hi)) ((hs.exitRate_pos_iff hi).2 ⟨j, hj, hr⟩)⟩

/-- Staying and leaving probabilities add up to one. -/
theorem stay_add_leak (hs : Sound mem c) (hd : Dist c) :
    ∑ i ∈ ids c, inflow mem c (fun n => c.probOn.at0 n) i + leak mem c = 1 := by
  rw [sum_inflow]
  unfold leak
  rw [← Finset.sum_add_distrib, ← hd.one]
  apply Finset.sum_congr rfl
  intro i hi
  have := hs.inRate_add_exitRate hi
  have h2 : siteTime mem c i * outRate mem c i = 1 := by
    unfold siteTime; exact one_div_mul_cancel (hs.outRate_pos hi).ne'
  calc _ = c.probOn.at0 i * (siteTime mem c i * (inRate mem c i + exitRate mem c i)) := by ring
    _ = c.probOn.at0 i := by rw [this, h2, mul_one]

end Mythical.Cluster
