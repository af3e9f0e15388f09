import Verif.Lemmas.Site
import Verif.Spec.SiteOrder

/-! # Lemmas: the order of the hash map of a site -/

set_option linter.unusedSectionVars false

namespace Mythical.Site
open Mythical SiteSpec
variable {K : Type} [Field K] [LinearOrder K] [IsStrictOrderedRing K] [FloorRing K]

theorem compare_iff {x y : Int × K} : compare x y = true ↔
    x.1 ≠ y.1 ∧ (truncInt x.2 < truncInt y.2 ∨ truncInt x.2 = truncInt y.2 ∧ x.1 < y.1) := by
  unfold compare
  split
  · next h => simp [h]
  · next h =>
    split
    · next e => simp [h, e]
    · next e => simp [h, e]

theorem compare_trans {x y z : Int × K} (h1 : compare x y = true) (h2 : compare y z = true) (h : x.1 ≠ z.1) : compare x z = true := by
  rw [compare_iff] at *
  refine ⟨h, ?_⟩
  omega

theorem compare_asymm {x y : Int × K} (h1 : compare x y = true) (h2 : compare y x = true) : False := by
  rw [compare_iff] at *
  omega

theorem setInsert_sorted {x : Int × K} : ∀ {l : List (Int × K)}, x.1 ∉ l.map Prod.fst → l.Pairwise (fun a b => compare a b = true) →
    (l.map Prod.fst).Nodup → (setInsert x l).Pairwise (fun a b => compare a b = true)
  | [], _, _, _ => by simp [setInsert]
  | y :: l, h, hp, hn => by
    simp only [List.map_cons, List.mem_cons, not_or] at h
    rw [List.pairwise_cons] at hp
    simp only [List.map_cons, List.nodup_cons] at hn
    unfold setInsert
    split
    · next hc =>
      refine List.pairwise_cons.2 ⟨fun z hz => ?_, List.pairwise_cons.2 hp⟩
      rcases List.mem_cons.1 hz with rfl | hz
      · exact hc
      · exact compare_trans hc (hp.1 z hz) fun e => h.2 (e ▸ List.mem_map_of_mem hz)
    · next hc =>
      have hyx := compare_total h.1 (by simpa using hc)
      rw [if_pos hyx]
      refine List.pairwise_cons.2 ⟨fun z hz => ?_, setInsert_sorted h.2 hp.2 hn.2⟩
      rcases List.mem_cons.1 ((setInsert_perm h.2).mem_iff.1 hz) with rfl | hz
      · exact hyx
      · exact hp.1 z hz

theorem foldl_setInsert_sorted : ∀ {vals acc : List (Int × K)}, ((acc ++ vals).map Prod.fst).Nodup →
    acc.Pairwise (fun a b => compare a b = true) →
    (vals.foldl (fun l v => setInsert v l) acc).Pairwise (fun a b => compare a b = true)
  | [], _, _, h => h
  | v :: vals, acc, hn, h => by
    have hv : v.1 ∉ acc.map Prod.fst := by
      simp only [List.map_append, List.map_cons, List.nodup_append, List.nodup_cons] at hn
      intro hm
      exact hn.2.2 _ hm _ (by simp) rfl
    have ha : (acc.map Prod.fst).Nodup := by
      rw [List.map_append] at hn; exact hn.of_append_left
    have hp2 : (setInsert v acc ++ vals).Perm (acc ++ v :: vals) :=
      ((setInsert_perm hv).append_right vals).trans List.perm_middle.symm
    rw [List.foldl_cons]
    exact foldl_setInsert_sorted (((hp2.map Prod.fst).nodup_iff).2 hn) (setInsert_sorted hv h ha)

/-- The set of probabilities does not depend on the order of insertion. -/
theorem foldl_setInsert_perm_eq {vals vals' : List (Int × K)} (hn : (vals.map Prod.fst).Nodup) (h : vals.Perm vals') :
    vals.foldl (fun l v => setInsert v l) [] = vals'.foldl (fun l v => setInsert v l) [] := by
  have hn' : (vals'.map Prod.fst).Nodup := ((h.map Prod.fst).nodup_iff).1 hn
  refine List.Perm.eq_of_pairwise (le := fun a b => compare a b = true) (fun a b _ _ h1 h2 => (compare_asymm h1 h2).elim)
    (foldl_setInsert_sorted (by simpa using hn) .nil) (foldl_setInsert_sorted (by simpa using hn') .nil) ?_
  have p1 := foldl_setInsert_perm (vals := vals) (acc := []) (by simpa using hn)
  have p2 := foldl_setInsert_perm (vals := vals') (acc := []) (by simpa using hn')
  exact (p1.trans (by simpa using h)).trans p2.symm

/-- Maps with the same entries are permutations of each other. -/
theorem perm_of_get? {V : Type} {m m' : IMap V} (h : m.WF) (h' : m'.WF) (e : ∀ n, m.get? n = m'.get? n) : List.Perm m m' := by
  refine (List.perm_ext_iff_of_nodup (List.Nodup.of_map Prod.fst h) (List.Nodup.of_map Prod.fst h')).2 fun ⟨n, v⟩ => ?_
  rw [← IMap.get?_eq_some_iff h, ← IMap.get?_eq_some_iff h', e]

theorem get?_of_perm {V : Type} {m m' : IMap V} (h : m.WF) (p : List.Perm m m') (n : Int) : m.get? n = m'.get? n := by
  have h' : m'.WF := ((p.map Prod.fst).nodup_iff).1 h
  cases e : m.get? n with
  | none =>
    rw [IMap.get?_eq_none_iff] at e
    exact (IMap.get?_eq_none_iff.2 fun hm => e (((p.map Prod.fst).mem_iff).2 hm)).symm
  | some v =>
    rw [IMap.get?_eq_some_iff h] at e
    exact ((IMap.get?_eq_some_iff h').2 (p.mem_iff.1 e)).symm

theorem _root_.Mythical.SiteSpec.Reordered.wf' {s s' : Site K} (h : Reordered s s') : s'.neigh.WF := ((h.perm.map Prod.fst).nodup_iff).1 h.wf

theorem _root_.Mythical.SiteSpec.Reordered.get? {s s' : Site K} (h : Reordered s s') (n : Int) : s.neigh.get? n = s'.neigh.get? n := get?_of_perm h.wf h.perm n

theorem _root_.Mythical.SiteSpec.Reordered.refl {s : Site K} (h : s.neigh.WF) : Reordered s s := ⟨rfl, h, .refl _⟩

theorem _root_.Mythical.SiteSpec.Reordered.symm {s s' : Site K} (h : Reordered s s') : Reordered s' s :=
  ⟨by have := h.rest; cases s; cases s'; simp_all, h.wf', h.perm.symm⟩

theorem _root_.Mythical.SiteSpec.Reordered.trans {s s' s'' : Site K} (h : Reordered s s') (h2 : Reordered s' s'') : Reordered s s'' :=
  ⟨by rw [h2.rest, h.rest], h.wf, h.perm.trans h2.perm⟩

theorem _root_.Mythical.SiteSpec.Reordered.neighSet {s s' : Site K} (h : Reordered s s') (n : Int) (a : Addr) :
    Reordered { s with neigh := s.neigh.set n a } { s' with neigh := s'.neigh.set n a } := by
  refine ⟨by rw [h.rest], h.wf.set n a, perm_of_get? (h.wf.set n a) (h.wf'.set n a) fun k => ?_⟩
  show (s.neigh.set n a).get? k = (s'.neigh.set n a).get? k
  rw [IMap.get?_set, IMap.get?_set, h.get?]

theorem _root_.Mythical.SiteSpec.Reordered.sumRates {s s' : Site K} (h : Reordered s s') (mem : Addr → K) : s'.sumRates mem = s.sumRates mem := by
  rw [sumRates_eq, sumRates_eq]
  exact ((h.perm.map _).sum_eq).symm

theorem _root_.Mythical.SiteSpec.Reordered.recalc {s s' : Site K} (h : Reordered s s') (mem : Addr → K) : Agree (s.recalc mem) (s'.recalc mem) := by
  unfold Site.recalc Site.calcTau
  rw [h.sumRates mem]
  by_cases h0 : s.sumRates mem = 0
  · rw [if_pos h0, if_pos h0]; exact .inr ⟨_, rfl, rfl⟩
  rw [if_neg h0, if_neg h0, ok_bind, ok_bind]
  unfold Site.calcProb
  have e1 : ({ s with tau := 1 / s.sumRates mem } : Site K).sumRates mem = s.sumRates mem := rfl
  have e2 : ({ s' with tau := 1 / s.sumRates mem } : Site K).sumRates mem = s.sumRates mem := h.sumRates mem
  rw [e1, e2, if_neg (c := s.neigh ≠ [] ∧ s.sumRates mem = 0) (fun q => h0 q.2),
    if_neg (c := s'.neigh ≠ [] ∧ s.sumRates mem = 0) (fun q => h0 q.2)]
  simp only
  have hp : (s.neigh.map fun na => (na.1, mem na.2 / s.sumRates mem)).Perm (s'.neigh.map fun na => (na.1, mem na.2 / s.sumRates mem)) :=
    h.perm.map _
  have hn : ((s.neigh.map fun na => (na.1, mem na.2 / s.sumRates mem)).map Prod.fst).Nodup := by
    rw [List.map_map]; exact h.wf
  by_cases hc : 1 < (s.neigh.map fun na => (na.1, mem na.2 / s.sumRates mem)).length ∧
      ∃ v ∈ s.neigh.map fun na => (na.1, mem na.2 / s.sumRates mem), ¬ TruncOk v.2
  · have hc' : 1 < (s'.neigh.map fun na => (na.1, mem na.2 / s.sumRates mem)).length ∧
        ∃ v ∈ s'.neigh.map fun na => (na.1, mem na.2 / s.sumRates mem), ¬ TruncOk v.2 := by
      obtain ⟨h1, v, hv, h2⟩ := hc
      exact ⟨hp.length_eq ▸ h1, v, hp.mem_iff.1 hv, h2⟩
    rw [if_pos hc, if_pos hc']; exact .inr ⟨_, rfl, rfl⟩
  · have hc' : ¬ (1 < (s'.neigh.map fun na => (na.1, mem na.2 / s.sumRates mem)).length ∧
        ∃ v ∈ s'.neigh.map fun na => (na.1, mem na.2 / s.sumRates mem), ¬ TruncOk v.2) := by
      rintro ⟨h1, v, hv, h2⟩
      exact hc ⟨hp.length_eq ▸ h1, v, hp.mem_iff.2 hv, h2⟩
    rw [if_neg hc, if_neg hc']
    refine .inl ⟨_, _, rfl, rfl, ?_, h.wf, h.perm⟩
    rw [← foldl_setInsert_perm_eq hn hp, h.rest]

theorem setRatesLoop_zero {mem : Addr → K} : ∀ {m : IMap Addr} (s : Site K), (∃ na ∈ m, mem na.2 = 0) →
    s.setRatesLoop mem m = .error .assertFail
  | [], _, h => by simp at h
  | (n, a) :: m, s, h => by
    unfold setRatesLoop
    split
    · rfl
    · next h0 =>
      refine setRatesLoop_zero _ ?_
      obtain ⟨na, hna, h1⟩ := h
      rcases List.mem_cons.1 hna with rfl | hna
      · exact (h0 h1).elim
      · exact ⟨na, hna, h1⟩

theorem _root_.Mythical.SiteSpec.Reordered.step {s s' : Site K} (h : Reordered s s') {o o' : Op} (ho : SameCall o o') (mem : Addr → K) :
    Agree (s.step mem o) (s'.step mem o') := by
  cases ho with
  | @set m m' hw hp =>
    simp only [Site.step]
    unfold setRatesToNeighbors
    rw [← hp.length_eq]
    split
    · exact .inr ⟨_, rfl, rfl⟩
    have hw' : m'.WF := ((hp.map Prod.fst).nodup_iff).1 hw
    by_cases hz : ∃ na ∈ m, mem na.2 = 0
    · have hz' : ∃ na ∈ m', mem na.2 = 0 := by
        obtain ⟨na, hna, h1⟩ := hz
        exact ⟨na, hp.mem_iff.1 hna, h1⟩
      rw [setRatesLoop_zero s hz, setRatesLoop_zero s' hz']
      exact .inr ⟨_, rfl, rfl⟩
    · have hz1 : ∀ na ∈ m, mem na.2 ≠ 0 := fun na hna h1 => hz ⟨na, hna, h1⟩
      have hz2 : ∀ na ∈ m', mem na.2 ≠ 0 := fun na hna h1 => hz ⟨na, hp.mem_iff.2 hna, h1⟩
      rw [setRatesLoop_total hz1 s, setRatesLoop_total hz2 s', ok_bind, ok_bind]
      refine SiteSpec.Reordered.recalc ⟨by rw [h.rest], foldl_set_wf m _ h.wf,
        perm_of_get? (foldl_set_wf m _ h.wf) (foldl_set_wf m' _ h.wf') fun n => ?_⟩ mem
      show IMap.get? (m.foldl _ s.neigh) n = IMap.get? (m'.foldl _ s'.neigh) n
      rw [foldl_set_get? m hw, foldl_set_get? m' hw', get?_of_perm hw hp, h.get?]
  | add n a =>
    simp only [Site.step]
    unfold addNeighRate
    have : s'.neigh.has n = s.neigh.has n := by
      rw [Bool.eq_iff_iff, IMap.has_iff, IMap.has_iff]; exact ((h.perm.map Prod.fst).mem_iff).symm
    rw [this]
    split
    · exact .inr ⟨_, rfl, rfl⟩
    · exact (h.neighSet n a).recalc mem
  | reset n a => exact (h.neighSet n a).recalc mem

end Mythical.Site
