import Verif.Lemmas.ClusterUpdate

/-! # Lemmas about the cluster: visit counts -/

set_option linter.unusedSectionVars false

namespace Mythical
variable {K : Type} [Field K] [LinearOrder K] [IsStrictOrderedRing K] [FloorRing K]

theorem roundHalf_intCast (n : Int) : roundHalf (n : K) = n := by
  unfold roundHalf
  have h0 : (0 : K) ≤ 1 / 2 := by norm_num
  have h1 : (1 / 2 : K) < 1 := by norm_num
  split
  · rw [Int.floor_intCast_add, Int.floor_eq_zero_iff.2 ⟨h0, h1⟩, add_zero]
  · rw [← Int.cast_neg, Int.floor_intCast_add, Int.floor_eq_zero_iff.2 ⟨h0, h1⟩]; omega

namespace Cluster
open Mythical ClusterSpec
variable {env : Env K} {mem : Addr → K} {c c' : Cluster K}

/-- Only the visit bookkeeping has changed. -/
def VisitsOnly (c c' : Cluster K) : Prop :=
  (∃ v p, c' = { c with siteVisits := v, prevVisits := p }) ∧ c'.siteVisits.keys = c.siteVisits.keys

theorem VisitsOnly.refl (c : Cluster K) : VisitsOnly c c := ⟨⟨_, _, rfl⟩, rfl⟩

theorem VisitsOnly.trans {a b d : Cluster K} (h1 : VisitsOnly a b) (h2 : VisitsOnly b d) : VisitsOnly a d := by
  obtain ⟨⟨v, p, rfl⟩, k1⟩ := h1
  obtain ⟨⟨w, q, rfl⟩, k2⟩ := h2
  exact ⟨⟨w, q, rfl⟩, k2.trans k1⟩

theorem flushLoop_visitsOnly {t diff : K} {l : List Int} (hl : ∀ id ∈ l, id ∈ c.siteVisits.keys) :
    VisitsOnly c (c.flushLoop t diff l).2 ∧ (c.flushLoop t diff l).2.prevVisits = c.prevVisits := by
  induction l generalizing c with
  | nil => exact ⟨VisitsOnly.refl c, rfl⟩
  | cons id l ih =>
    unfold flushLoop
    split
    · exact ⟨VisitsOnly.refl c, rfl⟩
    · next v _ =>
      have hk : (c.siteVisits.set id (c.siteVisits.at0 id + v)).keys = c.siteVisits.keys :=
        IMap.keys_set_of_mem (hl id (by simp))
      obtain ⟨h1, h2⟩ := ih (c := { c with siteVisits := c.siteVisits.set id (c.siteVisits.at0 id + v) })
        (fun j hj => by rw [hk]; exact hl j (by simp [hj]))
      exact ⟨VisitsOnly.trans ⟨⟨_, _, rfl⟩, hk⟩ h1, h2⟩

theorem flush_visitsOnly (t : K) : VisitsOnly c (c.flush t).2 := by
  unfold flush
  split
  · exact VisitsOnly.refl c
  · split
    · exact VisitsOnly.refl c
    · next d _ =>
      have h := (flushLoop_visitsOnly (c := c) (t := t) (diff := (d : K)) (l := c.siteVisits.keys) fun _ h => h).1
      split
      · next x cc he =>
        rw [he] at h
        obtain ⟨⟨v, p, rfl⟩, k⟩ := h
        exact ⟨⟨v, _, rfl⟩, k⟩
      · exact h

theorem flush_ok {t : K} (h : c.flush t = (.ok (), c')) : c'.visits = c'.prevVisits := by
  unfold flush at h
  split at h
  · next e => cases h; exact e
  · split at h
    · cases h
    · split at h
      · cases h; rfl
      · next r hne =>
        exact absurd h (hne () _)

theorem flush_of_eq (h : c.visits = c.prevVisits) (t : K) : c.flush t = (.ok (), c) := by
  unfold flush; rw [if_pos h]

theorem getVisitFrequency_visitsOnly (id : Int) : VisitsOnly c (c.getVisitFrequency id).2 := by
  unfold getVisitFrequency
  split
  · split
    · exact VisitsOnly.refl c
    · next t _ =>
      have h := flush_visitsOnly (c := c) t
      split
      · next he => rw [he] at h; exact h
      · next he => rw [he] at h; simp only; split <;> exact h
  · exact VisitsOnly.refl c

/-- What a successful `getVisitFrequency` has done. -/
theorem getVisitFrequency_ok {id n : Int} (h : c.getVisitFrequency id = (.ok n, c')) :
    id ∈ c.siteVisits.keys ∧ (∃ t, c.tau = some t ∧ c.flush t = (.ok (), c')) ∧
    n = roundHalf (c'.siteVisits.at0 id) ∧ FitsInt n := by
  unfold getVisitFrequency at h
  split at h
  · next hk =>
    split at h
    · cases h
    · next t ht =>
      split at h
      · cases h
      · next c1 hf =>
        simp only at h
        split at h
        · next hn =>
          cases h
          exact ⟨IMap.has_iff.1 hk, ⟨t, ht, hf⟩, rfl, hn⟩
        · cases h
  · cases h

theorem getVisitFrequency_of {id : Int} {t : K} (hk : id ∈ c.siteVisits.keys) (ht : c.tau = some t)
    (hf : c.flush t = (.ok (), c')) (hn : FitsInt (roundHalf (c'.siteVisits.at0 id))) :
    c.getVisitFrequency id = (.ok (roundHalf (c'.siteVisits.at0 id)), c') := by
  unfold getVisitFrequency
  rw [if_pos (IMap.has_iff.2 hk), ht]
  simp only
  rw [hf]
  simp only
  rw [if_pos hn]

theorem visitFreqsLoop_visitsOnly (acc : IMap Int) (l : List Int) : VisitsOnly c (c.visitFreqsLoop acc l).2 := by
  induction l generalizing c acc with
  | nil => exact VisitsOnly.refl c
  | cons id l ih =>
    unfold visitFreqsLoop
    have h := getVisitFrequency_visitsOnly (c := c) id
    split
    · next he => rw [he] at h; exact h
    · next he => rw [he] at h; exact h.trans (ih _)

/-- Once flushed, the loop only reads. -/
theorem visitFreqsLoop_ok {acc freqs : IMap Int} {l : List Int} (hl : c.visits = c.prevVisits)
    (h : c.visitFreqsLoop acc l = (.ok freqs, c')) :
    c' = c ∧ freqs = l.foldl (fun m id => IMap.set m id (roundHalf (c.siteVisits.at0 id))) acc ∧
    ∀ id ∈ l, c.getVisitFrequency id = (.ok (roundHalf (c.siteVisits.at0 id)), c) := by
  induction l generalizing acc with
  | nil => cases h; exact ⟨rfl, rfl, by simp⟩
  | cons id l ih =>
    unfold visitFreqsLoop at h
    split at h
    · cases h
    · next n c1 he =>
      obtain ⟨-, ⟨t, ht, hf⟩, hn, -⟩ := getVisitFrequency_ok he
      rw [flush_of_eq hl] at hf
      cases hf
      obtain ⟨h1, h2, h3⟩ := ih h
      refine ⟨h1, ?_, ?_⟩
      · rw [h2, hn]; rfl
      · intro j hj
        rcases List.mem_cons.1 hj with rfl | hj
        · rw [← hn]; exact he
        · exact h3 j hj

/-- The visit counts saved before an update are those that would be reported. -/
theorem visitFreqs_spec {freqs : IMap Int} (hw : c.siteVisits.WF)
    (h : c.visitFreqsLoop [] c.siteVisits.keys = (.ok freqs, c')) :
    VisitsOnly c c' ∧ (∀ k, k ∈ freqs.keys ↔ k ∈ c.siteVisits.keys) ∧
    (c.siteVisits.keys ≠ [] → c'.visits = c'.prevVisits) ∧ (c.siteVisits.keys = [] → c' = c ∧ freqs = []) ∧
    ∀ id n, freqs.get? id = some n ↔ c.getVisitFrequency id = (.ok n, c') := by
  have hv := visitFreqsLoop_visitsOnly (c := c) [] c.siteVisits.keys
  rw [h] at hv
  refine ⟨hv, ?_⟩
  cases hk : c.siteVisits.keys with
  | nil =>
    rw [hk] at h
    cases h
    refine ⟨by simp [IMap.keys], by simp, by simp, ?_⟩
    intro id n
    constructor
    · intro h; cases h
    · intro h
      have := (getVisitFrequency_ok h).1
      rw [hk] at this; simp at this
  | cons id0 l =>
    rw [hk] at h
    have hnd : (id0 :: l).Nodup := by rw [← hk]; exact hw
    unfold visitFreqsLoop at h
    split at h
    · cases h
    · next n0 c1 he =>
      obtain ⟨-, ⟨t, ht, hf⟩, hn, hfit⟩ := getVisitFrequency_ok he
      have hfl := flush_ok hf
      obtain ⟨rfl, h2, h3⟩ := visitFreqsLoop_ok hfl h
      have hkeys : ∀ k, k ∈ freqs.keys ↔ k ∈ id0 :: l := by
        intro k
        rw [h2]
        have := IMap.keys_foldl_set (l.map fun id => (id, ())) (fun ip => roundHalf (c'.siteVisits.at0 ip.1))
          (IMap.set [] id0 n0) k
        rw [List.foldl_map] at this
        rw [this]
        simp [IMap.keys, IMap.set, or_comm, List.map_map, Function.comp_def]
      have hget : ∀ k, freqs.get? k = if k ∈ id0 :: l then some (roundHalf (c'.siteVisits.at0 k)) else none := by
        intro k
        rw [h2]
        have := IMap.get?_foldl_set (l := l.map fun id => (id, ())) (by
            unfold IMap.WF; rw [List.map_map]; simpa [Function.comp_def] using (List.nodup_cons.1 hnd).2)
          (fun ip => roundHalf (c'.siteVisits.at0 ip.1)) (IMap.set [] id0 n0) k
        rw [List.foldl_map] at this
        rw [this]
        have hg : IMap.get? (l.map fun id => (id, ())) k = if k ∈ l then some () else none := by
          clear * -
          induction l with
          | nil => rfl
          | cons a l ih =>
            rw [List.map_cons, IMap.get?_cons, ih]
            by_cases h : a = k
            · simp [h]
            · simp [h, Ne.symm h]
        rw [hg]
        by_cases hkl : k ∈ l
        · simp [hkl]
        · by_cases hk0 : id0 = k
          · subst hk0; simp [hkl, IMap.set, IMap.get?, hn]
          · simp [hkl, IMap.set, IMap.get?, hk0, Ne.symm hk0]
      refine ⟨hkeys, fun _ => hfl, by simp, ?_⟩
      intro id n
      rw [hget]
      constructor
      · intro hh
        split at hh
        · next hm =>
          cases hh
          refine getVisitFrequency_of (by rw [hk]; exact hm) ht hf ?_
          rcases List.mem_cons.1 hm with rfl | hm
          · rw [← hn]; exact hfit
          · exact (getVisitFrequency_ok (h3 id hm)).2.2.2
        · cases hh
      · intro hh
        obtain ⟨hm, -, hr, -⟩ := getVisitFrequency_ok hh
        rw [hk] at hm
        rw [if_pos hm, hr]

theorem update_cases (c : Cluster K) :
    (∃ freqs c1 c', c.visitFreqsLoop [] c.siteVisits.keys = (.ok freqs, c1) ∧ rebuild env mem freqs c1 = .ok c' ∧
      c.update env mem = (.ok (), c')) ∨
    (∃ e c1, VisitsOnly c c1 ∧ c.update env mem = (.error e, c1)) := by
  unfold update
  have hv := visitFreqsLoop_visitsOnly (c := c) [] c.siteVisits.keys
  split
  · next e c1 he => rw [he] at hv; exact Or.inr ⟨e, c1, hv, rfl⟩
  · next freqs c1 he =>
    rw [he] at hv
    cases hr : rebuild env mem freqs c1 with
    | error e => exact Or.inr ⟨e, c1, hv, rfl⟩
    | ok c' => exact Or.inl ⟨freqs, c1, c', he, hr, rfl⟩

theorem update_ok (h : c.update env mem = (.ok (), c')) :
    ∃ freqs c1, c.visitFreqsLoop [] c.siteVisits.keys = (.ok freqs, c1) ∧ VisitsOnly c c1 ∧
      Rebuilt env mem freqs c1 c' := by
  rcases update_cases (env := env) (mem := mem) c with ⟨freqs, c1, c2, h1, h2, h3⟩ | ⟨e, c1, -, h3⟩
  · rw [h3] at h
    cases h
    have hv := visitFreqsLoop_visitsOnly (c := c) [] c.siteVisits.keys
    rw [h1] at hv
    exact ⟨freqs, c1, h1, hv, rebuild_ok h2⟩
  · rw [h3] at h; cases h

end Cluster
end Mythical
