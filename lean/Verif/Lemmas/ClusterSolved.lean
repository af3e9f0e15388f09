import Verif.Lemmas.ClusterAfter
import Verif.Lemmas.ClusterTotal

/-! # What a successful update says about the rates -/

set_option linter.unusedSectionVars false
set_option linter.unusedVariables false

namespace Mythical.Cluster
open Mythical ClusterSpec
variable {K : Type} [Field K] [LinearOrder K] [IsStrictOrderedRing K] [FloorRing K]
variable {env : Env K} {mem : Addr → K} {c c' : Cluster K} {freqs : IMap Int}

theorem foldlM_each {α β : Type} {f : β → α → Except Fault β} {l : List α} {b r : β} (h : l.foldlM f b = .ok r) :
    ∀ x ∈ l, ∃ b b', f b x = .ok b' := by
  induction l generalizing b with
  | nil => intro x hx; cases hx
  | cons y l ih =>
    rw [List.foldlM_cons] at h
    obtain ⟨b', h1, h2⟩ := bind_eq_ok.1 h
    intro x hx
    rcases List.mem_cons.1 hx with rfl | hx
    · exact ⟨b, b', h1⟩
    · exact ih h2 x hx

theorem forall₂_left {α β : Type} {R : α → β → Prop} {l : List α} {l' : List β} (h : List.Forall₂ R l l') :
    ∀ x ∈ l, ∃ y, R x y := by
  induction h with
  | nil => intro x hx; cases hx
  | cons h _ ih =>
    intro x hx
    rcases List.mem_cons.1 hx with rfl | hx
    · exact ⟨_, h⟩
    · exact ih x hx

/-- An iteration that succeeds has asked each neighbour inside the cluster for the rate back. -/
theorem iterate_mutual (h : c.iterate = .ok c') {i n : Int} {s t : Site K} (hi : (i, s) ∈ c.sites) (hn : n ∈ s.neigh.keys)
    (ht : c.sites.get? n = some t) : i ∈ t.neigh.keys := by
  unfold iterate at h
  obtain ⟨temp, h1, -⟩ := bind_eq_ok.1 h
  have h2 := mapM_eq_ok h1
  obtain ⟨y, hy⟩ := forall₂_left h2 _ hi
  obtain ⟨z, hz, -⟩ := bind_eq_ok.1 hy
  obtain ⟨b, b', hb⟩ := foldlM_each hz n hn
  unfold iterNeigh at hb
  rw [ht] at hb
  obtain ⟨p, hp, -⟩ := bind_eq_ok.1 hb
  unfold Site.probabilityTo at hp
  split at hp
  · next hh => exact IMap.has_iff.1 hh
  · cases hp

theorem solveProb_mutual (hm : c.method = .tolerance) (ht : 0 < c.tol) (h : c.solveProb env = .ok c') {i n : Int} {s t : Site K}
    (hi : (i, s) ∈ c.sites) (hn : n ∈ s.neigh.keys) (htt : c.sites.get? n = some t) : i ∈ t.neigh.keys := by
  unfold solveProb at h
  have e1 : c.initProb.method = c.method := rfl
  have e2 : c.initProb.tol = c.tol := rfl
  simp only [e1, hm, e2] at h
  rw [if_pos (by linarith)] at h
  cases hf : env.fuel with
  | zero => rw [hf] at h; cases h
  | succ k =>
    rw [hf] at h
    unfold toleranceLoop at h
    obtain ⟨d, hd, -⟩ := bind_eq_ok.1 h
    exact iterate_mutual hd hi hn htt

/-- The escape time constant after an update. -/
theorem Rebuilt.tau_pos (hr : Rebuilt env mem freqs c c') (hi : CInv c) (hs : Sound mem c') (hm : Mutual mem c')
    (hl : Linked mem c') (hx : HasExit mem c') : ∃ t, c'.tau = some t ∧ 0 < t ∧ c'.timeInc = some (t / c'.resolution) := by
  have hs0 : Sound mem c := hs.congr hr.sites.symm
  have hd := hr.dist hs0 (Mutual.congr hr.sites.symm hm) hi.prob
  obtain ⟨h1, h2⟩ := hr.tau_eq hs hd hl hx
  refine ⟨_, h1, div_pos ?_ (mul_pos (leak_pos hs hd hx) (stay_pos hs hd hl)), by rw [h2, h1]; rfl⟩
  obtain ⟨i, hi, j, hj, hrt⟩ := hx
  have hpos := (hs.exitRate_pos_iff hi).2 ⟨j, hj, hrt⟩
  apply Finset.sum_pos'
  · intro k hk
    split
    · exact mul_nonneg (hd.pos k hk).le (hs.siteTime_pos hk).le
    · exact le_refl _
  · refine ⟨i, hi, ?_⟩
    rw [if_pos hpos]
    exact mul_pos (hd.pos i hi) (hs.siteTime_pos hi)

/-- After an update every site with a link has a mean time until its next hop inside the cluster. -/
theorem Rebuilt.dwelt (h : Rebuilt env mem freqs c c') (hs : Sound mem c') {i j : Int} (hi : i ∈ ids c') (hj : j ∈ ids c')
    (hr : 0 < rate mem c' i j) : ∃ d, 0 < d ∧ c'.internalDwell.get? i = some d := by
  have hin : 0 < inRate mem c' i :=
    Finset.sum_pos' (fun k _ => hs.rate_nonneg i k) ⟨j, hj, hr⟩
  have h0 := sumInternal_at0 (i := i) hs
  rw [if_pos ⟨hi, hin.ne'⟩, IMap.get?_map, Option.map_eq_some_iff] at h0
  obtain ⟨r, hr1, hr2⟩ := h0
  refine ⟨1 / inRate mem c' i, one_div_pos.2 hin, ?_⟩
  rw [h.dwell, IMap.get?_foldl_set (wf_ratesInternal hs.wf) (fun ir => 1 / IMap.sumVals ir.2), hr1]
  simp only [Option.map_some, Option.some_or]
  rw [← hr2]

/-- The cluster has just been updated, with the settings of the system. -/
def Upd (env : Env K) (mem : Addr → K) (x : Cluster K) : Prop :=
  ∃ c1 freqs c2, CInv c1 ∧ c1.method = .tolerance ∧ 0 < c1.tol ∧ Rebuilt env mem freqs c1 c2 ∧ x.sites = c2.sites ∧
    x.tau = c2.tau ∧ x.internalDwell = c2.internalDwell ∧ x.probOn = c2.probOn ∧ x.cumInternal = c2.cumInternal ∧ x.cumNeigh = c2.cumNeigh ∧ x.siteVisits.keys = c2.siteVisits.keys ∧
    x.method = c2.method ∧ x.tol = c2.tol ∧
    ((x.resolution = c2.resolution ∧ x.timeInc = c2.timeInc) ∨ x.timeInc = c2.tau.map (· / x.resolution))

theorem upd_of (h : c.update env mem = (.ok (), c')) (hi : CInv c) (hm : c.method = .tolerance) (ht : 0 < c.tol) :
    Upd env mem c' := by
  obtain ⟨freqs, c1, -, hv, hr⟩ := update_ok h
  have hi1 := hi.visitsOnly hv
  obtain ⟨⟨v, p, rfl⟩, -⟩ := hv
  exact ⟨_, freqs, c', hi1, hm, ht, hr, rfl, rfl, rfl, rfl, rfl, rfl, rfl, rfl, rfl, .inl ⟨rfl, rfl⟩⟩

theorem addBack_visitsOnly {l : List (Int × Int)} (h : c.addBackVisits l = .ok c') : VisitsOnly c c' := by
  induction l generalizing c with
  | nil => cases h; exact .refl _
  | cons x l ih =>
    obtain ⟨id, n⟩ := x
    unfold addBackVisits at h
    obtain ⟨d, h1, h2⟩ := bind_eq_ok.1 h
    obtain ⟨rfl, hk, -⟩ := setVisitFrequency_ok h1
    exact VisitsOnly.trans ⟨⟨_, _, rfl⟩, IMap.keys_set_of_mem hk⟩ (ih h2)

theorem upd_migrate {src src' : Cluster K} {u : Unit} (h : c.migrateSitesFrom env mem src = (.ok u, c', src')) (hi : CInv c)
    (hm : c.method = .tolerance) (ht : 0 < c.tol) : Upd env mem c' := by
  unfold migrateSitesFrom at h
  split at h
  · simp at h
  · next visits src1 _ =>
    simp only at h
    split at h
    · simp at h
    · next c2 he =>
      split at h
      · simp at h
      · next c3 hb =>
        simp only [Prod.mk.injEq, true_and] at h
        obtain ⟨rfl, -⟩ := h
        have hg : CInv { c with sites := src1.sites.foldl insertIfNew c.sites } :=
          hi.grow (insertAll_wf hi.sites) fun k hk => (insertAll_keys _ _ _).2 (Or.inl hk)
        obtain ⟨c1, freqs, c0, h1, h2, h3, h4, h5, h6, h13, h14, h7, h8, h9, h10, h11, h12⟩ := upd_of he hg hm ht
        obtain ⟨⟨v, p, rfl⟩, hk⟩ := addBack_visitsOnly hb
        exact ⟨c1, freqs, c0, h1, h2, h3, h4, h5, h6, h13, h14, h7, h8, hk.trans h9, h10, h11, h12⟩

theorem visitFreqsLoop_keys {acc freqs : IMap Int} {l : List Int} (h : c.visitFreqsLoop acc l = (.ok freqs, c')) (k : Int) :
    k ∈ freqs.keys ↔ k ∈ acc.keys ∨ k ∈ l := by
  induction l generalizing c acc with
  | nil => cases h; simp
  | cons i l ih =>
    unfold visitFreqsLoop at h
    split at h
    · cases h
    · rw [ih h, IMap.mem_keys_set, List.mem_cons]; tauto

/-- Some site of the cluster has a visit count. -/
def Seen (c : Cluster K) : Prop := ∃ i ∈ c.sites.keys, i ∈ c.siteVisits.keys

/-- An update of a cluster with visit counts only returns if the escape time constant could be computed. -/
theorem Seen.update (hx : Seen c) (h : c.update env mem = (.ok (), c')) : c'.tau ≠ none ∧ Seen c' := by
  obtain ⟨freqs, c1, hl, hv, hr⟩ := update_ok h
  obtain ⟨i, hi, hi'⟩ := hx
  have hs : i ∈ c1.sites.keys := by obtain ⟨⟨v, p, rfl⟩, -⟩ := hv; exact hi
  refine ⟨fun e => ?_, i, by rw [hr.sites]; exact hs, (hr.siteVisits_keys i).2 hs⟩
  have := hr.tauSome ⟨i, hs, (visitFreqsLoop_keys hl i).2 (.inr hi')⟩
  rw [e] at this
  cases this

theorem Seen.addSites (hx : Seen c) {l : List (Site K)} (h : c.addSites l = .ok c') : Seen c' := by
  induction l generalizing c with
  | nil => cases h; exact hx
  | cons s l ih =>
    unfold Cluster.addSites at h
    obtain ⟨d, h1, h2⟩ := bind_eq_ok.1 h
    unfold addSite at h1
    split at h1
    · cases h1
    · cases h1
      obtain ⟨i, hi, hi'⟩ := hx
      exact ih (c := { c with sites := c.sites.set s.id { s with clusterId := c.id } })
        ⟨i, IMap.mem_keys_set.2 (.inr hi), hi'⟩ h2

theorem Seen.migrate {src src' : Cluster K} {u : Unit} (hx : Seen c) (h : c.migrateSitesFrom env mem src = (.ok u, c', src')) :
    c'.tau ≠ none ∧ Seen c' := by
  unfold migrateSitesFrom at h
  split at h
  · simp at h
  · next visits src1 _ =>
    simp only at h
    split at h
    · simp at h
    · next c2 he =>
      split at h
      · simp at h
      · next c3 hb =>
        simp only [Prod.mk.injEq, true_and] at h
        obtain ⟨rfl, -⟩ := h
        obtain ⟨i, hi, hi'⟩ := hx
        obtain ⟨h1, h2⟩ := Seen.update (c := { c with sites := src1.sites.foldl insertIfNew c.sites })
          ⟨i, (insertAll_keys _ _ _).2 (Or.inl hi), hi'⟩ he
        obtain ⟨⟨v, p, rfl⟩, hk⟩ := addBack_visitsOnly hb
        obtain ⟨j, hj, hj'⟩ := h2
        exact ⟨h1, j, hj, by rw [hk]; exact hj'⟩

end Mythical.Cluster
