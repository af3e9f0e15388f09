import Verif.Lemmas.SystemStatic
import Mathlib.Algebra.BigOperators.Group.List.Basic

/-! # The rate out of a basin -/

set_option linter.unusedSectionVars false
set_option linter.unusedVariables false

namespace Mythical.World
open Mythical SystemSpec
variable {K : Type} [Field K] [LinearOrder K] [IsStrictOrderedRing K] [FloorRing K]
variable {w w' w1 w2 : World K} {env : Env K} {mem : Addr → K}

/-- The inner loop of `exitSum`. -/
theorem exitFold_eq {S : SiteContainer K} {i : Int} {s : Site K} (hs : IMap.get? S i = some s) (hw : s.neigh.WF)
    (all : List Int) (l : IMap Addr) (hl : ∀ na ∈ l, na ∈ s.neigh) (sum : K) :
    (l.keys.foldlM (fun sum n => if n ∈ all then .ok sum else do
      let r ← S.getRateToNeighborOfSite mem i n
      .ok (sum + r)) sum : Except Fault K) =
    .ok (sum + ((List.filter (fun na => na.1 ∉ all) l).map fun na => mem na.2).sum) := by
  induction l generalizing sum with
  | nil => simp [pure, Except.pure]
  | cons a l ih =>
    obtain ⟨n, a⟩ := a
    rw [IMap.keys_cons, List.foldlM_cons]
    have ih := ih (fun na h => hl na (List.mem_cons_of_mem _ h))
    by_cases hn : n ∈ all
    · rw [if_pos hn, ok_bind, ih, List.filter_cons_of_neg (by simpa using hn)]
    · have hr : S.getRateToNeighborOfSite mem i n = .ok (mem a) := by
        unfold SiteContainer.getRateToNeighborOfSite
        rw [getSite_of hs, ok_bind]
        unfold Site.getRateToNeighbor
        rw [IMap.get?_of_mem hw (hl (n, a) (List.mem_cons_self ..))]
      rw [if_neg hn, hr, ok_bind, ok_bind, ih, List.filter_cons_of_pos (by simpa using hn)]
      simp [add_assoc]

theorem exitSum_eq (hw : ∀ i s, w.sites.get? i = some s → s.neigh.WF) {all l : List Int} {sum r : K}
    (h : exitSum mem w.sites all l sum = .ok r) :
    r = sum + (l.map fun i => (((ratesOf w i).filter fun na => na.1 ∉ all).map fun na => mem na.2).sum).sum := by
  induction l generalizing sum with
  | nil => unfold exitSum at h; cases h; simp
  | cons i l ih =>
    unfold exitSum at h
    obtain ⟨ns, h1, h⟩ := bind_eq_ok.1 h
    unfold SiteContainer.getSiteIdsOfNeighbors at h1
    obtain ⟨s, hs, h1⟩ := bind_eq_ok.1 h1
    have hs := getSite_ok hs
    cases h1
    obtain ⟨r1, h2, h⟩ := bind_eq_ok.1 h
    have h2' := exitFold_eq (mem := mem) hs (hw i s hs) all s.neigh (fun _ h => h) sum
    change List.foldlM _ _ (IMap.keys s.neigh) = _ at h2
    have e : ratesOf w i = s.neigh := by
      unfold ratesOf
      have : w.sites.get? i = some s := hs
      rw [this]
    rw [h2'] at h2
    cases h2
    rw [ih h, List.map_cons, List.sum_cons, e, add_assoc]

/-- A basin that satisfies the equilibrium condition. -/
theorem satisfies_true (hw : ∀ i s, w.sites.get? i = some s → s.neigh.WF) {B : List Int} {M : K}
    (h : w.satisfies mem B M = .ok true) :
    ∃ res, w.timeRes = some res ∧ 2 * M < res ∧
      ((exitRate mem w B = 0 ∧ 2 * M * w.perfRatio < 0) ∨
       (exitRate mem w B ≠ 0 ∧ 2 * M * w.perfRatio < 1 / exitRate mem w B)) := by
  unfold satisfies at h
  obtain ⟨tc, h1, h⟩ := bind_eq_ok.1 h
  unfold timeConstant at h1
  obtain ⟨sum, h2, h1⟩ := bind_eq_ok.1 h1
  have e := exitSum_eq hw h2
  rw [zero_add] at e
  change sum = exitRate mem w B at e
  subst e
  cases ht : w.timeRes with
  | none => rw [ht] at h; simp at h
  | some res =>
    rw [ht] at h
    simp only [Except.ok.injEq, decide_eq_true_eq] at h
    refine ⟨res, rfl, by rw [mul_comm]; exact h.2, ?_⟩
    rw [mul_comm M 2] at h
    split at h1
    · next h0 => cases h1; exact .inl ⟨h0, h.1⟩
    · next h0 => cases h1; exact .inr ⟨h0, h.1⟩

theorem ratesOf_congr (h : ∀ i, (w'.sites.get? i).map (·.neigh) = (w.sites.get? i).map (·.neigh)) (i : Int) :
    ratesOf w' i = ratesOf w i := by
  have := h i
  unfold ratesOf
  cases e : w.sites.get? i with
  | none => rw [e] at this; rw [Option.map_eq_none_iff.1 this]
  | some s =>
    rw [e] at this
    obtain ⟨t, ht, hn⟩ := Option.map_eq_some_iff.1 this
    rw [ht]; exact hn

theorem Keep.rates (h : Keep env w w') (i : Int) : ratesOf w' i = ratesOf w i := by
  refine ratesOf_congr (fun i => ?_) i
  have := h.site i
  cases e : w.sites.get? i with
  | none => rw [(rel_none this).1 e]
  | some s =>
    obtain ⟨s', hs', hk⟩ := rel_some' (e ▸ this)
    rw [hs']
    simp [hk.neigh]

theorem exitRate_congr (h : ∀ i, ratesOf w' i = ratesOf w i) (B : List Int) : exitRate mem w' B = exitRate mem w B := by
  unfold exitRate; simp only [h]

theorem exitRate_perm {B B' : List Int} (h : B.Perm B') : exitRate mem w B = exitRate mem w B' := by
  unfold exitRate
  have : ∀ n, n ∈ B ↔ n ∈ B' := fun n => h.mem_iff
  simp only [this]
  exact (h.map _).sum_eq

/-- A set of sites with a rate out of it that is not 0. -/
theorem exitRate_ne {B : List Int} (h : exitRate mem w B ≠ 0) :
    ∃ i ∈ B, ∃ na ∈ ratesOf w i, na.1 ∉ B ∧ mem na.2 ≠ 0 := by
  by_contra hc
  push Not at hc
  apply h
  unfold exitRate
  apply List.sum_eq_zero
  intro x hx
  obtain ⟨i, hi, rfl⟩ := List.mem_map.1 hx
  apply List.sum_eq_zero
  intro y hy
  obtain ⟨na, hna, rfl⟩ := List.mem_map.1 hy
  rw [List.mem_filter] at hna
  exact hc i hi na hna.1 (by simpa using hna.2)

theorem maxTime_nonneg (l : List K) : 0 ≤ maxTime l := by
  unfold maxTime
  have : ∀ (l : List K) (m : K), 0 ≤ m → 0 ≤ l.foldl (fun m t => if t > m then t else m) m := by
    intro l
    induction l with
    | nil => intro m h; exact h
    | cons a l ih =>
      intro m h
      rw [List.foldl_cons]
      apply ih
      split
      · next e => exact h.trans e.le
      · exact h
  exact this l 0 le_rfl

/-- `maxTime` is the largest of the times, or 0. -/
theorem maxTime_spec (l : List K) : (∀ t ∈ l, t ≤ maxTime l) ∧ (maxTime l = 0 ∨ maxTime l ∈ l) := by
  have key : ∀ (l : List K) (m : K),
      m ≤ l.foldl (fun m t => if t > m then t else m) m ∧ (∀ t ∈ l, t ≤ l.foldl (fun m t => if t > m then t else m) m) ∧
      (l.foldl (fun m t => if t > m then t else m) m = m ∨ l.foldl (fun m t => if t > m then t else m) m ∈ l) := by
    intro l
    induction l with
    | nil => intro m; simp
    | cons a l ih =>
      intro m
      rw [List.foldl_cons]
      obtain ⟨h1, h2, h3⟩ := ih (if a > m then a else m)
      by_cases e : a > m
      · rw [if_pos e] at h1 h2 h3 ⊢
        refine ⟨e.le.trans h1, ?_, ?_⟩
        · intro t ht
          rcases List.mem_cons.1 ht with rfl | ht
          · exact h1
          · exact h2 t ht
        · rcases h3 with h3 | h3
          · right; rw [h3]; exact List.mem_cons_self ..
          · right; exact List.mem_cons_of_mem _ h3
      · rw [if_neg e] at h1 h2 h3 ⊢
        refine ⟨h1, ?_, ?_⟩
        · intro t ht
          rcases List.mem_cons.1 ht with rfl | ht
          · exact (not_lt.1 e).trans h1
          · exact h2 t ht
        · rcases h3 with h3 | h3
          · left; exact h3
          · right; exact List.mem_cons_of_mem _ h3
  exact ⟨(key l 0).2.1, (key l 0).2.2⟩

theorem exists_iff {c : Int} : SystemSpec.Exists w c ↔ ∃ x, w.clusters.get? c = some x := by
  unfold SystemSpec.Exists World.getClusters ClusterContainer.getSiteIdsOfClusters
  rw [← IMap.mem_keys_iff_get?]
  unfold IMap.keys
  rw [List.map_map]; rfl

theorem getClusters_get? (c : Int) : w.getClusters.get? c = (w.clusters.get? c).map Cluster.getSiteIdsInCluster := by
  unfold World.getClusters ClusterContainer.getSiteIdsOfClusters
  generalize w.clusters = m
  induction m with
  | nil => rfl
  | cons a m ih =>
    obtain ⟨k, v⟩ := a
    rw [List.map_cons, IMap.get?_cons, IMap.get?_cons]
    split
    · rfl
    · exact ih

/-- The keys of the sites of a new cluster. -/
theorem Created.perm {basin : List Int} {c : Cluster K} (hst : Struct env w) (h : Created env w w' basin c) :
    c.getSiteIdsInCluster.Perm basin := by
  obtain ⟨l, hl⟩ := h.trace
  have hw : c.sites.WF := ((Cluster.CInv.new w.nextId).trace hl).sites
  refine (List.perm_ext_iff_of_nodup hw h.nodup).2 fun i => ?_
  have e : i ∈ c.sites.keys ↔ ∃ s, c.sites.get? i = some s := IMap.mem_keys_iff_get?
  show i ∈ c.sites.keys ↔ _
  rw [e, h.sites]
  constructor
  · rintro ⟨s, hs⟩
    split at hs
    · assumption
    · cases hs
  · intro hi
    obtain ⟨s, hs, -⟩ := h.lone i hi
    exact ⟨_, by rw [if_pos hi, hs]; rfl⟩

end Mythical.World
