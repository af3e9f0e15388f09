import Verif.Lemmas.SystemSound
import Mathlib.Algebra.Order.BigOperators.Group.List

/-! # Clusters and basins do not overlap partially -/

set_option linter.unusedSectionVars false
set_option linter.unusedVariables false

namespace Mythical.World
open Mythical SystemSpec
variable {K : Type} [Field K] [LinearOrder K] [IsStrictOrderedRing K] [FloorRing K]
variable {w w' w1 w2 : World K} {env : Env K} {mem : Addr → K}

/-! ## The performance ratio -/

theorem Adds.perfRatio {m : IMap (IMap Addr)} (h : Adds mem m w w') : w'.perfRatio = w.perfRatio := by
  induction h with
  | refl => rfl
  | seed _ ih => exact ih
  | add _ _ _ _ _ _ ih => exact ih

theorem step_ratio (hst : Struct env w) {op : Op K} {res : Except Fault Int} (h : w.step env mem op = (res, w'))
    (hr : Cluster.GoesOn res) (hhop : ∀ wid h a, op = .hop wid h a → ∃ n, res = .ok n) :
    w'.perfRatio = w.perfRatio ∨ ∃ r, op = .setPerformanceRatio r ∧ w'.perfRatio = r := by
  cases op with
  | setPerformanceRatio r =>
    simp only [step, Prod.mk.injEq] at h
    right; exact ⟨r, rfl, by rw [← h.2]; rfl⟩
  | initializeSystem m =>
    simp only [step, Prod.mk.injEq] at h
    left
    have : Adds mem m w w' := h.2 ▸ initializeSystem_adds
    exact this.perfRatio
  | hop wid k a =>
    left
    obtain ⟨n, rfl⟩ := hhop wid k a rfl
    simp only [step, Prod.mk.injEq] at h
    obtain ⟨h1, h2⟩ := h
    have hret : w.hop env mem wid k a = (.ok (), w') := by
      refine Prod.ext ?_ h2
      cases hh : (w.hop env mem wid k a).1 with
      | ok u => rfl
      | error e => rw [hh] at h1; cases h1
    obtain ⟨j, w1, hm, hc⟩ := hop_ok hret
    have hk : Keep env w w1 := hst.hopMove_keep hm
    have hsd : w1.perfRatio = w.perfRatio := by obtain ⟨S, C, W, rfl⟩ := hopMove_outer hm; rfl
    obtain ⟨-, h⟩ := hopCount_ok (hst.keep hk) hc
    rcases h with ⟨-, rfl⟩ | ⟨-, -, rfl⟩ | ⟨-, -, -, -, rfl⟩ | ⟨-, -, w3, basin, -, hg, rfl⟩
    · exact hsd
    · exact hsd
    · exact hsd
    · show w3.perfRatio = w.perfRatio
      cases hg.grew with
      | created c0 hb h => rw [h.eq]; exact hsd
      | merged sc fav c d erased _ _ _ _ h => rw [h.eq]; exact hsd
  | setRandomSeed n =>
    left
    simp only [step, Prod.mk.injEq] at h
    rw [← h.2]; unfold World.setRandomSeed; split <;> rfl
  | _ =>
    left
    simp only [step] at h
    first
      | (simp only [Prod.mk.injEq] at h; rw [← h.2]; rfl)
      | (simp only [Prod.mk.injEq] at h; rw [← h.2]; unfold World.setTimeResolution; split <;> rfl)
      | (simp only [Prod.mk.injEq] at h; rw [← h.2]; obtain ⟨S, C, W, e⟩ := initializeWalkers_outer (w := w); rw [e])
      | (simp only [simple] at h
         split at h
         · next w1 h1 =>
           simp only [Prod.mk.injEq] at h
           obtain ⟨x, -, h1⟩ := bind_eq_ok.1 h1
           cases h1
           rw [← h.2]
         · simp only [Prod.mk.injEq] at h; rw [← h.2])
      | (simp only [simple] at h
         split at h
         · next w1 h1 =>
           simp only [Prod.mk.injEq] at h
           rw [← h.2]
           obtain ⟨S, C, rfl⟩ := removeWalker_inner h1
           rfl
         · simp only [Prod.mk.injEq] at h; rw [← h.2])
      | (split at h <;> simp only [Prod.mk.injEq] at h <;> rw [← h.2])
      | (obtain ⟨S, C, rfl⟩ := (hst.getVisitFrequencyOfSite_step h hr).inner; rfl)

theorem Trace.ratio {n : Nat} {evs : List (Event K)} (ht : Trace env (World.new n) evs w) (hu : HopsReturn evs)
    (hh : RatioHalf evs) : 1 / 2 ≤ w.perfRatio := by
  generalize hw0 : (World.new n : World K) = w0 at ht
  induction ht with
  | nil => subst hw0; show (1 / 2 : K) ≤ 1; norm_num
  | @snoc w1 w' evs op res mem' ht h hr ih =>
    obtain ⟨hu1, hu2⟩ := hopsReturn_snoc hu
    subst hw0
    have hh1 : RatioHalf evs := fun ev he => hh ev (List.mem_append_left _ he)
    rcases step_ratio (ht.struct hu1) h hr hu2 with e | ⟨r, rfl, e⟩
    · rw [e]; exact ih hu1 hh1
    · rw [e]; exact hh _ (List.mem_append_right _ (List.mem_singleton_self _)) r rfl

/-! ## Ways -/

theorem pathTime_mono {S : IMap (Site K)} {l l' : List Int} {v x : Int} {t : K} (h : BasinSpec.PathTime mem S l v x t)
    (hl : ∀ i ∈ l, i ∈ l') : BasinSpec.PathTime mem S l' v x t := by
  induction h with
  | start => exact .start
  | hop _ hj r hr ih => exact .hop ih (hl _ hj) r hr

theorem pathTime_mem {S : IMap (Site K)} {l : List Int} {v x : Int} {t : K} (h : BasinSpec.PathTime mem S l v x t)
    (hv : v ∈ l) : x ∈ l := by
  cases h with
  | start => exact hv
  | hop _ hj _ _ => exact hj

theorem pathTime_congr {S S' : IMap (Site K)} {l : List Int}
    (e : ∀ i ∈ l, ∀ j, BasinSpec.rate mem S' i j = BasinSpec.rate mem S i j) {v x : Int} {t : K} (hv : v ∈ l)
    (h : BasinSpec.PathTime mem S l v x t) : BasinSpec.PathTime mem S' l v x t := by
  induction h with
  | start => exact .start
  | hop h hj r hr ih => exact .hop ih hj r ((e _ (pathTime_mem h hv) _).trans hr)

theorem Good.rate_pos (hg : Good mem w) {i j : Int} {r : K} (h : BasinSpec.rate mem w.sites i j = some r) : 0 < r := by
  unfold BasinSpec.rate at h
  obtain ⟨a, ha, rfl⟩ := Option.map_eq_some_iff.1 h
  obtain ⟨s, hs, ha⟩ := Option.bind_eq_some_iff.1 ha
  exact (hg i s hs).2.1 (j, a) (IMap.mem_of_get? ha)

/-- A way that leaves a set contains a hop out of it, which takes no longer than the way. -/
theorem pathTime_cross (hg : Good mem w) {l : List Int} {P : Int → Prop} {v x : Int} {t : K}
    (h : BasinSpec.PathTime mem w.sites l v x t) (hv : v ∈ l) (hp : P v) (hx : ¬ P x) :
    0 ≤ t ∧ ∃ i ∈ l, ∃ j ∈ l, ∃ r, P i ∧ ¬ P j ∧ BasinSpec.rate mem w.sites i j = some r ∧ 1 / r ≤ t := by
  have hnn : ∀ {x t}, BasinSpec.PathTime mem w.sites l v x t → 0 ≤ t := by
    intro x t h
    induction h with
    | start => exact le_refl 0
    | hop h hj r hr ih => exact add_nonneg ih (one_div_nonneg.2 (hg.rate_pos hr).le)
  refine ⟨hnn h, ?_⟩
  induction h with
  | start => exact absurd hp hx
  | @hop i j t h hj r hr ih =>
    by_cases hi : P i
    · exact ⟨i, pathTime_mem h hv, j, hj, r, hi, hx, hr, by linarith [hnn h]⟩
    · obtain ⟨i', hi', j', hj', r', a, b, c, d⟩ := ih hi
      exact ⟨i', hi', j', hj', r', a, b, c, d.trans (by linarith [one_div_nonneg.2 (hg.rate_pos hr).le])⟩

theorem rate_le_exit (hg : Good mem w) {B : List Int} {i j : Int} {r : K} (hi : i ∈ B) (hj : j ∉ B)
    (hr : BasinSpec.rate mem w.sites i j = some r) : r ≤ exitRate mem w B := by
  have hnn : ∀ i, ∀ na ∈ ratesOf w i, 0 ≤ mem na.2 := by
    intro i na h
    unfold ratesOf at h
    split at h
    · cases h
    · next s hs => exact ((hg i s hs).2.1 na h).le
  have hin : ∀ i, 0 ≤ (((ratesOf w i).filter fun na => na.1 ∉ B).map fun na => mem na.2).sum := by
    intro i
    apply List.sum_nonneg
    intro x hx
    obtain ⟨na, hna, rfl⟩ := List.mem_map.1 hx
    exact hnn i na (List.mem_of_mem_filter hna)
  have h1 : (((ratesOf w i).filter fun na => na.1 ∉ B).map fun na => mem na.2).sum ≤ exitRate mem w B := by
    unfold exitRate
    apply List.single_le_sum
    · intro x hx
      obtain ⟨k, -, rfl⟩ := List.mem_map.1 hx
      exact hin k
    · exact List.mem_map.2 ⟨i, hi, rfl⟩
  refine le_trans ?_ h1
  unfold BasinSpec.rate at hr
  obtain ⟨a, ha, rfl⟩ := Option.map_eq_some_iff.1 hr
  obtain ⟨s, hs, ha⟩ := Option.bind_eq_some_iff.1 ha
  apply List.single_le_sum
  · intro x hx
    obtain ⟨na, hna, rfl⟩ := List.mem_map.1 hx
    exact hnn i na (List.mem_of_mem_filter hna)
  · refine List.mem_map.2 ⟨(j, a), List.mem_filter.2 ⟨?_, by simpa using hj⟩, rfl⟩
    unfold ratesOf
    rw [hs]
    exact IMap.mem_of_get? ha

/-! ## Sets of sites that pass the test -/

/-- The set passes the test of the equilibrium condition with performance ratio `ρ`: any two of its sites are connected by a
way inside that takes at most the time `M`, and twice this time the ratio is below the escape time. -/
def Tight (mem : Addr → K) (w : World K) (ρ : K) (S : List Int) : Prop :=
  0 < exitRate mem w S ∧ ∃ M, (∀ u ∈ S, ∀ v ∈ S, u ≠ v → ∃ t ≤ M, BasinSpec.PathTime mem w.sites S u v t) ∧
    2 * M * ρ < 1 / exitRate mem w S

/-- A tight set that leaves another tight set takes longer to cross than the other takes to leave. -/
theorem Tight.leaves (hg : Good mem w) {ρ ρ' : K} {S B : List Int} (hS : Tight mem w ρ S) (hB : Tight mem w ρ' B)
    {p s : Int} (hpS : p ∈ S) (hpB : p ∈ B) (hs : s ∈ S) (hsB : s ∉ B) :
    ∃ t, 0 ≤ t ∧ 1 / exitRate mem w B ≤ t ∧ ∃ M, t ≤ M ∧ 2 * M * ρ < 1 / exitRate mem w S := by
  obtain ⟨-, M, hM, hT⟩ := hS
  obtain ⟨t, ht, hp⟩ := hM p hpS s hs (fun e => hsB (e ▸ hpB))
  obtain ⟨h0, i, hi, j, hj, r, hiB, hjB, hr, hle⟩ := pathTime_cross (P := fun k => k ∈ B) hg hp hpS hpB hsB
  have h1 := rate_le_exit hg hiB hjB hr
  exact ⟨t, h0, (one_div_le_one_div_of_le (hg.rate_pos hr) h1).trans hle, M, ht, hT⟩

/-- Two tight sets with a site in common: one is contained in the other. -/
theorem Tight.nested (hg : Good mem w) {ρ ρ' : K} {S B : List Int} (hS : Tight mem w ρ S) (hB : Tight mem w ρ' B)
    (hρ : 1 / 2 ≤ ρ) (hρ' : 1 / 2 ≤ ρ') {p : Int} (hpS : p ∈ S) (hpB : p ∈ B) :
    (∀ i ∈ S, i ∈ B) ∨ ∀ i ∈ B, i ∈ S := by
  by_contra hcon
  push Not at hcon
  obtain ⟨⟨s, hs, hsB⟩, b, hb, hbS⟩ := hcon
  obtain ⟨t, t0, h1, M, h2, h3⟩ := hS.leaves hg hB hpS hpB hs hsB
  obtain ⟨t', t0', h1', M', h2', h3'⟩ := hB.leaves hg hS hpB hpS hb hbS
  have hM : 0 ≤ M := t0.trans h2
  have hM' : 0 ≤ M' := t0'.trans h2'
  nlinarith [mul_le_mul_of_nonneg_left hρ hM, mul_le_mul_of_nonneg_left hρ' hM']

theorem Tight.congr {ρ : K} {S S' : List Int} (hp : S'.Perm S)
    (e : ∀ i ∈ S, ∀ j, BasinSpec.rate mem w'.sites i j = BasinSpec.rate mem w.sites i j)
    (e' : ∀ i ∈ S, ratesOf w' i = ratesOf w i) (h : Tight mem w ρ S) : Tight mem w' ρ S' := by
  obtain ⟨h1, M, h2, h3⟩ := h
  have hx : exitRate mem w' S' = exitRate mem w S := by
    rw [exitRate_perm hp]
    unfold exitRate
    congr 1
    apply List.map_congr_left
    intro i hi
    rw [e' i hi]
  refine ⟨by rw [hx]; exact h1, M, fun u hu v hv hne => ?_, by rw [hx]; exact h3⟩
  have hu' := hp.mem_iff.1 hu
  obtain ⟨t, ht, hpt⟩ := h2 u hu' v (hp.mem_iff.1 hv) hne
  exact ⟨t, ht, pathTime_mono (pathTime_congr e hu' hpt) fun i hi => hp.mem_iff.2 hi⟩

theorem rates_of_rel {i : Int} (h : (w'.sites.get? i).map (·.neigh) = (w.sites.get? i).map (·.neigh)) :
    ratesOf w' i = ratesOf w i ∧ ∀ j, BasinSpec.rate mem w'.sites i j = BasinSpec.rate mem w.sites i j := by
  constructor
  · unfold ratesOf
    cases e : w.sites.get? i <;> cases e' : w'.sites.get? i <;> rw [e, e'] at h <;> simp_all
  · intro j
    unfold BasinSpec.rate
    cases e : w.sites.get? i <;> cases e' : w'.sites.get? i <;> rw [e, e'] at h <;> simp_all

/-! ## The clusters of a system -/

/-- Clusters and sites agree about who is in which cluster, and every cluster passes the test. -/
structure Solid (mem : Addr → K) (w : World K) : Prop where
  tight : ∀ k x, w.clusters.get? k = some x → ∃ ρ, 1 / 2 ≤ ρ ∧ Tight mem w ρ x.sites.keys
  own : ∀ k x i, w.clusters.get? k = some x → i ∈ x.sites.keys → ∃ s, w.sites.get? i = some s ∧ s.clusterId = k
  exist : ∀ i s, w.sites.get? i = some s → s.clusterId ≠ unassignedId → ∃ x, w.clusters.get? s.clusterId = some x
  small : ∀ k x, w.clusters.get? k = some x → x.sites.length ≤ 5

theorem Keep.neigh (hk : Keep env w w') (i : Int) : (w'.sites.get? i).map (·.neigh) = (w.sites.get? i).map (·.neigh) := by
  cases h : w'.sites.get? i with
  | none => rw [(rel_none (hk.site i)).2 h]
  | some s =>
    obtain ⟨t, ht, htw⟩ := hk.twin h
    rw [ht]
    simp only [Option.map_some, htw.neigh]

theorem Grew.neigh {basin : List Int} {M : K} {order : List Int → List Int} (hk : Grew env mem w w' basin M order) (i : Int) :
    (w'.sites.get? i).map (·.neigh) = (w.sites.get? i).map (·.neigh) := by
  cases h : w'.sites.get? i with
  | none => rw [hk.known.1 h]
  | some s =>
    obtain ⟨t, ht, htw⟩ := hk.twin h
    rw [ht]
    simp only [Option.map_some, htw.neigh]

theorem Tight.congr' {ρ : K} {S S' : List Int} (hp : S'.Perm S)
    (e : ∀ i ∈ S, (w'.sites.get? i).map (·.neigh) = (w.sites.get? i).map (·.neigh)) (h : Tight mem w ρ S) : Tight mem w' ρ S' :=
  h.congr hp (fun i hi => (rates_of_rel (e i hi)).2) fun i hi => (rates_of_rel (mem := mem) (e i hi)).1

theorem Solid.keep (h : Solid mem w) (hk : Keep env w w') : Solid mem w' where
  tight k y hy := by
    obtain ⟨x, hx, hr⟩ := rel_some (hy ▸ hk.cluster k)
    obtain ⟨ρ, h1, h2⟩ := h.tight k x hx
    exact ⟨ρ, h1, h2.congr' (by rw [hr.keys]) fun i _ => hk.neigh i⟩
  own k y i hy hi := by
    obtain ⟨x, hx, hr⟩ := rel_some (hy ▸ hk.cluster k)
    obtain ⟨s, hs, e⟩ := h.own k x i hx (hr.keys ▸ hi)
    obtain ⟨s', hs', hsm⟩ := rel_some' (hs ▸ hk.site i)
    exact ⟨s', hs', hsm.clusterId.trans e⟩
  exist i s hs hne := by
    obtain ⟨t, ht, hsm⟩ := rel_some (hs ▸ hk.site i)
    rw [hsm.clusterId] at hne ⊢
    obtain ⟨x, hx⟩ := h.exist i t ht hne
    obtain ⟨y, hy, -⟩ := rel_some' (hx ▸ hk.cluster t.clusterId)
    exact ⟨y, hy⟩
  small k y hy := by
    obtain ⟨x, hx, hr⟩ := rel_some (hy ▸ hk.cluster k)
    have := congrArg List.length hr.keys
    simp only [IMap.keys, List.length_map] at this
    rw [this]; exact h.small k x hx

theorem Solid.adds (hst : Struct env w) {m : IMap (IMap Addr)} (h : Solid mem w) {mem' : Addr → K}
    (ha : Adds mem' m w w') : Solid mem w' where
  tight k x hx := by
    rw [ha.clusters] at hx
    obtain ⟨ρ, h1, h2⟩ := h.tight k x hx
    refine ⟨ρ, h1, h2.congr' (.refl _) fun i hi => ?_⟩
    obtain ⟨s, hs, -⟩ := h.own k x i hx hi
    rw [hs, ha.old hs]
  own k x i hx hi := by
    rw [ha.clusters] at hx
    obtain ⟨s, hs, e⟩ := h.own k x i hx hi
    exact ⟨s, ha.old hs, e⟩
  exist i s hs hne := by
    rw [ha.clusters]
    rcases ha.sites hs with h' | h'
    · exact h.exist i s h' hne
    · obtain ⟨-, -, sd, hn⟩ := h'
      exact absurd hn.fresh.1 hne
  small k x hx := by
    rw [ha.clusters] at hx
    exact h.small k x hx

/-- The basin that passed the test is tight. -/
theorem tight_basin (hg : Good mem w) {B : List Int} {l : List K} (hρ : 1 / 2 ≤ w.perfRatio)
    (hsat : w.satisfies mem B (maxTime l) = .ok true)
    (hc : ∀ x ∈ B, ∀ y ∈ B, x ≠ y → ∃ t ∈ l, ∃ t' ≤ t, BasinSpec.PathTime mem w.sites B x y t') :
    Tight mem w w.perfRatio B := by
  obtain ⟨res, -, -, h⟩ := satisfies_true (fun i s hs => (hg i s hs).1) hsat
  have hM : 0 ≤ maxTime l := maxTime_nonneg l
  have hle : 0 ≤ 2 * maxTime l * w.perfRatio := mul_nonneg (by linarith) (by linarith)
  rcases h with ⟨-, h⟩ | ⟨h1, h2⟩
  · exact absurd h (not_lt.2 hle)
  · refine ⟨?_, maxTime l, fun u hu v hv hne => ?_, h2⟩
    · exact one_div_pos.1 (hle.trans_lt h2)
    · obtain ⟨t, ht, t', ht', hp⟩ := hc u hu v hv hne
      exact ⟨t', ht'.trans ((maxTime_spec l).1 t ht), hp⟩

theorem unique_one {sc : IMap Int} {k : Int} (hne : sc ≠ []) (h : ∀ x ∈ sc, x.2 = k) : countUniqueClusters sc = 1 := by
  unfold countUniqueClusters
  have h1 : ∀ x ∈ (sc.map Prod.snd).dedup, x = k := by
    intro x hx
    obtain ⟨y, hy, rfl⟩ := List.mem_map.1 (List.mem_dedup.1 hx)
    exact h y hy
  have h2 : (sc.map Prod.snd).dedup ≠ [] := by
    obtain ⟨y, hy⟩ := List.exists_mem_of_ne_nil sc hne
    exact List.ne_nil_of_mem (List.mem_dedup.2 (List.mem_map.2 ⟨y, hy, rfl⟩))
  have h3 := List.nodup_dedup (sc.map Prod.snd)
  match (sc.map Prod.snd).dedup, h1, h2, h3 with
  | [a], _, _, _ => rfl
  | a :: b :: l, h1, _, h3 =>
    have ha := h1 a (by simp)
    have hb := h1 b (by simp)
    rw [ha, hb] at h3
    simp at h3

/-- All basin sites are in the surviving cluster. -/
theorem Merged.basin_sub (hst : Struct env w) {basin : List Int} {fav : Int} {c d : Cluster K} {erased : List Int}
    (h : Merged env w w' basin fav c d erased) : ∀ i ∈ basin, i ∈ d.sites.keys := by
  intro i hi
  obtain ⟨s, hs⟩ := Option.ne_none_iff_exists'.1 (h.known i hi)
  by_cases hu : s.clusterId = unassignedId
  · exact IMap.mem_keys_iff_get?.2 ⟨_, (h.sites i _).2 (.inr (.inl ⟨hi, s, hs, hu, rfl⟩))⟩
  · obtain ⟨-, -, -, hj⟩ := hst.joined i s hs hu
    by_cases hk : s.clusterId = fav
    · obtain ⟨t, ht⟩ := Option.ne_none_iff_exists'.1 (hj c (hk ▸ h.target))
      exact IMap.mem_keys_iff_get?.2 ⟨t, (h.sites i t).2 (.inl ht)⟩
    · have hm := (h.mem s.clusterId).2 ⟨hk, hu, i, hi, s, hs, rfl⟩
      obtain ⟨x, hx⟩ := Option.ne_none_iff_exists'.1 (h.exist _ hm)
      obtain ⟨t, ht⟩ := Option.ne_none_iff_exists'.1 (hj x hx)
      exact IMap.mem_keys_iff_get?.2 ⟨_, (h.sites i _).2 (.inr (.inr ⟨_, hm, x, t, hx, ht, rfl⟩))⟩

/-- A basin that passed the test and is not inside one cluster contains every cluster it touches. -/
theorem Solid.contains (hst : Struct env w) (hg : Good mem w) (h : Solid mem w) {ρ : K} (hρ : 1 / 2 ≤ ρ) {basin : List Int}
    (hne : basin ≠ []) (ht : Tight mem w ρ basin) {sc : IMap Int} (hsc : w.clustersOfSites basin [] = .ok sc)
    (hu : countUniqueClusters sc ≠ 1) {k : Int} {x : Cluster K} (hx : w.clusters.get? k = some x)
    {p : Int} (hp : p ∈ basin) (hpx : p ∈ x.sites.keys) : ∀ i ∈ x.sites.keys, i ∈ basin := by
  obtain ⟨ρ', hρ', htx⟩ := h.tight k x hx
  rcases htx.nested hg ht hρ' hρ hpx hp with h' | h'
  · exact h'
  · exfalso
    apply hu
    obtain ⟨hscw, hget, hknown⟩ := clustersOfSites_ok hst (acc := []) List.nodup_nil hsc
    refine unique_one (k := k) ?_ ?_
    · rintro rfl
      obtain ⟨s, hs, -⟩ := h.own k x p hx hpx
      have := hget p
      rw [if_pos hp, hs] at this
      cases this
    · rintro ⟨i, c⟩ hi
      have h1 := (mem_of_wf_get? hscw).1 hi
      rw [hget] at h1
      split at h1
      · next hb =>
        obtain ⟨s, hs, e⟩ := h.own k x i hx (h' i hb)
        rw [hs] at h1
        cases h1
        exact e
      · cases h1

theorem Solid.grew (hst : Struct env w) (hg : Good mem w) (h : Solid mem w) {ρ : K} (hρ : 1 / 2 ≤ ρ) {basin : List Int} {M : K}
    {order : List Int → List Int} (hne : basin ≠ []) (hnd : basin.Nodup) (hsm : basin.length ≤ 5) (ht : Tight mem w ρ basin)
    (hgr : Grew env mem w w' basin M order) : Solid mem w' := by
  have hst' := hst.grew hgr
  have hcongr : ∀ {ρ S S'}, S'.Perm S → Tight mem w ρ S → Tight mem w' ρ S' := fun hp h => h.congr' hp fun i _ => hgr.neigh i
  cases hgr with
  | created c0 hb hc =>
    have hkeys : ∀ i, i ∈ (w.seedCluster c0).sites.keys ↔ i ∈ basin := by
      intro i
      rw [IMap.mem_keys_iff_get?, hc.sites]
      by_cases hi : i ∈ basin
      · obtain ⟨s, hs, -⟩ := hc.lone i hi
        rw [if_pos hi, hs]; simp [hi]
      · rw [if_neg hi]; simp [hi]
    have hx : w'.clusters.get? w.nextId = some (w.seedCluster c0) := by rw [hc.cluster, if_pos rfl]
    have hperm : ((w.seedCluster c0).sites.keys).Perm basin :=
      (List.perm_ext_iff_of_nodup (hst'.cinv hx).sites hnd).2 hkeys
    refine ⟨?_, ?_, ?_, ?_⟩
    · intro k x hx
      rw [hc.cluster] at hx
      split at hx
      · cases hx; exact ⟨ρ, hρ, hcongr hperm ht⟩
      · obtain ⟨ρ', h1, h2⟩ := h.tight k x hx
        exact ⟨ρ', h1, hcongr (.refl _) h2⟩
    · intro k x i hx hi
      rw [hc.cluster] at hx
      split at hx
      · next e =>
        cases hx
        have hi' := (hkeys i).1 hi
        obtain ⟨s, hs, -⟩ := hc.lone i hi'
        exact ⟨World.member w.nextId s, by rw [hc.site, if_pos hi', hs]; rfl, e.symm⟩
      · obtain ⟨s, hs, e⟩ := h.own k x i hx hi
        refine ⟨s, ?_, e⟩
        rw [hc.site, if_neg, hs]
        intro hi'
        obtain ⟨s', hs', e'⟩ := hc.lone i hi'
        rw [hs] at hs'; cases hs'
        have := (hst.cid k x hx).2.1
        have := unassigned_neg
        omega
    · intro i s hs hne
      rw [hc.site] at hs
      rw [hc.cluster]
      split
      · exact ⟨_, rfl⟩
      · next hk =>
        split at hs
        · obtain ⟨t, -, rfl⟩ := Option.map_eq_some_iff.1 hs
          exact absurd rfl hk
        · exact h.exist i s hs hne
    · intro k x hx
      rw [hc.cluster] at hx
      split at hx
      · cases hx
        have := hperm.length_eq
        simp only [IMap.keys, List.length_map] at this
        omega
      · exact h.small k x hx
  | merged sc fav c d erased hsc hf hu hm hmg =>
    have hin : ∀ k x, w.clusters.get? k = some x → ∀ p ∈ basin, p ∈ x.sites.keys → ∀ i ∈ x.sites.keys, i ∈ basin :=
      fun k x hx p hp hpx => h.contains hst hg hρ hne ht hsc hu hx hp hpx
    have hmem : ∀ i s k x, w.sites.get? i = some s → s.clusterId = k → w.clusters.get? k = some x → i ∈ x.sites.keys := by
      intro i s k x hs hk hx
      have hne : s.clusterId ≠ unassignedId := by
        have := (hst.cid k x hx).2.1
        have := unassigned_neg
        omega
      obtain ⟨t, ht⟩ := Option.ne_none_iff_exists'.1 ((hst.joined i s hs hne).2.2.2 x (hk ▸ hx))
      exact IMap.mem_keys_iff_get?.2 ⟨t, ht⟩
    have hfav : ∀ i ∈ c.sites.keys, i ∈ basin := by
      obtain ⟨i, hi, s, hs, e⟩ := favored_mem hst hsc (hf ▸ hmg.target)
      exact hin fav c hmg.target i hi (hmem i s fav c hs (e.trans hf.symm) hmg.target)
    have her : ∀ k ∈ erased, ∀ x, w.clusters.get? k = some x → ∀ i ∈ x.sites.keys, i ∈ basin := by
      intro k hk x hx
      obtain ⟨-, -, i, hi, s, hs, e⟩ := (hmg.mem k).1 hk
      exact hin k x hx i hi (hmem i s k x hs e hx)
    have hkeys : ∀ i, i ∈ d.sites.keys ↔ i ∈ basin := by
      refine fun i => ⟨fun hi => ?_, hmg.basin_sub hst i⟩
      obtain ⟨s, hs⟩ := IMap.mem_keys_iff_get?.1 hi
      rcases (hmg.sites i s).1 hs with hs | ⟨hb, -⟩ | ⟨k, hk, x, t, hx, ht, -⟩
      · exact hfav i (IMap.mem_keys_iff_get?.2 ⟨s, hs⟩)
      · exact hb
      · exact her k hk x hx i (IMap.mem_keys_iff_get?.2 ⟨t, ht⟩)
    have hx : w'.clusters.get? fav = some d := by rw [hmg.cluster, if_pos rfl]
    have hperm : (d.sites.keys).Perm basin := (List.perm_ext_iff_of_nodup (hst'.cinv hx).sites hnd).2 hkeys
    refine ⟨?_, ?_, ?_, ?_⟩
    · intro k x hx
      rw [hmg.cluster] at hx
      split at hx
      · cases hx; exact ⟨ρ, hρ, hcongr hperm ht⟩
      · split at hx
        · cases hx
        · obtain ⟨ρ', h1, h2⟩ := h.tight k x hx
          exact ⟨ρ', h1, hcongr (.refl _) h2⟩
    · intro k x i hx hi
      rw [hmg.cluster] at hx
      split at hx
      · next e =>
        cases hx
        have hi' := (hkeys i).1 hi
        obtain ⟨s, hs⟩ := Option.ne_none_iff_exists'.1 (hmg.known i hi')
        exact ⟨World.member fav s, by rw [hmg.site, if_pos hi', hs]; rfl, e.symm⟩
      · next hkf =>
        split at hx
        · cases hx
        · next hke =>
          obtain ⟨s, hs, e⟩ := h.own k x i hx hi
          refine ⟨s, ?_, e⟩
          rw [hmg.site, if_neg, hs]
          intro hi'
          refine hke ((hmg.mem k).2 ⟨hkf, ?_, i, hi', s, hs, e⟩)
          have := (hst.cid k x hx).2.1
          have := unassigned_neg
          omega
    · intro i s hs hne
      rw [hmg.site] at hs
      rw [hmg.cluster]
      split
      · exact ⟨_, rfl⟩
      · next hk =>
        split at hs
        · obtain ⟨t, -, rfl⟩ := Option.map_eq_some_iff.1 hs
          exact absurd rfl hk
        · next hib =>
          obtain ⟨x, hx⟩ := h.exist i s hs hne
          rw [if_neg]
          · exact ⟨x, hx⟩
          · intro hke
            exact hib (her _ hke x hx i (hmem i s _ x hs rfl hx))
    · intro k x hx
      rw [hmg.cluster] at hx
      split at hx
      · cases hx
        have := hperm.length_eq
        simp only [IMap.keys, List.length_map] at this
        omega
      · split at hx
        · cases hx
        · exact h.small k x hx

/-- Inside a basin that became part of one cluster, all sites can be reached from each other. -/
theorem basin_conn (hst : Struct env w) (hall : AllSettled mem w') {basin : List Int} {M : K}
    {order : List Int → List Int} (hgr : Grew env mem w w' basin M order) {v : Int} (hv : v ∈ basin)
    (hreach : ∀ x ∈ basin, BasinSpec.Reach mem w.sites basin v x) :
    ∀ x ∈ basin, ∀ y ∈ basin, BasinSpec.Reach mem w.sites basin x y := by
  have key : ∃ k d, w'.clusters.get? k = some d ∧ ∀ i ∈ basin, i ∈ d.sites.keys := by
    cases hgr with
    | created c0 hb hc =>
      refine ⟨w.nextId, _, by rw [hc.cluster, if_pos rfl], fun i hi => ?_⟩
      rw [IMap.mem_keys_iff_get?, hc.sites, if_pos hi]
      obtain ⟨s, hs, -⟩ := hc.lone i hi
      rw [hs]; exact ⟨_, rfl⟩
    | merged sc fav c d erased hsc hf hu hm hmg =>
      exact ⟨fav, d, by rw [hmg.cluster, if_pos rfl], hmg.basin_sub hst⟩
  obtain ⟨k, d, hd, hsub⟩ := key
  have hs := hall k d hd
  intro x hx y hy
  refine reach_trans (reach_back (hreach x hx) hv ?_) (hreach y hy)
  intro i hi j hj
  rw [← hgr.rate_eq i j, ← hgr.rate_eq j i]
  exact hs.back i (hsub i hi) j (hsub j hj)

/-- What a successful attempt leaves. -/
theorem Solid.grained (hst : Struct env w) (htw : Twins w) (hg : Good mem w) (hall : AllSettled mem w) (h : Solid mem w)
    (hρ : 1 / 2 ≤ w.perfRatio) {a : Choices K} {v : Int} {basin : List Int} (hgr : Grained' env mem w w' a v basin)
    (hc : ∀ x ∈ basin, ∀ y ∈ basin, x ≠ y → BasinSpec.Reach mem w.sites basin x y →
      ∃ t ∈ a.times, ∃ t' ≤ t, BasinSpec.PathTime mem w.sites basin x y t') :
    Tight mem w w.perfRatio basin ∧ Solid mem w' := by
  have hne := hgr.nonempty hst
  obtain ⟨hv, hreach⟩ := found_reach hgr.found hne
  have hconn := basin_conn hst (hall.grained hst htw hg hgr) hgr.grew hv hreach
  have ht : Tight mem w w.perfRatio basin := tight_basin hg hρ hgr.sat fun x hx y hy hxy => hc x hx y hy hxy (hconn x hx y hy)
  rcases Basin.C49_basin Explorer.default (by show 1 ≤ 5; decide) a.vis mem w.sites w.clusters v basin hgr.found with
    h' | ⟨h1, h2, -⟩
  · exact absurd h' hne
  · exact ⟨ht, h.grew hst hg hρ hne h1 h2 ht hgr.grew⟩

theorem Trace.solid {n : Nat} {evs : List (Event K)} (ht : Trace env (World.new n) evs w) (hu : HopsReturn evs)
    (hf : RatesFixed mem evs) (hp : RatesPositive mem evs) (hh : RatioHalf evs) (hc : TimesCover evs) : Solid mem w := by
  generalize hw0 : (World.new n : World K) = w0 at ht
  induction ht with
  | nil =>
    subst hw0
    exact ⟨fun k x hx => (by cases hx), fun k x i hx => (by cases hx), fun i s hs => (by cases hs), fun k x hx => (by cases hx)⟩
  | @snoc w1 w' evs op res mem' ht h hr ih =>
    obtain ⟨hu1, hu2⟩ := hopsReturn_snoc hu
    have hf1 : RatesFixed mem evs := fun ev he => hf ev (List.mem_append_left _ he)
    have hp1 : RatesPositive mem evs := fun ev he => hp ev (List.mem_append_left _ he)
    have hh1 : RatioHalf evs := fun ev he => hh ev (List.mem_append_left _ he)
    have hc1 : TimesCover evs := fun ev he => hc ev (List.mem_append_left _ he)
    have hmem : mem' = mem := hf _ (List.mem_append_right _ (List.mem_singleton_self _))
    subst hmem
    subst hw0
    have hst := ht.struct hu1
    obtain ⟨h1, h2⟩ := ht.static hu1
    have hg := ht.good hu1 hf1 hp1
    have ha := ht.settled hu1 hf1 hp1
    have hs := ih hu1 hf1 hp1 hh1 hc1
    rcases step_cases hst h hr hu2 with hk | ⟨m, rfl, hadd⟩ | ⟨wid, k, a, j, w1', w2, w3, basin, rfl, hm, hk, rfl, hgr, rfl⟩
    · exact hs.keep hk
    · exact hs.adds hst hadd
    · have hk2 : Keep env w1 { w1' with iteration := w1'.iteration + 1 } := hk.trans (.of_eq rfl rfl rfl le_rfl)
      have hρ : 1 / 2 ≤ w1'.perfRatio := by
        have : w1'.perfRatio = w1.perfRatio := by obtain ⟨S, C, W, rfl⟩ := hopMove_outer hm; rfl
        rw [this]; exact ht.ratio hu1 hh1
      have := (hs.keep hk2).grained (hst.keep hk2) (h2.keep hst hk2) (hg.keep hk2) (ha.keep hk2) hρ hgr
        (hc _ (List.mem_append_right _ (List.mem_singleton_self _)) wid k a j w1' basin rfl hm hgr.found)
      exact this.2.keep (env := env) (.of_eq rfl rfl rfl le_rfl)

end Mythical.World

namespace Mythical.World
open Mythical SystemSpec
variable {K : Type} [Field K] [LinearOrder K] [IsStrictOrderedRing K] [FloorRing K]
variable {w w' w1 w2 : World K} {env : Env K} {mem : Addr → K}

/-! ## Attempts that pass the test but change nothing -/

/-- The sites of a basin that passed the test and led to no change are all in the same cluster. -/
theorem coarseGrain_inside (hst : Struct env w) {a : Choices K} {v : Int} {basin : List Int}
    (hb : Explorer.default.findBasin a.vis mem w.sites w.clusters v = .ok basin)
    (hs : w.satisfies mem basin (maxTime a.times) = .ok true) (h : coarseGrain env mem w a v = (.ok false, w')) :
    ∃ k, k ≠ unassignedId ∧ ∀ i ∈ basin, ∃ s, w.sites.get? i = some s ∧ s.clusterId = k := by
  unfold coarseGrain at h
  rw [hb] at h
  simp only at h
  rw [hs] at h
  simp only [coarseGrainBasin] at h
  split at h
  · simp at h
  · next sc hsc =>
    obtain ⟨hw, hget, hk⟩ := clustersOfSites_ok hst (acc := []) List.nodup_nil hsc
    split at h
    · split at h <;> simp at h
    · next h1 =>
      split at h
      · split at h <;> simp at h
      · next h2 =>
        have hu1 : countUniqueClusters sc = 1 := by by_contra h3; exact h2 (by simpa using h3)
        have hu := hu1
        unfold countUniqueClusters at hu
        obtain ⟨x, hx⟩ := List.length_eq_one_iff.1 hu
        have hmem : ∀ c, c ∈ sc.map Prod.snd ↔ c = x := by
          intro c; rw [← List.mem_dedup, hx, List.mem_singleton]
        refine ⟨x, ?_, ?_⟩
        · rintro rfl
          apply h1
          refine ⟨hu1, ?_⟩
          cases sc with
          | nil => simp at hx
          | cons y sc =>
            simp only [List.head?_cons, Option.map_some, Option.some.injEq]
            rw [← hmem]; simp
        · intro i hi
          obtain ⟨s, hs'⟩ := Option.ne_none_iff_exists'.1 (hk i hi)
          refine ⟨s, hs', ?_⟩
          rw [← hmem, List.mem_map]
          refine ⟨(i, s.clusterId), ?_, rfl⟩
          rw [mem_of_wf_get? hw, hget, if_pos hi, hs']; rfl

/-! ## Checking the assumption on traversal times -/

/-- Ways of at most `n` hops from `v` through sites of `l`, with their times. -/
def ways (mem : Addr → K) (sites : IMap (Site K)) (l : List Int) (v : Int) : Nat → List (Int × K)
  | 0 => [(v, 0)]
  | n + 1 => ways mem sites l v n ++ (ways mem sites l v n).flatMap fun it =>
      l.filterMap fun j => (BasinSpec.rate mem sites it.1 j).map fun r => (j, it.2 + 1 / r)

theorem ways_path {sites : IMap (Site K)} {l : List Int} {v : Int} {n : Nat} {x : Int} {t : K} (h : (x, t) ∈ ways mem sites l v n) :
    BasinSpec.PathTime mem sites l v x t := by
  induction n generalizing x t with
  | zero => simp only [ways, List.mem_singleton, Prod.mk.injEq] at h; obtain ⟨rfl, rfl⟩ := h; exact .start
  | succ n ih =>
    rcases List.mem_append.1 h with h | h
    · exact ih h
    · obtain ⟨⟨i, s⟩, hi, h⟩ := List.mem_flatMap.1 h
      obtain ⟨j, hj, h⟩ := List.mem_filterMap.1 h
      obtain ⟨r, hr, h⟩ := Option.map_eq_some_iff.1 h
      simp only [Prod.mk.injEq] at h
      obtain ⟨rfl, rfl⟩ := h
      exact .hop (ih hi) hj r hr

/-- The times given for an event are large enough, by computation. -/
def coverB (ev : Event K) : Bool :=
  match ev.op with
  | .hop wid h a =>
    match ev.pre.hopMove wid h a with
    | .error _ => true
    | .ok (v, w1) =>
      match Explorer.default.findBasin a.vis ev.mem w1.sites w1.clusters v with
      | .error _ => true
      | .ok B => B.all fun x => B.all fun y => decide (x = y) ||
          a.times.any fun t => (ways ev.mem w1.sites B x 3).any fun yt => decide (yt.1 = y) && decide (yt.2 ≤ t)
  | _ => true

theorem timesCover_of {evs : List (Event K)} (h : evs.all coverB = true) : TimesCover evs := by
  intro ev he wid k a v w1 B hop hm hb x hx y hy hxy _
  have h1 := List.all_eq_true.1 h ev he
  unfold coverB at h1
  rw [hop] at h1
  simp only at h1
  rw [hm] at h1
  simp only at h1
  rw [hb] at h1
  simp only at h1
  have h2 := List.all_eq_true.1 (List.all_eq_true.1 h1 x hx) y hy
  simp only [hxy, decide_false, Bool.false_or, List.any_eq_true, Bool.and_eq_true, decide_eq_true_eq] at h2
  obtain ⟨t, ht, ⟨z, s⟩, hz, rfl, hs⟩ := h2
  exact ⟨t, ht, s, hs, ways_path hz⟩

/-- The performance ratio is never set. -/
def isRatio : Op K → Bool
  | .setPerformanceRatio _ => true
  | _ => false

theorem ratioHalf_of {evs : List (Event K)} (h : evs.all (fun ev => !isRatio ev.op) = true) : RatioHalf evs := by
  intro ev he r hop
  have := List.all_eq_true.1 h ev he
  rw [hop] at this
  cases this

end Mythical.World
