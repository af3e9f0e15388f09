import Verif.Lemmas.ClusterTables

/-! # Lemmas about the cluster: everything an update computes, in terms of the rates -/

set_option linter.unusedSectionVars false

namespace Mythical.Cluster
open Mythical ClusterSpec
variable {K : Type} [Field K] [LinearOrder K] [IsStrictOrderedRing K] [FloorRing K]
variable {env : Env K} {mem : Addr → K} {c c' : Cluster K} {freqs : IMap Int}

theorem Rebuilt.ne_nil (hr : Rebuilt env mem freqs c c') : c.sites ≠ [] := by
  have := hr.size
  rw [hr.sites] at this
  intro h
  rw [h] at this
  simp at this

theorem Rebuilt.dist (hr : Rebuilt env mem freqs c c') (hs : Sound mem c) (hm : Mutual mem c) (hp : ProbSub c) :
    Dist c' := by
  have h := solveProb_dist hs hm hp hr.ne_nil hr.solved
  have hi : ids c' = ids c := ids_congr hr.sites
  refine ⟨⟨h.keys.1, fun k => ?_⟩, fun i hi' => ?_, ?_⟩
  · rw [hr.sites]; exact h.keys.2 k
  · rw [hi] at hi'; exact h.pos i hi'
  · rw [hi]; exact h.one

theorem sumRatesOff_pos (hs : Sound mem c) (hx : HasExit mem c) : 0 < c.sumRatesOff mem := by
  rw [sumRatesOff_eq hs]
  obtain ⟨i, hi, j, hj, hr⟩ := hx
  exact Finset.sum_pos' (fun k _ => hs.exitRate_nonneg k) ⟨i, hi, (hs.exitRate_pos_iff hi).2 ⟨j, hj, hr⟩⟩

/-- A cluster whose escape time constant has been computed has an exit. -/
theorem Rebuilt.hasExit (hr : Rebuilt env mem freqs c c') (hs : Sound mem c') (ht : c'.tau ≠ none) : HasExit mem c' := by
  rcases hr.tau with ⟨-, h, -⟩ | ⟨h, -, -⟩
  · exact absurd h ht
  obtain ⟨⟨i, l⟩, rest, e⟩ := List.exists_cons_of_ne_nil h
  have h0 := sumEscape_at0 (i := i) hs
  rw [e] at h0
  simp only [List.map_cons, IMap.get?_cons, if_true] at h0
  split at h0
  · next hi =>
    obtain ⟨j, hj, hr⟩ := (hs.exitRate_pos_iff hi.1).1 (lt_of_le_of_ne (hs.exitRate_nonneg i) hi.2.symm)
    exact ⟨i, hi.1, j, hj, hr⟩
  · cases h0

/-- The escape time constant is computed if and only if the cluster has an exit. -/
theorem Rebuilt.tau_none_iff (hr : Rebuilt env mem freqs c c') (hs : Sound mem c') : c'.tau = none ↔ ¬ HasExit mem c' := by
  refine ⟨fun h hx => ?_, fun h => by by_contra hn; exact h (hr.hasExit hs hn)⟩
  rcases hr.tau with ⟨h1, -, -⟩ | ⟨-, h1, -⟩
  · exact ratesToNeighbors_ne_nil hs hx h1
  · rw [h] at h1; cases h1

/-- A table of hop targets with their probabilities: `w` says the probabilities of the elements of `S`. -/
structure Table (l : List (Int × K)) (S : Finset Int) (w : Int → K) : Prop where
  wf : IMap.WF l
  keys : ∀ k, k ∈ IMap.keys l ↔ k ∈ S
  get : ∀ k ∈ S, IMap.get? l k = some (w k)
  pos : ∀ np ∈ l, 0 < np.2
  one : (l.map Prod.snd).sum = 1

theorem table_of_perm {l m : List (Int × K)} {S : Finset Int} {w : Int → K} (hl : l.Perm m) (hm : IMap.WF m)
    (hk : ∀ k, k ∈ IMap.keys m ↔ k ∈ S) (hg : ∀ k ∈ S, IMap.get? m k = some (w k)) (hpos : ∀ k ∈ S, 0 < w k)
    (h1 : ∑ k ∈ S, w k = 1) : Table l S w := by
  have hwl := map_wf_of_perm hl hm
  have hkl : ∀ k, k ∈ IMap.keys l ↔ k ∈ S := fun k => (keys_of_perm hl k).trans (hk k)
  have hgl : ∀ k ∈ S, IMap.get? l k = some (w k) := fun k hkS => by rw [IMap.get?_of_perm hwl hl, hg k hkS]
  refine ⟨hwl, hkl, hgl, ?_, ?_⟩
  · rintro ⟨k, p⟩ hnp
    have hkS := (hkl k).1 (IMap.mem_keys_of_mem hnp)
    have := IMap.get?_of_mem hwl hnp
    rw [hgl k hkS] at this
    cases this
    exact hpos k hkS
  · rw [← h1, ← IMap.sumVals_eq, IMap.sumVals_keys hwl]
    have : (IMap.keys l).toFinset = S := by ext k; rw [List.mem_toFinset]; exact hkl k
    rw [this]
    exact Finset.sum_congr rfl fun k hk => IMap.at0_of_get? (hgl k hk)

/-- The weight of site `i` when a walker hops inside the cluster. -/
def inWeight (mem : Addr → K) (c : Cluster K) (i : Int) : K :=
  c.probOn.at0 i * siteTime mem c i / ∑ k ∈ ids c, c.probOn.at0 k * siteTime mem c k

/-- The weight of exit `n` when a walker leaves the cluster. -/
def exitWeight (mem : Addr → K) (c : Cluster K) (n : Int) : K :=
  (∑ i ∈ ids c, hopProb mem c i n * c.probOn.at0 i) / leak mem c

theorem Dist.ids_nonempty (hd : Dist c) : (ids c).Nonempty := by
  by_contra h
  rw [Finset.not_nonempty_iff_eq_empty] at h
  have := hd.one
  rw [h, Finset.sum_empty] at this
  exact zero_ne_one this

theorem sum_time_pos (hs : Sound mem c) (hd : Dist c) : 0 < ∑ k ∈ ids c, c.probOn.at0 k * siteTime mem c k :=
  Finset.sum_pos (fun k hk => mul_pos (hd.pos k hk) (hs.siteTime_pos hk)) hd.ids_nonempty

theorem internalVals_sum (hs : Sound mem c) (hd : Dist c) :
    IMap.sumVals (c.probOn.map fun ip => (ip.1, ip.2 * (c.siteAt ip.1).tau)) =
      ∑ k ∈ ids c, c.probOn.at0 k * siteTime mem c k := by
  rw [IMap.sumVals_keys (IMap.wf_map hd.keys.1 _), IMap.keys_map, hd.keys.toFinset]
  apply Finset.sum_congr rfl
  intro i hi
  rw [IMap.at0_map, IMap.get?_of_at0 ((hd.keys.2 i).2 (List.mem_toFinset.1 hi))]
  simp only [Option.map_some, Option.getD_some]
  rw [hs.siteAt_tau hi]

theorem Rebuilt.internal (hr : Rebuilt env mem freqs c c') (hs : Sound mem c') (hd : Dist c') :
    Table c'.probInternal (ids c') (inWeight mem c') := by
  rw [hr.probInternal]
  apply table_of_perm (env.sort.perm _)
  · exact IMap.wf_map hd.keys.1 _
  · intro k
    rw [IMap.keys_map, hd.keys.2]
    unfold ids; rw [List.mem_toFinset]
  · intro k hk
    rw [IMap.get?_map, IMap.get?_of_at0 ((hd.keys.2 k).2 (List.mem_toFinset.1 hk))]
    simp only [Option.map_some]
    rw [hs.siteAt_tau hk, internalVals_sum hs hd]
    rfl
  · intro k hk
    exact div_pos (mul_pos (hd.pos k hk) (hs.siteTime_pos hk)) (sum_time_pos hs hd)
  · unfold inWeight
    rw [← Finset.sum_div]
    exact div_self (sum_time_pos hs hd).ne'

theorem Rebuilt.exit (hr : Rebuilt env mem freqs c c') (hs : Sound mem c') (hd : Dist c') (hx : HasExit mem c') :
    Table c'.probNeigh (exits c') (exitWeight mem c') := by
  have hl := leak_pos hs hd hx
  obtain ⟨temp, h1, h2, h3⟩ := hr.probNeigh
  obtain ⟨hw, hk, hv⟩ := exitTable hs
  rw [hopNeighTemp_eq hs] at h1
  cases h1
  have hnot : ∀ k ∈ exits c', k ∉ ids c' := fun k hk => (hs.mem_exits.1 hk).1
  have hsum : IMap.sumVals (addAll [] (c'.sites.flatMap fun is => exitTerms mem c' is.1 is.2)) = leak mem c' := by
    rw [IMap.sumVals_keys hw]
    have : (IMap.keys (addAll [] (c'.sites.flatMap fun is => exitTerms mem c' is.1 is.2))).toFinset = exits c' := by
      ext k; rw [List.mem_toFinset]; exact hk k
    rw [this, Finset.sum_congr rfl fun k hk => hv k (hnot k hk)]
    exact sum_exitTable mem c'
  rw [h3]
  apply table_of_perm (env.sort.perm _)
  · exact IMap.wf_map hw _
  · intro k; rw [IMap.keys_map]; exact hk k
  · intro k hkS
    rw [IMap.get?_map, IMap.get?_of_at0 ((hk k).2 hkS), hv k (hnot k hkS), hsum]
    simp only [Option.map_some]
    unfold exitWeight
    rw [mul_one_div]
  · intro k hkS
    obtain ⟨hni, i, hi, hri⟩ := hs.mem_exits.1 hkS
    refine div_pos (Finset.sum_pos' (fun j hj => mul_nonneg (hs.hopProb_nonneg j k) (hd.pos j hj).le) ⟨i, hi, ?_⟩) hl
    exact mul_pos ((hs.hopProb_pos_iff hi k).2 hri) (hd.pos i hi)
  · unfold exitWeight
    rw [← Finset.sum_div, sum_exitTable]
    exact div_self hl.ne'

/-! ## Time constant -/

/-- The probability that the next hop of a walker inside the cluster stays inside. -/
def stay (mem : Addr → K) (c : Cluster K) : K :=
  ∑ i ∈ ids c, c.probOn.at0 i * siteTime mem c i * inRate mem c i

theorem stay_eq (mem : Addr → K) (c : Cluster K) :
    stay mem c = ∑ i ∈ ids c, inflow mem c (fun n => c.probOn.at0 n) i := (sum_inflow _).symm

theorem foldl_hopBetween {hb : IMap K} (hw : hb.WF) (S : K) (m : IMap K) (k : Int) :
    IMap.get? (hb.foldl (fun m ib => IMap.set m ib.1 (IMap.at0 m ib.1 / S)) m) k =
      if k ∈ hb.keys then some (m.at0 k / S) else m.get? k := by
  induction hb generalizing m with
  | nil => simp [IMap.keys]
  | cons x hb ih =>
    obtain ⟨hx, hw'⟩ := IMap.wf_cons.1 hw
    rw [List.foldl_cons, ih hw', IMap.at0_set, IMap.get?_set, IMap.keys_cons]
    by_cases hk : x.1 = k
    · subst hk
      rw [if_neg hx, if_pos rfl, if_pos (by simp)]
    · rw [if_neg hk, if_neg hk]
      by_cases hm : k ∈ IMap.keys hb
      · rw [if_pos hm, if_pos (by simp [hm])]
      · rw [if_neg hm, if_neg (by simp [hm, Ne.symm hk])]

theorem wf_foldl_hopBetween {hb : IMap K} (S : K) {m : IMap K} (h : m.WF) :
    IMap.WF (hb.foldl (fun m ib => IMap.set m ib.1 (IMap.at0 m ib.1 / S)) m) := by
  induction hb generalizing m with
  | nil => exact h
  | cons x hb ih => exact ih (h.set _ _)

theorem hopBetween_get (hs : Sound mem c) (i : Int) :
    IMap.get? ((c.ratesInternal mem).map fun ir =>
      (ir.1, IMap.sumVals ir.2 * (c.siteAt ir.1).tau * c.probOn.at0 ir.1)) i =
      if i ∈ ids c ∧ inRate mem c i ≠ 0 then some (c.probOn.at0 i * siteTime mem c i * inRate mem c i) else none := by
  have h := sumInternal_at0 (i := i) hs
  rw [IMap.get?_map] at h ⊢
  split at h
  · next hi =>
    cases hg : IMap.get? (c.ratesInternal mem) i with
    | none => rw [hg] at h; cases h
    | some r =>
      rw [hg] at h
      simp only [Option.map_some, Option.some.injEq] at h ⊢
      rw [if_pos hi, h, hs.siteAt_tau hi.1]
      congr 1; ring
  · next hi =>
    rw [if_neg hi]
    cases hg : IMap.get? (c.ratesInternal mem) i with
    | none => rfl
    | some r => rw [hg] at h; cases h

theorem hopBetween_sum (hs : Sound mem c) :
    IMap.sumVals ((c.ratesInternal mem).map fun ir =>
      (ir.1, IMap.sumVals ir.2 * (c.siteAt ir.1).tau * c.probOn.at0 ir.1)) = stay mem c := by
  rw [IMap.sumVals_keys (IMap.wf_map (wf_ratesInternal hs.wf) _)]
  have hval : ∀ i ∈ ids c, IMap.at0 ((c.ratesInternal mem).map fun ir =>
      (ir.1, IMap.sumVals ir.2 * (c.siteAt ir.1).tau * c.probOn.at0 ir.1)) i =
      c.probOn.at0 i * siteTime mem c i * inRate mem c i := by
    intro i hi
    rw [IMap.at0_def (List.map _ _), hopBetween_get hs]
    by_cases hz : inRate mem c i = 0
    · rw [if_neg (fun hh => hh.2 hz), hz]; simp
    · rw [if_pos ⟨hi, hz⟩]; rfl
  unfold stay
  rw [← Finset.sum_congr rfl hval]
  apply Finset.sum_subset
  · intro i hi
    rw [List.mem_toFinset, IMap.mem_keys_iff_get?] at hi
    obtain ⟨v, hv⟩ := hi
    rw [hopBetween_get hs] at hv
    split at hv
    · next h => exact h.1
    · cases hv
  · intro i _ hni
    rw [List.mem_toFinset] at hni
    exact IMap.at0_of_not_mem hni

theorem foldl_tau (m : IMap K) (f : Int → K) (a : K) :
    m.foldl (fun t ip => if f ip.1 > 0 then t + 1 / f ip.1 * ip.2 else t) a =
      a + (m.map fun ip => if f ip.1 > 0 then 1 / f ip.1 * ip.2 else 0).sum := by
  induction m generalizing a with
  | nil => simp
  | cons x m ih =>
    rw [List.foldl_cons, ih, List.map_cons, List.sum_cons]
    split <;> ring

/-- The numbers from which `calculateProbabilityHopOffInternalSite_` normalises. -/
theorem raw_sum (hs : Sound mem c) (hd : Dist c)
    (hse : ∀ i ∈ ids c, IMap.at0 c.sumEscape i = exitRate mem c i) (off st : K) :
    IMap.sumVals (c.probOn.map fun ip => (ip.1, ip.2 * c.sumEscape.at0 ip.1 / off * (c.siteAt ip.1).tau / st)) =
      leak mem c / (off * st) := by
  rw [IMap.sumVals_keys (IMap.wf_map hd.keys.1 _), IMap.keys_map, hd.keys.toFinset]
  unfold leak
  rw [Finset.sum_div]
  apply Finset.sum_congr rfl
  intro i hi
  rw [IMap.at0_map, IMap.get?_of_at0 ((hd.keys.2 i).2 (List.mem_toFinset.1 hi))]
  simp only [Option.map_some, Option.getD_some]
  rw [hs.siteAt_tau hi, hse i hi, div_mul_eq_mul_div, div_div]
  congr 1; ring

theorem Rebuilt.sumEscape_at0 (hr : Rebuilt env mem freqs c c') (hs : Sound mem c') :
    ∀ i ∈ ids c', IMap.at0 c'.sumEscape i = exitRate mem c' i := by
  intro i hi
  unfold IMap.at0
  rw [hr.sumEscape, Cluster.sumEscape_at0 hs]
  by_cases hz : exitRate mem c' i = 0
  · rw [if_neg (fun hh => hh.2 hz), hz]; rfl
  · rw [if_pos ⟨hi, hz⟩]; rfl

/-- The time constant that the update computes. -/
theorem Rebuilt.tau_eq (hr : Rebuilt env mem freqs c c') (hs : Sound mem c') (hd : Dist c') (hl : Linked mem c')
    (hx : HasExit mem c') :
    c'.tau = some ((∑ i ∈ ids c', if 0 < exitRate mem c' i then c'.probOn.at0 i * siteTime mem c' i else 0) /
      (leak mem c' * stay mem c')) ∧
    c'.timeInc = c'.tau.map (· / c'.resolution) := by
  have hlk := leak_pos hs hd hx
  have hin : ∀ i ∈ ids c', inRate mem c' i ≠ 0 := fun i hi => (hs.inRate_pos_iff.2 (hl i hi)).ne'
  rcases hr.tau with ⟨h1, -, -⟩ | ⟨-, h1, h2⟩
  · exact absurd h1 (ratesToNeighbors_ne_nil hs hx)
  refine ⟨?_, h2⟩
  rw [h1]
  congr 1
  have hse := hr.sumEscape_at0 hs
  have hoff : c'.sumRatesOff mem ≠ 0 := (sumRatesOff_pos hs hx).ne'
  obtain ⟨hne, hho⟩ := hr.hopOff hoff
  have hst := hr.sumTau hoff
  generalize c'.sumRatesOff mem = off at hne hho hoff
  generalize c'.probOn.foldl (fun t ip => t + (c'.siteAt ip.1).tau) 0 = st at hne hho hst
  rw [raw_sum hs hd hse] at hho
  have hbk : ∀ i, i ∈ c'.hopBetween.keys ↔ i ∈ ids c' := by
    intro i
    rw [hr.hopBetween, IMap.mem_keys_iff_get?]
    rw [hopBetween_get hs]
    constructor
    · rintro ⟨v, hv⟩
      split at hv
      · next h => exact h.1
      · cases hv
    · intro hi; exact ⟨_, if_pos ⟨hi, hin i hi⟩⟩
  have hbw : c'.hopBetween.WF := by rw [hr.hopBetween]; exact IMap.wf_map (wf_ratesInternal hs.wf) _
  have hbs : IMap.sumVals c'.hopBetween = stay mem c' := by rw [hr.hopBetween]; exact hopBetween_sum hs
  rw [hbs] at hho
  have hwf : IMap.WF c'.hopOff := by
    rw [hho]
    apply wf_foldl_hopBetween
    exact IMap.wf_map (IMap.wf_map hd.keys.1 _) _
  have hget : ∀ i ∈ ids c', IMap.get? c'.hopOff i =
      some (c'.probOn.at0 i * exitRate mem c' i * siteTime mem c' i / (leak mem c' * stay mem c')) := by
    intro i hi
    rw [hho, foldl_hopBetween hbw, if_pos ((hbk i).2 hi)]
    congr 1
    rw [IMap.at0_map, IMap.get?_map, IMap.get?_of_at0 ((hd.keys.2 i).2 (List.mem_toFinset.1 hi))]
    simp only [Option.map_some, Option.getD_some]
    rw [hs.siteAt_tau hi, hse i hi]
    field_simp
  have hkeys : (IMap.keys c'.hopOff).toFinset = ids c' := by
    ext i
    rw [List.mem_toFinset, IMap.mem_keys_iff_get?]
    constructor
    · rintro ⟨v, hv⟩
      rw [hho, foldl_hopBetween hbw] at hv
      split at hv
      · next h => exact (hbk i).1 h
      · have := IMap.mem_keys_iff_get?.2 ⟨v, hv⟩
        rw [IMap.keys_map, IMap.keys_map] at this
        exact List.mem_toFinset.2 ((hd.keys.2 i).1 this)
    · intro hi; exact ⟨_, hget i hi⟩
  rw [foldl_tau, zero_add, Finset.sum_div,
    IMap.sum_map_keys hwf (fun i v => if c'.sumEscape.at0 i > 0 then 1 / c'.sumEscape.at0 i * v else 0)
      (fun i => (if 0 < exitRate mem c' i then c'.probOn.at0 i * siteTime mem c' i else 0) /
        (leak mem c' * stay mem c')), hkeys]
  intro i v hiv
  have hi : i ∈ ids c' := by rw [← hkeys, List.mem_toFinset]; exact IMap.mem_keys_of_mem hiv
  have := IMap.get?_of_mem hwf hiv
  rw [hget i hi] at this
  cases this
  rw [hse i hi]
  split
  · next hp =>
    field_simp
  · rw [zero_div]

end Mythical.Cluster
