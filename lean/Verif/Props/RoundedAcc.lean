import Verif.Lemmas.RoundedEnd
import Verif.Props.RoundedIter

/-! # Property C97: how far the occupation probabilities in rounded arithmetic are from those without rounding -/

set_option linter.unusedSectionVars false

namespace Mythical
open RoundSpec Site SiteSpec ClusterSpec
variable {K : Type} [Field K] [LinearOrder K] [IsStrictOrderedRing K] [FloorRing K]
variable {fl : K → K} {ε : K} {c : Cluster K} {mem : Addr → K} {d : Nat} {θ : K}

theorem sum_filter_mul (l : List (Int × Addr)) (P : Int → Bool) :
    (l.map fun na => mem na.2 * (if P na.1 = true then 1 else 0)).sum = ((l.filter fun na => P na.1).map fun na => mem na.2).sum := by
  induction l with
  | nil => rfl
  | cons x l ih =>
    rw [List.map_cons, List.sum_cons, List.filter_cons, ih]
    by_cases h : P x.1 = true
    · rw [if_pos h, if_pos h, List.map_cons, List.sum_cons, mul_one]
    · rw [if_neg h, if_neg h, mul_zero, zero_add]

/-- The rates inside as the sum over the neighbours that are inside. -/
theorem inRate_list {i : Int} {s : Site K} (h : c.sites.get? i = some s) (hw : s.neigh.WF) :
    inRate mem c i = ((s.neigh.filter fun na => na.1 ∈ c.sites.keys).map fun na => mem na.2).sum := by
  have e := Cluster.sum_neigh_eq (mem := mem) h hw (reach c ∪ ids c) (fun j hj => Finset.mem_union_left _ (Cluster.neigh_mem_reach h hj))
    (fun j => if decide (j ∈ c.sites.keys) = true then 1 else 0)
  rw [← sum_filter_mul (mem := mem) s.neigh (fun j => decide (j ∈ c.sites.keys)), ← e]
  unfold inRate
  symm
  rw [← Finset.sum_subset (Finset.subset_union_right : ids c ⊆ reach c ∪ ids c)]
  · refine Finset.sum_congr rfl fun j hj => ?_
    have : j ∈ c.sites.keys := by unfold ids at hj; exact List.mem_toFinset.1 hj
    simp [this]
  · intro j _ hj
    have : j ∉ c.sites.keys := by unfold ids at hj; exact fun q => hj (List.mem_toFinset.2 q)
    simp [this]

theorem RoundSpec.IslandAt.fresh (I : IslandAt fl mem c d θ) {is : Int × Site K} (his : is ∈ c.sites) :
    Rounded.FreshR fl mem is.2 ∧ is.2.neigh.WF := by
  obtain ⟨ops, o, s, hv, hrun, hp, hn, ht⟩ := I.made is his
  obtain ⟨F, hw, -⟩ := rounded_after hv hrun
  have e : Rounded.sumRates fl mem is.2 = Rounded.sumRates fl mem s := by unfold Rounded.sumRates; rw [hn]
  refine ⟨⟨by rw [e]; exact F.sum, by rw [e, ht]; exact F.tau, by rw [e, hp, hn]; exact F.perm⟩, by rw [hn]; exact hw⟩

theorem RoundSpec.IslandAt.outRate (I : IslandAt fl mem c d θ) {is : Int × Site K} (his : is ∈ c.sites) :
    outRate mem c is.1 = (is.2.neigh.map fun na => mem na.2).sum := by
  rw [Cluster.outRate_eq (IMap.get?_of_mem I.wf his) (I.fresh his).2, Site.sumRates_eq]

theorem RoundSpec.IslandAt.outRate_pos (I : IslandAt fl mem c d θ) {is : Int × Site K} (his : is ∈ c.sites) :
    0 < ClusterSpec.outRate mem c is.1 := by
  have F := (I.fresh his).1
  rw [I.outRate his, ← Site.sumRates_eq]
  refine Site.sumRates_pos (I.pos is his) fun e => F.sum ?_
  unfold Rounded.sumRates; rw [e]; rfl

theorem RoundSpec.IslandAt.island (I : IslandAt fl mem c d θ) : Island fl c d θ := by
  refine ⟨I.wf, fun is his => ?_, I.both, I.deg⟩
  obtain ⟨ops, o, s, hv, hrun, hp, hn, ht⟩ := I.made is his
  refine ⟨ops, mem, o, s, hv, hrun, hp, hn, I.pos is his, ?_⟩
  have := I.inside is.1 (List.mem_toFinset.2 (List.mem_map.2 ⟨is, his, rfl⟩))
  rwa [I.outRate his, inRate_list (IMap.get?_of_mem I.wf his) (I.fresh his).2] at this

theorem RoundSpec.IslandAt.theta (I : IslandAt fl mem c d θ) (hne : c.sites ≠ []) : θ ≤ 1 := by
  obtain ⟨is, his⟩ := List.exists_mem_of_ne_nil _ hne
  have h1 := I.inside is.1 (List.mem_toFinset.2 (List.mem_map.2 ⟨is, his, rfl⟩))
  have h2 := I.outRate_pos his
  have h3 : inRate mem c is.1 ≤ ClusterSpec.outRate mem c is.1 := by
    rw [I.outRate his, inRate_list (IMap.get?_of_mem I.wf his) (I.fresh his).2]
    refine List.Sublist.sum_le_sum (List.Sublist.map _ List.filter_sublist) ?_
    intro x hx
    obtain ⟨na, hna, rfl⟩ := List.mem_map.1 hx
    exact (I.pos is his na hna).le
  by_contra hlt
  push Not at hlt
  nlinarith

/-- The stored probabilities against those of the rates. -/
theorem RoundSpec.IslandAt.stored_rel (R : Rounding fl ε) (h0 : 0 ≤ ε) (h1 : ε < 1) (I : IslandAt fl mem c d θ)
    {is : Int × Site K} (his : is ∈ c.sites) {j : Int} (hj : j ∈ is.2.neigh.keys) :
    Rounded.Rel ε (d + 1) (hopProb mem c is.1 j) (stored is.2 j) := by
  obtain ⟨F, hw⟩ := I.fresh his
  obtain ⟨na, hna, rfl⟩ := List.mem_map.1 hj
  have := (Rounded.FreshR.stored h0 h1 R F hw (I.pos is his) na hna).2
  unfold hopProb
  rw [I.outRate his, Cluster.rate_of_site (IMap.get?_of_mem I.wf his), IMap.get?_of_mem hw hna]
  exact this.mono h0 h1.le (Nat.add_le_add_right (I.deg is his) 1)

/-- The stored time constants against those of the rates. -/
theorem RoundSpec.IslandAt.tau_rel (R : Rounding fl ε) (h0 : 0 ≤ ε) (h1 : ε < 1) (I : IslandAt fl mem c d θ)
    {is : Int × Site K} (his : is ∈ c.sites) : Rounded.Rel ε (d + 1) (siteTime mem c is.1) is.2.tau := by
  obtain ⟨F, hw⟩ := I.fresh his
  have hp := I.outRate_pos his
  have r := Rounded.Rel.total h0 h1.le R (l := is.2.neigh.map fun na => mem na.2) (by
    intro x hx; obtain ⟨nb, hnb, rfl⟩ := List.mem_map.1 hx; exact (I.pos is his nb hnb).le)
  rw [← Rounded.sumRates_total, ← I.outRate his, List.length_map] at r
  rw [F.tau]
  have q := ((Rounded.Rel.refl h0 h1.le (zero_le_one' K)).div h0 h1 r hp).rnd h0 h1 R
  unfold siteTime
  exact q.mono h0 h1.le (by have := I.deg is his; omega)

/-- The probabilities after the rounds, in terms of factors `1 - η`. -/
theorem RoundSpec.IslandAt.rounds_rel (R : Rounding fl ε) (h0 : 0 ≤ ε) (I : IslandAt fl mem c d θ)
    (hne : c.sites ≠ []) (hpw : c.probOn.WF) (hpk : ∀ k ∈ c.probOn.keys, k ∈ c.sites.keys) (hθ : 0 < θ) {η : K}
    (hη : η = 180 * ((4 * d + c.sites.length + 3 : Nat) * ε / θ)) (hη1 : η < 1) (n : Nat) :
    ∃ c', Rounded.solveProb fl n c = .ok c' ∧ c' = { c with probOn := c'.probOn } ∧
      ∀ i ∈ ids c, Rounded.Rel η (5 * 2 ^ n - 4) (rounds mem c n i) (c'.probOn.at0 i) := by
  have hθ1 := I.theta hne
  have hd0 : (0 : K) ≤ d := Nat.cast_nonneg _
  have hk1 : (1 : K) ≤ c.sites.length := by exact_mod_cast List.length_pos_of_ne_nil hne
  have hde : 0 ≤ (d : K) * ε := mul_nonneg hd0 h0
  have hke : ε ≤ (c.sites.length : K) * ε := by nlinarith
  set Z : K := (4 * d + c.sites.length + 3 : Nat) * ε with hZ
  have hZe : Z = 4 * (d * ε) + c.sites.length * ε + 3 * ε := by rw [hZ]; push_cast; ring
  have hZ0 : 0 ≤ Z := by rw [hZ]; positivity
  have hZθ : Z ≤ Z / θ := by rw [le_div_iff₀ hθ]; nlinarith
  have h1 : ε < 1 := by linarith
  have hη0 : 0 ≤ η := by rw [hη]; positivity
  have B := I.island.basin R h0 hθ.le (by push_cast; linarith)
  have O := Rounded.initProb_occ h0 h1 R I.wf hpw hpk hne
  have B' : Basin (Rounded.initProb fl c) d (2 * ((d + 1 : Nat) * ε)) (θ / 2) := Rounded.Basin_probOn B _
  have hw90 : 90 * (2 * (Z / θ)) = η := by rw [hη]; ring
  have T : Rounded.Tabled (90 * (2 * (Z / θ))) mem (Rounded.initProb fl c) := by
    rw [hw90]
    refine ⟨fun is his j hj => ?_⟩
    rw [Cluster.hopProb_congr (show (Rounded.initProb fl c).sites = c.sites from rfl)]
    refine (I.stored_rel R h0 h1 his hj).weaken h0 h1.le ?_ hη1.le
    push_cast; linarith
  have hinit : ∀ i ∈ ids (Rounded.initProb fl c), Rounded.Rel (90 * (2 * (Z / θ))) (5 * 2 ^ 0 - 4)
      (rounds mem (Rounded.initProb fl c) 0 i) ((Rounded.initProb fl c).probOn.at0 i) := by
    intro i hi
    rw [hw90]
    have hi' : i ∈ ids c := hi
    obtain ⟨s, hs⟩ := Cluster.mem_ids.1 hi'
    have hg1 := IMap.get?_foldl_set I.wf (fun _ : Int × Site K => fl (1 / (c.sites.length : K))) c.probOn i
    have hg : (Rounded.initProb fl c).probOn.at0 i = fl (1 / (c.sites.length : K)) := by
      refine IMap.at0_of_get? (hg1.trans ?_)
      rw [hs]; rfl
    rw [hg]
    show Rounded.Rel η 1 (1 / ((ids (Rounded.initProb fl c)).card : K)) _
    rw [Cluster.card_ids (c := Rounded.initProb fl c) I.wf]
    refine (Rounded.Rel.round h0 h1.le R (by positivity)).weaken h0 h1.le ?_ hη1.le
    push_cast; linarith
  obtain ⟨c', e1, e2, e3⟩ := Rounded.iterateN_acc h0 R (w := 2 * (Z / θ)) (by rw [hw90]; exact hη1) (by linarith : 0 < θ / 2) n
    (k := 0) B' T O hne (by
      show ((2 * d + 1 + c.sites.length : Nat) : K) * ε + 2 * ((d + 1 : Nat) * ε) ≤ _
      have : 2 * (Z / θ) * (θ / 2) = Z := by field_simp
      rw [this]; push_cast; linarith) (by show 1 ≤ c.sites.length + 2; omega) hinit
  refine ⟨c', e1, by rw [e2]; rfl, fun i hi => ?_⟩
  have := e3 i hi
  rwa [hw90, Nat.zero_add, Cluster.rounds_congr (show (Rounded.initProb fl c).sites = c.sites from rfl)] at this

/-- **C97, occupation probabilities.** A cluster of `N` sites with at most `d` neighbours each, whose rates to sites of the
cluster are at least the part `θ` of all rates of each site: after `n` rounds in rounded arithmetic, the occupation
probability of every site differs from the one after `n` rounds without rounding by at most the part
`1800 · 2 ^ n (4 d + N + 3) ε / θ` of it, as long as this is at most 1. -/
theorem C97_occupation (R : Rounding fl ε) (h0 : 0 ≤ ε) (I : IslandAt fl mem c d θ)
    (hne : c.sites ≠ []) (hpw : c.probOn.WF) (hpk : ∀ k ∈ c.probOn.keys, k ∈ c.sites.keys) (hθ : 0 < θ) (n : Nat)
    (hN : 1800 * 2 ^ n * ((4 * d + c.sites.length + 3 : Nat) * ε / θ) ≤ 1) :
    ∃ c', Rounded.solveProb fl n c = .ok c' ∧ c' = { c with probOn := c'.probOn } ∧
      ∀ i ∈ ids c, |c'.probOn.at0 i - rounds mem c n i| ≤
        1800 * 2 ^ n * ((4 * d + c.sites.length + 3 : Nat) * ε / θ) * rounds mem c n i := by
  set y : K := (4 * d + c.sites.length + 3 : Nat) * ε / θ with hy
  have hy0 : 0 ≤ y := by rw [hy]; positivity
  have h2n : (1 : K) ≤ 2 ^ n := one_le_pow₀ (by norm_num)
  have hη1 : 180 * y < 1 := by nlinarith
  obtain ⟨c', e1, e2, e3⟩ := I.rounds_rel R h0 hne hpw hpk hθ (η := 180 * y) rfl hη1 n
  refine ⟨c', e1, e2, fun i hi => ?_⟩
  have r := (e3 i hi).mono (k := 5 * 2 ^ n) (by linarith) hη1.le (Nat.sub_le _ _)
  have hm : ((5 * 2 ^ n : Nat) : K) * (180 * y) = 900 * 2 ^ n * y := by push_cast; ring
  have b := r.bounds hη1.le (by linarith) (by rw [hm]; linarith)
  rw [hm] at b
  have hq := r.left
  have : 0 ≤ 900 * 2 ^ n * y * rounds mem c n i := by positivity
  rw [abs_le]
  constructor <;> nlinarith [b.1, b.2]

/-- A share of related weights. -/
theorem share_near {η : K} (h0 : 0 ≤ η) (h1 : η < 1) {m : Nat} {S : Finset Int} {x y : Int → K} (h : ∀ i ∈ S, Rounded.Rel η m (x i) (y i))
    (hp : 0 < ∑ i ∈ S, x i) (hm : 2 * ((m + m : Nat) * η) ≤ 1) {i : Int} (hi : i ∈ S) :
    |y i / ∑ j ∈ S, y j - x i / ∑ j ∈ S, x j| ≤ 2 * ((m + m : Nat) * η) := by
  have r := (h i hi).div h0 h1 (Rounded.Rel.fsum h0 h1.le S h) hp
  obtain ⟨b1, b2⟩ := r.bounds h1.le h0 hm
  have l1 : x i / ∑ j ∈ S, x j ≤ 1 := by
    rw [div_le_one hp]
    exact Finset.single_le_sum (fun j hj => (h j hj).left) hi
  have l0 := r.left
  have l2 : (0 : K) ≤ (m + m : Nat) * η := by positivity
  rw [abs_le]
  constructor <;> nlinarith

theorem links_congr {c c' : Cluster K} (h : c'.sites = c.sites) : links c' = links c := by unfold links; rw [h]

/-- The cluster after the rounds has positive numbers everywhere. -/
theorem RoundSpec.IslandAt.ready (R : Rounding fl ε) (h0 : 0 ≤ ε) (h1 : ε < 1) (I : IslandAt fl mem c d θ) {δ φ : K} (B : Basin c d δ φ)
    (hres : 0 < c.resolution) (htwo : 1 < c.sites.length) {c' : Cluster K} (e : c' = { c with probOn := c'.probOn })
    (hw : c'.probOn.WF) (hk : ∀ k, k ∈ c'.probOn.keys ↔ k ∈ c.sites.keys) (hp : ∀ ip ∈ c'.probOn, 0 < ip.2) : Rounded.Ready mem c' := by
  have hs : c'.sites = c.sites := by rw [e]
  have hr : c'.resolution = c.resolution := by rw [e]
  have hpw : ∀ m, 0 < (1 - ε) ^ m := fun m => pow_pos (by linarith) m
  refine ⟨by rw [hs]; exact I.wf, ?_, by rw [hs]; exact I.pos, ?_, ?_, by rw [hs]; exact B.nonneg, hw, by rw [hs]; exact hk, hp,
    by rw [hr]; exact hres, by rw [hs]; exact htwo⟩
  · rw [hs]; exact fun is his => (I.fresh his).2
  · rw [hs]
    intro is his
    have r := I.tau_rel R h0 h1 his
    have : 0 < siteTime mem c is.1 := one_div_pos.2 (I.outRate_pos his)
    exact lt_of_lt_of_le (mul_pos (hpw _) this) r.low
  · rw [hs]
    intro is his n hn
    refine ⟨B.tab is his n hn, ?_⟩
    have r := I.stored_rel R h0 h1 his hn
    have : 0 < hopProb mem c is.1 n := by
      obtain ⟨na, hna, rfl⟩ := List.mem_map.1 hn
      unfold hopProb
      rw [Cluster.rate_of_site (IMap.get?_of_mem I.wf his), IMap.get?_of_mem (I.fresh his).2 hna]
      exact div_pos (I.pos is his na hna) (I.outRate_pos his)
    exact lt_of_lt_of_le (mul_pos (hpw _) this) r.low

/-- **C97, picks.** The whole update of such a cluster of at least two sites, in rounded arithmetic: it does not fail; the
draws that send a walker that stays in the cluster to site `i` form an interval whose length differs from `stayShare`, computed
from the rates without rounding, by at most `2 (N + 4) ε + 3600 · 2 ^ n (4 d + N + 3) ε / θ`; if the cluster has exits, the
draws that send a leaving walker to exit `j` form an interval whose length differs from `exitShare` by at most
`2 (3 E + 5) ε + 3600 · 2 ^ n (4 d + N + 3) ε / θ`, `E` being the number of links of the sites. -/
theorem C97_picks (R : Rounding fl ε) (h0 : 0 ≤ ε) (I : IslandAt fl mem c d θ) {env : Env K}
    (hpw : c.probOn.WF) (hpk : ∀ k ∈ c.probOn.keys, k ∈ c.sites.keys) (hθ : 0 < θ) (n : Nat)
    (hres : 0 < c.resolution) (htwo : 1 < c.sites.length) (hcI : c.cumInternal = []) (hcN : c.cumNeigh = [])
    (hm1 : (-1 : Int) ∉ ids c) (hm2 : (-1 : Int) ∉ exits c)
    (hN : 3600 * 2 ^ n * ((4 * d + c.sites.length + 3 : Nat) * ε / θ) ≤ 1) (hE : 8 * ((3 * links c + 4 : Nat) * ε) ≤ 1) :
    ∃ c2 stay leave, Rounded.solve fl env mem n c = .ok c2 ∧
      (∀ wid r u, c2.remaining.get? wid = some r → 0 < r → c2.pickNewSiteId wid u = .ok (stay u, c2)) ∧
      (∀ wid r u, c2.remaining.get? wid = some r → ¬ 0 < r → ∃ c3, c2.pickNewSiteId wid u = .ok (leave u, c3)) ∧
      PicksLike (c.sites.map fun is => (is.1, stayShare mem c n is.1)) (6 * (c.sites.length + 3 : Nat) * ε)
        (2 * ((c.sites.length + 3 : Nat) + 1) * ε + 3600 * 2 ^ n * ((4 * d + c.sites.length + 3 : Nat) * ε / θ)) stay ∧
      ((exits c).Nonempty → PicksLike ((exits c).toList.map fun j => (j, exitShare mem c n j)) (6 * (3 * links c + 4 : Nat) * ε)
        (2 * ((3 * links c + 4 : Nat) + 1) * ε + 3600 * 2 ^ n * ((4 * d + c.sites.length + 3 : Nat) * ε / θ)) leave) := by
  have hne : c.sites ≠ [] := by intro e; rw [e] at htwo; simp at htwo
  set Z : K := (4 * d + c.sites.length + 3 : Nat) * ε with hZ
  have hZ0 : 0 ≤ Z := by rw [hZ]; positivity
  have hθ1 := I.theta hne
  have hZθ : Z ≤ Z / θ := by rw [le_div_iff₀ hθ]; nlinarith
  have hd0 : 0 ≤ (d : K) * ε := mul_nonneg (Nat.cast_nonneg _) h0
  have hk0 : 0 ≤ (c.sites.length : K) * ε := mul_nonneg (Nat.cast_nonneg _) h0
  have hZe : Z = 4 * (d * ε) + c.sites.length * ε + 3 * ε := by rw [hZ]; push_cast; ring
  have h2n : (1 : K) ≤ 2 ^ n := one_le_pow₀ (by norm_num)
  have hy0 : 0 ≤ Z / θ := by positivity
  have hy : 3600 * (Z / θ) ≤ 1 := by nlinarith
  have hZ1 : 3600 * Z ≤ θ := by rw [← mul_div_assoc, div_le_one hθ] at hy; exact hy
  have h1 : ε < 1 := by linarith
  set η : K := 180 * (Z / θ) with hη
  have hη0 : 0 ≤ η := by rw [hη]; positivity
  have hη1 : η < 1 := by rw [hη]; linarith
  have B := I.island.basin R h0 hθ.le (by push_cast; linarith)
  obtain ⟨c', e1, e2, e3⟩ := I.rounds_rel R h0 hne hpw hpk hθ (η := η) rfl hη1 n
  obtain ⟨c'', f1, -, f3, f4, f5, -⟩ := C92_positive_partial R h0 I.island hne hpw hpk hθ (by
    show 128 * Z ≤ θ; linarith) n
  rw [e1] at f1
  cases f1
  have D := I.ready R h0 h1 B hres htwo e2 f3 f4 f5
  have hs : c'.sites = c.sites := by rw [e2]
  have hids : ids c' = ids c := Cluster.ids_congr hs
  have hex : exits c' = exits c := Cluster.exits_congr hs
  have hlen : c'.probOn.length = c.sites.length := by
    have : c'.probOn.keys.Perm c.sites.keys := (List.perm_ext_iff_of_nodup f3 I.wf).2 f4
    simpa [IMap.keys] using this.length_eq
  obtain ⟨c1, g1, ⟨ki, wi, vi⟩, kn, wn, vn⟩ := D.derive (env := env)
  -- the two rules of C91
  obtain ⟨c2, stay, s1, s2, s3⟩ := C91_inside_partial R h0 D.nonneg' D.wf g1 (by rw [e2]; exact hcI) D.onNe
    (by rw [D.keys, hs]; exact fun q => hm1 (List.mem_toFinset.2 q)) (by
      rw [hlen]; push_cast; linarith)
  -- weights
  set m : Nat := 5 * 2 ^ n - 4 with hm
  have hmM : ((m + 1 + (m + 1) : Nat) : K) * η ≤ 1800 * 2 ^ n * (Z / θ) := by
    have a1 : m + 1 + (m + 1) ≤ 10 * 2 ^ n := by
      have : 1 ≤ 2 ^ n := Nat.one_le_two_pow
      omega
    have a2 : ((m + 1 + (m + 1) : Nat) : K) ≤ 10 * 2 ^ n := by exact_mod_cast a1
    rw [hη]
    nlinarith
  have hmM2 : 2 * (((m + 1 + (m + 1) : Nat) : K) * η) ≤ 1 := by linarith
  have hdε : ((d + 1 : Nat) : K) * ε ≤ η := by push_cast; rw [hη]; linarith
  have hw : ∀ i ∈ ids c, Rounded.Rel η (m + 1) (rounds mem c n i * siteTime mem c i) (Rounded.weight c' i) := by
    intro i hi
    obtain ⟨is, his, rfl⟩ := List.mem_map.1 (List.mem_toFinset.1 hi)
    have r2 := (I.tau_rel R h0 h1 his).weaken h0 h1.le hdε hη1.le
    unfold Rounded.weight
    rw [D.siteAt (by rw [hs]; exact his)]
    exact (e3 is.1 hi).mul hη0 hη1.le r2
  have hx : ∀ j ∈ exits c, Rounded.Rel η (m + 1) (∑ i ∈ ids c, rounds mem c n i * hopProb mem c i j) (Rounded.exitWeight c' j) := by
    intro j _
    unfold Rounded.exitWeight
    rw [hids]
    refine Rounded.Rel.fsum hη0 hη1.le _ fun i hi => ?_
    obtain ⟨is, his, rfl⟩ := List.mem_map.1 (List.mem_toFinset.1 hi)
    rw [D.siteAt (by rw [hs]; exact his)]
    split
    · next q =>
      rw [mul_comm (stored is.2 j)]
      exact (e3 is.1 hi).mul hη0 hη1.le ((I.stored_rel R h0 h1 his q).weaken h0 h1.le hdε hη1.le)
    · next q =>
      rw [Rounded.hopProb_none (IMap.get?_of_mem I.wf his) q, mul_zero]
      exact (Rounded.Rel.refl hη0 hη1.le (le_refl _)).mono hη0 hη1.le (Nat.zero_le _)
  have pw : 0 < ∑ i ∈ ids c, rounds mem c n i * siteTime mem c i := by
    have : 0 < ∑ i ∈ ids c, Rounded.weight c' i := by
      rw [← hids]; exact Finset.sum_pos (fun i hi => D.weight_pos hi) D.ids_ne
    have r := Rounded.Rel.fsum hη0 hη1.le _ hw
    exact lt_of_lt_of_le (mul_pos (pow_pos (by linarith) _) this) r.high
  have hsolve : Rounded.solve fl env mem n c = .ok c2 := by
    unfold Rounded.solve
    rw [e1, ok_bind]; exact s1
  -- the draws of the walkers that leave
  obtain ⟨c2', d1, -, -, -, d2, -⟩ := Rounded.derive_rel R h0 h1 D.nonneg' D.wf g1
  rw [s1] at d1
  cases d1
  have hcN' : c'.cumNeigh = [] := by rw [e2]; exact hcN
  rw [hcN', List.nil_append] at d2
  have hstay : PicksLike (c.sites.map fun is => (is.1, stayShare mem c n is.1)) (6 * (c.sites.length + 3 : Nat) * ε)
      (2 * ((c.sites.length + 3 : Nat) + 1) * ε + 3600 * 2 ^ n * (Z / θ)) stay := by
    rw [hlen] at s3
    refine Rounded.PicksLike.shift s3 ?_ ?_ (le_refl _) (g := 3600 * 2 ^ n * (Z / θ)) (le_refl _)
    · intro k
      rw [ki, hids]
      unfold ids IMap.keys
      rw [List.mem_toFinset, List.map_map]
      rfl
    · intro i p p' hp hp'
      have hi : i ∈ ids c := by rw [← hids, ← ki]; exact IMap.mem_keys_iff_get?.2 ⟨p, hp⟩
      have q1 := vi (i, p) (IMap.mem_of_get? hp)
      obtain ⟨is, his, q2⟩ := List.mem_map.1 (IMap.mem_of_get? hp')
      cases q2
      have q1' : p = Rounded.weight c' is.1 / ∑ i ∈ ids c, Rounded.weight c' i := by rw [← hids]; exact q1
      rw [q1']
      refine (share_near hη0 hη1 hw pw hmM2 hi).trans ?_
      linarith
  by_cases hne' : (exits c).Nonempty
  swap
  · refine ⟨c2, stay, fun u => Cluster.pickCum u (Rounded.cumulate fl 0 c2.probNeigh), hsolve, s2, ?_, hstay, fun q => absurd q hne'⟩
    intro wid r u hr hr0
    unfold Cluster.pickNewSiteId
    rw [hr]
    simp only
    rw [if_neg hr0, d2]
    exact ⟨_, rfl⟩
  have px : 0 < ∑ j ∈ exits c, ∑ i ∈ ids c, rounds mem c n i * hopProb mem c i j := by
    have : 0 < ∑ j ∈ exits c, Rounded.exitWeight c' j := by
      rw [← hex] at hne' ⊢; exact Finset.sum_pos (fun j hj => D.exitWeight_pos hj) hne'
    have r := Rounded.Rel.fsum hη0 hη1.le _ hx
    exact lt_of_lt_of_le (mul_pos (pow_pos (by linarith) _) this) r.high
  have hnn : c1.probNeigh ≠ [] := by
    obtain ⟨j, hj⟩ := hne'
    intro e
    have := (kn j).2 (by rw [hex]; exact hj)
    rw [e] at this
    simp [IMap.keys] at this
  have hl : c1.probNeigh.length ≤ links c := by
    have e4 : c1.probNeigh.length = (exits c).card := by
      rw [← hex]
      have : exits c' = (IMap.keys c1.probNeigh).toFinset := by ext k; rw [List.mem_toFinset, kn]
      have wn' : (IMap.keys c1.probNeigh).Nodup := wn
      rw [this, List.toFinset_card_of_nodup wn']
      simp [IMap.keys]
    rw [e4]
    unfold exits reach links
    refine (Finset.card_le_card Finset.sdiff_subset).trans ((List.toFinset_card_le _).trans ?_)
    rw [List.length_flatMap]
    refine le_of_eq (congrArg List.sum (List.map_congr_left fun is _ => ?_))
    simp [IMap.keys]
  have hL : ((2 * (links c + 1) + c1.probNeigh.length + 2 : Nat) : K) ≤ (3 * links c + 4 : Nat) := by
    exact_mod_cast (by omega)
  have hm3 : ∀ is ∈ c'.sites, (-1 : Int) ∉ is.2.neigh.keys ∨ (-1 : Int) ∈ ids c := by
    intro is his
    by_contra q
    push Not at q
    refine hm2 ?_
    unfold exits reach
    rw [Finset.mem_sdiff, List.mem_toFinset, List.mem_flatMap]
    exact ⟨⟨is, by rw [← hs]; exact his, q.1⟩, q.2⟩
  obtain ⟨c2', leave, t1, t2, t3⟩ := C91_exits_partial R h0 D.nonneg' D.wf g1 hcN' hnn
    (fun is his => (hm3 is his).resolve_right hm1) (by
      rw [links_congr hs]
      have := mul_le_mul_of_nonneg_right hL h0
      linarith)
  rw [s1] at t1
  cases t1
  refine ⟨c2, stay, leave, hsolve, s2, t2, hstay, fun _ => ?_⟩
  rw [links_congr hs] at t3
  refine Rounded.PicksLike.shift t3 ?_ ?_ ?_ (g := 3600 * 2 ^ n * (Z / θ)) ?_
  · intro k
    rw [kn, hex]
    unfold IMap.keys
    rw [List.map_map, ← Finset.mem_toList]
    simp
  · intro j p p' hp hp'
    have hj : j ∈ exits c := by rw [← hex, ← kn]; exact IMap.mem_keys_iff_get?.2 ⟨p, hp⟩
    have q1 := vn (j, p) (IMap.mem_of_get? hp)
    obtain ⟨j', -, q2⟩ := List.mem_map.1 (IMap.mem_of_get? hp')
    cases q2
    have q1' : p = Rounded.exitWeight c' j / ∑ i ∈ exits c, Rounded.exitWeight c' i := by rw [← hex]; exact q1
    rw [q1']
    refine (share_near hη0 hη1 hx px hmM2 hj).trans ?_
    linarith
  · exact mul_le_mul_of_nonneg_right (by linarith) h0
  · have := mul_le_mul_of_nonneg_right hL h0
    linarith

/-- Decidable conditions for `IslandAt`, for clusters made by `clusterWith`. -/
theorem islandAt_of {fl : ℚ → ℚ} {mem : Addr → ℚ} {c : Cluster ℚ} {d : Nat} {θ : ℚ} (hwf : c.sites.WF)
    (hm : ∀ is ∈ c.sites, IMap.WF is.2.neigh ∧
      (Rounded.run fl (Site.new is.1) [(mem, .setRates is.2.neigh)]).map (fun s => (s.prob, s.neigh, s.tau)) =
        .ok (is.2.prob, is.2.neigh, is.2.tau) ∧ ∀ na ∈ is.2.neigh, 0 < mem na.2)
    (hi : ∀ i ∈ ids c, θ * outRate mem c i ≤ inRate mem c i)
    (hb : ∀ is ∈ c.sites, ∀ js ∈ c.sites, js.1 ∈ is.2.neigh.keys → is.1 ∈ js.2.neigh.keys)
    (hd : ∀ is ∈ c.sites, is.2.neigh.length ≤ d) : IslandAt fl mem c d θ := by
  refine ⟨hwf, fun is his => ?_, fun is his => (hm is his).2.2, hi, hb, hd⟩
  obtain ⟨h1, h2, -⟩ := hm is his
  cases hr : Rounded.run fl (Site.new is.1) [(mem, .setRates is.2.neigh)] with
  | error e => rw [hr] at h2; cases h2
  | ok s =>
    rw [hr] at h2
    have h5 : (s.prob, s.neigh, s.tau) = (is.2.prob, is.2.neigh, is.2.tau) := ok_inj.1 h2
    injection h5 with h6 h7
    injection h7 with h7 h8
    refine ⟨[], .setRates is.2.neigh, s, ?_, hr, h6.symm, h7.symm, h8.symm⟩
    intro mo hmo
    rw [List.nil_append, List.mem_singleton] at hmo
    subst hmo
    exact h1

/-- The hypotheses of the theorems of this property: the two sites of `C91_counterexample`, in doubles, with the 6 rounds of
the default settings. The occupation probabilities are right to 9 digits, and so are the shares of the draws. -/
example : ∃ c, clusterWith Rounded.binary64 pairRates pairLinks = .ok c ∧
    Rounding (Rounded.binary64 : ℚ → ℚ) (1 / 2 ^ 53) ∧ IslandAt Rounded.binary64 pairRates c 4 (10 / 13 : ℚ) ∧
    c.probOn.WF ∧ (∀ k ∈ c.probOn.keys, k ∈ c.sites.keys) ∧ 0 < c.resolution ∧ 1 < c.sites.length ∧ c.cumInternal = [] ∧
    c.cumNeigh = [] ∧ (-1 : Int) ∉ ids c ∧ (-1 : Int) ∉ exits c ∧ (exits c).Nonempty ∧
    3600 * 2 ^ 6 * ((4 * 4 + c.sites.length + 3 : Nat) * (1 / 2 ^ 53 : ℚ) / (10 / 13)) ≤ 1 / 10 ^ 9 ∧
    8 * ((3 * links c + 4 : Nat) * (1 / 2 ^ 53 : ℚ)) ≤ 1 := by
  refine ⟨clusterOf Rounded.binary64 pairRates pairLinks, by decide +kernel, C90_binary64,
    islandAt_of (by decide +kernel) (by decide +kernel) (by decide +kernel) (by decide +kernel) (by decide +kernel),
    by decide +kernel, by decide +kernel, by decide +kernel, by decide +kernel, by decide +kernel, by decide +kernel,
    by decide +kernel, by decide +kernel, by decide +kernel, by decide +kernel, by decide +kernel⟩

end Mythical
