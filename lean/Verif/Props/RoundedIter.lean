import Verif.Lemmas.RoundedRounds
import Verif.Props.RoundedCluster

/-! # Property C92: the iteration of the occupation probabilities in rounded arithmetic -/

set_option linter.unusedSectionVars false

namespace Mythical
open RoundSpec Site SiteSpec
variable {K : Type} [Field K] [LinearOrder K] [IsStrictOrderedRing K] [FloorRing K]
variable {fl : K → K} {ε : K}

/-- The tables of the sites of such a cluster. -/
theorem RoundSpec.Island.basin (R : Rounding fl ε) (h0 : 0 ≤ ε) {c : Cluster K} {d : Nat} {θ : K} (I : Island fl c d θ) (hθ : 0 ≤ θ)
    (hd : 2 * ((d + 1 : Nat) * ε) ≤ 1) : Basin c d (2 * ((d + 1 : Nat) * ε)) (θ / 2) := by
  have h1 : ε < 1 := by
    have : (0 : K) ≤ d := Nat.cast_nonneg _
    push_cast at hd
    nlinarith
  have key : ∀ is ∈ c.sites, is.2.neigh.WF ∧ (∀ n ∈ is.2.neigh.keys, n ∈ is.2.prob.map Prod.fst) ∧ (∀ np ∈ is.2.prob, 0 ≤ np.2) ∧
      |(is.2.neigh.keys.map (stored is.2)).sum - 1| ≤ 2 * ((d + 1 : Nat) * ε) ∧
      θ / 2 ≤ ((is.2.neigh.keys.filter fun n => n ∈ c.sites.keys).map (stored is.2)).sum := by
    intro is his
    obtain ⟨ops, mem, o, s, hv, hrun, hp, hn, hpos, hin⟩ := I.made is his
    obtain ⟨F, hw, -⟩ := rounded_after hv hrun
    have hlen := I.deg is his
    rw [hn] at hpos hin hlen
    have hst := Rounded.FreshR.stored h0 h1 R F hw hpos
    have hs' : stored is.2 = stored s := by funext n; unfold stored; rw [hp]
    have hne : s.neigh ≠ [] := by
      intro e; apply F.sum; unfold Rounded.sumRates; rw [e]; rfl
    have hS := Site.sumRates_pos hpos hne
    rw [Site.sumRates_eq] at hS
    set S := (s.neigh.map fun na => mem na.2).sum with hSdef
    have hm : s.neigh.length + 1 ≤ d + 1 := by omega
    rw [hn, hp, hs']
    refine ⟨hw, ?_, ?_, ?_, ?_⟩
    · intro n hn'
      obtain ⟨na, hna, rfl⟩ := List.mem_map.1 hn'
      exact (hst na hna).1
    · intro np hnp
      obtain ⟨na, hna, rfl⟩ := List.mem_map.1 (F.perm.mem_iff.1 hnp)
      refine R.nonneg (div_nonneg (hpos na hna).le ?_)
      rw [Rounded.sumRates_total]
      exact (Rounded.Rel.total h0 h1.le R (by
        intro x hx; obtain ⟨nb, hnb, rfl⟩ := List.mem_map.1 hx; exact (hpos nb hnb).le)).right
    · have r := Rounded.rel_sum h0 h1.le s.neigh (fun na hna => ((hst na hna).2).mono h0 h1.le hm)
      have e1 : (s.neigh.map fun na => mem na.2 / S).sum = 1 := by
        simp only [div_eq_mul_inv]
        rw [List.sum_map_mul_right]
        exact mul_inv_cancel₀ hS.ne'
      rw [e1] at r
      have b := r.bounds h1.le h0 hd
      have e2 : s.neigh.keys.map (stored s) = s.neigh.map fun na => stored s na.1 := by
        unfold IMap.keys; rw [List.map_map]; rfl
      rw [e2, abs_le]
      have : (0 : K) ≤ (d + 1 : Nat) * ε := by positivity
      constructor <;> linarith [b.1, b.2]
    · have r := Rounded.rel_sum h0 h1.le (s.neigh.filter fun na => na.1 ∈ c.sites.keys)
        (fun na hna => ((hst na (List.mem_of_mem_filter hna)).2).mono h0 h1.le hm)
      have e1 : θ ≤ ((s.neigh.filter fun na => na.1 ∈ c.sites.keys).map fun na => mem na.2 / S).sum := by
        simp only [div_eq_mul_inv]
        rw [List.sum_map_mul_right, ← div_eq_mul_inv, le_div_iff₀ hS]
        exact hin
      have b := (r.bounds h1.le h0 hd).1
      have e2 : (s.neigh.keys.filter fun n => n ∈ c.sites.keys).map (stored s) =
          (s.neigh.filter fun na => na.1 ∈ c.sites.keys).map fun na => stored s na.1 := by
        unfold IMap.keys; rw [List.filter_map, List.map_map]; rfl
      rw [e2]
      refine le_trans ?_ b
      have : (d + 1 : Nat) * ε ≤ 1 / 2 := by linarith
      nlinarith
  exact ⟨I.wf, fun is h => (key is h).1, fun is h => (key is h).2.1, fun is h => (key is h).2.2.1, I.both,
    fun is h => (key is h).2.2.2.1, fun is h => (key is h).2.2.2.2, I.deg⟩

/-- **C92, the iteration works.** A cluster of `N` sites with at most `d` neighbours each, whose rates to sites of the cluster
are at least the part `θ` of all rates of each site, with `θ ≥ 128 (4 d + N + 3) ε`: after any number of rounds, in rounded
arithmetic, no division by zero has occurred, every site has a positive occupation probability, and these add up to 1 up to
`2 (N + 2) ε`. Nothing else of the cluster has changed. -/
theorem C92_positive_partial (R : Rounding fl ε) (h0 : 0 ≤ ε) {c : Cluster K} {d : Nat} {θ : K} (I : Island fl c d θ)
    (hne : c.sites ≠ []) (hpw : c.probOn.WF) (hpk : ∀ k ∈ c.probOn.keys, k ∈ c.sites.keys)
    (hθ : 0 < θ) (hz : 128 * ((4 * d + c.sites.length + 3 : Nat) * ε) ≤ θ) (rounds : Nat) :
    ∃ c', Rounded.solveProb fl rounds c = .ok c' ∧ c' = { c with probOn := c'.probOn } ∧ c'.probOn.WF ∧
      (∀ k, k ∈ c'.probOn.keys ↔ k ∈ c.sites.keys) ∧ (∀ ip ∈ c'.probOn, 0 < ip.2) ∧
      |(c'.probOn.map Prod.snd).sum - 1| ≤ 2 * ((c.sites.length + 2 : Nat) * ε) := by
  obtain ⟨is0, his0⟩ := List.exists_mem_of_ne_nil _ hne
  have hd0 : (0 : K) ≤ d := Nat.cast_nonneg _
  have hk1 : (1 : K) ≤ c.sites.length := by exact_mod_cast List.length_pos_of_ne_nil hne
  -- the part is at most 1
  have hθ1 : θ ≤ 1 := by
    obtain ⟨ops, mem, o, s, hv, hrun, hp, hn, hpos, hin⟩ := I.made is0 his0
    obtain ⟨F, hw, -⟩ := rounded_after hv hrun
    have hne' : is0.2.neigh ≠ [] := by
      intro e; apply F.sum; unfold Rounded.sumRates; rw [← hn, e]; rfl
    have hS := Site.sumRates_pos hpos hne'
    rw [Site.sumRates_eq] at hS
    have hle : ((is0.2.neigh.filter fun na => na.1 ∈ c.sites.keys).map fun na => mem na.2).sum ≤
        (is0.2.neigh.map fun na => mem na.2).sum := by
      refine List.Sublist.sum_le_sum (List.Sublist.map _ List.filter_sublist) ?_
      intro x hx
      obtain ⟨na, hna, rfl⟩ := List.mem_map.1 hx
      exact (hpos na hna).le
    by_contra hlt
    push Not at hlt
    nlinarith
  push_cast at hz
  have hde : 0 ≤ (d : K) * ε := mul_nonneg hd0 h0
  have hke : ε ≤ (c.sites.length : K) * ε := by nlinarith
  have h1 : ε < 1 := by nlinarith
  have B := I.basin R h0 hθ.le (by push_cast; nlinarith)
  have O := Rounded.initProb_occ h0 h1 R I.wf hpw hpk hne
  have B' : Basin (Rounded.initProb fl c) d (2 * ((d + 1 : Nat) * ε)) (θ / 2) := Rounded.Basin_probOn B _
  obtain ⟨c', e1, e2, O'⟩ := Rounded.iterateN_occ h0 R (by linarith : 0 < θ / 2) rounds B' O hne
    (by show 64 * ((2 * d + 1 + c.sites.length : Nat) * ε + _) ≤ _; push_cast; nlinarith) (by push_cast; linarith)
    (by show 1 ≤ c.sites.length + 2; omega)
  have hs : c'.sites = c.sites := by rw [e2]; rfl
  have hkeys : ∀ k, k ∈ c'.probOn.keys ↔ k ∈ c.sites.keys := fun k => by rw [O'.keys, hs]
  refine ⟨c', e1, by rw [e2]; rfl, O'.wf, hkeys, ?_, ?_⟩
  · intro ip hip
    have := O'.pos ip.1 (by rw [← O'.keys]; exact List.mem_map.2 ⟨ip, hip, rfl⟩)
    rwa [IMap.at0_of_mem O'.wf hip] at this
  · have r := O'.one
    rw [hs] at r
    have hp : c'.probOn.keys.Perm c.sites.keys := (List.perm_ext_iff_of_nodup O'.wf I.wf).2 hkeys
    have e3 : c'.probOn.map Prod.snd = c'.probOn.keys.map c'.probOn.at0 := by
      unfold IMap.keys
      rw [List.map_map]
      exact List.map_congr_left fun ip hip => (IMap.at0_of_mem O'.wf hip).symm
    have e4 : (c'.probOn.map Prod.snd).sum = (c.sites.map fun is => c'.probOn.at0 is.1).sum := by
      rw [e3, (hp.map _).sum_eq]
      unfold IMap.keys
      rw [List.map_map]; rfl
    rw [e4]
    have b := r.bounds h1.le h0 (by show 2 * (((c.sites.length + 2 : Nat) : K) * ε) ≤ 1; push_cast; nlinarith)
    have b1 : (1 - ((c.sites.length + 2 : Nat) : K) * ε) * 1 ≤ _ := b.1
    have b2 : _ ≤ (1 + 2 * (((c.sites.length + 2 : Nat) : K) * ε)) * 1 := b.2
    have : (0 : K) ≤ (c.sites.length + 2 : Nat) * ε := by positivity
    rw [abs_le]
    constructor <;> linarith

/-! ## Rates inside that are small -/

/-- Sites made from maps of rates with rounding `fl`, put into a new cluster. -/
def clusterWith (fl : ℚ → ℚ) (mem : Addr → ℚ) (l : List (Int × IMap Addr)) : Except Fault (Cluster ℚ) := do
  let sites ← l.mapM fun im => Rounded.run fl (Site.new im.1) [(mem, .setRates im.2)]
  (Cluster.new 1).addSites sites

/-- The cluster, or a new one if it cannot be made. -/
def clusterOf (fl : ℚ → ℚ) (mem : Addr → ℚ) (l : List (Int × IMap Addr)) : Cluster ℚ :=
  match clusterWith fl mem l with
  | .ok c => c
  | .error _ => Cluster.new 0

/-- The rates of the clusters below: rate 1 inside and 2^60 to the exits. -/
def steepRates : Addr → ℚ := fun a => if a = 0 then 1 else 2 ^ 60

/-- Two sites with one exit each. -/
def steepPair : List (Int × IMap Addr) := [(1, [(2, 0), (3, 1)]), (2, [(1, 0), (4, 1)])]

/-- Two sites with three and five exits. -/
def steepLinks : List (Int × IMap Addr) :=
  [(1, [(2, 0), (10, 1), (11, 1), (12, 1)]), (2, [(1, 0), (20, 1), (21, 1), (22, 1), (23, 1), (24, 1)])]

/-- Decidable conditions for `Island`, for clusters made by `clusterWith`. -/
theorem island_of {fl : ℚ → ℚ} {mem : Addr → ℚ} {c : Cluster ℚ} {d : Nat} {θ : ℚ} (hwf : c.sites.WF)
    (hm : ∀ is ∈ c.sites, IMap.WF is.2.neigh ∧
      (Rounded.run fl (Site.new is.1) [(mem, .setRates is.2.neigh)]).map (fun s => (s.prob, s.neigh)) = .ok (is.2.prob, is.2.neigh) ∧
      (∀ na ∈ is.2.neigh, 0 < mem na.2) ∧
      θ * (is.2.neigh.map fun na => mem na.2).sum ≤ ((is.2.neigh.filter fun na => na.1 ∈ c.sites.keys).map fun na => mem na.2).sum)
    (hb : ∀ is ∈ c.sites, ∀ js ∈ c.sites, js.1 ∈ is.2.neigh.keys → is.1 ∈ js.2.neigh.keys)
    (hd : ∀ is ∈ c.sites, is.2.neigh.length ≤ d) : Island fl c d θ := by
  refine ⟨hwf, fun is his => ?_, hb, hd⟩
  obtain ⟨h1, h2, h3, h4⟩ := hm is his
  cases hr : Rounded.run fl (Site.new is.1) [(mem, .setRates is.2.neigh)] with
  | error e => rw [hr] at h2; cases h2
  | ok s =>
    rw [hr] at h2
    have h5 : (s.prob, s.neigh) = (is.2.prob, is.2.neigh) := ok_inj.1 h2
    refine ⟨[], mem, .setRates is.2.neigh, s, ?_, hr, (congrArg Prod.fst h5).symm, (congrArg Prod.snd h5).symm, h3, h4⟩
    intro mo hmo
    rw [List.nil_append, List.mem_singleton] at hmo
    subst hmo
    exact h1

theorem noRound_rounding : Rounding (fun x : K => x) 0 :=
  ⟨fun _ _ h => h, fun _ => rfl, fun x => by simp⟩

/-- **C92, division by zero.** Two sites with rate 1 between them and rate 2^60 to an exit each. Without rounding every
number of rounds gives positive occupation probabilities; in doubles every number of rounds ends with NaN: the temporary
probabilities of the first round are 0 and so is their total. -/
theorem C92_zero : (∀ n, ∃ c', (clusterWith (fun x => x) steepRates steepPair >>= Rounded.solveProb (fun x => x) n) = .ok c' ∧
      (∀ k, k ∈ c'.probOn.keys ↔ k = 1 ∨ k = 2) ∧ ∀ ip ∈ c'.probOn, 0 < ip.2) ∧
    ∀ n, (clusterWith Rounded.binary64 steepRates steepPair >>= Rounded.solveProb Rounded.binary64 (n + 1)) = .error .nonFinite := by
  constructor
  · intro n
    have hc : clusterWith (fun x => x) steepRates steepPair = .ok (clusterOf (fun x => x) steepRates steepPair) := by decide +kernel
    have hI : Island (fun x => x) (clusterOf (fun x => x) steepRates steepPair) 2 (1 / 2305843009213693952 : ℚ) :=
      island_of (mem := steepRates) (by decide +kernel) (by decide +kernel) (by decide +kernel) (by decide +kernel)
    have hk : (clusterOf (fun x => x) steepRates steepPair).sites.keys = [1, 2] := by decide +kernel
    obtain ⟨c', h1, -, -, h2, h3, -⟩ := C92_positive_partial noRound_rounding (le_refl 0) hI (by decide +kernel) (by decide +kernel)
      (by decide +kernel) (by norm_num) (by rw [mul_zero, mul_zero]; norm_num) n
    refine ⟨c', by rw [hc]; exact h1, fun k => ?_, h3⟩
    rw [h2, hk]
    simp
  · intro n
    have hc : clusterWith Rounded.binary64 steepRates steepPair = .ok (clusterOf Rounded.binary64 steepRates steepPair) := by decide +kernel
    have hi : Rounded.iterate Rounded.binary64 (Rounded.initProb Rounded.binary64 (clusterOf Rounded.binary64 steepRates steepPair)) =
        .error .nonFinite := by decide +kernel
    rw [hc]
    show Rounded.iterate Rounded.binary64 (Rounded.initProb Rounded.binary64 (clusterOf Rounded.binary64 steepRates steepPair)) >>=
      (fun c => Rounded.iterateN Rounded.binary64 n c) = .error .nonFinite
    rw [hi]
    rfl

/-- The occupation probabilities, the tables and the times of that cluster in doubles, with 6 rounds. -/
def steepUpdated : Cluster ℚ :=
  match clusterWith Rounded.binary64 steepRates steepLinks >>= Rounded.solve Rounded.binary64 Cluster.witEnv steepRates 6 with
  | .ok c => c
  | .error _ => Cluster.new 0

/-- The exact occupation probabilities of that cluster. -/
def steepExact : Cluster ℚ :=
  match clusterWith (fun x => x) steepRates steepLinks >>= Rounded.solveProb (fun x => x) 6 with
  | .ok c => c
  | .error _ => Cluster.new 0

theorem steepExact_eq : (clusterWith (fun x => x) steepRates steepLinks >>= Rounded.solveProb (fun x => x) 6) = .ok steepExact := by
  decide +kernel

theorem pickCum_take {u : K} {l : List (Int × K)} {k : Nat} (h : ∃ x ∈ l.take k, u < x.2) :
    Cluster.pickCum u l ∈ (l.take k).map Prod.fst := by
  induction l generalizing k with
  | nil => obtain ⟨x, hx, -⟩ := h; simp at hx
  | cons y l ih =>
    obtain ⟨n, p⟩ := y
    cases k with
    | zero => obtain ⟨x, hx, -⟩ := h; simp at hx
    | succ k =>
      unfold Cluster.pickCum
      simp only [List.take_succ_cons, List.map_cons, List.mem_cons]
      by_cases hu : u < p
      · rw [if_pos hu]; exact .inl rfl
      · rw [if_neg hu]
        refine .inr (ih ?_)
        obtain ⟨x, hx, hx2⟩ := h
        rw [List.take_succ_cons, List.mem_cons] at hx
        rcases hx with rfl | hx
        · exact absurd hx2 hu
        · exact ⟨x, hx, hx2⟩

/-- **C92, negative probabilities.** Two sites with rate 1 between them and rate 2^60 to each of their 3 and 5 exits, 6
rounds (the default settings). Without rounding the probability of site 1 is more than 1/4; in doubles it is negative and that
of site 2 is above 1. Then no draw ever sends a walker that stays to site 1, and none sends a walker that leaves to an exit
of site 1. -/
theorem C92_negative : (∃ c', (clusterWith (fun x => x) steepRates steepLinks >>= Rounded.solveProb (fun x => x) 6) = .ok c' ∧
      1 / 4 < c'.probOn.at0 1) ∧
    ∃ c, (clusterWith Rounded.binary64 steepRates steepLinks >>= Rounded.solve Rounded.binary64 Cluster.witEnv steepRates 6) = .ok c ∧
      c.probOn.at0 1 < 0 ∧ 1 < c.probOn.at0 2 ∧
      ∀ u, 0 ≤ u → u < 1 → ∀ wid,
        (∃ i, ({ c with remaining := [(wid, 1)] } : Cluster ℚ).pickNewSiteId wid u = .ok (i, { c with remaining := [(wid, 1)] }) ∧ i = 2) ∧
        ∃ i c', ({ c with remaining := [(wid, 0)] } : Cluster ℚ).pickNewSiteId wid u = .ok (i, c') ∧ i ∈ [20, 21, 22, 23, 24] := by
  refine ⟨⟨_, steepExact_eq, by decide +kernel⟩, steepUpdated, by decide +kernel, by decide +kernel, by decide +kernel, ?_⟩
  intro u hu0 hu1 wid
  have hI : ∃ x ∈ steepUpdated.cumInternal.take 1, (1 : ℚ) ≤ x.2 := by decide +kernel
  have hE : ∃ x ∈ steepUpdated.cumNeigh.take 5, (1 : ℚ) ≤ x.2 := by decide +kernel
  have kI : (steepUpdated.cumInternal.take 1).map Prod.fst = [2] := by decide +kernel
  have kE : (steepUpdated.cumNeigh.take 5).map Prod.fst = [20, 21, 22, 23, 24] := by decide +kernel
  have pI : Cluster.pickCum u steepUpdated.cumInternal ∈ _ :=
    pickCum_take (k := 1) (by obtain ⟨x, hx, h⟩ := hI; exact ⟨x, hx, lt_of_lt_of_le hu1 h⟩)
  have pE : Cluster.pickCum u steepUpdated.cumNeigh ∈ _ :=
    pickCum_take (k := 5) (by obtain ⟨x, hx, h⟩ := hE; exact ⟨x, hx, lt_of_lt_of_le hu1 h⟩)
  rw [kI, List.mem_singleton] at pI
  rw [kE] at pE
  generalize steepUpdated = c at *
  refine ⟨⟨_, ?_, pI⟩, _, { c with remaining := IMap.erase [(wid, 0)] wid }, ?_, pE⟩
  · unfold Cluster.pickNewSiteId
    simp [IMap.get?]
  · unfold Cluster.pickNewSiteId
    simp [IMap.get?]

/-- The hypotheses of `C92_positive_partial`, for the pair of C91 in doubles: 10 of 13 of the rates stay inside. -/
example : Island Rounded.binary64 (clusterOf Rounded.binary64 pairRates pairLinks) 4 (10 / 13 : ℚ) ∧
    (clusterOf Rounded.binary64 pairRates pairLinks).sites ≠ [] ∧ (clusterOf Rounded.binary64 pairRates pairLinks).probOn.WF ∧
    (∀ k ∈ (clusterOf Rounded.binary64 pairRates pairLinks).probOn.keys, k ∈ (clusterOf Rounded.binary64 pairRates pairLinks).sites.keys) ∧
    128 * ((4 * 4 + (clusterOf Rounded.binary64 pairRates pairLinks).sites.length + 3 : Nat) * (1 / 2 ^ 53 : ℚ)) ≤ 10 / 13 :=
  ⟨island_of (mem := pairRates) (by decide +kernel) (by decide +kernel) (by decide +kernel) (by decide +kernel), by decide +kernel,
    by decide +kernel, by decide +kernel, by decide +kernel⟩

end Mythical
