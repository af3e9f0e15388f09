import Verif.Lemmas.RoundedIter
import Verif.Lemmas.RoundedSite

/-! # The iteration of a cluster in rounded arithmetic: all rounds -/

set_option linter.unusedSectionVars false
set_option linter.unusedVariables false

namespace Mythical.Rounded
open Mythical RoundSpec
variable {K : Type} [Field K] [LinearOrder K] [IsStrictOrderedRing K] [FloorRing K]
variable {fl : K → K} {ε : K} {c : Cluster K} {d : Nat} {δ φ : K}

/-- Positive occupation probabilities of exactly the sites, whose sum is 1 up to `m` roundings. -/
structure Occ (ε : K) (m : Nat) (c : Cluster K) : Prop where
  wf : c.probOn.WF
  keys : ∀ k, k ∈ c.probOn.keys ↔ k ∈ c.sites.keys
  pos : ∀ i ∈ c.sites.keys, 0 < c.probOn.at0 i
  one : Rel ε m 1 (c.sites.map fun is => c.probOn.at0 is.1).sum

theorem abs_fl_le (R : Rounding fl ε) (x : K) : |fl x| ≤ (1 + ε) * |x| := by
  have := R.err x
  calc |fl x| = |(fl x - x) + x| := by rw [sub_add_cancel]
    _ ≤ |fl x - x| + |x| := abs_add_le _ _
    _ ≤ _ := by linarith

/-- The new probability of a site is positive although its temporary one may not be. -/
theorem mixed_pos (h0 : 0 ≤ ε) (h1 : 64 * ε ≤ 1) (R : Rounding fl ε) {t T P A G S φ' : K} (hP : 0 < P) (hA : 0 ≤ A) (hG1 : G ≤ 1)
    (hG : 64 * G ≤ 7 * φ') (hφ : 0 < φ') (hS : 1 ≤ 2 * S) (ht : |t - A| ≤ G * (P + A)) (hT : φ' * S ≤ 2 * T) :
    0 < fl (fl (fl (t * fl (1 / T)) + P) * (1 / 2)) := by
  have he : ε < 1 := by linarith
  have hTp : 0 < T := by nlinarith
  have hinv : 0 < fl (1 / T) := R.pos he (one_div_pos.2 hTp)
  have hinv2 : fl (1 / T) ≤ (1 + ε) * (1 / T) := (R.bounds (one_div_pos.2 hTp).le).2
  have hy : 0 < fl (t * fl (1 / T)) + P := by
    rcases le_or_gt 0 t with h | h
    · have := R.nonneg (mul_nonneg h hinv.le)
      linarith
    · have hb := abs_fl_le R (t * fl (1 / T))
      rw [abs_mul, abs_of_pos hinv, abs_of_neg h] at hb
      have htl : -t ≤ G * P := by
        have := (abs_le.1 ht).1
        nlinarith
      have hinv3 : fl (1 / T) * T ≤ 1 + ε := by
        calc fl (1 / T) * T ≤ (1 + ε) * (1 / T) * T := mul_le_mul_of_nonneg_right hinv2 hTp.le
          _ = 1 + ε := by field_simp
      have hb2 : -t * fl (1 / T) < P / 2 := by
        -- G P inv < P / 2
        have h4 : -t * fl (1 / T) ≤ G * P * fl (1 / T) := mul_le_mul_of_nonneg_right htl hinv.le
        refine lt_of_le_of_lt h4 ?_
        have h5 : G * fl (1 / T) < 1 / 2 := by
          have h6 : φ' ≤ 4 * T := by nlinarith
          have h7 : 64 * G ≤ 28 * T := by linarith
          have h8 : 64 * (G * fl (1 / T)) ≤ 28 * (1 + ε) := by nlinarith
          nlinarith
        nlinarith
      have hb3 : (1 + ε) * (-t * fl (1 / T)) < P := by
        have : 0 ≤ -t * fl (1 / T) := mul_nonneg (by linarith) hinv.le
        nlinarith
      have := (abs_le.1 hb).1
      linarith
  exact R.pos he (mul_pos (R.pos he hy) (by norm_num))

/-- The rounded total of the temporary probabilities is at least half of the exact one. -/
theorem total_large {A S G φ' δ' κ T L : K} (hA0 : 0 ≤ A) (hG0 : 0 ≤ G) (hGφ : 64 * G ≤ 7 * φ') (hAS : φ' * S ≤ A) (hφ1 : φ' ≤ 1 + δ')
    (hδ : 64 * δ' ≤ φ') (hκ0 : 0 ≤ κ) (hκ : 64 * κ ≤ φ') (hlow : A - G * (S + A) ≤ L) (hT : |T - L| ≤ 2 * κ * (A + G * (S + A))) (hS : 0 ≤ S) :
    A ≤ 2 * T := by
  have hGSA : G * (S + A) ≤ A / 3 := by
    have h3 : 64 * (G * S) ≤ 7 * A := by
      have := mul_le_mul_of_nonneg_right hGφ hS
      linarith
    have h5 : 63 * φ' ≤ 64 := by linarith
    have h4 : 9 * (G * A) ≤ A := by
      have h6 : 9 * G ≤ 1 := by linarith
      have := mul_le_mul_of_nonneg_right h6 hA0
      linarith
    rw [mul_add]
    linarith
  have h3 := (abs_le.1 hT).1
  have h5 : 2 * κ ≤ 1 / 16 := by linarith
  have h0 : 0 ≤ G * (S + A) := mul_nonneg hG0 (by linarith)
  have h6 : 2 * κ * (A + G * (S + A)) ≤ 1 / 16 * (A + A / 3) :=
    mul_le_mul h5 (by linarith) (by linarith) (by norm_num)
  linarith

theorem basin_phi (B : Basin c d δ φ) {is : Int × Site K} (his : is ∈ c.sites) : φ ≤ 1 + δ := by
  have h1 := (abs_le.1 (B.one is his)).2
  refine (B.inside is his).trans (le_trans (b := (is.2.neigh.keys.map (stored is.2)).sum) ?_ (by linarith))
  refine List.Sublist.sum_le_sum (List.Sublist.map _ List.filter_sublist) ?_
  intro x hx
  obtain ⟨n, hn, rfl⟩ := List.mem_map.1 hx
  exact (B.probabilityTo his hn).2

/-- The mean of the normalised temporary probability `t` and the old probability `p`. -/
def mix (fl : K → K) (T t p : K) : K := fl (fl (fl (t * fl (1 / T)) + p) * (1 / 2))

/-- The sum of the occupation probabilities. -/
def mass (c : Cluster K) : K := (c.sites.map fun is => c.probOn.at0 is.1).sum

/-- What flows between the sites. -/
def flow (c : Cluster K) : K := (c.sites.map fun is => inflow c is.1 is.2.neigh.keys).sum

/-- One round, with the intermediate results `t` and `T`. -/
theorem iterate_full (h0 : 0 ≤ ε) (R : Rounding fl ε) (B : Basin c d δ φ) {m : Nat} (O : Occ ε m c) (hne : c.sites ≠ [])
    (hz : 64 * ((2 * d + 1 + c.sites.length : Nat) * ε + δ) ≤ φ) (hφ : 0 < φ) (hm : 2 * (m * ε) ≤ 1) :
    ∃ c', iterate fl c = .ok c' ∧ c' = { c with probOn := c'.probOn } ∧ Occ ε (c.sites.length + 2) c' ∧
      ∃ (t : Int × Site K → K) (T : K),
        (∀ is ∈ c.sites, |t is - inflow c is.1 is.2.neigh.keys| ≤
          (6 * ((2 * d + 1 : Nat) * ε) + δ) * (c.probOn.at0 is.1 + inflow c is.1 is.2.neigh.keys)) ∧
        |T - (c.sites.map t).sum| ≤ 2 * (c.sites.length * ε) * (flow c + (6 * ((2 * d + 1 : Nat) * ε) + δ) * (mass c + flow c)) ∧
        0 < T ∧ φ * mass c ≤ flow c ∧ 1 ≤ 2 * mass c ∧
        (∀ is ∈ c.sites, 0 < mix fl T (t is) (c.probOn.at0 is.1)) ∧
        ∀ is ∈ c.sites, Rel ε (c.sites.length + 2) (mix fl T (t is) (c.probOn.at0 is.1) *
          (1 / (c.sites.map fun is => mix fl T (t is) (c.probOn.at0 is.1)).sum)) (c'.probOn.at0 is.1) := by
  have hP : ∀ i ∈ c.sites.keys, 0 ≤ c.probOn.at0 i := fun i hi => (O.pos i hi).le
  obtain ⟨is0, his0⟩ := List.exists_mem_of_ne_nil _ hne
  have hδ0 : 0 ≤ δ := (abs_nonneg _).trans (B.one is0 his0)
  have hd0 : (0 : K) ≤ d := Nat.cast_nonneg _
  have hk0 : (0 : K) ≤ c.sites.length := Nat.cast_nonneg _
  -- the share inside is at most the sum of the table
  have hφ1 : φ ≤ 1 + δ := basin_phi B his0
  have hde : (0 : K) ≤ (2 * d + 1 : Nat) * ε := by positivity
  have hke : (0 : K) ≤ (c.sites.length : K) * ε := by positivity
  have hsplit : ((2 * d + 1 + c.sites.length : Nat) : K) * ε = ((2 * d + 1 : Nat) : K) * ε + c.sites.length * ε := by
    push_cast; ring
  rw [hsplit] at hz
  have hee : ε ≤ ((2 * d + 1 : Nat) : K) * ε := by push_cast; nlinarith
  have hφ2 : φ ≤ 2 := by linarith
  have he64 : 64 * ε ≤ 1 := by linarith
  have he : ε < 1 := by linarith
  have hk1 : 1 ≤ c.sites.length := List.length_pos_of_ne_nil hne
  have hk1K : (1 : K) ≤ c.sites.length := by exact_mod_cast hk1
  -- temporary probabilities
  have htf : ∀ is : Int × Site K, ∃ t, is ∈ c.sites → iterSite fl c is.1 is.2 = .ok t ∧
      |t - inflow c is.1 is.2.neigh.keys| ≤ (6 * ((2 * d + 1 : Nat) * ε) + δ) * (c.probOn.at0 is.1 + inflow c is.1 is.2.neigh.keys) := by
    intro is
    by_cases h : is ∈ c.sites
    · obtain ⟨t, ht⟩ := iterSite_near h0 R B hP (by linarith) (by linarith) (i := is.1) (s := is.2) h
      exact ⟨t, fun _ => ht⟩
    · exact ⟨0, fun q => absurd q h⟩
  choose tf htf using htf
  have htemp : iterTemp fl c = .ok (c.sites.map fun is => (is.1, tf is)) := by
    unfold iterTemp
    refine mapM_ok fun is his => ?_
    rw [(htf is his).1]; rfl
  -- totals
  set G := 6 * (((2 * d + 1 : Nat) : K) * ε) + δ with hGdef
  have hG0 : 0 ≤ G := by positivity
  have hGφ : 64 * G ≤ 7 * φ := by rw [hGdef]; linarith
  set A := (c.sites.map fun is => inflow c is.1 is.2.neigh.keys).sum with hAdef
  set S := (c.sites.map fun is => c.probOn.at0 is.1).sum with hSdef
  have hin : ∀ is ∈ c.sites, is.1 ∈ c.sites.keys := fun is his => List.mem_map.2 ⟨is, his, rfl⟩
  have hAS : φ * S ≤ A := by
    rw [hAdef, sum_inflow B, hSdef, ← List.sum_map_mul_left]
    refine List.sum_le_sum fun is his => ?_
    exact mul_le_mul_of_nonneg_right (B.inside is his) (hP _ (hin is his))
  have hS2 : 1 ≤ 2 * S := by
    have h3 := (Rel.bounds he.le h0 O.one hm).1
    rw [mul_one] at h3
    linarith
  have hA0 : 0 ≤ A := le_trans (by nlinarith) hAS
  have hsumG : (c.sites.map fun is => G * (c.probOn.at0 is.1 + inflow c is.1 is.2.neigh.keys)).sum = G * (S + A) := by
    rw [List.sum_map_mul_left, List.sum_map_add]
  have hlow : A - G * (S + A) ≤ (c.sites.map tf).sum := by
    rw [sub_le_iff_le_add, ← hsumG, hAdef, ← List.sum_map_add]
    refine List.sum_le_sum fun is his => ?_
    have := (abs_le.1 (htf is his).2).1
    linarith
  have habs : ((c.sites.map tf).map fun x => |x|).sum ≤ A + G * (S + A) := by
    rw [← hsumG, hAdef, ← List.sum_map_add, List.map_map]
    refine List.sum_le_sum fun is his => ?_
    have h3 := (htf is his).2
    have h4 := inflow_nonneg B hP (i := is.1) (s := is.2) his
    calc |tf is| = |(tf is - inflow c is.1 is.2.neigh.keys) + inflow c is.1 is.2.neigh.keys| := by rw [sub_add_cancel]
      _ ≤ _ := abs_add_le _ _
      _ ≤ _ := by rw [abs_of_nonneg h4]; linarith
  have hT := AErr.total h0 R (c.sites.map tf)
  rw [List.length_map] at hT
  have hg := pow_sub_one_le h0 (m := c.sites.length) (ε := ε) (by linarith)
  have hg0 : 0 ≤ (1 + ε) ^ c.sites.length - 1 := sub_nonneg.2 (one_le_pow₀ (by linarith))
  have hTerr : |Rounded.total fl 0 (c.sites.map tf) - (c.sites.map tf).sum| ≤ 2 * (c.sites.length * ε) * (A + G * (S + A)) := by
    refine hT.err.trans (mul_le_mul hg habs (hT.size h0) (by positivity))
  set T := Rounded.total fl 0 (c.sites.map tf) with hTdef
  have hTA : A ≤ 2 * T := total_large hA0 hG0 hGφ hAS hφ1 (by linarith) hke (by linarith) hlow hTerr (by linarith)
  have hTS : φ * S ≤ 2 * T := hAS.trans hTA
  have hTp : 0 < T := by nlinarith
  -- mixed probabilities
  set mf : Int × Site K → K := fun is => fl (fl (fl (tf is * fl (1 / T)) + c.probOn.at0 is.1) * (1 / 2)) with hmf
  have hmpos : ∀ is ∈ c.sites, 0 < mf is := fun is his =>
    mixed_pos h0 he64 R (O.pos _ (hin is his)) (inflow_nonneg B hP (i := is.1) (s := is.2) his) (by linarith) hGφ hφ hS2 (htf is his).2 hTS
  have hmr := Rel.total h0 he.le R (l := c.sites.map mf) (by
    intro x hx; obtain ⟨is, his, rfl⟩ := List.mem_map.1 hx; exact (hmpos is his).le)
  rw [List.length_map] at hmr
  have hMpos : 0 < (c.sites.map mf).sum := by
    refine lt_of_lt_of_le (hmpos is0 his0) ?_
    refine List.single_le_sum (fun x hx => ?_) _ (List.mem_map.2 ⟨is0, his0, rfl⟩)
    obtain ⟨is, his, rfl⟩ := List.mem_map.1 hx
    exact (hmpos is his).le
  set M2 := Rounded.total fl 0 (c.sites.map mf) with hM2
  have hM2pos : 0 < M2 := (hmr.pos_iff he).1 hMpos
  set nf : Int × Site K → K := fun is => fl (mf is * fl (1 / M2)) with hnf
  have hnfr : ∀ is ∈ c.sites, Rel ε (c.sites.length + 2) (mf is * (1 / (c.sites.map mf).sum)) (nf is) := by
    intro is his
    have r1 := (hmr.inv h0 he.le hMpos hM2pos).rnd h0 he R
    have r2 := ((Rel.refl h0 he.le (hmpos is his).le).mul h0 he.le r1).rnd h0 he R
    exact r2.mono h0 he.le (by omega)
  -- the result
  set c' : Cluster K := { c with probOn := ((c.sites.map fun is => (is.1, mf is)).foldl (fun m it => m.set it.1 (fl (it.2 * fl (1 / M2)))) c.probOn) } with hc'
  have hsv1 : sumVals fl (c.sites.map fun is => (is.1, tf is)) = T := by
    rw [sumVals_total, List.map_map]; rfl
  have hsv2 : sumVals fl (c.sites.map fun is => (is.1, mf is)) = M2 := by
    rw [sumVals_total, List.map_map]; rfl
  have hrun : iterate fl c = .ok c' := by
    unfold iterate
    rw [htemp, ok_bind]
    simp only
    rw [hsv1, if_neg hTp.ne', List.map_map]
    have e : ((fun it : Int × K => (it.1, fl (fl (fl (it.2 * fl (1 / T)) + c.probOn.at0 it.1) * (1 / 2)))) ∘
        fun is : Int × Site K => (is.1, tf is)) = fun is => (is.1, mf is) := rfl
    rw [e, hsv2, if_neg hM2pos.ne']
  have hwfm : IMap.WF (c.sites.map fun is => (is.1, mf is)) := IMap.wf_map B.wf _
  have hget : ∀ is ∈ c.sites, c'.probOn.at0 is.1 = nf is := by
    intro is his
    have hg1 := IMap.get?_foldl_set hwfm (fun it : Int × K => fl (it.2 * fl (1 / M2))) c.probOn is.1
    have hg2 : IMap.get? (c.sites.map fun is => (is.1, mf is)) is.1 = some (mf is) :=
      IMap.get?_of_mem hwfm (List.mem_map.2 ⟨is, his, rfl⟩)
    refine IMap.at0_of_get? (hg1.trans ?_)
    rw [hg2]
    rfl
  refine ⟨c', hrun, rfl, ⟨?_, ?_, ?_, ?_⟩, tf, T, fun is his => (htf is his).2, hTerr, hTp, hAS, hS2, hmpos, fun is his => by
    rw [hget is his]; exact hnfr is his⟩
  · exact IMap.wf_foldl_set _ _ _ O.wf
  · intro k
    have hk := IMap.keys_foldl_set (c.sites.map fun is => (is.1, mf is)) (fun it : Int × K => fl (it.2 * fl (1 / M2))) c.probOn k
    refine hk.trans ?_
    rw [O.keys]
    have : IMap.keys (c.sites.map fun is => (is.1, mf is)) = c.sites.keys := by simp [IMap.keys]
    constructor
    · rintro (q | q)
      · rw [this] at q; exact q
      · exact q
    · exact .inr
  · intro i hi
    obtain ⟨is, his, rfl⟩ := List.mem_map.1 hi
    rw [hget is his]
    exact ((hnfr is his).pos_iff he).1 (mul_pos (hmpos is his) (one_div_pos.2 hMpos))
  · have e : (c'.sites.map fun is => c'.probOn.at0 is.1) = c.sites.map nf := List.map_congr_left fun is his => hget is his
    rw [e]
    have hsum1 : (c.sites.map fun is => mf is * (1 / (c.sites.map mf).sum)).sum = 1 := by
      rw [List.sum_map_mul_right]
      exact mul_one_div_cancel hMpos.ne'
    rw [← hsum1]
    have key : ∀ l : List (Int × Site K), (∀ is ∈ l, is ∈ c.sites) →
        Rel ε (c.sites.length + 2) (l.map fun is => mf is * (1 / (c.sites.map mf).sum)).sum (l.map nf).sum := by
      intro l
      induction l with
      | nil => intro _; exact (Rel.refl h0 he.le (le_refl _)).mono h0 he.le (Nat.zero_le _)
      | cons x l ih =>
        intro hl
        simp only [List.map_cons, List.sum_cons]
        exact (hnfr x (hl x (List.mem_cons_self ..))).add h0 he.le (ih fun is h => hl is (List.mem_cons_of_mem _ h))
    exact key c.sites fun _ h => h

theorem iterate_occ (h0 : 0 ≤ ε) (R : Rounding fl ε) (B : Basin c d δ φ) {m : Nat} (O : Occ ε m c) (hne : c.sites ≠ [])
    (hz : 64 * ((2 * d + 1 + c.sites.length : Nat) * ε + δ) ≤ φ) (hφ : 0 < φ) (hm : 2 * (m * ε) ≤ 1) :
    ∃ c', iterate fl c = .ok c' ∧ c' = { c with probOn := c'.probOn } ∧ Occ ε (c.sites.length + 2) c' := by
  obtain ⟨c', e1, e2, e3, -⟩ := iterate_full h0 R B O hne hz hφ hm
  exact ⟨c', e1, e2, e3⟩

theorem Basin_probOn (B : Basin c d δ φ) (p : IMap K) : Basin { c with probOn := p } d δ φ :=
  ⟨B.wf, B.neighWF, B.tab, B.nonneg, B.both, B.one, B.inside, B.deg⟩

theorem initProb_occ (h0 : 0 ≤ ε) (h1 : ε < 1) (R : Rounding fl ε) (hw : c.sites.WF) (hpw : c.probOn.WF)
    (hpk : ∀ k ∈ c.probOn.keys, k ∈ c.sites.keys) (hne : c.sites ≠ []) : Occ ε 1 (initProb fl c) := by
  have hk : (0 : K) < c.sites.length := by exact_mod_cast List.length_pos_of_ne_nil hne
  have hv : 0 < fl (1 / (c.sites.length : K)) := R.pos h1 (one_div_pos.2 hk)
  have hget : ∀ is ∈ c.sites, (initProb fl c).probOn.at0 is.1 = fl (1 / (c.sites.length : K)) := by
    intro is his
    have hg1 := IMap.get?_foldl_set hw (fun _ : Int × Site K => fl (1 / (c.sites.length : K))) c.probOn is.1
    refine IMap.at0_of_get? (hg1.trans ?_)
    rw [IMap.get?_of_mem hw his]
    rfl
  refine ⟨IMap.wf_foldl_set _ _ _ hpw, ?_, ?_, ?_⟩
  · intro k
    have hk := IMap.keys_foldl_set c.sites (fun _ : Int × Site K => fl (1 / (c.sites.length : K))) c.probOn k
    exact hk.trans ⟨fun q => q.elim id (hpk k), .inl⟩
  · intro i hi
    obtain ⟨is, his, rfl⟩ := List.mem_map.1 hi
    rw [hget is his]; exact hv
  · have e : ((initProb fl c).sites.map fun is => (initProb fl c).probOn.at0 is.1) =
        c.sites.map fun _ => fl (1 / (c.sites.length : K)) := List.map_congr_left fun is his => hget is his
    rw [e]
    have r := (Rel.refl h0 h1.le hk.le).mul h0 h1.le (Rel.round h0 h1.le R (one_div_pos.2 hk).le)
    rw [mul_one_div_cancel hk.ne'] at r
    rw [List.map_const', List.sum_replicate, nsmul_eq_mul]
    simpa using r

theorem iterateN_occ (h0 : 0 ≤ ε) (R : Rounding fl ε) (hφ : 0 < φ) (n : Nat) :
    ∀ {c : Cluster K} {m : Nat}, Basin c d δ φ → Occ ε m c → c.sites ≠ [] →
    64 * ((2 * d + 1 + c.sites.length : Nat) * ε + δ) ≤ φ → 2 * ((m : K) * ε) ≤ 1 → m ≤ c.sites.length + 2 →
    ∃ c', iterateN fl n c = .ok c' ∧ c' = { c with probOn := c'.probOn } ∧ Occ ε (c.sites.length + 2) c' := by
  induction n with
  | zero =>
    intro c m B O hne hz hm hmk
    have h1 : ε ≤ 1 := by
      obtain ⟨is0, his0⟩ := List.exists_mem_of_ne_nil _ hne
      have hφ1 := basin_phi B his0
      have hδ0 : 0 ≤ δ := (abs_nonneg _).trans (B.one is0 his0)
      have : ε ≤ (2 * d + 1 + c.sites.length : Nat) * ε := by
        have : (1 : K) ≤ (2 * d + 1 + c.sites.length : Nat) := by exact_mod_cast (by omega)
        nlinarith
      linarith
    exact ⟨c, rfl, rfl, O.wf, O.keys, O.pos, O.one.mono h0 h1 hmk⟩
  | succ n ih =>
    intro c m B O hne hz hm hmk
    obtain ⟨c1, e1, e2, O1⟩ := iterate_occ h0 R B O hne hz hφ hm
    have hs : c1.sites = c.sites := by rw [e2]
    have hm2 : 2 * (((c.sites.length + 2 : Nat) : K) * ε) ≤ 1 := by
      obtain ⟨is0, his0⟩ := List.exists_mem_of_ne_nil _ hne
      have hφ1 := basin_phi B his0
      have hδ0 : 0 ≤ δ := (abs_nonneg _).trans (B.one is0 his0)
      have hk1 : (1 : K) ≤ c.sites.length := by exact_mod_cast List.length_pos_of_ne_nil hne
      have hd0 : (0 : K) ≤ d := Nat.cast_nonneg _
      push_cast at hz ⊢
      nlinarith
    have B1 : Basin c1 d δ φ := by rw [e2]; exact Basin_probOn B _
    obtain ⟨c2, f1, f2, O2⟩ := ih B1 O1 (by rw [hs]; exact hne) (by rw [hs]; exact hz) hm2 (by rw [hs])
    refine ⟨c2, ?_, ?_, by rw [hs] at O2; exact O2⟩
    · unfold iterateN; rw [e1, ok_bind, f1]
    · rw [f2, e2]

/-! ## From rates -/

/-- The table of a site in terms of its rates. -/
theorem FreshR.stored (h0 : 0 ≤ ε) (h1 : ε < 1) (R : Rounding fl ε) {mem : Addr → K} {s : Site K} (F : FreshR fl mem s) (hw : s.neigh.WF)
    (hpos : ∀ na ∈ s.neigh, 0 < mem na.2) : ∀ na ∈ s.neigh,
    na.1 ∈ s.prob.map Prod.fst ∧ Rel ε (s.neigh.length + 1) (mem na.2 / (s.neigh.map fun na => mem na.2).sum) (stored s na.1) := by
  intro na hna
  have hmem : (na.1, fl (mem na.2 / sumRates fl mem s)) ∈ s.prob := F.perm.mem_iff.2 (List.mem_map.2 ⟨na, hna, rfl⟩)
  refine ⟨List.mem_map.2 ⟨_, hmem, rfl⟩, ?_⟩
  have hwf : IMap.WF s.prob := by
    have h := (F.perm.map Prod.fst).nodup_iff.2 (by rw [List.map_map]; exact hw)
    exact h
  rw [stored_eq, IMap.at0_of_mem hwf hmem]
  have hS : 0 < (s.neigh.map fun na => mem na.2).sum := by
    refine lt_of_lt_of_le (hpos na hna) (List.single_le_sum (fun x hx => ?_) _ (List.mem_map.2 ⟨na, hna, rfl⟩))
    obtain ⟨nb, hnb, rfl⟩ := List.mem_map.1 hx
    exact (hpos nb hnb).le
  have r := Rel.total h0 h1.le R (l := s.neigh.map fun na => mem na.2) (by
    intro x hx; obtain ⟨nb, hnb, rfl⟩ := List.mem_map.1 hx; exact (hpos nb hnb).le)
  rw [List.length_map, ← sumRates_total] at r
  have q := ((Rel.refl h0 h1.le (hpos na hna).le).div h0 h1 r hS).rnd h0 h1 R
  rwa [zero_add] at q

theorem rel_sum (h0 : 0 ≤ ε) (h1 : ε ≤ 1) {α : Type} {m : Nat} {f g : α → K} (l : List α) (h : ∀ a ∈ l, Rel ε m (f a) (g a)) :
    Rel ε m (l.map f).sum (l.map g).sum := by
  induction l with
  | nil => exact (Rel.refl h0 h1 (le_refl _)).mono h0 h1 (Nat.zero_le _)
  | cons x l ih =>
    simp only [List.map_cons, List.sum_cons]
    exact (h x (List.mem_cons_self ..)).add h0 h1 (ih fun a ha => h a (List.mem_cons_of_mem _ ha))

end Mythical.Rounded
