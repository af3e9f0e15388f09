import Verif.Lemmas.RoundedDerive
import Mathlib.Algebra.BigOperators.Group.Finset.Sigma
import Mathlib.Algebra.BigOperators.Group.List.Lemmas

/-! # The iteration of a cluster in rounded arithmetic: absolute errors -/

set_option linter.unusedSectionVars false
set_option linter.unusedVariables false

namespace Mythical.Rounded
open Mythical RoundSpec
variable {K : Type} [Field K] [LinearOrder K] [IsStrictOrderedRing K] [FloorRing K]
variable {fl : K → K} {ε : K}

/-- `y` is computed for `x`, a sum of terms whose absolute values add up to at most `S`, with `m` roundings. -/
structure AErr (ε : K) (m : Nat) (S x y : K) : Prop where
  err : |y - x| ≤ ((1 + ε) ^ m - 1) * S
  abs : |x| ≤ S

section
variable (h0 : 0 ≤ ε) (R : Rounding fl ε) {m : Nat} {S S' x x' y y' : K}
include h0

theorem AErr.size (h : AErr ε m S x y) : 0 ≤ S := (abs_nonneg x).trans h.abs

theorem AErr.refl (x : K) : AErr ε m |x| x x := by
  have : 1 ≤ (1 + ε) ^ m := one_le_pow₀ (by linarith)
  refine ⟨?_, le_refl _⟩
  rw [sub_self, abs_zero]
  exact mul_nonneg (by linarith) (abs_nonneg _)

theorem AErr.mono {k : Nat} (h : AErr ε m S x y) (hk : m ≤ k) : AErr ε k S x y := by
  have : (1 + ε) ^ m ≤ (1 + ε) ^ k := pow_le_pow_right₀ (by linarith) hk
  exact ⟨h.err.trans (mul_le_mul_of_nonneg_right (by linarith) (h.size h0)), h.abs⟩

include R

theorem AErr.round (h : AErr ε m S x y) : AErr ε (m + 1) S x (fl y) := by
  refine ⟨?_, h.abs⟩
  have e1 := R.err y
  have hp : 1 ≤ (1 + ε) ^ m := one_le_pow₀ (by linarith)
  have e2 : |y| ≤ (1 + ε) ^ m * S := by
    calc |y| = |(y - x) + x| := by rw [sub_add_cancel]
      _ ≤ |y - x| + |x| := abs_add_le _ _
      _ ≤ ((1 + ε) ^ m - 1) * S + S := add_le_add h.err h.abs
      _ = _ := by ring
  calc |fl y - x| = |(fl y - y) + (y - x)| := by rw [sub_add_sub_cancel]
    _ ≤ |fl y - y| + |y - x| := abs_add_le _ _
    _ ≤ ε * ((1 + ε) ^ m * S) + ((1 + ε) ^ m - 1) * S := add_le_add (e1.trans (mul_le_mul_of_nonneg_left e2 h0)) h.err
    _ = _ := by rw [pow_succ]; ring

theorem AErr.add (h : AErr ε m S x y) (g : AErr ε m S' x' y') : AErr ε (m + 1) (S + S') (x + x') (fl (y + y')) := by
  refine AErr.round h0 R ⟨?_, (abs_add_le _ _).trans (add_le_add h.abs g.abs)⟩
  calc |y + y' - (x + x')| = |(y - x) + (y' - x')| := by rw [add_sub_add_comm]
    _ ≤ |y - x| + |y' - x'| := abs_add_le _ _
    _ ≤ _ := add_le_add h.err g.err
    _ = _ := by ring

theorem AErr.sub (h : AErr ε m S x y) (g : AErr ε m S' x' y') : AErr ε (m + 1) (S + S') (x - x') (fl (y - y')) := by
  have g' : AErr ε m S' (-x') (-y') := ⟨by rw [← neg_sub', abs_neg]; exact g.err, by rw [abs_neg]; exact g.abs⟩
  have := AErr.add h0 R h g'
  rwa [← sub_eq_add_neg, ← sub_eq_add_neg] at this

/-- A rounded sum. -/
theorem AErr.total (l : List K) : AErr ε l.length (l.map fun x => |x|).sum l.sum (Rounded.total fl 0 l) := by
  have key : ∀ (l : List K) (S x y : K) (m : Nat), AErr ε m S x y →
      AErr ε (m + l.length) (S + (l.map fun x => |x|).sum) (x + l.sum) (Rounded.total fl y l) := by
    intro l
    induction l with
    | nil => intro S x y m h; simpa [Rounded.total] using h
    | cons a l ih =>
      intro S x y m h
      have := ih _ _ _ _ (AErr.add h0 R h (AErr.refl h0 a))
      rw [total_cons, List.sum_cons, List.length_cons, List.map_cons, List.sum_cons, ← add_assoc S, ← add_assoc x, ← add_assoc m,
        add_right_comm m]
      exact this
  have := key l 0 0 0 0 ⟨by simp, by simp⟩
  rwa [zero_add, zero_add, zero_add] at this

end

theorem pow_sub_one_le (h0 : 0 ≤ ε) {m : Nat} (hm : 2 * (m * ε) ≤ 1) : (1 + ε) ^ m - 1 ≤ 2 * (m * ε) := by
  by_cases hz : m = 0
  · subst hz; simp
  have hm1 : (1 : K) ≤ m := by exact_mod_cast Nat.one_le_iff_ne_zero.2 hz
  have h1 : ε ≤ 1 := by nlinarith
  have p := pow_mul_le h0 h1 m
  have hx : 0 ≤ (m : K) * ε := by positivity
  generalize (m : K) * ε = x at *
  generalize (1 + ε) ^ m = q at *
  have : 0 < 1 - x := by linarith
  nlinarith

/-! ## One site -/

variable {c : Cluster K} {d : Nat} {δ φ : K}

theorem stored_eq (s : Site K) (n : Int) : stored s n = IMap.at0 s.prob n := by
  unfold stored IMap.at0
  congr 1
  generalize s.prob = l
  induction l with
  | nil => rfl
  | cons x l ih =>
    obtain ⟨k, p⟩ := x
    rw [List.find?_cons]
    unfold IMap.get?
    by_cases h : k = n
    · simp [h]
    · have : (k == n) = false := by simpa using h
      rw [if_neg h, ← ih]
      simp [this]

theorem _root_.Mythical.RoundSpec.Basin.probabilityTo (B : Basin c d δ φ) {is : Int × Site K} (h : is ∈ c.sites) {n : Int} (hn : n ∈ is.2.neigh.keys) :
    is.2.probabilityTo n = .ok (stored is.2 n) ∧ 0 ≤ stored is.2 n := by
  obtain ⟨p, hp⟩ := IMap.mem_keys_iff_get?.1 (B.tab is h n hn)
  have e : stored is.2 n = p := by rw [stored_eq]; exact IMap.at0_of_get? hp
  constructor
  · unfold Site.probabilityTo
    rw [if_pos (IMap.has_iff.2 hn), hp, e]
  · rw [e]; exact B.nonneg is h _ (IMap.mem_of_get? hp)

/-- What flows to `i` from its neighbours `l`. -/
def inflow (c : Cluster K) (i : Int) (l : List Int) : K :=
  ((l.filter fun n => n ∈ c.sites.keys).map fun n => stored (c.siteAt n) i * c.probOn.at0 n).sum

/-- What flows from `i` to its neighbours `l`. -/
def outflow (c : Cluster K) (i : Int) (s : Site K) (l : List Int) : K := (l.map fun n => stored s n * c.probOn.at0 i).sum

theorem iterSite_err (h0 : 0 ≤ ε) (R : Rounding fl ε) (B : Basin c d δ φ) (hP : ∀ i ∈ c.sites.keys, 0 ≤ c.probOn.at0 i)
    {i : Int} {s : Site K} (h : (i, s) ∈ c.sites) :
    ∃ t, iterSite fl c i s = .ok t ∧ AErr ε (2 * d + 1)
      (c.probOn.at0 i + (inflow c i s.neigh.keys + outflow c i s s.neigh.keys))
      (c.probOn.at0 i + (inflow c i s.neigh.keys - outflow c i s s.neigh.keys)) t := by
  have hi : i ∈ c.sites.keys := List.mem_map.2 ⟨_, h, rfl⟩
  have key : ∀ l : List Int, (∀ n ∈ l, n ∈ s.neigh.keys) → ∀ (S x t : K) (m : Nat), 1 ≤ m → AErr ε m S x t →
      ∃ t', l.foldlM (iterNeigh fl c i s) t = .ok t' ∧
        AErr ε (m + 2 * l.length) (S + (inflow c i l + outflow c i s l)) (x + (inflow c i l - outflow c i s l)) t' := by
    intro l
    induction l with
    | nil =>
      intro _ S x t m _ ha
      refine ⟨t, rfl, ?_⟩
      simpa [inflow, outflow] using ha
    | cons n l ih =>
      intro hl S x t m hm ha
      have hn := hl n (List.mem_cons_self ..)
      obtain ⟨hp, hp0⟩ := B.probabilityTo h hn
      have hout0 : 0 ≤ stored s n * c.probOn.at0 i := mul_nonneg hp0 (hP i hi)
      have term : ∀ z : K, 0 ≤ z → ∀ k, 1 ≤ k → AErr ε k z z (fl z) := by
        intro z hz k hk
        have := (AErr.round h0 R (AErr.refl (m := 0) h0 z)).mono h0 (k := k) hk
        rwa [abs_of_nonneg hz] at this
      have hstep : ∃ t2, iterNeigh fl c i s t n = .ok t2 ∧
          AErr ε (m + 2) (S + inflow c i [n] + stored s n * c.probOn.at0 i) (x + inflow c i [n] - stored s n * c.probOn.at0 i) t2 := by
        dsimp only at hp
        unfold iterNeigh
        cases hg : c.sites.get? n with
        | none =>
          have hnot : n ∉ c.sites.keys := fun q => by
            obtain ⟨v, hv⟩ := IMap.mem_keys_iff_get?.1 q
            rw [hg] at hv; cases hv
          have : inflow c i [n] = 0 := by simp [inflow, hnot]
          rw [this, add_zero, add_zero]
          simp only [hp]
          exact ⟨_, rfl, AErr.sub h0 R (ha.mono h0 (Nat.le_succ _)) (term _ hout0 (m + 1) (by omega))⟩
        | some sn =>
          have hmem : (n, sn) ∈ c.sites := IMap.mem_of_get? hg
          have hin : n ∈ c.sites.keys := List.mem_map.2 ⟨_, hmem, rfl⟩
          have hback : i ∈ sn.neigh.keys := B.both (i, s) h (n, sn) hmem hn
          obtain ⟨hq, hq0⟩ := B.probabilityTo hmem hback
          have hsite : c.siteAt n = sn := by unfold Cluster.siteAt; rw [hg]; rfl
          have : inflow c i [n] = stored sn i * c.probOn.at0 n := by simp [inflow, hin, hsite]
          dsimp only at hq
          simp only [hq, hp]
          rw [this]
          exact ⟨_, rfl, AErr.sub h0 R (AErr.add h0 R ha (term _ (mul_nonneg hq0 (hP n hin)) m hm)) (term _ hout0 (m + 1) (by omega))⟩
      obtain ⟨t1, ht1, ha2⟩ := hstep
      obtain ⟨t', ht', ha'⟩ := ih (fun k hk => hl k (List.mem_cons_of_mem _ hk)) _ _ _ (m + 2) (by omega) ha2
      refine ⟨t', ?_, ?_⟩
      · rw [List.foldlM_cons, ht1, ok_bind]
        exact ht'
      · have e1 : inflow c i (n :: l) = inflow c i [n] + inflow c i l := by
          unfold inflow
          rw [← List.singleton_append, List.filter_append, List.map_append, List.sum_append]
        have e2 : outflow c i s (n :: l) = stored s n * c.probOn.at0 i + outflow c i s l := by
          unfold outflow; rw [List.map_cons, List.sum_cons]
        rw [e1, e2]
        have q : m + 2 + 2 * l.length = m + 2 * (n :: l).length := by rw [List.length_cons]; omega
        rw [q] at ha'
        convert ha' using 1 <;> ring
  have hstart : AErr ε 1 (c.probOn.at0 i) (c.probOn.at0 i) (c.probOn.at0 i) := by
    have := AErr.refl (m := 1) h0 (c.probOn.at0 i)
    rwa [abs_of_nonneg (hP i hi)] at this
  obtain ⟨t, ht, ha⟩ := key s.neigh.keys (fun _ h => h) _ _ _ 1 (le_refl _) hstart
  refine ⟨t, ht, ha.mono h0 ?_⟩
  have := B.deg _ h
  have hlen : s.neigh.keys.length = s.neigh.length := by unfold IMap.keys; rw [List.length_map]
  rw [hlen]
  dsimp only at this
  omega

theorem inflow_nonneg (B : Basin c d δ φ) (hP : ∀ i ∈ c.sites.keys, 0 ≤ c.probOn.at0 i) {i : Int} {s : Site K}
    (h : (i, s) ∈ c.sites) : 0 ≤ inflow c i s.neigh.keys := by
  unfold inflow
  refine List.sum_nonneg ?_
  intro x hx
  obtain ⟨n, hn, rfl⟩ := List.mem_map.1 hx
  obtain ⟨hn1, hn2⟩ := List.mem_filter.1 hn
  have hn2 : n ∈ c.sites.keys := by simpa using hn2
  obtain ⟨sn, hsn⟩ := IMap.mem_keys_iff_get?.1 hn2
  have hmem := IMap.mem_of_get? hsn
  have hsite : c.siteAt n = sn := by unfold Cluster.siteAt; rw [hsn]; rfl
  rw [hsite]
  exact mul_nonneg (B.probabilityTo hmem (B.both (i, s) h (n, sn) hmem hn1)).2 (hP n hn2)

/-- The temporary probability of a site is what flows in, up to a part of it and of the old probability. -/
theorem iterSite_near (h0 : 0 ≤ ε) (R : Rounding fl ε) (B : Basin c d δ φ) (hP : ∀ i ∈ c.sites.keys, 0 ≤ c.probOn.at0 i)
    (hd : 2 * ((2 * d + 1 : Nat) * ε) ≤ 1) (hδ : δ ≤ 1) {i : Int} {s : Site K} (h : (i, s) ∈ c.sites) :
    ∃ t, iterSite fl c i s = .ok t ∧ |t - inflow c i s.neigh.keys| ≤
      (6 * ((2 * d + 1 : Nat) * ε) + δ) * (c.probOn.at0 i + inflow c i s.neigh.keys) := by
  obtain ⟨t, ht, ha⟩ := iterSite_err h0 R B hP h
  refine ⟨t, ht, ?_⟩
  have hi : i ∈ c.sites.keys := List.mem_map.2 ⟨_, h, rfl⟩
  have hp := hP i hi
  have hA := inflow_nonneg B hP h
  have hone := B.one _ h
  have hout : outflow c i s s.neigh.keys = (s.neigh.keys.map (stored s)).sum * c.probOn.at0 i := by
    unfold outflow
    rw [List.sum_map_mul_right]
  dsimp only at hone
  rw [hout] at ha
  have e := ha.err
  have hg := pow_sub_one_le h0 hd
  have hg0 : 0 ≤ (1 + ε) ^ (2 * d + 1) - 1 := sub_nonneg.2 (one_le_pow₀ (by linarith))
  generalize (1 + ε) ^ (2 * d + 1) - 1 = g at *
  generalize ((2 * d + 1 : Nat) : K) * ε = x at *
  generalize inflow c i s.neigh.keys = A at *
  generalize c.probOn.at0 i = P at *
  generalize (s.neigh.keys.map (stored s)).sum = q at *
  obtain ⟨q1, q2⟩ := abs_le.1 hone
  obtain ⟨e1, e2⟩ := abs_le.1 e
  have hδ0 : 0 ≤ δ := (abs_nonneg _).trans hone
  have m1 : g * (P + (A + q * P)) ≤ 3 * g * (P + A) := by
    have : P + (A + q * P) ≤ 3 * (P + A) := by nlinarith
    nlinarith
  have m2 : 3 * g * (P + A) ≤ 6 * x * (P + A) := by nlinarith
  have m3 : |(1 - q) * P| ≤ δ * (P + A) := by
    rw [abs_mul, abs_of_nonneg hp, abs_sub_comm]
    nlinarith [abs_nonneg (q - 1)]
  obtain ⟨m4, m5⟩ := abs_le.1 m3
  rw [abs_le]
  constructor <;> nlinarith

/-! ## The sums -/

theorem sum_inflow (B : Basin c d δ φ) :
    (c.sites.map fun is => inflow c is.1 is.2.neigh.keys).sum =
      (c.sites.map fun is => ((is.2.neigh.keys.filter fun n => n ∈ c.sites.keys).map (stored is.2)).sum * c.probOn.at0 is.1).sum := by
  have hw : c.sites.keys.Nodup := B.wf
  have conv : ∀ f : Int → Site K → K, (c.sites.map fun is => f is.1 is.2).sum = ∑ i ∈ c.sites.keys.toFinset, f i (c.siteAt i) := by
    intro f
    have : (c.sites.map fun is => f is.1 is.2) = c.sites.keys.map fun i => f i (c.siteAt i) := by
      unfold IMap.keys
      rw [List.map_map]
      refine List.map_congr_left fun is his => ?_
      have : c.siteAt is.1 = is.2 := by
        unfold Cluster.siteAt; rw [IMap.get?_of_mem B.wf (k := is.1) (v := is.2) his]; rfl
      simp only [Function.comp, this]
    rw [this, List.sum_toFinset _ hw]
  rw [conv fun i s => inflow c i s.neigh.keys,
    conv fun i s => ((s.neigh.keys.filter fun n => n ∈ c.sites.keys).map (stored s)).sum * c.probOn.at0 i]
  have hmem : ∀ {i}, i ∈ c.sites.keys.toFinset → (i, c.siteAt i) ∈ c.sites := by
    intro i hi
    obtain ⟨s, hs⟩ := IMap.mem_keys_iff_get?.1 (List.mem_toFinset.1 hi)
    have : c.siteAt i = s := by unfold Cluster.siteAt; rw [hs]; rfl
    rw [this]; exact IMap.mem_of_get? hs
  have hflip : ∀ {s : Site K}, s.neigh.WF → ∀ f : Int → K, ((s.neigh.keys.filter fun n => n ∈ c.sites.keys).map f).sum =
      ∑ n ∈ c.sites.keys.toFinset, if n ∈ s.neigh.keys then f n else 0 := by
    intro s hs f
    have hnd : (s.neigh.keys.filter fun n => n ∈ c.sites.keys).Nodup := List.Nodup.filter _ hs
    rw [← List.sum_toFinset _ hnd, ← Finset.sum_filter]
    refine Finset.sum_congr ?_ fun _ _ => rfl
    ext n
    simp [and_comm]
  calc ∑ i ∈ c.sites.keys.toFinset, inflow c i (c.siteAt i).neigh.keys
      = ∑ i ∈ c.sites.keys.toFinset, ∑ n ∈ c.sites.keys.toFinset,
          if n ∈ (c.siteAt i).neigh.keys then stored (c.siteAt n) i * c.probOn.at0 n else 0 := by
        refine Finset.sum_congr rfl fun i hi => ?_
        exact hflip (B.neighWF _ (hmem hi)) _
    _ = ∑ n ∈ c.sites.keys.toFinset, ∑ i ∈ c.sites.keys.toFinset,
          if n ∈ (c.siteAt i).neigh.keys then stored (c.siteAt n) i * c.probOn.at0 n else 0 := Finset.sum_comm
    _ = ∑ n ∈ c.sites.keys.toFinset, ∑ i ∈ c.sites.keys.toFinset,
          if i ∈ (c.siteAt n).neigh.keys then stored (c.siteAt n) i * c.probOn.at0 n else 0 := by
        refine Finset.sum_congr rfl fun n hn => Finset.sum_congr rfl fun i hi => ?_
        have : n ∈ (c.siteAt i).neigh.keys ↔ i ∈ (c.siteAt n).neigh.keys :=
          ⟨fun q => B.both _ (hmem hi) _ (hmem hn) q, fun q => B.both _ (hmem hn) _ (hmem hi) q⟩
        rw [if_congr this rfl rfl]
    _ = _ := by
        refine Finset.sum_congr rfl fun n hn => ?_
        rw [hflip (B.neighWF _ (hmem hn)), Finset.sum_mul]
        refine Finset.sum_congr rfl fun i _ => ?_
        split
        · rfl
        · rw [zero_mul]

end Mythical.Rounded
