import Verif.Lemmas.Rounded

/-! # Lemmas on a site in rounded arithmetic -/

set_option linter.unusedSectionVars false
set_option linter.unusedVariables false

namespace Mythical.Rounded
open Mythical RoundSpec SiteSpec
variable {K : Type} [Field K] [LinearOrder K] [IsStrictOrderedRing K] [FloorRing K]
variable {fl : K → K} {ε : K}

/-- What the last rate-setting call has established. -/
structure FreshR (fl : K → K) (mem : Addr → K) (s : Site K) : Prop where
  sum : sumRates fl mem s ≠ 0
  tau : s.tau = fl (1 / sumRates fl mem s)
  perm : s.prob.Perm (s.neigh.map fun na => (na.1, fl (mem na.2 / sumRates fl mem s)))

theorem sumRates_total (mem : Addr → K) (s : Site K) :
    sumRates fl mem s = total fl 0 (s.neigh.map fun na => mem na.2) := by
  unfold sumRates total
  rw [List.foldl_map]

theorem calcTau_ok {mem : Addr → K} {s s' : Site K} (h : calcTau fl mem s = .ok s') :
    sumRates fl mem s ≠ 0 ∧ s' = { s with tau := fl (1 / sumRates fl mem s) } := by
  unfold calcTau at h
  split at h
  · cases h
  · next hn => cases h; exact ⟨hn, rfl⟩

theorem calcProb_ok {mem : Addr → K} {s s' : Site K} (h : calcProb fl mem s = .ok s') (hw : s.neigh.WF) :
    s'.prob.Perm (s.neigh.map fun na => (na.1, fl (mem na.2 / sumRates fl mem s))) ∧ s' = { s with prob := s'.prob } := by
  unfold calcProb at h
  split at h
  · cases h
  · simp only at h
    split at h
    · cases h
    · cases h
      refine ⟨?_, rfl⟩
      have := Site.foldl_setInsert_perm (acc := []) (vals := s.neigh.map fun na => (na.1, fl (mem na.2 / sumRates fl mem s))) (by
        simp only [List.nil_append, List.map_map]
        exact hw)
      simpa using this

theorem recalc_ok {mem : Addr → K} {s s' : Site K} (h : recalc fl mem s = .ok s') (hw : s.neigh.WF) :
    FreshR fl mem s' ∧ s'.neigh = s.neigh ∧ s'.id = s.id := by
  unfold recalc at h
  rw [bind_eq_ok] at h
  obtain ⟨s1, h1, h2⟩ := h
  obtain ⟨hs, rfl⟩ := calcTau_ok h1
  have h3 := calcProb_ok h2 hw
  obtain ⟨hp, he⟩ := h3
  have hsum : sumRates fl mem s' = sumRates fl mem s := by rw [he]; rfl
  refine ⟨⟨by rw [hsum]; exact hs, by rw [hsum, he], ?_⟩, by rw [he], by rw [he]⟩
  have hn : s'.neigh = s.neigh := by rw [he]
  rw [hn, hsum]
  exact hp

/-- One call, in terms of the specification. -/
theorem step_ok {mem : Addr → K} {s s' : Site K} {o : Site.Op} (hw : s.neigh.WF) (ho : ValidOp o)
    (h : step fl mem s o = .ok s') :
    FreshR fl mem s' ∧ s'.neigh.WF ∧ s'.id = s.id ∧ ∀ n, s'.neigh.get? n = neighAfter (fun n => s.neigh.get? n) o n := by
  cases o with
  | setRates m =>
    change setRatesToNeighbors fl mem s m = .ok s' at h
    unfold setRatesToNeighbors at h
    split at h
    · cases h
    · rw [bind_eq_ok] at h
      obtain ⟨s1, h1, h2⟩ := h
      obtain ⟨rfl, -⟩ := Site.setRatesLoop_ok h1
      obtain ⟨h3, h4, h5⟩ := recalc_ok h2 (Site.foldl_set_wf m _ hw)
      refine ⟨h3, by rw [h4]; exact Site.foldl_set_wf m _ hw, h5, fun n => ?_⟩
      rw [h4]
      exact Site.foldl_set_get? m ho _ _
  | addNeigh n a =>
    change addNeighRate fl mem s n a = .ok s' at h
    unfold addNeighRate at h
    split at h
    · cases h
    · obtain ⟨h3, h4, h5⟩ := recalc_ok h (hw.set n a)
      refine ⟨h3, by rw [h4]; exact hw.set n a, h5, fun k => ?_⟩
      rw [h4]
      simp only [IMap.get?_set, neighAfter, eq_comm]
  | resetNeigh n a =>
    change resetNeighRate fl mem s n a = .ok s' at h
    unfold resetNeighRate at h
    obtain ⟨h3, h4, h5⟩ := recalc_ok h (hw.set n a)
    refine ⟨h3, by rw [h4]; exact hw.set n a, h5, fun k => ?_⟩
    rw [h4]
    simp only [IMap.get?_set, neighAfter, eq_comm]

theorem run_neigh {ops : List ((Addr → K) × Site.Op)} : ∀ {s s' : Site K}, s.neigh.WF → (∀ mo ∈ ops, ValidOp mo.2) →
    run fl s ops = .ok s' → s'.neigh.WF ∧ s'.id = s.id ∧
      (fun n => s'.neigh.get? n) = ops.foldl (fun old mo => neighAfter old mo.2) (fun n => s.neigh.get? n) := by
  induction ops with
  | nil => intro s s' hw _ h; cases h; exact ⟨hw, rfl, rfl⟩
  | cons mo ops ih =>
    obtain ⟨mem, o⟩ := mo
    intro s s' hw hv h
    unfold run at h
    rw [bind_eq_ok] at h
    obtain ⟨s1, h1, h2⟩ := h
    obtain ⟨-, hw1, hid, hn⟩ := step_ok hw (hv (mem, o) (by simp)) h1
    obtain ⟨h3, h4, h5⟩ := ih hw1 (fun mo hm => hv mo (by simp [hm])) h2
    refine ⟨h3, h4.trans hid, ?_⟩
    rw [h5, List.foldl_cons]
    congr 1
    funext n
    exact hn n

theorem run_append {s : Site K} {ops ops' : List ((Addr → K) × Site.Op)} :
    run fl s (ops ++ ops') = (do let s ← run fl s ops; run fl s ops') := by
  induction ops generalizing s with
  | nil => rfl
  | cons mo ops ih =>
    obtain ⟨mem, o⟩ := mo
    show (do let s ← step fl mem s o; run fl s (ops ++ ops')) = _
    show _ = (do let s ← (do let s ← step fl mem s o; run fl s ops); run fl s ops')
    cases h : step fl mem s o with
    | error e => rfl
    | ok s1 => exact ih

theorem run_concat {s s' : Site K} {ops : List ((Addr → K) × Site.Op)} {mem : Addr → K} {o : Site.Op} (hw : s.neigh.WF)
    (hv : ∀ mo ∈ ops ++ [(mem, o)], ValidOp mo.2) (h : run fl s (ops ++ [(mem, o)]) = .ok s') :
    FreshR fl mem s' ∧ s'.neigh.WF ∧ s'.id = s.id ∧
      (fun n => s'.neigh.get? n) = (ops ++ [(mem, o)]).foldl (fun old mo => neighAfter old mo.2) (fun n => s.neigh.get? n) := by
  have hn := run_neigh (fl := fl) hw hv h
  rw [run_append, bind_eq_ok] at h
  obtain ⟨s1, h1, h2⟩ := h
  obtain ⟨hw1, -, -⟩ := run_neigh (fl := fl) hw (fun mo hm => hv mo (by simp [hm])) h1
  unfold run at h2
  rw [bind_eq_ok] at h2
  obtain ⟨s2, h3, h4⟩ := h2
  cases h4
  exact ⟨(step_ok (fl := fl) hw1 (hv (mem, o) (by simp)) h3).1, hn⟩

/-! ## Positive rates -/

theorem truncOk_of_two {p : K} (h0 : 0 ≤ p) (h1 : p ≤ 2) : Site.TruncOk p := by
  unfold Site.TruncOk truncInt
  rw [if_pos h0]
  have a : (0 : Int) ≤ ⌊p⌋ := Int.floor_nonneg.2 h0
  have b : ⌊p⌋ ≤ 2 := by
    have : ((⌊p⌋ : Int) : K) ≤ ((2 : Int) : K) := (Int.floor_le p).trans (by exact_mod_cast h1)
    exact_mod_cast this
  exact fitsInt_iff.2 ⟨by omega, by omega⟩

/-- Every term of a rounded sum of nonnegative doubles is at most the sum. -/
theorem le_total (R : Rounding fl ε) {l : List K} (hl : ∀ x ∈ l, 0 ≤ x ∧ fl x = x) {t : K} (ht : 0 ≤ t) :
    ∀ x ∈ l, x ≤ total fl t l := by
  induction l generalizing t with
  | nil => intro x h; cases h
  | cons y l ih =>
    intro x hx
    rw [total_cons]
    have hy := hl y (List.mem_cons_self ..)
    rcases List.mem_cons.1 hx with rfl | hx
    · refine le_trans ?_ (total_ge R (fun z hz => (hl z (List.mem_cons_of_mem _ hz)).1) (R.idem _)).1
      calc x = fl x := hy.2.symm
        _ ≤ fl (t + x) := R.mono (by linarith)
    · exact ih (fun z hz => hl z (List.mem_cons_of_mem _ hz)) (R.nonneg (add_nonneg ht hy.1)) x hx

/-- With positive rates the recalculation is defined. -/
theorem recalc_total (R : Rounding fl ε) (h1 : ε ≤ 1) {mem : Addr → K} {s : Site K}
    (hpos : ∀ na ∈ s.neigh, 0 < mem na.2 ∧ fl (mem na.2) = mem na.2) (hne : s.neigh ≠ []) :
    ∃ s', recalc fl mem s = .ok s' := by
  have hle : ∀ na ∈ s.neigh, mem na.2 ≤ sumRates fl mem s := by
    intro na hna
    rw [sumRates_total]
    refine le_total R ?_ (le_refl _) _ (List.mem_map.2 ⟨na, hna, rfl⟩)
    intro x hx
    obtain ⟨nb, hnb, rfl⟩ := List.mem_map.1 hx
    exact ⟨(hpos nb hnb).1.le, (hpos nb hnb).2⟩
  have hs : 0 < sumRates fl mem s := by
    obtain ⟨na, hna⟩ := List.exists_mem_of_ne_nil _ hne
    exact lt_of_lt_of_le (hpos na hna).1 (hle na hna)
  unfold recalc
  have e1 : calcTau fl mem s = .ok { s with tau := fl (1 / sumRates fl mem s) } := by
    unfold calcTau; rw [if_neg hs.ne']
  rw [e1, ok_bind]
  unfold calcProb
  have hs' : sumRates fl mem { s with tau := fl (1 / sumRates fl mem s) } = sumRates fl mem s := rfl
  rw [if_neg (by rw [hs']; exact fun h => hs.ne' h.2)]
  simp only
  rw [if_neg]
  · exact ⟨_, rfl⟩
  · rintro ⟨-, v, hv, hn⟩
    simp only [List.mem_map] at hv
    obtain ⟨na, hna, rfl⟩ := hv
    apply hn
    rw [hs']
    have hp := hpos na hna
    have hq : 0 ≤ mem na.2 / sumRates fl mem s := div_nonneg hp.1.le hs.le
    have hq1 : mem na.2 / sumRates fl mem s ≤ 1 := (div_le_one hs).2 (hle na hna)
    exact truncOk_of_two (R.nonneg hq) ((R.bounds hq).2.trans (by nlinarith))

/-! ## Tables -/

/-- A table of rounded probabilities: entries within relative bounds of weights that add up to 1. -/
structure Near (l : List (Int × K)) (w : Int → K) (A B : K) : Prop where
  wf : IMap.WF l
  pos : ∀ np ∈ l, 0 ≤ w np.1
  low : ∀ np ∈ l, (1 - A) * w np.1 ≤ np.2
  high : ∀ np ∈ l, np.2 ≤ (1 + B) * w np.1
  one : (l.map fun np => w np.1).sum = 1

theorem sum_between {l : List (Int × K)} {w : Int → K} {A B : K} (low : ∀ np ∈ l, (1 - A) * w np.1 ≤ np.2)
    (high : ∀ np ∈ l, np.2 ≤ (1 + B) * w np.1) :
    (1 - A) * (l.map fun np => w np.1).sum ≤ (l.map Prod.snd).sum ∧
      (l.map Prod.snd).sum ≤ (1 + B) * (l.map fun np => w np.1).sum := by
  induction l with
  | nil => simp
  | cons x l ih =>
    obtain ⟨h1, h2⟩ := ih (fun np h => low np (List.mem_cons_of_mem _ h)) fun np h => high np (List.mem_cons_of_mem _ h)
    have a := low x (List.mem_cons_self ..)
    have b := high x (List.mem_cons_self ..)
    simp only [List.map_cons, List.sum_cons, mul_add]
    exact ⟨add_le_add a h1, add_le_add b h2⟩

variable {l : List (Int × K)} {w : Int → K} {A B : K}

theorem Near.nonneg (N : Near l w A B) (hA : A ≤ 1) : ∀ np ∈ l, 0 ≤ np.2 := fun np h =>
  le_trans (mul_nonneg (by linarith) (N.pos np h)) (N.low np h)

/-- The last threshold. -/
theorem Near.total (N : Near l w A B) (R : Rounding fl ε) (h0 : 0 ≤ ε) (hn : 8 * (l.length * ε) ≤ 1) (hA0 : 0 ≤ A) (hA : 4 * A ≤ 1)
    (hB0 : 0 ≤ B) (hB : 4 * B ≤ 1) :
    1 - (A + l.length * ε) ≤ total fl 0 (l.map Prod.snd) ∧ total fl 0 (l.map Prod.snd) ≤ 1 + 2 * (B + l.length * ε) := by
  have hlen : 1 ≤ l.length := by
    rcases l with _ | ⟨x, l⟩
    · have := N.one; simp at this
    · simp
  have hlen' : (1 : K) ≤ l.length := by exact_mod_cast hlen
  have h1 : ε ≤ 1 := by nlinarith
  have hx0 : 0 ≤ (l.length : K) * ε := by positivity
  have hnn : ∀ x ∈ l.map Prod.snd, 0 ≤ x := by
    intro x hx
    obtain ⟨np, hnp, rfl⟩ := List.mem_map.1 hx
    exact N.nonneg (by linarith) np hnp
  obtain ⟨b1, b2⟩ := total_bounds R h0 h1 hnn (le_refl _)
  rw [List.length_map, zero_add] at b1 b2
  obtain ⟨s1, s2⟩ := sum_between N.low N.high
  rw [N.one, mul_one] at s1 s2
  have p1 := one_sub_pow h0 h1 l.length
  have p2 := pow_mul_le h0 h1 l.length
  have q2 : 0 ≤ (1 + ε) ^ l.length := pow_nonneg (by linarith) _
  generalize (l.length : K) * ε = x at *
  constructor
  · refine le_trans ?_ b1
    calc 1 - (A + x) ≤ (1 - x) * (1 - A) := by nlinarith
      _ ≤ _ := mul_le_mul p1 s1 (by linarith) (by linarith)
  · refine le_trans b2 (le_trans (mul_le_mul_of_nonneg_left s2 q2) ?_)
    have hx : 0 < 1 - x := by linarith
    rw [← mul_le_mul_iff_left₀ hx]
    calc (1 + ε) ^ l.length * (1 + B) * (1 - x) = ((1 + ε) ^ l.length * (1 - x)) * (1 + B) := by ring
      _ ≤ 1 * (1 + B) := mul_le_mul_of_nonneg_right p2 (by linarith)
      _ ≤ _ := by nlinarith

/-- The interval of an entry. -/
theorem Near.interval (N : Near l w A B) (R : Rounding fl ε) (h0 : 0 ≤ ε) (hn : 8 * (l.length * ε) ≤ 1) (hA0 : 0 ≤ A) (hA : 4 * A ≤ 1)
    (hB0 : 0 ≤ B) (hB : 4 * B ≤ 1) {n : Int} {p : K} (hp : IMap.get? l n = some p) :
    0 ≤ start fl n 0 l ∧ start fl n 0 l ≤ fl (start fl n 0 l + p) ∧
    fl (start fl n 0 l + p) ≤ Rounded.total fl 0 (l.map Prod.snd) ∧
    - (A * w n + 2 * ε) ≤ fl (start fl n 0 l + p) - start fl n 0 l - w n ∧
    fl (start fl n 0 l + p) - start fl n 0 l - w n ≤ B * w n + 2 * ε := by
  obtain ⟨t1, t2⟩ := N.total R h0 hn hA0 hA hB0 hB
  have hm : (n, p) ∈ l := IMap.mem_of_get? hp
  have hlen : 1 ≤ l.length := List.length_pos_of_mem hm
  have hlen' : (1 : K) ≤ l.length := by exact_mod_cast hlen
  have hx0 : 0 ≤ (l.length : K) * ε := by positivity
  have h8 : 8 * ε ≤ 1 := by nlinarith
  have hnn := N.nonneg (A := A) (by linarith)
  obtain ⟨f1, f2, f3⟩ := start_facts R hnn hp (t := 0) R.zero
  have hpn := hnn _ hm
  have lo := N.low _ hm
  have hi := N.high _ hm
  dsimp only at hpn lo hi
  generalize start fl n 0 l = t at *
  have g1 : t ≤ fl (t + p) := by
    calc t = fl t := f2.symm
      _ ≤ fl (t + p) := R.mono (by linarith)
  have e := R.err (t + p)
  rw [abs_of_nonneg (add_nonneg f1 hpn), abs_le] at e
  have hb := (R.bounds (add_nonneg f1 hpn)).1
  have htp : t + p ≤ 2 := by nlinarith
  have hee : ε * (t + p) ≤ 2 * ε := by nlinarith
  exact ⟨f1, g1, f3, by linarith [e.1], by linarith [e.2]⟩

/-- The table of a site. -/
theorem FreshR.near (R : Rounding fl ε) (h0 : 0 ≤ ε) {mem : Addr → K} {s : Site K} (F : FreshR fl mem s) (hw : s.neigh.WF)
    (hpos : ∀ na ∈ s.neigh, 0 < mem na.2) (hn : 8 * ((s.neigh.length + 1) * ε) ≤ 1) :
    Near s.prob (fun n => ((s.neigh.get? n).map fun a => mem a / s.sumRates mem).getD 0) ((s.neigh.length + 1) * ε)
      (2 * ((s.neigh.length + 1) * ε)) ∧ s.prob.length = s.neigh.length ∧
    |s.tau - 1 / s.sumRates mem| ≤ 2 * ((s.neigh.length + 1) * ε) / s.sumRates mem := by
  have hne : s.neigh ≠ [] := by
    intro e; apply F.sum; unfold sumRates; rw [e]; rfl
  have hS := Site.sumRates_pos hpos hne
  have hlen0 : (0 : K) ≤ s.neigh.length := Nat.cast_nonneg _
  have h1 : ε ≤ 1 := by nlinarith
  have hb := total_bounds R h0 h1 (l := s.neigh.map fun na => mem na.2) (by
    intro x hx; obtain ⟨na, hna, rfl⟩ := List.mem_map.1 hx; exact (hpos na hna).le) (le_refl 0)
  rw [← sumRates_total, List.length_map, zero_add, ← Site.sumRates_eq] at hb
  obtain ⟨b1, b2⟩ := hb
  have p1 := one_sub_pow h0 h1 s.neigh.length
  have p2 := pow_mul_le h0 h1 s.neigh.length
  have q2 : 0 ≤ (1 + ε) ^ s.neigh.length := pow_nonneg (by linarith) _
  have hx0 : 0 ≤ (s.neigh.length : K) * ε := by positivity
  have hxe : (s.neigh.length : K) * ε + ε = (s.neigh.length + 1) * ε := by ring
  have hlen := F.perm.length_eq
  rw [List.length_map] at hlen
  have c1 : (1 - s.neigh.length * ε) * s.sumRates mem ≤ sumRates fl mem s :=
    le_trans (mul_le_mul_of_nonneg_right p1 hS.le) b1
  have c2 : sumRates fl mem s * (1 - s.neigh.length * ε) ≤ s.sumRates mem := by
    refine le_trans (mul_le_mul_of_nonneg_right b2 (by linarith)) ?_
    nlinarith
  generalize hxdef : (s.neigh.length : K) * ε = x at *
  rw [← hxe] at hn ⊢
  have hS' : 0 < sumRates fl mem s := lt_of_lt_of_le (mul_pos (by linarith) hS) c1
  have quot : ∀ r : K, 0 ≤ r → (1 - (x + ε)) * (r / s.sumRates mem) ≤ fl (r / sumRates fl mem s) ∧
      fl (r / sumRates fl mem s) ≤ (1 + 2 * (x + ε)) * (r / s.sumRates mem) := by
    intro r hr
    have hq : 0 ≤ r / sumRates fl mem s := div_nonneg hr hS'.le
    obtain ⟨a1, a2⟩ := R.bounds hq
    have d1 : (1 - x) * (r / s.sumRates mem) ≤ r / sumRates fl mem s := by
      rw [← mul_div_assoc, div_le_div_iff₀ hS hS']
      calc (1 - x) * r * sumRates fl mem s = r * (sumRates fl mem s * (1 - x)) := by ring
        _ ≤ r * s.sumRates mem := mul_le_mul_of_nonneg_left c2 hr
    have d2 : (1 - x) * (r / sumRates fl mem s) ≤ r / s.sumRates mem := by
      rw [← mul_div_assoc, div_le_div_iff₀ hS' hS]
      calc (1 - x) * r * s.sumRates mem = r * ((1 - x) * s.sumRates mem) := by ring
        _ ≤ r * sumRates fl mem s := mul_le_mul_of_nonneg_left c1 hr
    have hq2 : 0 ≤ r / s.sumRates mem := div_nonneg hr hS.le
    generalize r / s.sumRates mem = q at *
    generalize r / sumRates fl mem s = q' at *
    constructor
    · refine le_trans ?_ a1
      calc (1 - (x + ε)) * q ≤ (1 - ε) * ((1 - x) * q) := by nlinarith [mul_nonneg (mul_nonneg h0 hx0) hq2]
        _ ≤ (1 - ε) * q' := mul_le_mul_of_nonneg_left d1 (by linarith)
    · refine le_trans a2 ?_
      have h2 : 0 < 1 - x := by linarith
      rw [← mul_le_mul_iff_left₀ h2]
      calc (1 + ε) * q' * (1 - x) = (1 + ε) * ((1 - x) * q') := by ring
        _ ≤ (1 + ε) * q := mul_le_mul_of_nonneg_left d2 (by linarith)
        _ ≤ (1 + 2 * (x + ε)) * q * (1 - x) := by
          have : (1 + ε) ≤ (1 + 2 * (x + ε)) * (1 - x) := by nlinarith
          nlinarith
  have hget : ∀ na ∈ s.neigh, ((s.neigh.get? na.1).map fun a => mem a / s.sumRates mem).getD 0 = mem na.2 / s.sumRates mem := by
    intro na hna
    rw [(IMap.get?_eq_some_iff hw).2 hna]; rfl
  refine ⟨⟨?_, ?_, ?_, ?_, ?_⟩, hlen, ?_⟩
  · have hp := F.perm.map Prod.fst
    rw [List.map_map] at hp
    exact hp.nodup_iff.2 hw
  · intro np hnp
    obtain ⟨na, hna, rfl⟩ := List.mem_map.1 (F.perm.mem_iff.1 hnp)
    dsimp only
    rw [hget na hna]
    exact div_nonneg (hpos na hna).le hS.le
  · intro np hnp
    obtain ⟨na, hna, rfl⟩ := List.mem_map.1 (F.perm.mem_iff.1 hnp)
    dsimp only
    rw [hget na hna]
    exact (quot _ (hpos na hna).le).1
  · intro np hnp
    obtain ⟨na, hna, rfl⟩ := List.mem_map.1 (F.perm.mem_iff.1 hnp)
    dsimp only
    rw [hget na hna]
    exact (quot _ (hpos na hna).le).2
  · rw [(F.perm.map _).sum_eq, List.map_map]
    have : (s.neigh.map ((fun np : Int × K => ((s.neigh.get? np.1).map fun a => mem a / s.sumRates mem).getD 0) ∘
        fun na => (na.1, fl (mem na.2 / sumRates fl mem s)))) = s.neigh.map fun na => mem na.2 / s.sumRates mem :=
      List.map_congr_left fun na hna => hget na hna
    rw [this, Site.sum_map_div, ← Site.sumRates_eq, div_self hS.ne']
  · rw [F.tau]
    obtain ⟨a1, a2⟩ := quot 1 zero_le_one
    have hq2 : 0 ≤ 1 / s.sumRates mem := div_nonneg zero_le_one hS.le
    rw [abs_le, div_eq_mul_one_div (2 * (x + ε))]
    constructor
    · nlinarith
    · nlinarith

end Mythical.Rounded
