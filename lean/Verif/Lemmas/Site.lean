import Verif.Spec.Site
import Verif.Lemmas.IMap
import Verif.Lemmas.Except
import Mathlib.Algebra.BigOperators.Group.List.Basic
import Mathlib.Algebra.Order.BigOperators.Group.List
import Mathlib.Tactic.Linarith
import Mathlib.Tactic.FieldSimp
import Mathlib.Tactic.Positivity
import Mathlib.Tactic.Ring

/-! # Lemmas about sites -/

set_option linter.unusedSectionVars false

namespace Mythical.Site
open Mythical SiteSpec
variable {K : Type} [Field K] [LinearOrder K] [IsStrictOrderedRing K] [FloorRing K]

theorem compare_total {x y : Int × K} (h : x.1 ≠ y.1) (hc : compare x y = false) : compare y x = true := by
  unfold compare at *
  rw [if_neg h] at hc
  rw [if_neg (Ne.symm h)]
  split at hc
  · next e =>
    rw [if_pos e.symm]
    simp only [decide_eq_false_iff_not, not_lt] at hc
    simp only [decide_eq_true_eq]
    omega
  · next e =>
    rw [if_neg (Ne.symm e)]
    simp only [decide_eq_false_iff_not, not_lt] at hc
    simp only [decide_eq_true_eq]
    omega

theorem setInsert_perm {x : Int × K} {l : List (Int × K)} (h : x.1 ∉ l.map Prod.fst) :
    (setInsert x l).Perm (x :: l) := by
  induction l with
  | nil => exact List.Perm.refl _
  | cons y l ih =>
    simp only [List.map_cons, List.mem_cons, not_or] at h
    unfold setInsert
    split
    · exact List.Perm.refl _
    · next hc =>
      rw [if_pos (compare_total h.1 (by simpa using hc))]
      exact ((ih h.2).cons y).trans (List.Perm.swap x y l)

theorem foldl_setInsert_perm {vals acc : List (Int × K)} (h : (acc ++ vals).map Prod.fst |>.Nodup) :
    (vals.foldl (fun l v => setInsert v l) acc).Perm (acc ++ vals) := by
  induction vals generalizing acc with
  | nil => simp
  | cons v vals ih =>
    have hv : v.1 ∉ acc.map Prod.fst := by
      simp only [List.map_append, List.map_cons, List.nodup_append, List.nodup_cons] at h
      intro hm
      exact h.2.2 _ hm _ (by simp) rfl
    have hp := setInsert_perm hv
    have hp2 : (setInsert v acc ++ vals).Perm (acc ++ v :: vals) := by
      refine (hp.append_right vals).trans ?_
      exact List.perm_middle.symm
    rw [List.foldl_cons]
    refine (ih ?_).trans hp2
    exact ((hp2.map Prod.fst).nodup_iff).2 h

theorem foldl_add_eq (f : Int × Addr → K) (l : List (Int × Addr)) (a : K) :
    l.foldl (fun sum na => sum + f na) a = a + (l.map f).sum := by
  induction l generalizing a with
  | nil => simp
  | cons x l ih => simp [ih, add_assoc]

theorem sumRates_eq (mem : Addr → K) (s : Site K) : s.sumRates mem = (s.neigh.map fun na => mem na.2).sum := by
  unfold sumRates; rw [foldl_add_eq (fun na => mem na.2)]; simp

theorem calcTau_ok {mem : Addr → K} {s s' : Site K} (h : s.calcTau mem = .ok s') :
    s.sumRates mem ≠ 0 ∧ s' = { s with tau := 1 / s.sumRates mem } := by
  unfold calcTau at h
  split at h
  · cases h
  · next hn => cases h; exact ⟨hn, rfl⟩

theorem calcProb_ok {mem : Addr → K} {s s' : Site K} (h : s.calcProb mem = .ok s') (hw : s.neigh.WF) :
    s'.prob.Perm (s.neigh.map fun na => (na.1, mem na.2 / s.sumRates mem)) ∧ s' = { s with prob := s'.prob } := by
  unfold calcProb at h
  split at h
  · cases h
  · simp only at h
    split at h
    · cases h
    · cases h
      refine ⟨?_, rfl⟩
      have := foldl_setInsert_perm (acc := []) (vals := s.neigh.map fun na => (na.1, mem na.2 / s.sumRates mem)) (by
        simp only [List.nil_append, List.map_map]
        exact hw)
      simpa using this

theorem recalc_ok {mem : Addr → K} {s s' : Site K} (h : s.recalc mem = .ok s') (hw : s.neigh.WF) :
    Fresh mem s' ∧ s'.neigh = s.neigh ∧ s'.id = s.id ∧ s'.visits = s.visits ∧ s'.occupied = s.occupied ∧
      s'.clusterId = s.clusterId ∧ s'.seed = s.seed := by
  unfold recalc at h
  rw [bind_eq_ok] at h
  obtain ⟨s1, h1, h2⟩ := h
  obtain ⟨hs, rfl⟩ := calcTau_ok h1
  have h3 := calcProb_ok h2 hw
  obtain ⟨hp, he⟩ := h3
  have hsum : s'.sumRates mem = s.sumRates mem := by rw [he]; rfl
  refine ⟨⟨by rw [hsum]; exact hs, by rw [hsum, he], ?_⟩, by rw [he], by rw [he], by rw [he], by rw [he],
    by rw [he], by rw [he]⟩
  have hn : s'.neigh = s.neigh := by rw [he]
  rw [hn, hsum]
  exact hp

theorem setRatesLoop_ok {mem : Addr → K} {m : IMap Addr} : ∀ {s s' : Site K}, s.setRatesLoop mem m = .ok s' →
    s' = { s with neigh := m.foldl (fun acc na => IMap.set acc na.1 na.2) s.neigh } ∧ ∀ na ∈ m, mem na.2 ≠ 0 := by
  induction m with
  | nil => intro s s' h; cases h; exact ⟨rfl, by simp⟩
  | cons x m ih =>
    obtain ⟨n, a⟩ := x
    intro s s' h
    unfold setRatesLoop at h
    split at h
    · cases h
    · next ha =>
      obtain ⟨h1, h2⟩ := ih h
      refine ⟨h1, ?_⟩
      rintro na hna
      rcases List.mem_cons.1 hna with rfl | hna
      · exact ha
      · exact h2 na hna

theorem setRatesLoop_total {mem : Addr → K} {m : IMap Addr} (hm : ∀ na ∈ m, mem na.2 ≠ 0) : ∀ (s : Site K),
    s.setRatesLoop mem m = .ok { s with neigh := m.foldl (fun acc na => IMap.set acc na.1 na.2) s.neigh } := by
  induction m with
  | nil => intro s; rfl
  | cons x m ih =>
    obtain ⟨n, a⟩ := x
    intro s
    unfold setRatesLoop
    rw [if_neg (hm (n, a) (by simp)), ih fun na h => hm na (by simp [h])]
    rfl

theorem foldl_set_get? {V : Type} (m : IMap V) (hm : m.WF) : ∀ (acc : IMap V) (n : Int),
    IMap.get? (m.foldl (fun acc na => IMap.set acc na.1 na.2) acc) n = (m.get? n).or (acc.get? n) := by
  induction m with
  | nil => intro acc n; simp
  | cons x m ih =>
    obtain ⟨k, v⟩ := x
    intro acc n
    rw [IMap.wf_cons] at hm
    rw [List.foldl_cons, ih hm.2, IMap.get?_set, IMap.get?_cons]
    split
    · next e =>
      subst e; rw [IMap.get?_eq_none_iff.2 hm.1]; rfl
    · rfl

theorem foldl_set_wf {V : Type} (m : IMap V) : ∀ (acc : IMap V), acc.WF →
    IMap.WF (m.foldl (fun acc na => IMap.set acc na.1 na.2) acc) := by
  induction m with
  | nil => intro acc h; exact h
  | cons x m ih => intro acc h; exact ih _ (h.set _ _)

/-- One call, in terms of the specification. -/
theorem step_ok {mem : Addr → K} {s s' : Site K} {o : Op} (hw : s.neigh.WF) (ho : ValidOp o)
    (h : s.step mem o = .ok s') :
    Fresh mem s' ∧ s'.neigh.WF ∧ s'.id = s.id ∧ ∀ n, s'.neigh.get? n = neighAfter (fun n => s.neigh.get? n) o n := by
  cases o with
  | setRates m =>
    change s.setRatesToNeighbors mem m = .ok s' at h
    unfold setRatesToNeighbors at h
    split at h
    · cases h
    · rw [bind_eq_ok] at h
      obtain ⟨s1, h1, h2⟩ := h
      obtain ⟨rfl, -⟩ := setRatesLoop_ok h1
      obtain ⟨h3, h4, h5, -⟩ := recalc_ok h2 (foldl_set_wf m _ hw)
      refine ⟨h3, by rw [h4]; exact foldl_set_wf m _ hw, h5, fun n => ?_⟩
      rw [h4]
      exact foldl_set_get? m ho _ _
  | addNeigh n a =>
    change s.addNeighRate mem n a = .ok s' at h
    unfold addNeighRate at h
    split at h
    · cases h
    · obtain ⟨h3, h4, h5, -⟩ := recalc_ok h (hw.set n a)
      refine ⟨h3, by rw [h4]; exact hw.set n a, h5, fun k => ?_⟩
      rw [h4]
      simp only [IMap.get?_set, neighAfter, eq_comm]
  | resetNeigh n a =>
    change s.resetNeighRate mem n a = .ok s' at h
    unfold resetNeighRate at h
    obtain ⟨h3, h4, h5, -⟩ := recalc_ok h (hw.set n a)
    refine ⟨h3, by rw [h4]; exact hw.set n a, h5, fun k => ?_⟩
    rw [h4]
    simp only [IMap.get?_set, neighAfter, eq_comm]

theorem run_neigh {ops : List ((Addr → K) × Op)} : ∀ {s s' : Site K}, s.neigh.WF → (∀ mo ∈ ops, ValidOp mo.2) →
    s.run ops = .ok s' → s'.neigh.WF ∧ s'.id = s.id ∧
      (fun n => s'.neigh.get? n) = ops.foldl (fun old mo => neighAfter old mo.2) (fun n => s.neigh.get? n) := by
  induction ops with
  | nil => intro s s' hw _ h; cases h; exact ⟨hw, rfl, rfl⟩
  | cons mo ops ih =>
    obtain ⟨mem, o⟩ := mo
    intro s s' hw hv h
    unfold run at h
    rw [bind_eq_ok] at h
    obtain ⟨s1, h1, h2⟩ := h
    obtain ⟨-, hw1, hid, hn⟩ := step_ok hw (hv (mem, o) (by simp)) h1
    obtain ⟨h3, h4, h5⟩ := ih hw1 (fun mo hm => hv mo (by simp [hm])) h2
    refine ⟨h3, h4.trans hid, ?_⟩
    rw [h5, List.foldl_cons]
    congr 1
    funext n
    exact hn n

theorem run_append {s : Site K} {ops ops' : List ((Addr → K) × Op)} :
    s.run (ops ++ ops') = (do let s ← s.run ops; s.run ops') := by
  induction ops generalizing s with
  | nil => rfl
  | cons mo ops ih =>
    obtain ⟨mem, o⟩ := mo
    show (do let s ← s.step mem o; s.run (ops ++ ops')) = _
    show _ = (do let s ← (do let s ← s.step mem o; s.run ops); s.run ops')
    cases h : s.step mem o with
    | error e => rfl
    | ok s1 => exact ih

theorem run_concat {s s' : Site K} {ops : List ((Addr → K) × Op)} {mem : Addr → K} {o : Op} (hw : s.neigh.WF)
    (hv : ∀ mo ∈ ops ++ [(mem, o)], ValidOp mo.2) (h : s.run (ops ++ [(mem, o)]) = .ok s') :
    Fresh mem s' ∧ s'.neigh.WF ∧ s'.id = s.id ∧
      (fun n => s'.neigh.get? n) = (ops ++ [(mem, o)]).foldl (fun old mo => neighAfter old mo.2) (fun n => s.neigh.get? n) := by
  have hn := run_neigh hw hv h
  rw [run_append, bind_eq_ok] at h
  obtain ⟨s1, h1, h2⟩ := h
  obtain ⟨hw1, -, -⟩ := run_neigh hw (fun mo hm => hv mo (by simp [hm])) h1
  unfold run at h2
  rw [bind_eq_ok] at h2
  obtain ⟨s2, h3, h4⟩ := h2
  cases h4
  exact ⟨(step_ok hw1 (hv (mem, o) (by simp)) h3).1, hn⟩

/-! ## Positive rates -/

section Pos
variable {mem : Addr → K} {s : Site K}

theorem sum_map_div (l : List (Int × Addr)) (c : K) :
    (l.map fun na => mem na.2 / c).sum = (l.map fun na => mem na.2).sum / c := by
  induction l with
  | nil => simp
  | cons x l ih => simp [ih, add_div]

/-- The probabilities sum to one. -/
theorem Fresh.sum_prob (h : Fresh mem s) : (s.prob.map Prod.snd).sum = 1 := by
  rw [(h.perm.map Prod.snd).sum_eq, List.map_map]
  show (s.neigh.map fun na => mem na.2 / s.sumRates mem).sum = 1
  rw [sum_map_div, ← sumRates_eq, div_self h.sum]

theorem sumRates_pos (hpos : ∀ na ∈ s.neigh, 0 < mem na.2) (hne : s.neigh ≠ []) : 0 < s.sumRates mem := by
  rw [sumRates_eq]
  apply List.sum_pos
  · simp only [List.mem_map]; rintro _ ⟨x, hx, rfl⟩; exact hpos x hx
  · simpa using hne

theorem Fresh.ne_nil (h : Fresh mem s) : s.neigh ≠ [] := by
  intro e
  apply h.sum
  rw [sumRates_eq, e]; rfl

theorem Fresh.prob_pos (h : Fresh mem s) (hpos : ∀ na ∈ s.neigh, 0 < mem na.2) :
    ∀ np ∈ s.prob, 0 < np.2 := by
  intro np hnp
  have := h.perm.mem_iff.1 hnp
  simp only [List.mem_map] at this
  obtain ⟨na, hna, rfl⟩ := this
  exact div_pos (hpos na hna) (sumRates_pos hpos h.ne_nil)

theorem mem_le_sum (hpos : ∀ na ∈ s.neigh, 0 < mem na.2) {na : Int × Addr} (h : na ∈ s.neigh) :
    mem na.2 ≤ s.sumRates mem := by
  rw [sumRates_eq]
  apply List.single_le_sum (l := s.neigh.map fun na => mem na.2)
  · simp only [List.mem_map]; rintro _ ⟨x, hx, rfl⟩; exact (hpos x hx).le
  · exact List.mem_map.2 ⟨na, h, rfl⟩

theorem truncOk_of_unit {p : K} (h0 : 0 ≤ p) (h1 : p ≤ 1) : TruncOk p := by
  unfold TruncOk truncInt
  rw [if_pos h0]
  have a : (0 : Int) ≤ ⌊p⌋ := Int.floor_nonneg.2 h0
  have b : ⌊p⌋ ≤ 1 := by
    have : ((⌊p⌋ : Int) : K) ≤ ((1 : Int) : K) := (Int.floor_le p).trans (by simpa using h1)
    exact_mod_cast this
  exact fitsInt_iff.2 ⟨by omega, by omega⟩

/-- With positive rates the recalculation is defined. -/
theorem recalc_total (hpos : ∀ na ∈ s.neigh, 0 < mem na.2) (hne : s.neigh ≠ []) : ∃ s', s.recalc mem = .ok s' := by
  have hs := sumRates_pos hpos hne
  unfold recalc
  have h1 : s.calcTau mem = .ok { s with tau := 1 / s.sumRates mem } := by
    unfold calcTau; rw [if_neg hs.ne']
  rw [h1, ok_bind]
  unfold calcProb
  have hs' : sumRates mem { s with tau := 1 / s.sumRates mem } = s.sumRates mem := rfl
  rw [if_neg (by rw [hs']; exact fun h => hs.ne' h.2)]
  simp only
  rw [if_neg]
  · exact ⟨_, rfl⟩
  · rintro ⟨-, v, hv, hn⟩
    simp only [List.mem_map] at hv
    obtain ⟨na, hna, rfl⟩ := hv
    apply hn
    have hp := hpos na hna
    exact truncOk_of_unit (div_nonneg hp.le hs.le) ((div_le_one hs).2 (mem_le_sum hpos hna))

/-- A single neighbour, any non-zero rate. -/
theorem Fresh.get? (h : Fresh mem s) (hw : s.neigh.WF) (n : Int) :
    IMap.get? s.prob n = (s.neigh.get? n).map fun a => mem a / s.sumRates mem := by
  have hwp : IMap.WF s.prob := by
    have hp := h.perm.map Prod.fst
    rw [List.map_map] at hp
    exact hp.nodup_iff.2 hw
  cases hn : s.neigh.get? n with
  | some a =>
    rw [Option.map_some, IMap.get?_eq_some_iff hwp, h.perm.mem_iff, List.mem_map]
    exact ⟨(n, a), IMap.mem_of_get? hn, rfl⟩
  | none =>
    rw [Option.map_none, IMap.get?_eq_none_iff]
    intro hm
    obtain ⟨v, hv⟩ := IMap.mem_keys_iff.1 hm
    rw [h.perm.mem_iff, List.mem_map] at hv
    obtain ⟨na, hna, he⟩ := hv
    have := IMap.get?_eq_none_iff.1 hn
    cases he
    exact this (IMap.mem_keys_of_mem hna)

end Pos

/-! ## Picking -/

/-- Weights before the first occurrence of `n`. -/
def before (n : Int) : List (Int × K) → K
  | [] => 0
  | (k, p) :: l => if k = n then 0 else p + before n l

theorem before_nonneg {n : Int} {l : List (Int × K)} (h : ∀ np ∈ l, 0 ≤ np.2) : 0 ≤ before n l := by
  induction l with
  | nil => exact le_refl _
  | cons x l ih =>
    obtain ⟨k, p⟩ := x
    unfold before
    split
    · exact le_refl _
    · exact add_nonneg (h (k, p) (by simp)) (ih fun np hnp => h np (by simp [hnp]))

theorem before_add_le {n : Int} {p : K} {l : List (Int × K)} (h : ∀ np ∈ l, 0 ≤ np.2) (hm : IMap.get? l n = some p) :
    before n l + p ≤ (l.map Prod.snd).sum := by
  induction l with
  | nil => cases hm
  | cons x l ih =>
    obtain ⟨k, q⟩ := x
    have hl : ∀ np ∈ l, 0 ≤ np.2 := fun np hnp => h np (by simp [hnp])
    rw [IMap.get?_cons] at hm
    unfold before
    split at hm
    · next e =>
      cases hm
      rw [if_pos e]
      have : 0 ≤ (l.map Prod.snd).sum := List.sum_nonneg (by simpa using fun a b hab => hl (b, a) hab)
      simp only [List.map_cons, List.sum_cons]
      linarith
    · next e =>
      rw [if_neg e]
      have := ih hl hm
      simp only [List.map_cons, List.sum_cons]
      linarith

theorem pickLoop_mem {l : List (Int × K)} (h : ∀ np ∈ l, 0 < np.2) {u thr : K}
    (h1 : thr ≤ u) (h2 : u < thr + (l.map Prod.snd).sum) : pickLoop u thr l ∈ IMap.keys l := by
  induction l generalizing thr with
  | nil => simp at h2; exact absurd h2 (not_lt.2 h1)
  | cons y l ih =>
    obtain ⟨k', q'⟩ := y
    unfold pickLoop
    split
    · simp
    · next hu' =>
      simp only [IMap.keys_cons, List.mem_cons]
      right
      apply ih (fun np hnp => h np (by simp [hnp])) (not_lt.1 hu')
      simp only [List.map_cons, List.sum_cons] at h2
      linarith

/-- `pickLoop` returns `n` exactly on the interval of `n`. -/
theorem pickLoop_eq_iff {l : List (Int × K)} (h : ∀ np ∈ l, 0 < np.2) (hw : IMap.WF l) {u thr : K} (ht : thr ≤ u)
    {n : Int} {p : K} (hm : IMap.get? l n = some p) :
    (pickLoop u thr l = n ∧ u < thr + (l.map Prod.snd).sum) ↔
      thr + before n l ≤ u ∧ u < thr + before n l + p := by
  induction l generalizing thr with
  | nil => cases hm
  | cons x l ih =>
    obtain ⟨k, q⟩ := x
    have hl : ∀ np ∈ l, 0 < np.2 := fun np hnp => h np (by simp [hnp])
    have hq : 0 < q := h (k, q) (by simp)
    rw [IMap.wf_cons] at hw
    rw [IMap.get?_cons] at hm
    have hsum : 0 ≤ (l.map Prod.snd).sum := List.sum_nonneg (by simpa using fun a b hab => (hl (b, a) hab).le)
    unfold pickLoop before
    simp only [List.map_cons, List.sum_cons]
    split at hm
    · next e =>
      cases hm
      subst e
      rw [if_pos rfl]
      by_cases hu : u < thr + p
      · rw [if_pos hu]
        constructor
        · intro _; constructor <;> linarith
        · intro _; exact ⟨rfl, by linarith⟩
      · rw [if_neg hu]
        constructor
        · rintro ⟨h1, h2⟩
          exfalso
          have := pickLoop_mem hl (thr := thr + p) (not_lt.1 hu) (by linarith)
          rw [h1] at this
          exact hw.1 this
        · rintro ⟨-, h2⟩; exact absurd (by linarith) hu
    · next e =>
      rw [if_neg e]
      by_cases hu : u < thr + q
      · rw [if_pos hu]
        constructor
        · rintro ⟨h1, -⟩; exact absurd h1 e
        · rintro ⟨h1, -⟩
          have := before_nonneg (n := n) (l := l) fun np hnp => (hl np hnp).le
          exact absurd hu (not_lt.2 (by linarith))
      · rw [if_neg hu]
        have := ih hl hw.2 (thr := thr + q) (not_lt.1 hu) hm
        rw [show thr + (q + (l.map Prod.snd).sum) = thr + q + (l.map Prod.snd).sum by ring,
          show thr + (q + before n l) = thr + q + before n l by ring]
        exact this

end Mythical.Site
