import Verif.Spec.Units
import Verif.Lemmas.Except
import Verif.Lemmas.IMap
import Mathlib.Tactic.Ring
import Mathlib.Tactic.FieldSimp
import Mathlib.Tactic.Linarith

/-! # The unit of time: sites and the tables of a cluster -/

set_option linter.unusedSectionVars false

namespace Mythical.Units
open Mythical
variable {K : Type} [Field K] [LinearOrder K] [IsStrictOrderedRing K] [FloorRing K]

section maps
variable {V W : Type}

theorem get?_mapVal (f : Int → V → W) (m : IMap V) (i : Int) : (m.mapVal f).get? i = (m.get? i).map (f i) := by
  induction m with
  | nil => rfl
  | cons a m ih =>
    obtain ⟨j, v⟩ := a
    show (if j = i then some (f j v) else IMap.get? (IMap.mapVal f m) i) = (if j = i then some v else IMap.get? m i).map (f i)
    split
    · next h => rw [h]; rfl
    · exact ih

theorem has_mapVal (f : Int → V → W) (m : IMap V) (i : Int) : (m.mapVal f).has i = m.has i := by
  unfold IMap.has; rw [get?_mapVal]; cases m.get? i <;> rfl

theorem keys_mapVal (f : Int → V → W) (m : IMap V) : (m.mapVal f).keys = m.keys := by
  unfold IMap.keys IMap.mapVal; rw [List.map_map]; rfl

theorem length_mapVal (f : Int → V → W) (m : IMap V) : (m.mapVal f).length = m.length := List.length_map ..

theorem set_mapVal (f : V → W) (m : IMap V) (i : Int) (v : V) :
    (m.mapVal fun _ => f).set i (f v) = (m.set i v).mapVal fun _ => f := by
  induction m with
  | nil => rfl
  | cons a m ih =>
    obtain ⟨j, w⟩ := a
    show (if j = i then (i, f v) :: IMap.mapVal (fun _ => f) m else (j, f w) :: IMap.set (IMap.mapVal (fun _ => f) m) i (f v)) =
      IMap.mapVal (fun _ => f) (if j = i then (i, v) :: m else (j, w) :: IMap.set m i v)
    split
    · rfl
    · rw [ih]; rfl

theorem erase_mapVal (f : V → W) (m : IMap V) (i : Int) :
    (m.mapVal fun _ => f).erase i = (m.erase i).mapVal fun _ => f := by
  induction m with
  | nil => rfl
  | cons a m ih =>
    obtain ⟨j, w⟩ := a
    show (if j = i then IMap.mapVal (fun _ => f) m else (j, f w) :: IMap.erase (IMap.mapVal (fun _ => f) m) i) =
      IMap.mapVal (fun _ => f) (if j = i then m else (j, w) :: IMap.erase m i)
    split
    · rfl
    · rw [ih]; rfl

end maps

theorem at0_times (k : K) (m : IMap K) (i : Int) : (times k m).at0 i = k * m.at0 i := by
  unfold IMap.at0 times; rw [get?_mapVal]; cases m.get? i <;> simp

theorem at0_perTime (k : K) (m : IMap K) (i : Int) : (perTime k m).at0 i = m.at0 i / k := by
  unfold IMap.at0 perTime; rw [get?_mapVal]; cases m.get? i <;> simp

theorem sumVals_perTime (k : K) (m : IMap K) : (perTime k m).sumVals = m.sumVals / k := by
  have : ∀ t : K, (perTime k m).foldl (fun t kv => t + kv.2) (t / k) = m.foldl (fun t kv => t + kv.2) t / k := by
    induction m with
    | nil => intro t; rfl
    | cons a m ih =>
      intro t
      have := ih (t + a.2)
      rw [add_div] at this
      exact this
  have h := this 0
  rw [zero_div] at h
  exact h

theorem sumVals_times (k : K) (m : IMap K) : (times k m).sumVals = k * m.sumVals := by
  have : ∀ t : K, (times k m).foldl (fun t kv => t + kv.2) (k * t) = k * m.foldl (fun t kv => t + kv.2) t := by
    induction m with
    | nil => intro t; rfl
    | cons a m ih =>
      intro t
      have := ih (t + a.2)
      rw [mul_add] at this
      exact this
  have h := this 0
  rw [mul_zero] at h
  exact h

/-! ## Sites -/

section sites
variable {k : K} (hk : 0 < k)
include hk

theorem sumRates_units (mem : Addr → K) (s : Site K) :
    (site k s).sumRates (rates k mem) = s.sumRates mem / k := by
  have : ∀ (l : IMap Addr) (t : K), l.foldl (fun sum na => sum + mem na.2 / k) (t / k) =
      l.foldl (fun sum na => sum + mem na.2) t / k := by
    intro l
    induction l with
    | nil => intro t; rfl
    | cons a l ih =>
      intro t
      have := ih (t + mem a.2)
      rw [add_div] at this
      exact this
  have h := this s.neigh 0
  rw [zero_div] at h
  exact h

theorem calcTau_units (mem : Addr → K) (s : Site K) :
    (site k s).calcTau (rates k mem) = (s.calcTau mem).map (site k) := by
  unfold Site.calcTau
  rw [sumRates_units hk]
  by_cases h : s.sumRates mem = 0
  · rw [if_pos h, if_pos (by rw [h, zero_div])]; rfl
  · rw [if_neg h, if_neg (div_ne_zero h hk.ne')]
    show Except.ok _ = Except.ok _
    unfold site
    congr 2
    field_simp

theorem calcProb_units (mem : Addr → K) (s : Site K) :
    (site k s).calcProb (rates k mem) = (s.calcProb mem).map (site k) := by
  unfold Site.calcProb
  rw [sumRates_units hk]
  have hz : s.sumRates mem / k = 0 ↔ s.sumRates mem = 0 := by rw [div_eq_zero_iff]; simp [hk.ne']
  have hv : ((site k s).neigh.map fun na => (na.1, rates k mem na.2 / (s.sumRates mem / k))) =
      s.neigh.map fun na => (na.1, mem na.2 / s.sumRates mem) := by
    apply List.map_congr_left
    intro na _
    unfold rates
    rw [div_div_div_cancel_right₀ hk.ne']
  rw [hv]
  by_cases h : s.neigh ≠ [] ∧ s.sumRates mem = 0
  · rw [if_pos h, if_pos ⟨h.1, hz.2 h.2⟩]; rfl
  · rw [if_neg h, if_neg (fun h' => h ⟨h'.1, hz.1 h'.2⟩)]
    simp only
    split <;> rfl

theorem recalc_units (mem : Addr → K) (s : Site K) :
    (site k s).recalc (rates k mem) = (s.recalc mem).map (site k) := by
  unfold Site.recalc
  rw [calcTau_units hk]
  cases s.calcTau mem with
  | error e => rfl
  | ok s => exact calcProb_units hk mem s

theorem setRatesLoop_units (mem : Addr → K) (m : IMap Addr) : ∀ s : Site K,
    (site k s).setRatesLoop (rates k mem) m = (s.setRatesLoop mem m).map (site k) := by
  induction m with
  | nil => intro s; rfl
  | cons a m ih =>
    intro s
    obtain ⟨n, a⟩ := a
    have hz : rates k mem a = 0 ↔ mem a = 0 := by unfold rates; rw [div_eq_zero_iff]; simp [hk.ne']
    unfold Site.setRatesLoop
    by_cases h : mem a = 0
    · rw [if_pos h, if_pos (hz.2 h)]; rfl
    · rw [if_neg h, if_neg (fun h' => h (hz.1 h'))]
      exact ih { s with neigh := s.neigh.set n a }

theorem setRates_units (mem : Addr → K) (m : IMap Addr) (s : Site K) :
    (site k s).setRatesToNeighbors (rates k mem) m = (s.setRatesToNeighbors mem m).map (site k) := by
  unfold Site.setRatesToNeighbors
  split
  · rfl
  · rw [setRatesLoop_units hk]
    cases s.setRatesLoop mem m with
    | error e => rfl
    | ok s => exact recalc_units hk mem s

theorem new_units (id : Int) : site k (Site.new id : Site K) = Site.new id := by
  unfold site Site.new; simp

theorem fastest_units (mem : Addr → K) (s : Site K) :
    (site k s).getFastestRate (rates k mem) = s.getFastestRate mem / k := by
  have : ∀ (l : IMap Addr) (t : K), l.foldl (fun r na => if mem na.2 / k > r then mem na.2 / k else r) (t / k) =
      l.foldl (fun r na => if mem na.2 > r then mem na.2 else r) t / k := by
    intro l
    induction l with
    | nil => intro t; rfl
    | cons a l ih =>
      intro t
      simp only [List.foldl_cons]
      rw [← ih]
      congr 1
      have : mem a.2 / k > t / k ↔ mem a.2 > t := by simp only [gt_iff_lt]; exact div_lt_div_iff_of_pos_right hk
      by_cases h : mem a.2 > t
      · rw [if_pos h, if_pos (this.2 h)]
      · rw [if_neg h, if_neg (fun h' => h (this.1 h'))]
  have h := this s.neigh 0
  rw [zero_div] at h
  exact h

theorem rateTo_units (mem : Addr → K) (s : Site K) (n : Int) :
    (site k s).getRateToNeighbor (rates k mem) n = (s.getRateToNeighbor mem n).map (· / k) := by
  unfold Site.getRateToNeighbor
  show (match s.neigh.get? n with
    | none => Except.error Fault.assertFail
    | some a => Except.ok (rates k mem a)) = _
  cases s.neigh.get? n <;> rfl

end sites
end Mythical.Units
