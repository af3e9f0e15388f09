import Verif.Spec.SystemReverse
import Verif.Lemmas.ToFRun
import Verif.Props.SystemWalk

/-! # Helper lemmas for walks forwards and backwards -/

set_option linter.unusedSectionVars false

open MeasureTheory

namespace Mythical
open World SystemSpec Cuboid CuboidSpec ToF ToFSpec

theorem _root_.Mythical.SystemSpec.Alone.law {env : Env ℝ} {mem : Addr → ℝ} {w : World ℝ} {h v : Int} {N : Nat}
    (hw : Alone env mem w h v N) (wid : Int) (a : Nat → Choices ℝ) {path : Nat → Int} (hp0 : path 0 = v)
    (hmove : ∀ k < N, path k ≠ path (k + 1)) {t : Int → ℝ} (h0 : ∀ i, 0 ≤ t i) :
    volume (Along env mem w wid h a N path t) =
      ∏ k : Fin N, ENNReal.ofReal (rateTo mem w (path k) (path (k + 1)) *
        (Real.exp (-t (path k) * rateOut mem w (path k)) / rateOut mem w (path k))) := by
  obtain ⟨⟨n, evs, ht, hu, hf, hp, hs, hd, hk, hN, hdue, hact⟩, hc, hr, x, hx, hpot, hsite⟩ := hw
  subst hp0
  refine (C77_walk ht hu hf hp hs hd hk hc hr hN hdue hact wid a path (fun k => t (path k)) (fun _ => h0 _) hx hpot hsite
    hmove).trans ?_
  refine Finset.prod_congr rfl fun k _ => ?_
  congr 1
  ring

theorem _root_.Mythical.SystemSpec.Alone.rates {env : Env ℝ} {mem : Addr → ℝ} {w : World ℝ} {h v : Int} {N : Nat}
    (hw : Alone env mem w h v N) (i j : Int) : 0 ≤ rateTo mem w i j ∧ 0 ≤ rateOut mem w i := by
  obtain ⟨⟨n, evs, ht, hu, hf, hp, -⟩, -⟩ := hw
  have hg := ht.good hu.hopsReturn hf hp
  have key : ∀ na ∈ ratesOf w i, 0 ≤ mem na.2 := by
    intro na hna
    unfold ratesOf at hna
    split at hna
    · cases hna
    · next s hs => exact ((hg i s hs).2.1 na hna).le
  constructor
  · refine List.sum_nonneg fun x hx => ?_
    obtain ⟨na, hna, rfl⟩ := List.mem_map.1 hx
    exact key na (List.mem_of_mem_filter hna)
  · refine List.sum_nonneg fun x hx => ?_
    obtain ⟨na, hna, rfl⟩ := List.mem_map.1 hx
    exact key na hna

theorem prod_swap {P Q s : Nat → ℝ} {B : Nat → ℝ} (h : ∀ k, B k * P k = B (k + 1) * Q k) (N : Nat) :
    B 0 * s N * ∏ k ∈ Finset.range N, P k * s k = B N * s 0 * ∏ k ∈ Finset.range N, Q k * s (k + 1) := by
  have h1 : B 0 * ∏ k ∈ Finset.range N, P k = B N * ∏ k ∈ Finset.range N, Q k := by
    induction N with
    | zero => simp
    | succ N ih =>
      rw [Finset.prod_range_succ, Finset.prod_range_succ, ← mul_assoc, ih]
      linear_combination (∏ k ∈ Finset.range N, Q k) * h N
  have h2 : s N * ∏ k ∈ Finset.range N, s k = s 0 * ∏ k ∈ Finset.range N, s (k + 1) := by
    rw [mul_comm, mul_comm (s 0), ← Finset.prod_range_succ, ← Finset.prod_range_succ']
  rw [Finset.prod_mul_distrib, Finset.prod_mul_distrib]
  linear_combination (s N * ∏ k ∈ Finset.range N, s k) * h1 + (B N * ∏ k ∈ Finset.range N, Q k) * h2

section
variable {K : Type} [Field K] [LinearOrder K] [IsStrictOrderedRing K] [FloorRing K]

theorem filter_sum {mem : Addr → K} {l : IMap Addr} (hw : l.WF) (j : Int) :
    ((List.filter (fun na => decide (na.1 = j)) l).map fun na => mem na.2).sum = ((l.get? j).map mem).getD 0 := by
  induction l with
  | nil => rfl
  | cons x l ih =>
    obtain ⟨k, v⟩ := x
    have hw' : k ∉ l.map Prod.fst ∧ IMap.WF l := List.nodup_cons.1 hw
    by_cases e : k = j
    · subst e
      have : List.filter (fun na : Int × Addr => decide (na.1 = k)) l = [] := by
        rw [List.filter_eq_nil_iff]
        intro na hna he
        exact hw'.1 (of_decide_eq_true he ▸ List.mem_map_of_mem (f := Prod.fst) hna)
      rw [List.filter_cons_of_pos (by simp), this]
      simp [IMap.get?]
    · rw [List.filter_cons_of_neg (by simpa using e), ih hw'.2]
      simp [IMap.get?, e]

theorem get?_map_snd {V W : Type} (f : V → W) (l : IMap V) (j : Int) :
    IMap.get? (l.map fun na => (na.1, f na.2)) j = (l.get? j).map f := by
  induction l with
  | nil => rfl
  | cons x l ih =>
    obtain ⟨k, v⟩ := x
    by_cases e : k = j <;> simp [IMap.get?, e, ih]

/-- The rates of the sites are those of the map that the program was given. -/
theorem _root_.Mythical.ToF.Story.rateTo {env : Env K} {mem : Addr → K} {c : Cuboid} {m : IMap (IMap Addr)} {p : Prog K}
    (hs : Story env mem m p) (hm : Suits c mem m) {i : Int} {t : Site K} (ht : p.world.sites.get? i = some t) (j : Int) :
    SystemSpec.rateTo mem p.world i j = (((m.get? i).bind fun r => IMap.get? r j).map mem).getD 0 := by
  obtain ⟨hw, -, -⟩ := hs.trace.good hs.usage.hopsReturn hs.fixed (hs.pos hm) i t ht
  obtain ⟨hb, -⟩ := hs.trace.bothWays hs.usage.hopsReturn (hs.sys hm) (hs.maps hm) (hs.two hm)
  obtain ⟨ev, he, m', sd, s0, ho, hn, htw, rfl⟩ := (hs.trace.static hs.usage.hopsReturn).1 i t ht
  obtain ⟨rfl, -⟩ := hs.only ev he m' ho
  obtain ⟨rates, hr⟩ : ∃ rates, (s0.id, rates) ∈ m' := by
    have hn' := hn
    rcases hn' with ⟨rates, -, hr, -⟩ | ⟨e, -⟩
    · exact ⟨rates, hr⟩
    · exact absurd (by rw [htw.neigh, e]; rfl) (hb _ _ ht).1
  have hwr := hm.maps.2 _ hr
  have hget := hn.rates hm.maps.1 hr hwr
  unfold SystemSpec.rateTo ratesOf
  rw [ht]
  show ((List.filter (fun na => decide (na.1 = j)) t.neigh).map fun na => mem na.2).sum = _
  rw [filter_sum hw, IMap.get?_of_mem hm.maps.1 hr, Option.bind_some, htw.neigh, hget]

end

end Mythical
