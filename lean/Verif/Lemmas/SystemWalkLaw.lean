import Verif.Lemmas.SystemWalk
import Mathlib.MeasureTheory.Measure.Lebesgue.Basic
import Mathlib.MeasureTheory.Constructions.Pi

/-! # The law of the hops in a system without clusters -/

set_option linter.unusedSectionVars false
set_option linter.unusedVariables false

namespace Mythical.World
open Mythical SystemSpec MeasureTheory
variable {mem : Addr → ℝ}

/-- The draws that make a walker on `s` stay longer than `t` and pick `n`. -/
def box (s : Site ℝ) (t : ℝ) (n : Int) : Set (ℝ × ℝ) :=
  {x | Uniform x ∧ s.pickNewSiteId x.2 = n ∧ t < s.getDwellTime (-Real.log x.1)}

theorem box_eq (s : Site ℝ) (t : ℝ) (n : Int) : box s t n =
    {v : ℝ | (0 < v ∧ v < 1) ∧ t < s.getDwellTime (-Real.log v)} ×ˢ {u : ℝ | SiteSpec.Draw u ∧ s.pickNewSiteId u = n} := by
  ext ⟨v, u⟩
  simp only [box, Uniform, Set.mem_ofPred_eq, Set.mem_prod]
  tauto

theorem dwell_volume {s : Site ℝ} (hf : s.Fresh mem) (hp : ∀ na ∈ s.neigh, 0 < mem na.2) {t : ℝ} (ht : 0 ≤ t) :
    volume {v : ℝ | (0 < v ∧ v < 1) ∧ t < s.getDwellTime (-Real.log v)} = ENNReal.ofReal (Real.exp (-t * s.sumRates mem)) := by
  have hs := Site.sumRates_pos hp hf.ne_nil
  unfold Site.getDwellTime
  rw [hf.tau]
  generalize s.sumRates mem = R at hs
  have : {u : ℝ | (0 < u ∧ u < 1) ∧ t < -Real.log u * (1 / R)} = Set.Ioo 0 (Real.exp (-t * R)) := by
    ext u
    simp only [Set.mem_ofPred_eq, Set.mem_Ioo]
    constructor
    · rintro ⟨⟨h0, -⟩, h2⟩
      refine ⟨h0, ?_⟩
      rw [mul_one_div, lt_div_iff₀ hs] at h2
      rw [← Real.log_lt_iff_lt_exp h0]
      linarith
    · rintro ⟨h0, h2⟩
      have h3 := (Real.log_lt_iff_lt_exp h0).2 h2
      have h4 : Real.exp (-t * R) ≤ 1 := by
        rw [Real.exp_le_one_iff]
        have := mul_nonneg ht hs.le
        linarith
      refine ⟨⟨h0, by linarith⟩, ?_⟩
      rw [mul_one_div, lt_div_iff₀ hs]
      linarith
  rw [this, Real.volume_Ioo, sub_zero]

theorem filter_of_get? {V : Type} {m : IMap V} (hw : m.WF) (n : Int) :
    (m.filter fun na => na.1 = n) = match m.get? n with
      | none => []
      | some a => [(n, a)] := by
  induction m with
  | nil => rfl
  | cons x m ih =>
    obtain ⟨k, v⟩ := x
    obtain ⟨h1, h2⟩ := IMap.wf_cons.1 hw
    rw [IMap.get?_cons]
    by_cases e : k = n
    · subst e
      rw [List.filter_cons_of_pos (by simp), if_pos rfl, ih h2, IMap.get?_eq_none_iff.2 h1]
    · rw [List.filter_cons_of_neg (by simpa using e), if_neg e, ih h2]

theorem pick_volume {s : Site ℝ} (hf : s.Fresh mem) (hw : s.neigh.WF) (hp : ∀ na ∈ s.neigh, 0 < mem na.2) (n : Int) :
    volume {u : ℝ | SiteSpec.Draw u ∧ s.pickNewSiteId u = n} =
      ENNReal.ofReal (((s.neigh.filter fun na => na.1 = n).map fun na => mem na.2).sum / s.sumRates mem) := by
  have hpp := hf.prob_pos hp
  have hwp : IMap.WF s.prob := by
    have hp := hf.perm.map Prod.fst
    rw [List.map_map] at hp
    exact hp.nodup_iff.2 hw
  have hg := hf.get? hw n
  rw [filter_of_get? hw]
  cases e : s.neigh.get? n with
  | none =>
    rw [e] at hg
    have : {u : ℝ | SiteSpec.Draw u ∧ s.pickNewSiteId u = n} = ∅ := by
      rw [Set.eq_empty_iff_forall_notMem]
      rintro u ⟨hu, rfl⟩
      have := Site.pickLoop_mem hpp hu.1 (by rw [hf.sum_prob]; simpa using hu.2)
      rw [IMap.mem_keys_iff_get?] at this
      obtain ⟨v, hv⟩ := this
      change IMap.get? s.prob (Site.pickLoop u 0 s.prob) = none at hg
      rw [hg] at hv
      cases hv
    rw [this]
    simp
  | some a =>
    rw [e] at hg
    have hg : IMap.get? s.prob n = some (mem a / s.sumRates mem) := hg
    have hp0 : ∀ np ∈ s.prob, 0 ≤ np.2 := fun np h => (hpp np h).le
    have h1 := Site.before_add_le hp0 hg
    rw [hf.sum_prob] at h1
    have h0 := Site.before_nonneg (n := n) hp0
    have : {u : ℝ | SiteSpec.Draw u ∧ s.pickNewSiteId u = n} =
        Set.Ico (Site.before n s.prob) (Site.before n s.prob + mem a / s.sumRates mem) := by
      ext u
      simp only [Set.mem_ofPred_eq, Set.mem_Ico]
      constructor
      · rintro ⟨hu, he⟩
        have := Site.pickLoop_eq_iff hpp hwp hu.1 hg
        rw [hf.sum_prob, zero_add, zero_add] at this
        exact this.1 ⟨he, hu.2⟩
      · rintro ⟨ha, hb⟩
        have hu : 0 ≤ u := h0.trans ha
        have := Site.pickLoop_eq_iff hpp hwp hu hg
        rw [hf.sum_prob, zero_add, zero_add] at this
        obtain ⟨he, hu1⟩ := this.2 ⟨ha, hb⟩
        exact ⟨⟨hu, hu1⟩, he⟩
    rw [this, Real.volume_Ico, add_sub_cancel_left]
    simp

theorem box_volume {s : Site ℝ} (hf : s.Fresh mem) (hw : s.neigh.WF) (hp : ∀ na ∈ s.neigh, 0 < mem na.2) {t : ℝ} (ht : 0 ≤ t)
    (n : Int) : volume (box s t n) =
      ENNReal.ofReal (((s.neigh.filter fun na => na.1 = n).map fun na => mem na.2).sum / s.sumRates mem *
        Real.exp (-t * s.sumRates mem)) := by
  rw [box_eq, Measure.volume_eq_prod, Measure.prod_prod, dwell_volume hf hp ht, pick_volume hf hw hp n, mul_comm,
    ENNReal.ofReal_mul]
  refine div_nonneg (List.sum_nonneg ?_) (Site.sumRates_pos hp hf.ne_nil).le
  intro x hx
  obtain ⟨na, hna, rfl⟩ := List.mem_map.1 hx
  exact (hp na (List.mem_filter.1 hna).1).le

/-- The draws for a hop that lands on site `i`. -/
def siteBox (w : World ℝ) (i : Int) (t : ℝ) (n : Int) : Set (ℝ × ℝ) :=
  match w.sites.get? i with
  | none => ∅
  | some s => box s t n

theorem Ready.siteBox_volume {env : Env ℝ} {n : Nat} {evs : List (Event ℝ)} {N : Nat} {w : World ℝ} (h : Ready env mem n evs w N)
    (i : Int) {t : ℝ} (ht : 0 ≤ t) (j : Int) : volume (siteBox w i t j) =
      ENNReal.ofReal (rateTo mem w i j / rateOut mem w i * Real.exp (-t * rateOut mem w i)) := by
  unfold siteBox
  cases e : w.sites.get? i with
  | none =>
    have : rateTo mem w i j = 0 := by
      unfold rateTo ratesOf; rw [e]; rfl
    rw [this]; simp
  | some s =>
    obtain ⟨s', hs', -, -, -, -, -, -, g1, g2, g3, -⟩ := h.site (i := i) (by rw [e]; exact fun e => (nomatch e))
    rw [e] at hs'
    cases hs'
    show volume (box s t j) = _
    have e1 : rateTo mem w i j = ((s.neigh.filter fun na => na.1 = j).map fun na => mem na.2).sum := by
      unfold rateTo ratesOf; rw [e]
    have e2 : rateOut mem w i = s.sumRates mem := by
      unfold rateOut ratesOf; rw [e, Site.sumRates_eq]
    rw [box_volume g3 g1 g2 ht, e1, e2]

theorem Same.box {s s' : Site ℝ} (h : Same s s') (t : ℝ) (n : Int) : World.box s' t n = World.box s t n := by
  have e1 : ∀ u, s'.pickNewSiteId u = s.pickNewSiteId u := fun u => by rw [h]; rfl
  have e2 : ∀ u, s'.getDwellTime u = s.getDwellTime u := fun u => by rw [h]; rfl
  unfold World.box
  simp only [e1, e2]

/-- The world `w'` is one that is reached from `w` by hops that lead to `places`. -/
structure Reached (env : Env ℝ) (mem : Addr → ℝ) (n : Nat) (act : List Int) (w w' : World ℝ) (places : Int → Int × Int) (N : Nat) :
    Prop where
  ready : ∃ evs, active evs = act ∧ Ready env mem n evs w' N
  places : placesIn w' = places
  site : ∀ i, Option.Rel Same (w.sites.get? i) (w'.sites.get? i)

/-- One more hop. -/
theorem Reached.hop {env : Env ℝ} {n : Nat} {act : List Int} {w w' : World ℝ} {places : Int → Int × Int} {N : Nat}
    (hr : Reached env mem n act w w' places (N + 1)) (wid : Int) {h : Int} (hh : h ∈ act) (a : Choices ℝ) {x : ℝ × ℝ} (hx : Uniform x)
    (t : ℝ) (j : Int) :
    (w'.step env mem (.hop wid h (withDraws a x))).1 = .ok 0 ∧
    ((∃ y, (w'.step env mem (.hop wid h (withDraws a x))).2.walkers.get? h = some y ∧ y.site = landing act places h ∧ y.pot = j ∧
      t < y.dwell) ↔ x ∈ siteBox w (landing act places h) t j) ∧
    (x ∈ siteBox w (landing act places h) t j →
      Reached env mem n act w (w'.step env mem (.hop wid h (withDraws a x))).2
        (Function.update places h (landing act places h, j)) N) := by
  obtain ⟨evs, rfl, hready⟩ := hr.ready
  have hpl := hr.places
  subst hpl
  have he : 0 < (withDraws a x).e := by
    show 0 < -Real.log x.1
    have := Real.log_neg hx.1.1 hx.1.2
    linarith
  obtain ⟨s, w2, hs, g1, g2, g3, hstep, hwalk, hsame, hready2⟩ := hready.hop wid hh (withDraws a x) hx.2 he
  rw [hstep]
  simp only
  obtain ⟨s0, hs0, hsm⟩ := rel_some (hs ▸ hr.site _)
  have hbox : siteBox w (landing (active evs) (placesIn w') h) t j = World.box s t j := by
    unfold siteBox
    rw [hs0]
    exact (hsm.box t j).symm
  have hmem : x ∈ siteBox w (landing (active evs) (placesIn w') h) t j ↔
      s.pickNewSiteId x.2 = j ∧ t < s.getDwellTime (-Real.log x.1) := by
    rw [hbox]
    exact ⟨fun h => h.2, fun h => ⟨hx, h⟩⟩
  have hget : w2.walkers.get? h = some ⟨landing (active evs) (placesIn w') h, s.pickNewSiteId x.2,
      s.getDwellTime (-Real.log x.1)⟩ := by
    rw [hwalk, IMap.get?_set_self]; rfl
  refine ⟨trivial, ?_, fun hb => ?_⟩
  · rw [hget, hmem]
    constructor
    · rintro ⟨y, hy, -, h2, h3⟩
      cases hy
      exact ⟨h2, h3⟩
    · rintro ⟨h2, h3⟩
      exact ⟨_, rfl, rfl, h2, h3⟩
  · obtain ⟨hpick, -⟩ := hmem.1 hb
    refine ⟨⟨_, ?_, hready2⟩, ?_, fun i => rel_trans (r := Same) (s := Same) (fun _ _ _ a b => a.trans b) (hr.site i) (hsame i)⟩
    · rw [active_snoc]; rfl
    · funext k
      by_cases e : k = h
      · subst e
        have : placesIn w2 k = (landing (active evs) (placesIn w') k, s.pickNewSiteId x.2) := by
          rw [placesIn, hget]
        rw [this, Function.update_self, hpick]
      · rw [Function.update_of_ne e, placesIn, placesIn, hwalk, IMap.get?_set, if_neg (fun e' => e e'.symm)]

end Mythical.World
