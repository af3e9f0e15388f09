import Verif.Spec.ToF
import Verif.Props.CuboidAll
import Verif.Props.Marcus

/-! # Helper lemmas for the rates of the time-of-flight example -/

namespace Mythical.ToF
open Mythical Cuboid CuboidSpec ToFSpec

/-- The rate from `i` to `j` at distance `d`, in closed form. -/
noncomputable def closed (c : Cuboid) (p : Params) (E : Int → ℝ) (x : Int → Int) (i j : Int) (d : ℝ) : ℝ :=
  marcusA p.temp * (p.A * Real.exp (-1 * p.alpha * d)) * (p.A * Real.exp (-1 * p.alpha * d)) *
    Real.exp (-1 * (p.lambda + (E j - p.field * (((x j - x i : Int) : ℝ) * c.spacing) * p.charge) - E i) ^ 2 /
      (4 * p.lambda * kB * p.temp))

/-- The map of maps is a proper one without empty rows. -/
def Neat (R : IMap (IMap ℝ)) : Prop := R.WF ∧ ∀ ir ∈ R, ir.2.WF ∧ ir.2 ≠ []

theorem set_ne_nil {V : Type} (m : IMap V) (k : Int) (v : V) : m.set k v ≠ [] := by
  intro h
  have : IMap.get? (m.set k v) k = some v := IMap.get?_set_self ..
  rw [h] at this
  cases this

theorem neat_set2 {R : IMap (IMap ℝ)} (h : Neat R) (a b : Int) (d : ℝ) : Neat (set2 R a b d) := by
  have hw : IMap.WF (set2 R a b d) := h.1.set _ _
  refine ⟨hw, fun ir hir => ?_⟩
  have hg := IMap.get?_of_mem hw hir
  unfold set2 at hg
  rw [IMap.get?_set] at hg
  split at hg
  · rw [← Option.some.inj hg]
    refine ⟨IMap.WF.set ?_ _ _, set_ne_nil _ _ _⟩
    cases hr : R.get? a with
    | none => exact IMap.wf_nil
    | some r => exact (h.2 _ (IMap.mem_of_get? hr)).1
  · exact h.2 _ (IMap.mem_of_get? hg)

/-- What is kept in the loops: the entries are rates of pairs listed in `D`. -/
structure Kept (c : Cuboid) (p : Params) (E : Int → ℝ) (x : Int → Int) (D R : IMap (IMap ℝ)) : Prop where
  neat : Neat R
  value : ∀ i j k, get2 R i j = some k → ∃ d, get2 D i j = some d ∧ k = closed c p E x i j d

/-- Entries of `R` are entries of `R'`. -/
def Grows (R R' : IMap (IMap ℝ)) : Prop := ∀ i j, (get2 R i j).isSome → (get2 R' i j).isSome

theorem energyAt_ok {c : Cuboid} {energies : List ℝ} {E : Int → ℝ} (h : Energies c energies E) {i : Int}
    (hi : ValidIndex c i) : energyAt energies i = .ok (E i) := by
  unfold energyAt
  rw [if_neg (not_lt.2 hi.1), h i hi]

theorem getX_ok {c : Cuboid} (hb : Built c) {i : Int} {q : Pos} (h : SiteAt c i q) : c.getX i = .ok q.x := by
  have g := good_of_built hb
  have hv := siteAt_bounds g h
  have hf := g.lwh_fits
  rw [(C08_components hb (fitsInt_of (by have := hv.1; omega) (by have := hv.2; have := (fitsInt_iff.1 hf).2; omega))).1,
    getPosition_of_siteAt g h]
  rfl

section
variable {c : Cuboid} {p : Params} {energies : List ℝ} {E : Int → ℝ} {x : Int → Int} {D : IMap (IMap ℝ)} {mar : Marcus}

theorem pairRates_ok (hb : Built c) (hE : Energies c energies E)
    (hx : ∀ i, ValidIndex c i → c.getX i = .ok (x i) ∧ 0 ≤ x i ∧ x i < c.length)
    (hsym : ∀ i j, get2 D i j = get2 D j i)
    (hval : ∀ i j d, get2 D i j = some d → ValidIndex c i ∧ ValidIndex c j)
    (hl : 0 < p.lambda) (hT : 0 < p.temp) (hmar : Marcus.construct p.lambda p.temp = .ok mar)
    {i : Int} {jd : Int × ℝ} (hd : get2 D i jd.1 = some jd.2) {R : IMap (IMap ℝ)} (hR : Kept c p E x D R) :
    ∃ R', pairRates c mar p energies i (x i) (E i) R jd = .ok R' ∧ Kept c p E x D R' ∧ Grows R R' ∧
      (get2 R' i jd.1).isSome := by
  obtain ⟨j, d⟩ := jd
  obtain ⟨vi, vj⟩ := hval _ _ _ hd
  obtain ⟨-, i0, i1⟩ := hx _ vi
  obtain ⟨hj, j0, j1⟩ := hx _ vj
  simp only at hj j0 j1 vj hd
  have g := good_of_built hb
  have hlen : c.length ≤ 2147483647 := by
    have h1 := (fitsInt_iff.1 g.lwh_fits).2
    have := g.l; have := g.w; have := g.h
    nlinarith [mul_pos this (g.w), mul_pos g.l g.w, mul_le_mul_of_nonneg_left (show 1 ≤ c.width from g.w) g.l.le,
      mul_le_mul_of_nonneg_left (show 1 ≤ c.height from g.h) (mul_pos g.l g.w).le]
  have hk := kB_pos
  have hden : mar.exponDenom = 4 * p.lambda * kB * p.temp ∧ mar.lambda = p.lambda ∧ mar.preFactor = marcusA p.temp := by
    unfold Marcus.construct at hmar
    rw [if_neg (not_le.2 hT)] at hmar
    cases hmar
    exact ⟨rfl, rfl, rfl⟩
  have hne : mar.exponDenom ≠ 0 := by rw [hden.1]; positivity
  have hrate : ∀ Ei Ej H, mar.getRate Ei Ej H =
      .ok (marcusA p.temp * H * H * Real.exp (-1 * (p.lambda + Ej - Ei) ^ 2 / (4 * p.lambda * kB * p.temp))) := by
    intro Ei Ej H
    unfold Marcus.getRate
    rw [if_neg hne, hden.1, hden.2.1, hden.2.2]
  unfold pairRates
  simp only [hj, ok_bind, chk_ok (fitsInt_of (n := x j - x i) (by omega) (by omega)), energyAt_ok hE vj, hrate]
  refine ⟨_, rfl, ⟨neat_set2 (neat_set2 hR.neat _ _ _) _ _ _, ?_⟩, ?_, ?_⟩
  · intro a b k h
    rw [get2_set2] at h
    split at h
    · next e =>
      obtain ⟨rfl, rfl⟩ := e
      refine ⟨d, hsym _ _ ▸ hd, ?_⟩
      rw [← Option.some.inj h]
      unfold closed
      congr 3
      push_cast
      ring
    · rw [get2_set2] at h
      split at h
      · next e =>
        obtain ⟨rfl, rfl⟩ := e
        exact ⟨d, hd, by rw [← Option.some.inj h]; rfl⟩
      · exact hR.value _ _ _ h
  · intro a b h
    rw [get2_set2]
    split
    · rfl
    · rw [get2_set2]
      split
      · rfl
      · exact h
  · rw [get2_set2]
    split
    · rfl
    · rw [get2_set2, if_pos ⟨rfl, rfl⟩]; rfl

theorem row_ok (hb : Built c) (hE : Energies c energies E)
    (hx : ∀ i, ValidIndex c i → c.getX i = .ok (x i) ∧ 0 ≤ x i ∧ x i < c.length)
    (hsym : ∀ i j, get2 D i j = get2 D j i)
    (hval : ∀ i j d, get2 D i j = some d → ValidIndex c i ∧ ValidIndex c j)
    (hl : 0 < p.lambda) (hT : 0 < p.temp) (hmar : Marcus.construct p.lambda p.temp = .ok mar)
    {i : Int} (l : List (Int × ℝ)) : ∀ {R : IMap (IMap ℝ)}, (∀ jd ∈ l, get2 D i jd.1 = some jd.2) → Kept c p E x D R →
    ∃ R', l.foldlM (pairRates c mar p energies i (x i) (E i)) R = .ok R' ∧ Kept c p E x D R' ∧ Grows R R' ∧
      ∀ jd ∈ l, (get2 R' i jd.1).isSome := by
  induction l with
  | nil => intro R _ hR; exact ⟨R, rfl, hR, fun _ _ h => h, by simp⟩
  | cons jd l ih =>
    intro R hl' hR
    obtain ⟨R1, h1, h2, h3, h4⟩ := pairRates_ok hb hE hx hsym hval hl hT hmar (hl' jd (by simp)) hR
    obtain ⟨R2, k1, k2, k3, k4⟩ := ih (fun jd h => hl' jd (by simp [h])) h2
    refine ⟨R2, ?_, k2, fun a b h => k3 _ _ (h3 _ _ h), ?_⟩
    · rw [List.foldlM_cons, h1, ok_bind, k1]
    · intro a ha
      rcases List.mem_cons.1 ha with rfl | ha
      · exact k3 _ _ h4
      · exact k4 _ ha

theorem rows_ok (hb : Built c) (hE : Energies c energies E)
    (hx : ∀ i, ValidIndex c i → c.getX i = .ok (x i) ∧ 0 ≤ x i ∧ x i < c.length)
    (hsym : ∀ i j, get2 D i j = get2 D j i)
    (hval : ∀ i j d, get2 D i j = some d → ValidIndex c i ∧ ValidIndex c j)
    (hl : 0 < p.lambda) (hT : 0 < p.temp) (hmar : Marcus.construct p.lambda p.temp = .ok mar)
    (l : List (Int × List (Int × ℝ))) : ∀ {R : IMap (IMap ℝ)},
    (∀ ir ∈ l, ValidIndex c ir.1 ∧ ∀ jd ∈ ir.2, get2 D ir.1 jd.1 = some jd.2) → Kept c p E x D R →
    ∃ R', l.foldlM (siteRates c mar p energies) R = .ok R' ∧ Kept c p E x D R' ∧ Grows R R' ∧
      ∀ ir ∈ l, ∀ jd ∈ ir.2, (get2 R' ir.1 jd.1).isSome := by
  induction l with
  | nil => intro R _ hR; exact ⟨R, rfl, hR, fun _ _ h => h, by simp⟩
  | cons ir l ih =>
    intro R hl' hR
    obtain ⟨v, hv⟩ := hl' ir (by simp)
    obtain ⟨R1, h1, h2, h3, h4⟩ := row_ok hb hE hx hsym hval hl hT hmar ir.2 hv hR
    obtain ⟨R2, k1, k2, k3, k4⟩ := ih (fun jd h => hl' jd (by simp [h])) h2
    refine ⟨R2, ?_, k2, fun a b h => k3 _ _ (h3 _ _ h), ?_⟩
    · have hs : siteRates c mar p energies R ir = .ok R1 := by
        unfold siteRates
        rw [(hx _ v).1, ok_bind, energyAt_ok hE v, ok_bind, h1]
      rw [List.foldlM_cons, hs, ok_bind, k1]
    · intro a ha jd hjd
      rcases List.mem_cons.1 ha with rfl | ha
      · exact k3 _ _ (h4 _ hjd)
      · exact k4 _ ha _ hjd

end

theorem neat_fill (ws : List (Int × Int × ℝ)) : ∀ {m : IMap (IMap ℝ)}, Neat m → Neat (fill ws m) := by
  induction ws with
  | nil => intro m h; exact h
  | cons w ws ih => intro m h; rw [fill_cons]; exact ih (neat_set2 (neat_set2 h _ _ _) _ _ _)

theorem neat_getAll {c : Cuboid} {cutoff : ℝ} {m : IMap (IMap ℝ)} (h : c.getAllNeighborDistances cutoff = .ok m) :
    Neat m := by
  obtain ⟨ws, is, rfl, -, -⟩ := getAll_ok h
  exact neat_fill ws ⟨IMap.wf_nil, by simp⟩

/-- The entries met in a visit are the entries of the map. -/
theorem visit_mem {visit : IMap (IMap ℝ) → List (Int × List (Int × ℝ))} (hv : Visits visit) {D : IMap (IMap ℝ)} (hD : Neat D) :
    (∀ ir ∈ visit D, (∃ jd, jd ∈ ir.2) ∧ ∀ jd ∈ ir.2, get2 D ir.1 jd.1 = some jd.2) ∧
    ∀ i j d, get2 D i j = some d → ∃ ir ∈ visit D, ir.1 = i ∧ (j, d) ∈ ir.2 := by
  obtain ⟨m', hp, hf⟩ := hv D
  constructor
  · intro ir hir
    obtain ⟨b, hb, h1, h2⟩ : ∃ b ∈ m', ir.1 = b.1 ∧ ir.2.Perm b.2 := by
      clear hp
      generalize visit D = l at hf hir
      induction hf with
      | nil => cases hir
      | cons hh _ ih =>
        rcases List.mem_cons.1 hir with rfl | hir
        · exact ⟨_, by simp, hh⟩
        · obtain ⟨b, hb, h⟩ := ih hir; exact ⟨b, by simp [hb], h⟩
    have hb' := hp.mem_iff.1 hb
    obtain ⟨hw, hn⟩ := hD.2 b hb'
    refine ⟨?_, fun jd hjd => ?_⟩
    · obtain ⟨jd, hjd⟩ := List.exists_mem_of_ne_nil _ hn
      exact ⟨jd, h2.mem_iff.2 hjd⟩
    · unfold get2
      rw [h1, IMap.get?_of_mem hD.1 (show (b.1, b.2) ∈ D from hb')]
      exact IMap.get?_of_mem hw (h2.mem_iff.1 hjd)
  · intro i j d h
    unfold get2 at h
    cases hr : D.get? i with
    | none => rw [hr] at h; cases h
    | some r =>
      rw [hr] at h
      have hm := hp.mem_iff.2 (IMap.mem_of_get? hr)
      have hj := IMap.mem_of_get? (m := r) h
      clear hp
      generalize visit D = l at hf
      induction hf with
      | nil => cases hm
      | cons hh _ ih =>
        rcases List.mem_cons.1 hm with rfl | hm
        · exact ⟨_, by simp, hh.1, hh.2.mem_iff.2 hj⟩
        · obtain ⟨ir, h1, h2⟩ := ih hm; exact ⟨ir, by simp [h1], h2⟩

/-- What `calculateRates` returns. -/
theorem calculateRates_ok {c : Cuboid} (hb : Built c) (hsp : 0 < c.spacing) {p : Params} (hl : 0 < p.lambda)
    (hT : 0 < p.temp) {energies : List ℝ} {E : Int → ℝ} (hE : Energies c energies E) {D : IMap (IMap ℝ)}
    (hD : c.getAllNeighborDistances p.cutoff = .ok D)
    {x : Int → Int} (hx : ∀ i, ValidIndex c i → c.getX i = .ok (x i) ∧ 0 ≤ x i ∧ x i < c.length)
    {visit : IMap (IMap ℝ) → List (Int × List (Int × ℝ))} (hv : Visits visit) :
    ∃ R, calculateRates c p energies visit = .ok R ∧ Neat R ∧
      ∀ i j, get2 R i j = (get2 D i j).map (closed c p E x i j) := by
  have g := good_of_built hb
  have hsym : ∀ i j, get2 D i j = get2 D j i := fun i j => (C18_octants_partial hb hsp hD i j).1
  have hval : ∀ i j d, get2 D i j = some d → ValidIndex c i ∧ ValidIndex c j := by
    intro i j d h
    obtain ⟨a, b, -, h1, h2, -⟩ := (C18_octants_partial hb hsp hD i j).2.2 d h
    exact ⟨siteAt_bounds g h1, siteAt_bounds g h2⟩
  obtain ⟨v1, v2⟩ := visit_mem hv (neat_getAll hD)
  obtain ⟨mar, hmar⟩ : ∃ mar, Marcus.construct p.lambda p.temp = .ok mar := by
    unfold Marcus.construct; rw [if_neg (not_le.2 hT)]; exact ⟨_, rfl⟩
  obtain ⟨R, h1, h2, h3, h4⟩ := rows_ok hb hE hx hsym hval hl hT hmar (visit D) (R := [])
    (fun ir hir => by
      obtain ⟨⟨jd, hjd⟩, ha⟩ := v1 ir hir
      exact ⟨(hval _ _ _ (ha jd hjd)).1, ha⟩) ⟨⟨IMap.wf_nil, by simp⟩, fun i j k h => by cases h⟩
  refine ⟨R, ?_, h2.neat, fun i j => ?_⟩
  · unfold calculateRates
    rw [hmar, ok_bind, hD, ok_bind, h1]
  · cases hk : get2 R i j with
    | some k =>
      obtain ⟨d, hd, rfl⟩ := h2.value _ _ _ hk
      rw [hd]; rfl
    | none =>
      cases hd : get2 D i j with
      | none => rfl
      | some d =>
        obtain ⟨ir, hir, rfl, hj⟩ := v2 _ _ _ hd
        have := h4 ir hir _ hj
        rw [hk] at this
        cases this

end Mythical.ToF
