import Verif.Lemmas.BoxRates
import Verif.Spec.ToFMain
import Verif.Lemmas.ToFWhole

/-! # The box of sites in the programs under src/tests (C84, C85, C86) -/

namespace Mythical
open Cuboid BoxSpec Box

/-! ## C84 -/

/-- **C84.** In a box of up to 1290 sites per axis `to1D` (both versions) numbers the sites from 0 to d³ - 1, one number for each
position, and `to3D` is its inverse; `x` gives the x coordinate. -/
theorem C84_converter {d : Int} (h0 : 0 < d) (h1 : d ≤ 1290) :
    (∀ p, InCube d p → ∃ i, 0 ≤ i ∧ i < d ^ 3 ∧ At d i p ∧ to1D d p = .ok i ∧ flat d p = .ok i ∧ to3D d i = .ok p ∧ xOf d i = .ok p.x) ∧
    ∀ i, 0 ≤ i → i < d ^ 3 → ∃ p, At d i p ∧ (∀ p', At d i p' → p' = p) ∧ to3D d i = .ok p ∧ to1D d p = .ok i := by
  have e : d ^ 3 = d * d * d := by ring
  rw [e]
  refine ⟨fun p hp => ?_, fun i hi hi' => ?_⟩
  · have ha := at_of_inCube hp
    have hb := at_bounds h0 h1 ha
    refine ⟨_, hb.1, hb.2, ha, to1D_ok h0 h1 ha, flat_ok h0 h1 ha, to3D_ok h0 h1 ha, ?_⟩
    unfold xOf
    rw [to3D_ok h0 h1 ha]; rfl
  · obtain ⟨p, hp⟩ := at_exists h0 h1 hi hi'
    exact ⟨p, hp, fun p' hp' => at_unique h0 h1 hp' hp, to3D_ok h0 h1 hp, to1D_ok h0 h1 hp⟩

/-- A box of 3 sites per axis: the site at (2, 1, 1) has the number 14. -/
example : to1D 3 ⟨2, 1, 1⟩ = .ok 14 ∧ to3D 3 14 = .ok ⟨2, 1, 1⟩ ∧ At 3 14 ⟨2, 1, 1⟩ := by decide +kernel

/-- **C84** (larger boxes). From 1291 sites per axis on the number of sites does not fit into an `int`: computing it is undefined
behaviour. -/
theorem C84_overflow {d : Int} (h1 : 1291 ≤ d) (energies : List ℝ) (field : ℝ) :
    rates d energies field = .error (.ub .intOverflow) := by
  have ht : Box.total d = .error (.ub .intOverflow) := by
    unfold Box.total
    by_cases hf : FitsInt (d * d)
    · rw [chk_ok hf, ok_bind]
      refine chk_eq_error.2 ⟨fun hc => ?_, rfl⟩
      have := hc.2
      unfold INT_MAX at this
      have : 1291 * 1291 ≤ d * d := by nlinarith
      nlinarith
    · rw [chk_eq_error.2 ⟨hf, rfl⟩]; rfl
  unfold rates
  rw [ht]
  rfl

/-- **C84** (positions outside the box). `to1D` checks the coordinates from above only: a negative one goes unnoticed and gives the
number of another site. -/
theorem C84_negative {d : Int} (h0 : 2 ≤ d) (h1 : d ≤ 1290) : to1D d ⟨-1, 1, 0⟩ = to1D d ⟨d - 1, 0, 0⟩ ∧
    to1D d ⟨-1, 1, 0⟩ = .ok (d - 1) := by
  have ha : At d (d - 1) ⟨d - 1, 0, 0⟩ := ⟨⟨⟨by dsimp; omega, by dsimp; omega⟩, ⟨le_refl _, by dsimp; omega⟩, le_refl _, by dsimp; omega⟩, by simp⟩
  have h2 := to1D_ok (by omega) h1 ha
  have : to1D d ⟨-1, 1, 0⟩ = .ok (d - 1) := by
    unfold to1D flat
    rw [if_pos ⟨by dsimp; omega, by dsimp; omega, by dsimp; omega⟩]
    simp only [zero_mul, one_mul]
    rw [chk_ok (fitsInt_of (by omega) (by omega)), ok_bind, zero_mul, chk_ok (fitsInt_of (by omega) (by omega)), ok_bind,
      chk_ok (fitsInt_of (by omega) (by omega)), ok_bind, zero_add, chk_ok (fitsInt_of (by omega) (by omega)), ok_bind,
      chk_ok (fitsInt_of (by omega) (by omega))]
    rfl
  exact ⟨by rw [this, h2], this⟩

/-! ## C85 -/

/-- **C85** (partial: steps into the faces through the origin are missing). The loops over the surroundings of a site find, each
once, the sites of the box next to it to which no coordinate goes from 1 to 0. -/
theorem C85_neighbors_partial {d i : Int} {p : Pos} (h0 : 0 < d) (h1 : d ≤ 1290) (h : At d i p) : ∃ ns, around d p = .ok ns ∧
    (ns.map Prod.fst).Nodup ∧ ∀ j q, (j, q) ∈ ns ↔ At d j q ∧ Adjacent p q ∧ ¬ EntersFace p q :=
  around_ok h0 h1 h

/-- The corner of a box of 3 sites per axis. -/
example : At 3 26 ⟨2, 2, 2⟩ ∧ (around 3 ⟨2, 2, 2⟩).map (List.map Prod.fst) = .ok [13, 22, 16, 25, 14, 23, 17] := by decide +kernel

/-- **C85** (what is false). Of the step from a site of a face through the origin to the site in front of it and the step back, the
loops find the first one only. -/
theorem C85_oneway_counterexample {d : Int} (h0 : 2 ≤ d) (h1 : d ≤ 1290) {y z : Int} (hy : 0 ≤ y ∧ y < d) (hz : 0 ≤ z ∧ z < d) :
    Adjacent ⟨0, y, z⟩ ⟨1, y, z⟩ ∧ (∃ ns, around d ⟨0, y, z⟩ = .ok ns ∧ ∃ j, (j, ⟨1, y, z⟩) ∈ ns) ∧
      ∃ ns, around d ⟨1, y, z⟩ = .ok ns ∧ ∀ j, (j, ⟨0, y, z⟩) ∉ ns := by
  have c0 : InCube d ⟨0, y, z⟩ := ⟨⟨le_refl _, by dsimp; omega⟩, hy, hz⟩
  have c1 : InCube d ⟨1, y, z⟩ := ⟨⟨by dsimp; omega, by dsimp; omega⟩, hy, hz⟩
  have ha : Adjacent ⟨0, y, z⟩ ⟨1, y, z⟩ := ⟨by simp, by simp, by simp, by simp⟩
  obtain ⟨ns, e1, -, m1⟩ := around_ok (by omega) h1 (at_of_inCube c0)
  obtain ⟨ns', e2, -, m2⟩ := around_ok (by omega) h1 (at_of_inCube c1)
  refine ⟨ha, ⟨ns, e1, _, (m1 _ _).2 ⟨at_of_inCube c1, ha, ?_⟩⟩, ns', e2, fun j hj => ((m2 _ _).1 hj).2.2 (.inl ⟨rfl, rfl⟩)⟩
  unfold EntersFace
  dsimp only
  omega

/-- **C85** (the rates). For energies of all sites of a box of 3 to 1290 sites per axis the rates are calculated: there is one from
`i` to `j` exactly if the sites are next to each other and the step does not enter a face through the origin, and it is positive. In
boxes of one or two sites per axis the assertion that every site has a rate fails. -/
theorem C85_rates_partial {d : Int} (h0 : 0 < d) (h1 : d ≤ 1290) {energies : List ℝ} {E : Int → ℝ} (hE : Energies d energies E)
    (field : ℝ) :
    (3 ≤ d → ∃ R, rates d energies field = .ok R ∧ ∀ i j, (∃ k, get2 R i j = some k ∧ 0 < k) ↔
      ∃ p q, At d i p ∧ At d j q ∧ Adjacent p q ∧ ¬ EntersFace p q) ∧
    (d < 3 → rates d energies field = .error .assertFail) := by
  refine ⟨fun h3 => ?_, fun h => rates_fails h0 h hE field⟩
  obtain ⟨R, hR, hs⟩ := rates_ok h3 h1 hE field
  refine ⟨R, hR, fun i j => ⟨fun ⟨k, hk, _⟩ => ?_, fun ⟨p, q, a, b, c, e⟩ => ?_⟩⟩
  · obtain ⟨p, -, q, a, b, c, e, -⟩ := (hs.iff i j k).1 hk
    exact ⟨p, q, a, b, c, e⟩
  · refine ⟨_, (hs.iff i j _).2 ⟨p, mem_cube.2 a.1, q, a, b, c, e, rfl⟩, ?_⟩
    unfold value coef hbar pi transfer kBT
    positivity

/-- A box of 3 sites per axis with energy 0 everywhere. -/
theorem BoxSpec.flatEnergies : Energies 3 (List.replicate 27 0) fun _ => 0 := by
  intro i h0 h1
  rw [List.getElem?_replicate, if_pos (by norm_num at h1; omega)]

example : ∃ R, rates 3 (List.replicate 27 0) 0 = .ok R ∧ ∃ k, get2 R 0 1 = some k ∧ 0 < k := by
  obtain ⟨R, hR, h⟩ := (C85_rates_partial (by norm_num) (by norm_num) flatEnergies 0).1 (by norm_num)
  refine ⟨R, hR, (h 0 1).2 ⟨⟨0, 0, 0⟩, ⟨1, 0, 0⟩, by decide +kernel, by decide +kernel, ⟨by simp, by simp, by simp, by simp⟩, ?_⟩⟩
  unfold EntersFace
  decide

/-- **C85** (consequence). Rates never lead back into a face through the origin: a walker that has left it does not return. -/
theorem C85_faces_left {d : Int} (h3 : 3 ≤ d) (h1 : d ≤ 1290) {energies : List ℝ} {E : Int → ℝ} (hE : Energies d energies E)
    {field : ℝ} {R : IMap (IMap ℝ)} (hR : rates d energies field = .ok R) {i j : Int} {k : ℝ} (hk : get2 R i j = some k)
    {p q : Pos} (hp : At d i p) (hq : At d j q) : (1 ≤ p.x → 1 ≤ q.x) ∧ (1 ≤ p.y → 1 ≤ q.y) ∧ (1 ≤ p.z → 1 ≤ q.z) := by
  obtain ⟨R', hR', hs⟩ := rates_ok h3 h1 hE field
  rw [hR] at hR'
  obtain rfl := ok_inj.1 hR'
  obtain ⟨p', -, q', a, b, ⟨-, c1, c2, c3⟩, e, -⟩ := (hs.iff i j k).1 hk
  obtain rfl := at_unique (by omega) h1 a hp
  obtain rfl := at_unique (by omega) h1 b hq
  unfold EntersFace at e
  rw [abs_le] at c1 c2 c3
  have := hq.1
  unfold InCube at this
  omega

/-- **C85** (consequence). The rates handed to the library do not go both ways, as its guarantees require. -/
theorem C85_not_twoWay {d : Int} (h3 : 3 ≤ d) (h1 : d ≤ 1290) {energies : List ℝ} {E : Int → ℝ} (hE : Energies d energies E)
    {field : ℝ} {R : IMap (IMap ℝ)} (hR : rates d energies field = .ok R) {mem : Addr → ℝ} {m : IMap (IMap Addr)}
    (hm : ToFSpec.Holds mem m R) : ¬ SystemSpec.TwoWay m := by
  intro h2
  obtain ⟨R', hR', hs⟩ := rates_ok h3 h1 hE field
  rw [hR] at hR'
  obtain rfl := ok_inj.1 hR'
  have c0 : InCube d ⟨0, 0, 0⟩ := ⟨⟨le_refl _, by dsimp; omega⟩, ⟨le_refl _, by dsimp; omega⟩, le_refl _, by dsimp; omega⟩
  have c1 : InCube d ⟨1, 0, 0⟩ := ⟨⟨by dsimp; omega, by dsimp; omega⟩, ⟨le_refl _, by dsimp; omega⟩, le_refl _, by dsimp; omega⟩
  have a0 : At d 0 ⟨0, 0, 0⟩ := ⟨c0, by simp⟩
  have a1 : At d 1 ⟨1, 0, 0⟩ := ⟨c1, by simp⟩
  have hk := (hs.iff 0 1 _).2 ⟨⟨0, 0, 0⟩, mem_cube.2 c0, ⟨1, 0, 0⟩, a0, a1, ⟨by simp, by simp, by simp, by simp⟩,
    by unfold EntersFace; decide, rfl⟩
  unfold get2 at hk
  obtain ⟨row, hrow, hv⟩ := Option.bind_eq_some_iff.1 hk
  have hmem := IMap.mem_of_get? hrow
  rw [← hm] at hmem
  obtain ⟨ir, hir, e⟩ := List.mem_map.1 hmem
  obtain ⟨e1, e2⟩ := Prod.ext_iff.1 e
  simp only at e1 e2
  have hv' := IMap.mem_of_get? hv
  rw [← e2] at hv'
  obtain ⟨na, hna, e3⟩ := List.mem_map.1 hv'
  obtain ⟨e3, -⟩ := Prod.ext_iff.1 e3
  simp only at e3
  obtain ⟨-, ir', hir', f1, na', hna', f2⟩ := h2 ir hir na hna
  have hR1 : (1, ir'.2.map fun na => (na.1, mem na.2)) ∈ R := by
    rw [← hm]
    exact List.mem_map.2 ⟨ir', hir', by rw [f1, e3]⟩
  have hget : get2 R 1 0 = some (mem na'.2) := by
    unfold get2
    rw [IMap.get?_of_mem hs.neat.1 hR1]
    refine IMap.get?_of_mem (hs.neat.2 _ hR1).1 (List.mem_map.2 ⟨na', hna', ?_⟩)
    rw [f2, e1]
  have := (C85_faces_left h3 h1 hE hR hget a1 a0).1 (le_refl _)
  dsimp only at this
  omega

/-- The rates of a box of 3 sites per axis, stored in memory as they are for the library. -/
example : ∃ R, rates 3 (List.replicate 27 0) 0 = .ok R ∧ ToFSpec.Holds (ToF.memOf R) (ToF.layout R) R ∧
    ¬ SystemSpec.TwoWay (ToF.layout R) := by
  obtain ⟨R, hR, -⟩ := (C85_rates_partial (by norm_num) (by norm_num) flatEnergies 0).1 (by norm_num)
  exact ⟨R, hR, ToF.layout_holds R, C85_not_twoWay (by norm_num) (by norm_num) flatEnergies hR (ToF.layout_holds R)⟩

/-! ## C86 -/

/-- **C86** (partial: only for sites of equal energy). The rates of the two directions between two sites balance for occupations with
the Boltzmann weights of the energies in the field exactly if the two sites have the same energy: the energies of the sites
enter with the wrong sign. -/
theorem C86_balance_partial {d : Int} (h3 : 3 ≤ d) (h1 : d ≤ 1290) {energies : List ℝ} {E : Int → ℝ} (hE : Energies d energies E)
    {field : ℝ} {R : IMap (IMap ℝ)} (hR : rates d energies field = .ok R) {i j : Int} {p q : Pos} (hp : At d i p) (hq : At d j q)
    {k k' : ℝ} (hk : get2 R i j = some k) (hk' : get2 R j i = some k') :
    Real.exp (-(E i - field * p.x) / 0.025) * k = Real.exp (-(E j - field * q.x) / 0.025) * k' ↔ E i = E j := by
  obtain ⟨R', hR', hs⟩ := rates_ok h3 h1 hE field
  rw [hR] at hR'
  obtain rfl := ok_inj.1 hR'
  obtain ⟨p', -, q', a, b, -, -, rfl⟩ := (hs.iff i j k).1 hk
  obtain rfl := at_unique (by omega) h1 a hp
  obtain rfl := at_unique (by omega) h1 b hq
  obtain ⟨q'', -, p'', a', b', -, -, rfl⟩ := (hs.iff j i k').1 hk'
  obtain rfl := at_unique (by omega) h1 a' hq
  obtain rfl := at_unique (by omega) h1 b' hp
  have hc : coef ≠ 0 := by
    unfold coef hbar Box.pi transfer kBT
    positivity
  unfold value reorganization kBT
  rw [mul_left_comm, mul_left_comm (Real.exp (-(E j - field * q''.x) / 0.025)), mul_right_inj' hc, ← Real.exp_add, ← Real.exp_add,
    Real.exp_eq_exp]
  push_cast
  constructor
  · intro h
    field_simp at h
    nlinarith
  · intro h
    rw [h]
    ring

/-- **C86** (what the rates balance for). They balance for the weights of energies of the opposite sign. -/
theorem C86_inverted {d : Int} (h3 : 3 ≤ d) (h1 : d ≤ 1290) {energies : List ℝ} {E : Int → ℝ} (hE : Energies d energies E)
    {field : ℝ} {R : IMap (IMap ℝ)} (hR : rates d energies field = .ok R) {i j : Int} {p q : Pos} (hp : At d i p) (hq : At d j q)
    {k k' : ℝ} (hk : get2 R i j = some k) (hk' : get2 R j i = some k') :
    Real.exp ((E i + field * p.x) / 0.025) * k = Real.exp ((E j + field * q.x) / 0.025) * k' := by
  obtain ⟨R', hR', hs⟩ := rates_ok h3 h1 hE field
  rw [hR] at hR'
  obtain rfl := ok_inj.1 hR'
  obtain ⟨p', -, q', a, b, -, -, rfl⟩ := (hs.iff i j k).1 hk
  obtain rfl := at_unique (by omega) h1 a hp
  obtain rfl := at_unique (by omega) h1 b hq
  obtain ⟨q'', -, p'', a', b', -, -, rfl⟩ := (hs.iff j i k').1 hk'
  obtain rfl := at_unique (by omega) h1 a' hq
  obtain rfl := at_unique (by omega) h1 b' hp
  unfold value reorganization kBT
  rw [mul_left_comm, mul_left_comm (Real.exp ((E j + field * q''.x) / 0.025)), ← Real.exp_add, ← Real.exp_add]
  congr 2
  push_cast
  ring

/-- **C86** (what is false). Without a field, of the two rates between two sites the one to the site of higher energy is the
larger one. -/
theorem C86_uphill_counterexample {d : Int} (h3 : 3 ≤ d) (h1 : d ≤ 1290) {energies : List ℝ} {E : Int → ℝ}
    (hE : Energies d energies E) {R : IMap (IMap ℝ)} (hR : rates d energies 0 = .ok R) {i j : Int}
    {k k' : ℝ} (hk : get2 R i j = some k) (hk' : get2 R j i = some k') (hij : E i < E j) : k' < k := by
  obtain ⟨R', hR', hs⟩ := rates_ok h3 h1 hE 0
  rw [hR] at hR'
  obtain rfl := ok_inj.1 hR'
  obtain ⟨p, -, q, a, b, -, -, rfl⟩ := (hs.iff i j k).1 hk
  obtain ⟨q', -, p', a', b', -, -, rfl⟩ := (hs.iff j i k').1 hk'
  have hc : 0 < coef := by
    unfold coef hbar Box.pi transfer kBT
    positivity
  unfold value
  refine mul_lt_mul_of_pos_left (Real.exp_lt_exp.2 ?_) hc
  unfold reorganization kBT
  simp only [mul_zero, add_zero]
  rw [div_lt_div_iff_of_pos_right (by norm_num)]
  nlinarith

/-- Energies in a box of 3 sites per axis: that of site 14, in the middle of the face x = 2, is 1, that of all others is 0. -/
noncomputable def Box.hill : List ℝ := (List.replicate 27 0).set 14 1

theorem Box.hill_energies : Energies 3 hill fun i => if i = 14 then 1 else 0 := by
  intro i h0 h1
  unfold hill
  norm_num at h1
  rw [List.getElem?_set]
  split
  · next h => rw [if_pos (by simp)]; dsimp only; rw [if_pos (by omega)]
  · next h => rw [List.getElem?_replicate, if_pos (by omega)]; dsimp only; rw [if_neg (by omega)]

/-- The step up to it from the site above it, and back. -/
example : ∃ R k k', rates 3 hill 0 = .ok R ∧ get2 R 23 14 = some k ∧ get2 R 14 23 = some k' ∧ k' < k := by
  obtain ⟨R, hR, h⟩ := (C85_rates_partial (by norm_num) (by norm_num) hill_energies 0).1 (by norm_num)
  have up : ∃ k, get2 R 23 14 = some k ∧ 0 < k := (h 23 14).2 ⟨⟨2, 1, 2⟩, ⟨2, 1, 1⟩, by decide +kernel, by decide +kernel,
    ⟨by simp, by simp, by simp, by simp⟩, by unfold EntersFace; decide⟩
  have down : ∃ k, get2 R 14 23 = some k ∧ 0 < k := (h 14 23).2 ⟨⟨2, 1, 1⟩, ⟨2, 1, 2⟩, by decide +kernel, by decide +kernel,
    ⟨by simp, by simp, by simp, by simp⟩, by unfold EntersFace; decide⟩
  obtain ⟨k, hk, -⟩ := up
  obtain ⟨k', hk', -⟩ := down
  exact ⟨R, k, k', hR, hk, hk', C86_uphill_counterexample (by norm_num) (by norm_num) hill_energies hR hk hk' (by norm_num)⟩

/-- The same rates balance for the weights of the opposite energies but not for those of the energies. -/
example : ∃ R k k', rates 3 hill 0 = .ok R ∧ get2 R 23 14 = some k ∧ get2 R 14 23 = some k' ∧
    Real.exp ((0 + 0 * (2 : Int)) / 0.025) * k = Real.exp ((1 + 0 * (2 : Int)) / 0.025) * k' ∧
    Real.exp (-(0 - 0 * (2 : Int)) / 0.025) * k ≠ Real.exp (-(1 - 0 * (2 : Int)) / 0.025) * k' := by
  obtain ⟨R, hR, h⟩ := (C85_rates_partial (by norm_num) (by norm_num) hill_energies 0).1 (by norm_num)
  have a1 : At 3 23 ⟨2, 1, 2⟩ := by decide +kernel
  have a2 : At 3 14 ⟨2, 1, 1⟩ := by decide +kernel
  have up : ∃ k, get2 R 23 14 = some k ∧ 0 < k := (h 23 14).2 ⟨⟨2, 1, 2⟩, ⟨2, 1, 1⟩, a1, a2,
    ⟨by simp, by simp, by simp, by simp⟩, by unfold EntersFace; decide⟩
  have down : ∃ k, get2 R 14 23 = some k ∧ 0 < k := (h 14 23).2 ⟨⟨2, 1, 1⟩, ⟨2, 1, 2⟩, a2, a1,
    ⟨by simp, by simp, by simp, by simp⟩, by unfold EntersFace; decide⟩
  obtain ⟨k, hk, -⟩ := up
  obtain ⟨k', hk', -⟩ := down
  have hi := C86_inverted (by norm_num) (by norm_num) hill_energies hR a1 a2 hk hk'
  have hb := C86_balance_partial (by norm_num) (by norm_num) hill_energies hR a1 a2 hk hk'
  rw [if_neg (by norm_num), if_pos rfl] at hi hb
  exact ⟨R, k, k', hR, hk, hk', hi, fun hc => by simpa using hb.1 hc⟩

end Mythical
