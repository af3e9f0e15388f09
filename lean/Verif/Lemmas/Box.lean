import Verif.Spec.Box
import Verif.Lemmas.Cuboid
import Verif.Lemmas.CuboidAll
import Mathlib.Tactic.IntervalCases

/-! # Helper lemmas for the box of sites in the programs under src/tests -/

namespace Mythical.Box
open Cuboid CuboidSpec BoxSpec

/-- The box as a lattice. -/
noncomputable def latticeOf (d : Int) : Cuboid := ⟨d, d, d, d * d * d, 1, .fixed, .fixed, .fixed⟩

theorem cube_le {d : Int} (h0 : 0 < d) (h1 : d ≤ 1290) : d * d * d ≤ 2147483647 := by
  have h2 : d * d ≤ 1290 * 1290 := by nlinarith
  nlinarith

theorem good_lattice {d : Int} (h0 : 0 < d) (h1 : d ≤ 1290) : Good (latticeOf d) :=
  ⟨h0, h0, h0, rfl, cube_le h0 h1⟩

theorem siteAt_iff {d i : Int} {p : Pos} : SiteAt (latticeOf d) i p ↔ At d i p := by
  unfold SiteAt At InBox InCube latticeOf
  simp only
  constructor
  · rintro ⟨h, rfl⟩; exact ⟨h, by ring⟩
  · rintro ⟨h, rfl⟩; exact ⟨h, by ring⟩

theorem flat_eq (d : Int) (p : Pos) : flat d p = (latticeOf d).rawIndex p := rfl

theorem flat_ok {d i : Int} {p : Pos} (h0 : 0 < d) (h1 : d ≤ 1290) (h : At d i p) : flat d p = .ok i := by
  rw [flat_eq]; exact rawIndex_ok (good_lattice h0 h1) (siteAt_iff.2 h)

theorem to1D_ok {d i : Int} {p : Pos} (h0 : 0 < d) (h1 : d ≤ 1290) (h : At d i p) : to1D d p = .ok i := by
  unfold to1D
  rw [if_pos ⟨h.1.1.2, h.1.2.1.2, h.1.2.2.2⟩]
  exact flat_ok h0 h1 h

theorem at_of_inCube {d : Int} {p : Pos} (h : InCube d p) : At d (p.x + d * p.y + d * d * p.z) p := ⟨h, rfl⟩

theorem at_bounds {d i : Int} {p : Pos} (h0 : 0 < d) (h1 : d ≤ 1290) (h : At d i p) : 0 ≤ i ∧ i < d * d * d := by
  have := siteAt_bounds (good_lattice h0 h1) (siteAt_iff.2 h)
  exact this

theorem at_unique {d i : Int} {p q : Pos} (h0 : 0 < d) (h1 : d ≤ 1290) (hp : At d i p) (hq : At d i q) : p = q :=
  siteAt_unique (good_lattice h0 h1) (siteAt_iff.2 hp) (siteAt_iff.2 hq)

theorem at_exists {d i : Int} (h0 : 0 < d) (h1 : d ≤ 1290) (hi : 0 ≤ i) (hi' : i < d * d * d) : ∃ p, At d i p := by
  obtain ⟨p, hp⟩ := siteAt_exists (good_lattice h0 h1) (i := i) ⟨hi, hi'⟩
  exact ⟨p, siteAt_iff.1 hp⟩

theorem to3D_ok {d i : Int} {p : Pos} (h0 : 0 < d) (h1 : d ≤ 1290) (h : At d i p) : to3D d i = .ok p := by
  have g := good_lattice h0 h1
  have hr := rawPos_of_siteAt g (siteAt_iff.2 h)
  obtain ⟨i0, i1⟩ := at_bounds h0 h1 h
  have hc := cube_le h0 h1
  have hz : i.tdiv (d * d) = p.z := by
    rw [Int.tdiv_eq_ediv_of_nonneg i0]
    have := congrArg (fun r : Except Fault Pos => r.map Pos.z) hr
    rw [rawPos_nonneg g i0 (by omega)] at this
    simpa [Except.map, latticeOf] using this
  have z0 := h.1.2.2.1
  have hd : 0 < d * d := by positivity
  unfold rawPos at hr
  simp only [bind_eq_ok, chk_eq_ok] at hr
  obtain ⟨lw, ⟨rfl, hlw⟩, z, hz1, off, ⟨rfl, hoff⟩, rest, ⟨rfl, hrest⟩, y, hy, x, hx, hp⟩ := hr
  have e : d * d * z = z * d * d := by ring
  have hz2 : z = p.z := by rw [ok_inj] at hp; rw [← hp]
  have hzd : FitsInt (z * d) := by
    have a : z * d ≤ z * d * d := by subst hz2; nlinarith [mul_nonneg z0 h0.le]
    have b : 0 ≤ z * d := by subst hz2; exact mul_nonneg z0 h0.le
    have c : FitsInt (d * d * z) := hoff
    rw [e] at c
    unfold FitsInt INT_MIN INT_MAX at *
    omega
  have hoff' : FitsInt (z * d * d) := by rw [← e]; exact hoff
  have hrest' : FitsInt (i - z * d * d) := by rw [← e]; exact hrest
  have er : i - d * d * z = i - z * d * d := by rw [e]
  change divI (i - d * d * z) d = .ok y at hy
  change modI (i - d * d * z) d = .ok x at hx
  change divI i (d * d) = .ok z at hz1
  rw [er] at hy hx
  unfold to3D
  rw [chk_ok (show FitsInt (d * d) from hlw), ok_bind, hz1, ok_bind, chk_ok hzd, ok_bind, chk_ok hoff', ok_bind, chk_ok hrest', ok_bind, hy, ok_bind,
    hx, ok_bind]
  exact hp

theorem fits_small {d x : Int} (h1 : d ≤ 1290) (x0 : -1 ≤ x) (x1 : x ≤ d) : FitsInt x := fitsInt_of (by omega) (by omega)

/-- The loop over one coordinate: the value itself, the next one and the one before, but for 0. -/
theorem span_ok {d x : Int} (h1 : d ≤ 1290) (x0 : 0 ≤ x) (x1 : x < d) : ∃ l, span d x = .ok l ∧ l.Nodup ∧
    ∀ y, y ∈ l ↔ (0 ≤ y ∧ y < d) ∧ |x - y| ≤ 1 ∧ ¬ (x = 1 ∧ y = 0) := by
  unfold span low high
  rw [chk_ok (fits_small h1 (by omega) (by omega)), ok_bind, ok_bind, chk_ok (fits_small h1 (by omega) (by omega)), ok_bind, ok_bind]
  obtain ⟨l, hl⟩ := loopRange_ok (lo := if x - 1 > 0 then x - 1 else x) (hi := if x + 1 < d then x + 1 else x)
    (by split <;> exact fitsInt_of (by omega) (by omega))
  obtain ⟨m1, m2, -⟩ := loopRange_eq_ok hl
  refine ⟨l, hl, m2, fun y => ?_⟩
  rw [m1, abs_le]
  split_ifs <;> omega

theorem neighborAt_ok {d site : Int} {q : Pos} (h0 : 0 < d) (h1 : d ≤ 1290) (hq : InCube d q) :
    neighborAt d site q = .ok (if site ≠ q.x + d * q.y + d * d * q.z then [(q.x + d * q.y + d * d * q.z, q)] else []) := by
  unfold neighborAt
  rw [if_pos (show (0 ≤ q.x ∧ q.x < d) ∧ (0 ≤ q.y ∧ q.y < d) ∧ 0 ≤ q.z ∧ q.z < d from hq), to1D_ok h0 h1 (at_of_inCube hq), ok_bind]

theorem neighborAt_mem {d site : Int} {q : Pos} {s : List (Int × Pos)} (h : neighborAt d site q = .ok s) {b : Int × Pos} (hb : b ∈ s) :
    b.2 = q := by
  unfold neighborAt at h
  split at h
  · obtain ⟨n, -, h⟩ := bind_eq_ok.1 h
    rw [ok_inj] at h
    subst h
    split at hb
    · rw [List.mem_singleton.1 hb]
    · cases hb
  · cases h

/-- The neighbours of a site, from the loops. -/
theorem around_ok {d i : Int} {p : Pos} (h0 : 0 < d) (h1 : d ≤ 1290) (h : At d i p) : ∃ ns, around d p = .ok ns ∧
    (ns.map Prod.fst).Nodup ∧ ∀ j q, (j, q) ∈ ns ↔ At d j q ∧ Adjacent p q ∧ ¬ EntersFace p q := by
  obtain ⟨xs, hx, nx, mx⟩ := span_ok h1 h.1.1.1 h.1.1.2
  obtain ⟨ys, hy, ny, my⟩ := span_ok h1 h.1.2.1.1 h.1.2.1.2
  obtain ⟨zs, hz, nz, mz⟩ := span_ok h1 h.1.2.2.1 h.1.2.2.2
  have hin : ∀ x ∈ xs, ∀ y ∈ ys, ∀ z ∈ zs, InCube d ⟨x, y, z⟩ := fun x hx y hy z hz =>
    ⟨((mx x).1 hx).1, ((my y).1 hy).1, ((mz z).1 hz).1⟩
  unfold around
  rw [hx, ok_bind, hy, ok_bind, hz, ok_bind, to1D_ok h0 h1 h, ok_bind]
  have o3 : ∀ x ∈ xs, ∀ y ∈ ys, ∃ r, forEach (fun z2 => neighborAt d i ⟨x, y, z2⟩) zs = .ok r := fun x hx y hy =>
    forEach_ok fun z hz => ⟨_, neighborAt_ok h0 h1 (hin x hx y hy z hz)⟩
  have o2 : ∀ x ∈ xs, ∃ r, forEach (fun y2 => forEach (fun z2 => neighborAt d i ⟨x, y2, z2⟩) zs) ys = .ok r := fun x hx =>
    forEach_ok fun y hy => o3 x hx y hy
  obtain ⟨ns, hns⟩ := forEach_ok (f := fun x2 => forEach (fun y2 => forEach (fun z2 => neighborAt d i ⟨x2, y2, z2⟩) zs) ys) (l := xs) o2
  have hmem : ∀ j q, (j, q) ∈ ns ↔ At d j q ∧ Adjacent p q ∧ ¬ EntersFace p q := by
    intro j q
    rw [mem_forEach hns]
    constructor
    · rintro ⟨x, hx', s, hs, hm⟩
      obtain ⟨y, hy', s2, hs2, hm2⟩ := (mem_forEach hs).1 hm
      obtain ⟨z, hz', s3, hs3, hm3⟩ := (mem_forEach hs2).1 hm2
      have hc := hin x hx' y hy' z hz'
      rw [neighborAt_ok h0 h1 hc, ok_inj] at hs3
      subst hs3
      split at hm3
      · next hne =>
        obtain ⟨e1, e2⟩ := Prod.ext_iff.1 (List.mem_singleton.1 hm3)
        simp only at e1 e2
        subst e1 e2
        have a1 := (mx x).1 hx'
        have a2 := (my y).1 hy'
        have a3 := (mz z).1 hz'
        refine ⟨⟨hc, rfl⟩, ⟨?_, a1.2.1, a2.2.1, a3.2.1⟩, ?_⟩
        · rintro rfl
          exact hne h.2
        · rintro (e | e | e)
          · exact a1.2.2 e
          · exact a2.2.2 e
          · exact a3.2.2 e
      · cases hm3
    · rintro ⟨ha, ⟨hne, b1, b2, b3⟩, he⟩
      unfold EntersFace at he
      push Not at he
      have hx' : q.x ∈ xs := (mx _).2 ⟨ha.1.1, b1, fun e => he.1 e.1 e.2⟩
      have hy' : q.y ∈ ys := (my _).2 ⟨ha.1.2.1, b2, fun e => he.2.1 e.1 e.2⟩
      have hz' : q.z ∈ zs := (mz _).2 ⟨ha.1.2.2, b3, fun e => he.2.2 e.1 e.2⟩
      obtain ⟨s, hs⟩ := o2 _ hx'
      obtain ⟨s2, hs2⟩ := o3 _ hx' _ hy'
      refine ⟨q.x, hx', s, hs, (mem_forEach hs).2 ⟨q.y, hy', s2, hs2, (mem_forEach hs2).2 ⟨q.z, hz', _, neighborAt_ok h0 h1 ha.1, ?_⟩⟩⟩
      have hij : i ≠ q.x + d * q.y + d * d * q.z := by
        intro e
        exact hne (at_unique h0 h1 h ⟨ha.1, e⟩)
      rw [if_pos hij, List.mem_singleton, ha.2]
  refine ⟨ns, hns, ?_, hmem⟩
  have hnd : ns.Nodup := by
    refine nodup_forEach hns nx ?_ ?_
    · intro x hx' s hs
      refine nodup_forEach hs ny ?_ ?_
      · intro y hy' s2 hs2
        refine nodup_forEach hs2 nz ?_ ?_
        · intro z hz' s3 hs3
          rw [neighborAt_ok h0 h1 (hin x hx' y hy' z hz'), ok_inj] at hs3
          subst hs3
          split <;> simp
        · intro z hz' z2 hz2 s3 s4 hs3 hs4 b hb hb'
          exact congrArg Pos.z ((neighborAt_mem hs3 hb).symm.trans (neighborAt_mem hs4 hb'))
      · intro y hy' y2 hy2 s3 s4 hs3 hs4 b hb hb'
        obtain ⟨z, hz', t, ht, hm⟩ := (mem_forEach hs3).1 hb
        obtain ⟨z2, hz2, t2, ht2, hm2⟩ := (mem_forEach hs4).1 hb'
        exact congrArg Pos.y ((neighborAt_mem ht hm).symm.trans (neighborAt_mem ht2 hm2))
    · intro x hx' x2 hx2 s s2 hs hs2 b hb hb'
      obtain ⟨y, hy', t, ht, hm⟩ := (mem_forEach hs).1 hb
      obtain ⟨z, hz', t', ht', hm'⟩ := (mem_forEach ht).1 hm
      obtain ⟨y2, hy2, r, hr, hn⟩ := (mem_forEach hs2).1 hb'
      obtain ⟨z2, hz2, r', hr', hn'⟩ := (mem_forEach hr).1 hn
      exact congrArg Pos.x ((neighborAt_mem ht' hm').symm.trans (neighborAt_mem hr' hn'))
  refine (List.nodup_map_iff_inj_on hnd).2 ?_
  rintro ⟨j, q⟩ hq ⟨j', q'⟩ hq' (rfl : j = j')
  rw [at_unique h0 h1 ((hmem _ _).1 hq).1 ((hmem _ _).1 hq').1]

end Mythical.Box
