import Verif.Spec.Cuboid
import Verif.Lemmas.Except
import Mathlib.Tactic.Linarith
import Mathlib.Tactic.Ring
import Mathlib.Tactic.Positivity

/-! # Helper lemmas for the lattice -/

namespace Mythical
namespace Cuboid
open CuboidSpec

section forEach
variable {α β γ : Type _}

theorem forEach_cons {f : α → Except Fault (List β)} {a : α} {as : List α} {r : List β} :
    forEach f (a :: as) = .ok r ↔ ∃ s, f a = .ok s ∧ ∃ t, forEach f as = .ok t ∧ r = s ++ t := by
  simp only [forEach, bind_eq_ok, ok_inj]
  constructor
  · rintro ⟨s, h1, t, h2, h3⟩; exact ⟨s, h1, t, h2, h3.symm⟩
  · rintro ⟨s, h1, t, h2, h3⟩; exact ⟨s, h1, t, h2, h3.symm⟩

theorem mem_forEach {f : α → Except Fault (List β)} {l : List α} {r : List β}
    (h : forEach f l = .ok r) {b : β} : b ∈ r ↔ ∃ a ∈ l, ∃ s, f a = .ok s ∧ b ∈ s := by
  induction l generalizing r with
  | nil => simp only [forEach, ok_inj] at h; simp [← h]
  | cons a as ih =>
    obtain ⟨s, h1, t, h2, rfl⟩ := forEach_cons.1 h
    simp only [List.mem_append, List.exists_mem_cons_iff, ih h2]
    constructor
    · rintro (hb | hb)
      · exact .inl ⟨s, h1, hb⟩
      · exact .inr hb
    · rintro (⟨s', h1', hb⟩ | hb)
      · rw [h1, ok_inj] at h1'; subst h1'; exact .inl hb
      · exact .inr hb

theorem forEach_isOk {f : α → Except Fault (List β)} {l : List α} {r : List β}
    (h : forEach f l = .ok r) : ∀ a ∈ l, ∃ s, f a = .ok s := by
  induction l generalizing r with
  | nil => simp
  | cons a as ih =>
    obtain ⟨s, h1, t, h2, rfl⟩ := forEach_cons.1 h
    intro x hx
    rcases List.mem_cons.1 hx with rfl | hx
    · exact ⟨s, h1⟩
    · exact ih h2 x hx

theorem forEach_ok {f : α → Except Fault (List β)} {l : List α}
    (h : ∀ a ∈ l, ∃ s, f a = .ok s) : ∃ r, forEach f l = .ok r := by
  induction l with
  | nil => exact ⟨[], rfl⟩
  | cons a as ih =>
    obtain ⟨s, hs⟩ := h a (by simp)
    obtain ⟨t, ht⟩ := ih fun x hx => h x (by simp [hx])
    exact ⟨s ++ t, forEach_cons.2 ⟨s, hs, t, ht, rfl⟩⟩

theorem forEach_map {f : α → Except Fault (List β)} {g : α → Except Fault (List γ)} (k : γ → β)
    {l : List α} (h : ∀ a ∈ l, f a = (g a).map (List.map k)) :
    forEach f l = (forEach g l).map (List.map k) := by
  induction l with
  | nil => rfl
  | cons a as ih =>
    simp only [forEach]
    rw [h a (by simp), ih fun x hx => h x (by simp [hx])]
    cases g a with
    | error e => rfl
    | ok s =>
      cases forEach g as with
      | error e => rfl
      | ok t => simp [Except.map, bind, Except.bind]

theorem nodup_forEach {f : α → Except Fault (List β)} {l : List α} {r : List β}
    (h : forEach f l = .ok r) (hl : l.Nodup) (h1 : ∀ a ∈ l, ∀ s, f a = .ok s → s.Nodup)
    (h2 : ∀ a ∈ l, ∀ a' ∈ l, ∀ s s', f a = .ok s → f a' = .ok s' → ∀ b ∈ s, b ∈ s' → a = a') :
    r.Nodup := by
  induction l generalizing r with
  | nil => simp only [forEach, ok_inj] at h; simp [← h]
  | cons a as ih =>
    obtain ⟨s, e1, t, e2, rfl⟩ := forEach_cons.1 h
    rw [List.nodup_cons] at hl
    refine List.nodup_append'.2 ⟨h1 a (by simp) s e1, ih e2 hl.2 (fun x hx => h1 x (by simp [hx]))
      (fun x hx y hy => h2 x (by simp [hx]) y (by simp [hy])), ?_⟩
    intro b hb hb'
    obtain ⟨a', ha', s', e', hb'⟩ := (mem_forEach e2).1 hb'
    exact hl.1 (h2 a (by simp) a' (by simp [ha']) s s' e1 e' b hb hb' ▸ ha')

end forEach

theorem mem_intRange {lo hi x : Int} :
    x ∈ ((List.range (hi + 1 - lo).toNat).map fun k : Nat => lo + (k : Int)) ↔ lo ≤ x ∧ x ≤ hi := by
  simp only [List.mem_map, List.mem_range]
  constructor
  · rintro ⟨k, hk, rfl⟩; omega
  · intro h; exact ⟨(x - lo).toNat, by omega, by omega⟩

theorem nodup_intRange {lo hi : Int} :
    ((List.range (hi + 1 - lo).toNat).map fun k : Nat => lo + (k : Int)).Nodup :=
  List.Nodup.map (fun a b h => by simpa using h) List.nodup_range

theorem loopRange_eq_ok {lo hi : Int} {l : List Int} (h : loopRange lo hi = .ok l) :
    (∀ x, x ∈ l ↔ lo ≤ x ∧ x ≤ hi) ∧ l.Nodup ∧ (lo ≤ hi → FitsInt (hi + 1)) := by
  unfold loopRange at h
  split at h
  · next hle =>
    simp only [bind_eq_ok, chk_eq_ok, ok_inj] at h
    obtain ⟨a, ⟨rfl, hf⟩, rfl⟩ := h
    exact ⟨fun x => mem_intRange, nodup_intRange, fun _ => hf⟩
  · next hle =>
    rw [ok_inj] at h; subst h
    refine ⟨fun x => ?_, by simp, fun h => absurd h hle⟩
    simp only [List.not_mem_nil, false_iff]; omega

theorem loopRange_ok {lo hi : Int} (h : FitsInt (hi + 1)) : ∃ l, loopRange lo hi = .ok l := by
  unfold loopRange
  split
  · simp [chk_ok h]
  · exact ⟨_, rfl⟩

/-! ## Construction -/

theorem construct_eq_ok {l w h : Int} {s : ℝ} {xb yb zb : Boundary} {c : Cuboid} :
    construct l w h s xb yb zb = .ok c ↔
      0 < l ∧ 0 < w ∧ 0 < h ∧ FitsInt (l * w) ∧ FitsInt (l * w * h) ∧ FitsInt (l - 1) ∧
        FitsInt (w - 1) ∧ FitsInt (h - 1) ∧ c = ⟨l, w, h, l * w * h, s, xb, yb, zb⟩ := by
  simp only [construct, bind_eq_ok, chk_eq_ok, mkDistribution]
  constructor
  · rintro ⟨a, ⟨rfl, h1⟩, b, ⟨rfl, h2⟩, h3⟩
    split at h3
    · cases h3
    split at h3
    · cases h3
    split at h3
    · cases h3
    simp only [bind_eq_ok, chk_eq_ok, ok_inj] at h3
    obtain ⟨u, ⟨a, ⟨rfl, f1⟩, g1⟩, v, ⟨b, ⟨rfl, f2⟩, g2⟩, w', ⟨d, ⟨rfl, f3⟩, g3⟩, rfl⟩ := h3
    split at g1 <;> [skip; cases g1]
    split at g2 <;> [skip; cases g2]
    split at g3 <;> [skip; cases g3]
    refine ⟨by omega, by omega, by omega, h1, h2, f1, f2, f3, rfl⟩
  · rintro ⟨h1, h2, h3, h4, h5, h6, h7, h8, rfl⟩
    refine ⟨_, ⟨rfl, h4⟩, _, ⟨rfl, h5⟩, ?_⟩
    rw [if_neg (by omega), if_neg (by omega), if_neg (by omega)]
    rw [chk_ok h6, chk_ok h7, chk_ok h8]
    simp only [ok_bind]
    rw [if_pos (by omega), if_pos (by omega), if_pos (by omega)]
    rfl

/-- What a constructed lattice satisfies. -/
structure Good (c : Cuboid) : Prop where
  l : 0 < c.length
  w : 0 < c.width
  h : 0 < c.height
  t : c.total = c.length * c.width * c.height
  fits : c.length * c.width * c.height ≤ 2147483647

theorem good_of_built {c : Cuboid} (hb : Built c) : Good c := by
  obtain ⟨h1, h2, h3, -, h5, -, -, -, h9⟩ := construct_eq_ok.1 hb
  exact ⟨h1, h2, h3, congrArg Cuboid.total h9, h5.2⟩

theorem built_of_good {c : Cuboid} (g : Good c) : Built c := by
  obtain ⟨l, w, h, t, s, xb, yb, zb⟩ := c
  obtain ⟨g1, g2, g3, g4, g5⟩ := g
  simp only at g1 g2 g3 g4 g5
  subst g4
  have e1 : l * w ≤ l * w * h := by nlinarith [mul_pos g1 g2]
  have e2 : l ≤ l * w := by nlinarith
  have e3 : w ≤ l * w := by nlinarith
  have e4 : h ≤ l * w * h := by nlinarith [mul_pos g1 g2]
  have e5 : 0 < l * w := mul_pos g1 g2
  refine construct_eq_ok.2 ⟨g1, g2, g3, ?_, ?_, ?_, ?_, ?_, rfl⟩ <;> dsimp only <;> exact fitsInt_of (by omega) (by omega)

namespace Good
variable {c : Cuboid} (g : Good c)
include g

theorem lw_pos : 0 < c.length * c.width := mul_pos g.l g.w
theorem lw_le : c.length * c.width ≤ 2147483647 := by
  have := g.fits; have := g.lw_pos; have := g.h
  nlinarith
theorem l_le : c.length ≤ 2147483647 := by
  have := g.lw_le; have := g.l; have := g.w
  nlinarith
theorem w_le : c.width ≤ 2147483647 := by
  have := g.lw_le; have := g.l; have := g.w
  nlinarith
theorem h_le : c.height ≤ 2147483647 := by
  have := g.fits; have := g.lw_pos; have := g.h
  nlinarith
theorem lw_fits : FitsInt (c.length * c.width) := fitsInt_of (by have := g.lw_pos; omega) g.lw_le
theorem lwh_pos : 0 < c.length * c.width * c.height := mul_pos g.lw_pos g.h
theorem lwh_fits : FitsInt (c.length * c.width * c.height) :=
  fitsInt_of (by have := g.lwh_pos; omega) g.fits
end Good

/-! ## Index arithmetic -/

theorem siteAt_bounds {c : Cuboid} (g : Good c) {i : Int} {p : Pos} (h : SiteAt c i p) :
    ValidIndex c i := by
  obtain ⟨⟨⟨x0, x1⟩, ⟨y0, y1⟩, ⟨z0, z1⟩⟩, rfl⟩ := h
  have hl := g.l; have hw := g.w
  have h1 : 0 ≤ c.width * p.z := mul_nonneg hw.le z0
  have h2 : 0 ≤ c.length * (p.y + c.width * p.z) := mul_nonneg hl.le (by omega)
  refine ⟨by omega, ?_⟩
  have h3 : c.width * p.z ≤ c.width * (c.height - 1) := mul_le_mul_of_nonneg_left (by omega) hw.le
  have h4 : c.length * (p.y + c.width * p.z) ≤ c.length * (c.width - 1 + c.width * (c.height - 1)) :=
    mul_le_mul_of_nonneg_left (by omega) hl.le
  have h5 : c.length * (c.width - 1 + c.width * (c.height - 1)) =
      c.length * c.width * c.height - c.length := by ring
  omega

theorem siteAt_unique {c : Cuboid} (g : Good c) {i : Int} {p q : Pos} (hp : SiteAt c i p)
    (hq : SiteAt c i q) : p = q := by
  obtain ⟨⟨⟨x0, x1⟩, ⟨y0, y1⟩, ⟨z0, z1⟩⟩, hi⟩ := hp
  obtain ⟨⟨⟨x0', x1'⟩, ⟨y0', y1'⟩, ⟨z0', z1'⟩⟩, hi'⟩ := hq
  have e : p.x + c.length * (p.y + c.width * p.z) = q.x + c.length * (q.y + c.width * q.z) :=
    hi.symm.trans hi'
  have hx : p.x = q.x := by
    have := congrArg (· % c.length) e
    simp only [Int.add_mul_emod_self_left] at this
    rwa [Int.emod_eq_of_lt x0 x1, Int.emod_eq_of_lt x0' x1'] at this
  have e2 : p.y + c.width * p.z = q.y + c.width * q.z := by
    rw [hx] at e
    exact mul_left_cancel₀ g.l.ne' (by linarith)
  have hy : p.y = q.y := by
    have := congrArg (· % c.width) e2
    simp only [Int.add_mul_emod_self_left] at this
    rwa [Int.emod_eq_of_lt y0 y1, Int.emod_eq_of_lt y0' y1'] at this
  have hz : p.z = q.z := by
    rw [hy] at e2
    exact mul_left_cancel₀ g.w.ne' (by linarith)
  cases p; cases q; simp_all

theorem siteAt_exists {c : Cuboid} (g : Good c) {i : Int} (h : ValidIndex c i) :
    ∃ p, SiteAt c i p := by
  have hl := g.l; have hw := g.w
  refine ⟨⟨i % c.length, i / c.length % c.width, i / c.length / c.width⟩, ⟨⟨?_, ?_⟩, ⟨?_, ?_⟩, ?_, ?_⟩, ?_⟩
  · exact Int.emod_nonneg _ hl.ne'
  · exact Int.emod_lt_of_pos _ hl
  · exact Int.emod_nonneg _ hw.ne'
  · exact Int.emod_lt_of_pos _ hw
  · exact Int.ediv_nonneg (Int.ediv_nonneg h.1 hl.le) hw.le
  · show i / c.length / c.width < c.height
    rw [Int.ediv_ediv_of_nonneg hl.le]
    exact Int.ediv_lt_of_lt_mul g.lw_pos (by have := h.2; rwa [mul_comm] at this)
  · show i = i % c.length + c.length * (i / c.length % c.width + c.width * (i / c.length / c.width))
    rw [Int.emod_add_mul_ediv, Int.emod_add_mul_ediv]

theorem rawIndex_eq_ok {c : Cuboid} {p : Pos} {i : Int} (h : c.rawIndex p = .ok i) :
    i = p.x + c.length * (p.y + c.width * p.z) := by
  simp only [rawIndex, bind_eq_ok, chk_eq_ok] at h
  obtain ⟨_, ⟨rfl, _⟩, _, ⟨rfl, _⟩, _, ⟨rfl, _⟩, _, ⟨rfl, _⟩, rfl, _⟩ := h
  ring

theorem rawIndex_ok {c : Cuboid} (g : Good c) {i : Int} {p : Pos} (h : SiteAt c i p) :
    c.rawIndex p = .ok i := by
  have hv := siteAt_bounds g h
  obtain ⟨⟨⟨x0, x1⟩, ⟨y0, y1⟩, ⟨z0, z1⟩⟩, hi⟩ := h
  have hl := g.l; have hw := g.w; have ht := g.fits
  have a1 : 0 ≤ p.z * c.length := mul_nonneg z0 hl.le
  have a2 : p.z * c.length ≤ p.z * c.length * c.width := by nlinarith
  have a3 : 0 ≤ p.y * c.length := mul_nonneg y0 hl.le
  have e : i = p.z * c.length * c.width + p.y * c.length + p.x := by rw [hi]; ring
  obtain ⟨v1, v2⟩ := hv
  unfold rawIndex
  rw [chk_ok (fitsInt_of (by omega) (by omega)), ok_bind, chk_ok (fitsInt_of (by omega) (by omega)),
    ok_bind, chk_ok (fitsInt_of (by omega) (by omega)), ok_bind,
    chk_ok (fitsInt_of (by omega) (by omega)), ok_bind, chk_ok (fitsInt_of (by omega) (by omega)), e]

theorem siteAt_of_rawIndex {c : Cuboid} {p : Pos} {i : Int} (hp : InBox c p)
    (h : c.rawIndex p = .ok i) : SiteAt c i p := ⟨hp, rawIndex_eq_ok h⟩

/-- `getPos_` on a non-negative index. -/
theorem rawPos_nonneg {c : Cuboid} (g : Good c) {i : Int} (h0 : 0 ≤ i) (h1 : i ≤ 2147483647) :
    c.rawPos i = .ok ⟨i % c.length, i / c.length % c.width, i / (c.length * c.width)⟩ := by
  have hl := g.l; have hw := g.w; have hlw := g.lw_pos
  have e1 : i.tdiv (c.length * c.width) = i / (c.length * c.width) := Int.tdiv_eq_ediv_of_nonneg h0
  have q0 : 0 ≤ i / (c.length * c.width) := Int.ediv_nonneg h0 hlw.le
  have q1 : i / (c.length * c.width) ≤ i := Int.ediv_le_self _ h0
  have r0 : 0 ≤ i % (c.length * c.width) := Int.emod_nonneg _ hlw.ne'
  have r1 : i % (c.length * c.width) + c.length * c.width * (i / (c.length * c.width)) = i :=
    Int.emod_add_mul_ediv _ _
  have p0 : 0 ≤ c.length * c.width * (i / (c.length * c.width)) := mul_nonneg hlw.le q0
  have e2 : i - c.length * c.width * (i / (c.length * c.width)) = i % (c.length * c.width) := by omega
  have s0 : 0 ≤ i % (c.length * c.width) / c.length := Int.ediv_nonneg r0 hl.le
  have s1 : i % (c.length * c.width) / c.length ≤ i % (c.length * c.width) := Int.ediv_le_self _ r0
  have t0 : 0 ≤ i % (c.length * c.width) % c.length := Int.emod_nonneg _ hl.ne'
  have t1 : i % (c.length * c.width) % c.length < c.length := Int.emod_lt_of_pos _ hl
  have hl' := g.l_le
  have f1 : i % (c.length * c.width) % c.length = i % c.length :=
    Int.emod_emod_of_dvd _ (Dvd.intro _ rfl)
  have f2 : i % (c.length * c.width) / c.length = i / c.length % c.width := by
    have hz : i / (c.length * c.width) = i / c.length / c.width :=
      (Int.ediv_ediv_of_nonneg hl.le).symm
    have : i % (c.length * c.width) =
        i % c.length + c.length * (i / c.length % c.width) := by
      have a := Int.emod_add_mul_ediv i c.length
      have b := Int.emod_add_mul_ediv (i / c.length) c.width
      rw [← hz] at b
      rw [← e2]
      nlinarith
    rw [this, Int.add_mul_ediv_left _ _ hl.ne',
      Int.ediv_eq_zero_of_lt (Int.emod_nonneg _ hl.ne') (Int.emod_lt_of_pos _ hl), zero_add]
  unfold rawPos divI modI
  rw [chk_ok g.lw_fits, ok_bind, if_neg hlw.ne', e1, chk_ok (fitsInt_of (by omega) (by omega)), ok_bind,
    chk_ok (fitsInt_of (by omega) (by omega)), ok_bind, e2,
    chk_ok (fitsInt_of (by omega) (by omega)), ok_bind, if_neg hl.ne', if_neg hl.ne',
    Int.tdiv_eq_ediv_of_nonneg r0, Int.tmod_eq_emod_of_nonneg r0,
    chk_ok (fitsInt_of (by omega) (by omega)), ok_bind,
    chk_ok (fitsInt_of (by omega) (by omega)), ok_bind, f1, f2]

theorem rawPos_of_siteAt {c : Cuboid} (g : Good c) {i : Int} {p : Pos} (h : SiteAt c i p) :
    c.rawPos i = .ok p := by
  have hv := siteAt_bounds g h
  have ht := g.fits
  rw [rawPos_nonneg g hv.1 (by have := hv.2; omega)]
  obtain ⟨⟨⟨x0, x1⟩, ⟨y0, y1⟩, ⟨z0, z1⟩⟩, hi⟩ := h
  have hl := g.l; have hw := g.w
  have d1 : i % c.length = p.x := by
    rw [hi, Int.add_mul_emod_self_left, Int.emod_eq_of_lt x0 x1]
  have d2 : i / c.length = p.y + c.width * p.z := by
    rw [hi, Int.add_mul_ediv_left _ _ hl.ne', Int.ediv_eq_zero_of_lt x0 x1, zero_add]
  have d3 : i / (c.length * c.width) = p.z := by
    rw [← Int.ediv_ediv_of_nonneg hl.le, d2, Int.add_mul_ediv_left _ _ hw.ne',
      Int.ediv_eq_zero_of_lt y0 y1, zero_add]
  have d4 : i / c.length % c.width = p.y := by
    rw [d2, Int.add_mul_emod_self_left, Int.emod_eq_of_lt y0 y1]
  rw [d1, d3, d4]

theorem checkUpper_eq {c : Cuboid} (g : Good c) (i : Int) :
    c.checkUpper i =
      if c.length * c.width * c.height ≤ i then .error .invalidArgument else .ok () := by
  unfold checkUpper
  rw [chk_ok g.lw_fits, ok_bind, chk_ok g.lwh_fits, ok_bind]

theorem getPosition_of_siteAt {c : Cuboid} (g : Good c) {i : Int} {p : Pos} (h : SiteAt c i p) :
    c.getPosition i = .ok p := by
  have hv := siteAt_bounds g h
  unfold getPosition
  rw [checkUpper_eq g, if_neg (by have := hv.2; omega), ok_bind, rawPos_of_siteAt g h]

theorem checkIndex_ok {c : Cuboid} (g : Good c) {i : Int} :
    c.checkIndex i = .ok () ↔ ValidIndex c i := by
  unfold checkIndex ValidIndex
  rw [g.t]
  split
  · simp; omega
  · split
    · simp; omega
    · simp; omega

theorem checkIndex_error {c : Cuboid} (g : Good c) {i : Int} (h : ¬ ValidIndex c i) :
    c.checkIndex i = .error .invalidArgument := by
  unfold checkIndex ValidIndex at *
  rw [g.t]
  split
  · rfl
  · split
    · rfl
    · exact absurd ⟨by omega, by omega⟩ h

/-! ## Wrapping -/

theorem lattice_image {b : Boundary} {dim x v : Int} (hd : 0 < dim) (h : lattice b dim x = .ok v) :
    AxisImage b dim v x := by
  cases b with
  | fixed => simp only [lattice, ok_inj] at h; exact h
  | periodic =>
    simp only [lattice, wrap] at h
    split at h
    · obtain ⟨rfl, -⟩ := chk_eq_ok.1 h
      exact ⟨-1, by ring⟩
    · next hx =>
      rw [modI, if_neg hd.ne'] at h
      obtain ⟨rfl, -⟩ := chk_eq_ok.1 h
      rw [Int.tmod_eq_emod_of_nonneg (by omega)]
      exact ⟨x / dim, by have := Int.emod_add_mul_ediv x dim; linarith [mul_comm dim (x / dim)]⟩

theorem axisImage_emod {dim v x : Int} (h0 : 0 ≤ v) (h1 : v < dim)
    (h : AxisImage .periodic dim v x) : v = x % dim := by
  obtain ⟨k, rfl⟩ := h
  rw [Int.add_mul_emod_self_right, Int.emod_eq_of_lt h0 h1]

theorem axisImage_unique {b : Boundary} {dim v v' x : Int} (h0 : 0 ≤ v) (h1 : v < dim) (h0' : 0 ≤ v')
    (h1' : v' < dim) (h : AxisImage b dim v x) (h' : AxisImage b dim v' x) : v = v' := by
  cases b with
  | fixed => exact Eq.trans (Eq.symm h) h'
  | periodic => rw [axisImage_emod h0 h1 h, axisImage_emod h0' h1' h']

theorem lattice_of_image {b : Boundary} {dim v x r : Int} (hd : 0 < dim) (h0 : 0 ≤ v) (h1 : v < dim)
    (h : AxisImage b dim v x) (hx : b = .periodic → -dim ≤ x) (hr : lattice b dim x = .ok r) : r = v := by
  cases b with
  | fixed => simp only [lattice, ok_inj] at hr; rw [← hr]; exact h
  | periodic =>
    have himg := lattice_image hd hr
    refine axisImage_unique (b := .periodic) ?_ ?_ h0 h1 himg h
    · simp only [lattice, wrap] at hr
      split at hr
      · obtain ⟨rfl, -⟩ := chk_eq_ok.1 hr; have := hx rfl; omega
      · rw [modI, if_neg hd.ne'] at hr
        obtain ⟨rfl, -⟩ := chk_eq_ok.1 hr
        rw [Int.tmod_eq_emod_of_nonneg (by omega)]; exact Int.emod_nonneg _ hd.ne'
    · simp only [lattice, wrap] at hr
      split at hr
      · obtain ⟨rfl, -⟩ := chk_eq_ok.1 hr; omega
      · rw [modI, if_neg hd.ne'] at hr
        obtain ⟨rfl, -⟩ := chk_eq_ok.1 hr
        rw [Int.tmod_eq_emod_of_nonneg (by omega)]; exact Int.emod_lt_of_pos _ hd

/-- The nearest image of `v` as seen from `x`: not farther than any other image, and never more than one
period below zero. -/
theorem nearest_image {b : Boundary} {dim x v x' : Int} (h0 : 0 ≤ x) (h1 : x < dim) (v0 : 0 ≤ v)
    (v1 : v < dim) (h : AxisImage b dim v x') :
    ∃ y, AxisImage b dim v y ∧ (y - x) ^ 2 ≤ (x' - x) ^ 2 ∧ (b = .periodic → -dim ≤ y) := by
  cases b with
  | fixed => exact ⟨x', h, le_refl _, by simp⟩
  | periodic =>
    obtain ⟨k, rfl⟩ := h
    have key : ∀ y : Int, -dim ≤ 2 * (y - x) → 2 * (y - x) ≤ dim → (∃ k', v + k * dim = y + k' * dim) →
        (y - x) ^ 2 ≤ (v + k * dim - x) ^ 2 := by
      rintro y ha hb ⟨k', hk'⟩
      rw [hk']
      rcases lt_trichotomy k' 0 with hk | rfl | hk
      · have : k' * dim ≤ -dim := by nlinarith
        rw [← neg_sq (y + k' * dim - x)]
        apply sq_le_sq' <;> omega
      · simp
      · have : dim ≤ k' * dim := by nlinarith
        apply sq_le_sq' <;> omega
    by_cases hc1 : dim < 2 * (v - x)
    · exact ⟨v - dim, ⟨-1, by ring⟩, key _ (by omega) (by omega) ⟨k + 1, by ring⟩, fun _ => by omega⟩
    · by_cases hc2 : 2 * (v - x) < -dim
      · exact ⟨v + dim, ⟨1, by ring⟩, key _ (by omega) (by omega) ⟨k - 1, by ring⟩, fun _ => by omega⟩
      · exact ⟨v, ⟨0, by ring⟩, key _ (by omega) (by omega) ⟨k, by ring⟩, fun _ => by omega⟩

end Cuboid
end Mythical

namespace Mythical
namespace Cuboid
open CuboidSpec

theorem wrap_of_image {dim v x : Int} (hd : 0 < dim) (h0 : 0 ≤ v) (h1 : v < dim) (hf : dim ≤ 2147483647)
    (h : AxisImage .periodic dim v x) (hx : -dim ≤ x) : wrap dim x = .ok v := by
  have hv := axisImage_emod h0 h1 h
  unfold wrap
  split
  · next hneg =>
    have : x + dim = v := by
      rw [hv, ← Int.add_emod_right, Int.emod_eq_of_lt (by omega) (by omega)]
    rw [this]; exact chk_ok (fitsInt_of (by omega) (by omega))
  · next hneg =>
    rw [modI, if_neg hd.ne', Int.tmod_eq_emod_of_nonneg (by omega), ← hv]
    exact chk_ok (fitsInt_of (by omega) (by omega))

theorem axis_of_image {b : Boundary} {dim v x : Int} (hd : 0 < dim) (h0 : 0 ≤ v) (h1 : v < dim)
    (hf : dim ≤ 2147483647) (h : AxisImage b dim v x) (hx : b = .periodic → -dim ≤ x) :
    axis b dim x = .ok v := by
  cases b with
  | periodic => exact wrap_of_image hd h0 h1 hf h (hx rfl)
  | fixed =>
    have hx : x = v := h
    subst hx
    unfold axis checkPos
    simp only
    rw [if_neg (by omega), if_neg (by omega)]
    rfl

theorem axisImage_refl (b : Boundary) (dim x : Int) : AxisImage b dim x x := by
  cases b with
  | periodic => exact ⟨0, by ring⟩
  | fixed => rfl

theorem axis_inBox {b : Boundary} {dim x : Int} (h0 : 0 ≤ x) (h1 : x < dim) (hf : dim ≤ 2147483647) :
    axis b dim x = .ok x :=
  axis_of_image (by omega) h0 h1 hf (axisImage_refl b dim x) (fun _ => by omega)

theorem siteAt_of_inBox {c : Cuboid} {p : Pos} (hp : InBox c p) :
    SiteAt c (p.x + c.length * (p.y + c.width * p.z)) p := ⟨hp, rfl⟩

/-- `getIndex` on coordinates that are images of an in-bounds position. -/
theorem getIndex_of_image {c : Cuboid} (g : Good c) {i : Int} {p p' : Pos} (hp : SiteAt c i p)
    (himg : Image c p p') (hx : c.xb = .periodic → -c.length ≤ p'.x)
    (hy : c.yb = .periodic → -c.width ≤ p'.y) (hz : c.zb = .periodic → -c.height ≤ p'.z) :
    c.getIndex p' = .ok i := by
  obtain ⟨⟨⟨x0, x1⟩, ⟨y0, y1⟩, ⟨z0, z1⟩⟩, hi⟩ := id hp
  obtain ⟨ix, iy, iz⟩ := himg
  unfold getIndex
  rw [axis_of_image g.l x0 x1 g.l_le ix hx, ok_bind, axis_of_image g.w y0 y1 g.w_le iy hy, ok_bind,
    axis_of_image g.h z0 z1 g.h_le iz hz, ok_bind]
  exact rawIndex_ok g hp

theorem getIndex_of_siteAt {c : Cuboid} (g : Good c) {i : Int} {p : Pos} (hp : SiteAt c i p) :
    c.getIndex p = .ok i := by
  obtain ⟨⟨⟨x0, x1⟩, ⟨y0, y1⟩, ⟨z0, z1⟩⟩, hi⟩ := id hp
  have := g.l; have := g.w; have := g.h
  exact getIndex_of_image g hp ⟨axisImage_refl _ _ _, axisImage_refl _ _ _, axisImage_refl _ _ _⟩
    (fun _ => by omega) (fun _ => by omega) (fun _ => by omega)

theorem rawPos_total {c : Cuboid} (g : Good c) {i : Int} (hi : FitsInt i) :
    c.rawPos i = .ok ⟨(i.tmod (c.length * c.width)).tmod c.length,
      (i.tmod (c.length * c.width)).tdiv c.length, i.tdiv (c.length * c.width)⟩ ∧
    FitsInt (i.tdiv (c.length * c.width)) ∧ FitsInt (c.length * c.width * i.tdiv (c.length * c.width)) ∧
    FitsInt (i.tmod (c.length * c.width)) ∧ FitsInt ((i.tmod (c.length * c.width)).tdiv c.length) ∧
    FitsInt ((i.tmod (c.length * c.width)).tmod c.length) := by
  have hl := g.l; have hlw := g.lw_pos
  rcases le_or_gt 0 i with h0 | h0
  · rw [rawPos_nonneg g h0 hi.2]
    have e1 : i.tdiv (c.length * c.width) = i / (c.length * c.width) := Int.tdiv_eq_ediv_of_nonneg h0
    have e2 : i.tmod (c.length * c.width) = i % (c.length * c.width) := Int.tmod_eq_emod_of_nonneg h0
    have r0 : 0 ≤ i % (c.length * c.width) := Int.emod_nonneg _ hlw.ne'
    have q0 : 0 ≤ i / (c.length * c.width) := Int.ediv_nonneg h0 hlw.le
    have q1 : i / (c.length * c.width) ≤ i := Int.ediv_le_self _ h0
    have r1 : i % (c.length * c.width) + c.length * c.width * (i / (c.length * c.width)) = i :=
      Int.emod_add_mul_ediv _ _
    have p0 : 0 ≤ c.length * c.width * (i / (c.length * c.width)) := mul_nonneg hlw.le q0
    have s0 : 0 ≤ i % (c.length * c.width) / c.length := Int.ediv_nonneg r0 hl.le
    have s1 : i % (c.length * c.width) / c.length ≤ i % (c.length * c.width) := Int.ediv_le_self _ r0
    have t0 : 0 ≤ i % (c.length * c.width) % c.length := Int.emod_nonneg _ hl.ne'
    have t1 : i % (c.length * c.width) % c.length < c.length := Int.emod_lt_of_pos _ hl
    have hl' := g.l_le
    have f1 : i % (c.length * c.width) % c.length = i % c.length :=
      Int.emod_emod_of_dvd _ (Dvd.intro _ rfl)
    have f2 : i % (c.length * c.width) / c.length = i / c.length % c.width := by
      have hz : i / (c.length * c.width) = i / c.length / c.width :=
        (Int.ediv_ediv_of_nonneg hl.le).symm
      have : i % (c.length * c.width) =
          i % c.length + c.length * (i / c.length % c.width) := by
        have a := Int.emod_add_mul_ediv i c.length
        have b := Int.emod_add_mul_ediv (i / c.length) c.width
        rw [← hz] at b
        nlinarith
      rw [this, Int.add_mul_ediv_left _ _ hl.ne',
        Int.ediv_eq_zero_of_lt (Int.emod_nonneg _ hl.ne') (Int.emod_lt_of_pos _ hl), zero_add]
    have u := hi.2
    rw [e1, e2, Int.tdiv_eq_ediv_of_nonneg r0, Int.tmod_eq_emod_of_nonneg r0]
    rw [f1] at t0 t1
    rw [f2] at s0 s1
    rw [f1, f2]
    simp only [INT_MAX] at u
    exact ⟨rfl, fitsInt_of (by omega) (by omega), fitsInt_of (by omega) (by omega),
      fitsInt_of (by omega) (by omega), fitsInt_of (by omega) (by omega), fitsInt_of (by omega) (by omega)⟩
  · obtain ⟨m, rfl⟩ : ∃ m, i = -m := ⟨-i, by ring⟩
    have hm : 0 ≤ m := by omega
    have u := hi.1
    simp only [INT_MIN] at u
    have e1 : (-m).tdiv (c.length * c.width) = -(m / (c.length * c.width)) := by
      rw [Int.neg_tdiv, Int.tdiv_eq_ediv_of_nonneg hm]
    have e2 : (-m).tmod (c.length * c.width) = -(m % (c.length * c.width)) := by
      rw [Int.neg_tmod, Int.tmod_eq_emod_of_nonneg hm]
    have r0 : 0 ≤ m % (c.length * c.width) := Int.emod_nonneg _ hlw.ne'
    have q0 : 0 ≤ m / (c.length * c.width) := Int.ediv_nonneg hm hlw.le
    have q1 : m / (c.length * c.width) ≤ m := Int.ediv_le_self _ hm
    have r1 : m % (c.length * c.width) + c.length * c.width * (m / (c.length * c.width)) = m :=
      Int.emod_add_mul_ediv _ _
    have p0 : 0 ≤ c.length * c.width * (m / (c.length * c.width)) := mul_nonneg hlw.le q0
    have p1 : c.length * c.width * -(m / (c.length * c.width)) =
      -(c.length * c.width * (m / (c.length * c.width))) := by ring
    have s0 : 0 ≤ m % (c.length * c.width) / c.length := Int.ediv_nonneg r0 hl.le
    have s1 : m % (c.length * c.width) / c.length ≤ m % (c.length * c.width) := Int.ediv_le_self _ r0
    have t0 : 0 ≤ m % (c.length * c.width) % c.length := Int.emod_nonneg _ hl.ne'
    have t1 : m % (c.length * c.width) % c.length < c.length := Int.emod_lt_of_pos _ hl
    have r2 := Int.emod_lt_of_pos m hlw
    have hl' := g.l_le
    have hlw' := g.lw_le
    have e3 : -m - c.length * c.width * -(m / (c.length * c.width)) = -(m % (c.length * c.width)) := by
      rw [p1]; omega
    have A1 : FitsInt (-(m / (c.length * c.width))) := fitsInt_of (by omega) (by omega)
    have A2 : FitsInt (c.length * c.width * -(m / (c.length * c.width))) := by
      rw [p1]; exact fitsInt_of (by omega) (by omega)
    have A3 : FitsInt (-(m % (c.length * c.width))) := fitsInt_of (by omega) (by omega)
    have A4 : FitsInt (-(m % (c.length * c.width) / c.length)) := fitsInt_of (by omega) (by omega)
    have A5 : FitsInt (-(m % (c.length * c.width) % c.length)) := fitsInt_of (by omega) (by omega)
    rw [e1, e2, Int.neg_tdiv, Int.neg_tmod, Int.tdiv_eq_ediv_of_nonneg r0, Int.tmod_eq_emod_of_nonneg r0]
    refine ⟨?_, A1, A2, A3, A4, A5⟩
    unfold rawPos divI modI
    rw [chk_ok g.lw_fits, ok_bind, if_neg hlw.ne', e1, chk_ok A1, ok_bind, chk_ok A2, ok_bind, e3,
      chk_ok A3, ok_bind, if_neg hl.ne', if_neg hl.ne', Int.neg_tdiv, Int.neg_tmod,
      Int.tdiv_eq_ediv_of_nonneg r0, Int.tmod_eq_emod_of_nonneg r0, chk_ok A4, ok_bind, chk_ok A5, ok_bind]

theorem sub_mul_tdiv (i b : Int) : i - b * i.tdiv b = i.tmod b := by
  have := Int.tmod_add_mul_tdiv i b; omega

end Cuboid
end Mythical
