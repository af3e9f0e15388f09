import Verif.Spec.Correlated
import Verif.Lemmas.Box
import Verif.Lemmas.BoxRates

/-! # Lemmas on the correlated energies -/

namespace Mythical.Correlated
open Cuboid BoxSpec CorrelatedSpec

theorem around_eq (x : Int) : around x = (List.range 9).map fun k : Nat => ((x - 5 + k : Int) : ℝ) + 1 / 2 := by
  unfold around loop reach radius
  have : ⌈(x : ℝ) + 3.0 * 1.5 - ((x : ℝ) - 3.0 * 1.5)⌉.toNat = 9 := by
    have : (x : ℝ) + 3.0 * 1.5 - ((x : ℝ) - 3.0 * 1.5) = ((9 : Int) : ℝ) := by norm_num
    rw [this, Int.ceil_intCast]; rfl
  rw [this]
  refine List.map_congr_left fun k _ => ?_
  push_cast
  norm_num
  ring

/-- The values of one loop, cut off to whole numbers. -/
def cells (x : Int) : List Int := (List.range 9).map fun k : Nat => x - 5 + k

theorem mem_cells {x n : Int} : n ∈ cells x ↔ -5 ≤ n - x ∧ n - x ≤ 3 := by
  unfold cells
  simp only [List.mem_map, List.mem_range]
  constructor
  · rintro ⟨k, hk, rfl⟩; omega
  · intro h; exact ⟨(n - x + 5).toNat, by omega, by omega⟩

theorem nodup_cells (x : Int) : (cells x).Nodup := List.Nodup.map (fun a b h => by simpa using h) List.nodup_range

/-- The cells around a seed. -/
def block (p : Pos) : List Pos := (cells p.x).flatMap fun x => (cells p.y).flatMap fun y => (cells p.z).map fun z => ⟨x, y, z⟩

theorem mem_block {p q : Pos} : q ∈ block p ↔ Near p q := by
  unfold block Near
  simp only [List.mem_flatMap, List.mem_map]
  constructor
  · rintro ⟨x, hx, y, hy, z, hz, rfl⟩
    exact ⟨mem_cells.1 hx, mem_cells.1 hy, mem_cells.1 hz⟩
  · rintro ⟨hx, hy, hz⟩
    exact ⟨_, mem_cells.2 hx, _, mem_cells.2 hy, _, mem_cells.2 hz, rfl⟩

theorem nodup_block (p : Pos) : (block p).Nodup := by
  unfold block
  rw [List.nodup_flatMap]
  refine ⟨fun x _ => ?_, ?_⟩
  · rw [List.nodup_flatMap]
    refine ⟨fun y _ => List.Nodup.map (fun a b h => by simpa using h) (nodup_cells _), ?_⟩
    refine (nodup_cells p.y).imp fun {a b} hab => ?_
    simp only [Function.onFun, List.disjoint_left, List.mem_map]
    rintro q ⟨_, _, rfl⟩ ⟨_, _, h⟩
    simp only [Pos.mk.injEq] at h
    exact hab h.2.1.symm
  · refine (nodup_cells p.x).imp fun {a b} hab => ?_
    simp only [Function.onFun, List.disjoint_left, List.mem_flatMap, List.mem_map]
    rintro q ⟨_, _, _, _, rfl⟩ ⟨_, _, _, _, h⟩
    simp only [Pos.mk.injEq] at h
    exact hab h.1.symm

/-- The middle of a cell. -/
noncomputable def mid (q : Pos) : ℝ × ℝ × ℝ := ((q.x : ℝ) + 1 / 2, (q.y : ℝ) + 1 / 2, (q.z : ℝ) + 1 / 2)

theorem around_cells (x : Int) : around x = (cells x).map fun n : Int => (n : ℝ) + 1 / 2 := by
  rw [around_eq, cells, List.map_map]
  rfl

theorem grid_eq (p : Pos) : grid p = (block p).map mid := by
  unfold grid block
  rw [around_cells, around_cells, around_cells]
  simp only [List.map_flatMap, List.flatMap_map, List.map_map]
  rfl

theorem inside_iff {d n : Int} : Inside d ((n : ℝ) + 1 / 2) ↔ 0 ≤ n ∧ n < d := by
  unfold Inside
  constructor
  · rintro ⟨h1, h2⟩
    constructor
    · by_contra h
      have : (n : ℝ) ≤ ((-1 : Int) : ℝ) := by exact_mod_cast (by omega : n ≤ -1)
      push_cast at this
      linarith
    · have : (n : ℝ) < (d : ℝ) := by linarith
      exact_mod_cast this
  · rintro ⟨h1, h2⟩
    have h1' : (0 : ℝ) ≤ (n : ℝ) := by exact_mod_cast h1
    have h2' : (n : ℝ) + 1 ≤ (d : ℝ) := by exact_mod_cast h2
    constructor <;> linarith

theorem trunc_half {n : Int} (h0 : 0 ≤ n) (h1 : n ≤ INT_MAX) : trunc ((n : ℝ) + 1 / 2) = .ok n := by
  have h0' : (0 : ℝ) ≤ (n : ℝ) := by exact_mod_cast h0
  have h0'' : (0 : ℝ) ≤ (n : ℝ) + 1 / 2 := by linarith
  unfold trunc
  have : ⌊(n : ℝ) + 1 / 2⌋ = n := by
    rw [Int.floor_intCast_add]
    have : ⌊(1 / 2 : ℝ)⌋ = 0 := by rw [Int.floor_eq_zero_iff]; norm_num
    omega
  simp only [if_pos h0'', this]
  rw [if_pos ⟨by unfold INT_MIN; omega, h1⟩]

theorem energyAt_given {d : Int} {E : List ℝ} {f : Pos → ℝ} (h0 : 0 < d) (h1 : d ≤ 1290) (hE : Given d E f) {i : Int} {p : Pos} (h : At d i p) :
    ToF.energyAt E i = .ok (f p) := by
  unfold ToF.energyAt
  rw [if_neg (not_lt.2 (Box.at_bounds h0 h1 h).1), hE.2 i p h]

theorem given_set {d : Int} {E : List ℝ} {f : Pos → ℝ} (h0 : 0 < d) (h1 : d ≤ 1290) (hE : Given d E f) {i : Int} {p : Pos} (h : At d i p)
    (e : ℝ) : Given d (E.set i.toNat e) (Function.update f p e) := by
  refine ⟨by rw [List.length_set]; exact hE.1, fun j q hq => ?_⟩
  have bi := Box.at_bounds h0 h1 h
  have bj := Box.at_bounds h0 h1 hq
  by_cases hpq : q = p
  · subst hpq
    obtain rfl : j = i := by rw [hq.2, h.2]
    rw [Function.update_self, List.getElem?_set_self]
    have := hE.1
    have e3 : d ^ 3 = d * d * d := by ring
    omega
  · have hij : j ≠ i := fun e => hpq (Box.at_unique h0 h1 (e ▸ hq) h)
    rw [Function.update_of_ne hpq, List.getElem?_set_ne (by omega)]
    exact hE.2 j q hq

theorem fade_ok {d seed : Int} {p q : Pos} {E : List ℝ} {f : Pos → ℝ} (h0 : 0 < d) (h1 : d ≤ 1290) (hE : Given d E f)
    (hp : At d seed p) : ∃ E', fade d seed p E (mid q) = .ok E' ∧
      Given d E' (if InCube d q then Function.update f q (f q + (f p - f q) * Real.exp (-offset p q / 3)) else f) := by
  unfold fade
  by_cases hq : InCube d q
  · have hi : Inside d (mid q).1 ∧ Inside d (mid q).2.1 ∧ Inside d (mid q).2.2 :=
      ⟨inside_iff.2 hq.1, inside_iff.2 hq.2.1, inside_iff.2 hq.2.2⟩
    have hM : d ≤ INT_MAX := by unfold INT_MAX; omega
    obtain ⟨hx, hy, hz⟩ := hq
    rw [if_pos hi, if_pos ⟨hx, hy, hz⟩]
    have e1 : trunc (mid q).1 = .ok q.x := trunc_half hx.1 (by omega)
    have e2 : trunc (mid q).2.1 = .ok q.y := trunc_half hy.1 (by omega)
    have e3 : trunc (mid q).2.2 = .ok q.z := trunc_half hz.1 (by omega)
    have hat := Box.at_of_inCube (d := d) (p := q) ⟨hx, hy, hz⟩
    have hb := Box.at_bounds h0 h1 hat
    simp only
    rw [e1, ok_bind, e2, ok_bind, e3, ok_bind, Box.to1D_ok h0 h1 hat, ok_bind, Box.total_ok h0 h1, ok_bind, if_pos hb.2,
      energyAt_given h0 h1 hE hp, ok_bind, energyAt_given h0 h1 hE hat, ok_bind]
    refine ⟨_, rfl, ?_⟩
    have er : Real.sqrt (((p.x : ℝ) - (mid q).1) ^ 2 + ((p.y : ℝ) - (mid q).2.1) ^ 2 + ((p.z : ℝ) - (mid q).2.2) ^ 2) = offset p q := by
      unfold offset mid
      congr 1
      ring
    have e3' : (radius : ℝ) = 3 := by unfold radius; norm_num
    rw [er, e3']
    exact given_set h0 h1 hE hat _
  · rw [if_neg, if_neg hq]
    · exact ⟨E, rfl, hE⟩
    · rintro ⟨hx, hy, hz⟩
      exact hq ⟨inside_iff.1 hx, inside_iff.1 hy, inside_iff.1 hz⟩

theorem given_congr {d : Int} {E : List ℝ} {f g : Pos → ℝ} (hE : Given d E f) (h : ∀ q, InCube d q → f q = g q) : Given d E g :=
  ⟨hE.1, fun i p hp => by rw [hE.2 i p hp, h p hp.1]⟩

theorem fades_ok {d seed : Int} {p : Pos} (h0 : 0 < d) (h1 : d ≤ 1290) (hp : At d seed p) (l : List Pos) :
    ∀ {E : List ℝ} {f : Pos → ℝ}, Given d E f → f p = 0 → l.Nodup → ∃ E', (l.map mid).foldlM (fade d seed p) E = .ok E' ∧
      Given d E' fun q => if q ∈ l then f q * (1 - Real.exp (-offset p q / 3)) else f q := by
  induction l with
  | nil => intro E f hE _ _; exact ⟨E, rfl, by simpa using hE⟩
  | cons a l ih =>
    intro E f hE hz hn
    obtain ⟨E1, e1, g1⟩ := fade_ok (q := a) h0 h1 hE hp
    rw [List.nodup_cons] at hn
    obtain ⟨E2, e2, g2⟩ := ih g1 (by
      split
      · by_cases hpa : p = a
        · subst hpa; rw [Function.update_self, hz]; ring
        · rw [Function.update_of_ne hpa, hz]
      · exact hz) hn.2
    refine ⟨E2, ?_, given_congr g2 fun q hq => ?_⟩
    · rw [List.map_cons, List.foldlM_cons, e1]
      exact e2
    · by_cases hqa : q = a
      · subst hqa
        rw [if_neg hn.1, if_pos hq, if_pos (by simp), Function.update_self, hz]
        ring
      · have : (if InCube d a then Function.update f a (f a + (f p - f a) * Real.exp (-offset p a / 3)) else f) q = f q := by
          split
          · exact Function.update_of_ne hqa _ _
          · rfl
        rw [this]
        simp [hqa]

theorem sow_ok {d seed : Int} {p : Pos} {E : List ℝ} {f : Pos → ℝ} (h0 : 0 < d) (h1 : d ≤ 1290) (hE : Given d E f) (hp : At d seed p) :
    ∃ E', sow d E seed = .ok E' ∧ Given d E' fun q => f q * kept p q := by
  have g0 := given_set h0 h1 hE hp 0
  obtain ⟨E', e, g⟩ := fades_ok h0 h1 hp (block p) g0 (Function.update_self ..) (nodup_block p)
  refine ⟨E', ?_, given_congr g fun q _ => ?_⟩
  · unfold sow
    rw [energyAt_given h0 h1 hE hp, ok_bind, Box.to3D_ok h0 h1 hp, ok_bind, grid_eq]
    exact e
  · unfold kept
    simp only [mem_block]
    by_cases hq : q = p
    · subst hq; simp
    · rw [Function.update_of_ne hq, if_neg hq]
      split <;> ring

theorem sows_ok {d : Int} (h0 : 0 < d) (h1 : d ≤ 1290) (seeds : List Int) : ∀ {ps : List Pos} {E : List ℝ} {f : Pos → ℝ}, Given d E f →
    List.Forall₂ (At d) seeds ps →
    ∃ E', seeds.foldlM (sow d) E = .ok E' ∧ Given d E' fun q => f q * (ps.map fun p => kept p q).prod := by
  induction seeds with
  | nil => intro ps E f hE h; cases h; exact ⟨E, rfl, by simpa using hE⟩
  | cons s seeds ih =>
    intro ps E f hE h
    cases h with
    | @cons _ p _ ps hp hps =>
      obtain ⟨E1, e1, g1⟩ := sow_ok h0 h1 hE hp
      obtain ⟨E2, e2, g2⟩ := ih g1 hps
      refine ⟨E2, by rw [List.foldlM_cons, e1]; exact e2, given_congr g2 fun q _ => ?_⟩
      rw [List.map_cons, List.prod_cons]
      ring

theorem numSeeds_ok {d : Int} (h0 : 0 < d) (h1 : d ≤ 1290) : numSeeds d = .ok (d ^ 3 / 1000) := by
  have hb := Box.cube_le h0 h1
  have hp : 0 < d * d * d := by positivity
  unfold numSeeds
  rw [Box.total_ok h0 h1, ok_bind]
  unfold divI
  rw [if_neg (by decide), Int.tdiv_eq_ediv_of_nonneg hp.le]
  have e : d ^ 3 = d * d * d := by ring
  rw [e]
  exact chk_ok (fitsInt_of (by omega) (by omega))

theorem correlate_ok {d : Int} (h0 : 0 < d) (h1 : d ≤ 1290) {draws : List Int} {E : List ℝ} {f : Pos → ℝ} (hE : Given d E f)
    (hn : d ^ 3 / 1000 ≤ draws.length) {ps : List Pos} (hps : List.Forall₂ (At d) (draws.take (d ^ 3 / 1000).toNat) ps) :
    ∃ E', correlate d draws E = .ok E' ∧ Given d E' fun q => f q * (ps.map fun p => kept p q).prod := by
  obtain ⟨E', e, g⟩ := sows_ok h0 h1 _ hE hps
  have hb := Box.cube_le h0 h1
  have hp : 0 < d * d * d := by positivity
  refine ⟨E', ?_, g⟩
  unfold correlate
  rw [numSeeds_ok h0 h1, ok_bind, Box.total_ok h0 h1, ok_bind]
  have hd : mkDistribution (d * d * d) = .ok () := by
    unfold mkDistribution
    rw [chk_ok (fitsInt_of (by omega) (by omega)), ok_bind, if_pos (by omega)]
  rw [hd, ok_bind, if_neg (by omega)]
  exact e

end Mythical.Correlated
