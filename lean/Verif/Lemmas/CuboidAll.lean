import Verif.Lemmas.CuboidNeighbors
import Verif.Lemmas.IMap

/-! # Helper lemmas for the whole-lattice search -/

namespace Mythical
namespace Cuboid
open CuboidSpec

theorem get2_set2 (m : IMap (IMap ℝ)) (a b : Int) (d : ℝ) (a' b' : Int) :
    get2 (set2 m a b d) a' b' = if a' = a ∧ b' = b then some d else get2 m a' b' := by
  unfold get2 set2
  rw [IMap.get?_set]
  by_cases ha : a' = a
  · subst ha
    simp only [if_true, Option.bind_some, IMap.get?_set, true_and]
    by_cases hb : b' = b
    · simp [hb]
    · simp only [hb, Ne.symm hb, if_false]
      cases m.get? a' <;> simp
  · simp [ha, Ne.symm ha]

/-- The loop that fills the map. -/
def fill (ws : List (Int × Int × ℝ)) (m : IMap (IMap ℝ)) : IMap (IMap ℝ) :=
  ws.foldl (fun m w => set2 (set2 m w.2.1 w.1 w.2.2) w.1 w.2.1 w.2.2) m

theorem fill_cons (w : Int × Int × ℝ) (ws : List (Int × Int × ℝ)) (m : IMap (IMap ℝ)) :
    fill (w :: ws) m = fill ws (set2 (set2 m w.2.1 w.1 w.2.2) w.1 w.2.1 w.2.2) := rfl

theorem fill_symm (ws : List (Int × Int × ℝ)) : ∀ (m : IMap (IMap ℝ)),
    (∀ a b, get2 m a b = get2 m b a) → ∀ a b, get2 (fill ws m) a b = get2 (fill ws m) b a := by
  induction ws with
  | nil => intro m h; exact h
  | cons w ws ih =>
    intro m h
    rw [fill_cons]
    apply ih
    intro a b
    simp only [get2_set2]
    by_cases h1 : a = w.1 ∧ b = w.2.1
    · obtain ⟨rfl, rfl⟩ := h1; simp
    · by_cases h2 : a = w.2.1 ∧ b = w.1
      · obtain ⟨rfl, rfl⟩ := h2; simp
      · have h1' : ¬ (b = w.2.1 ∧ a = w.1) := fun h => h1 ⟨h.2, h.1⟩
        have h2' : ¬ (b = w.1 ∧ a = w.2.1) := fun h => h2 ⟨h.2, h.1⟩
        simp [h1, h2, h1', h2', h a b]

theorem fill_sound (ws : List (Int × Int × ℝ)) : ∀ (m : IMap (IMap ℝ)) (a b : Int) (d : ℝ),
    get2 (fill ws m) a b = some d → get2 m a b = some d ∨ (a, b, d) ∈ ws ∨ (b, a, d) ∈ ws := by
  induction ws with
  | nil => intro m a b d h; exact .inl h
  | cons w ws ih =>
    intro m a b d h
    rw [fill_cons] at h
    rcases ih _ _ _ _ h with h | h | h
    · simp only [get2_set2] at h
      split at h
      · next e => rw [e.1, e.2, ← Option.some.inj h]; exact .inr (.inl (by simp))
      · split at h
        · next e => rw [e.1, e.2, ← Option.some.inj h]; exact .inr (.inr (by simp))
        · exact .inl h
    · exact .inr (.inl (by simp [h]))
    · exact .inr (.inr (by simp [h]))

theorem fill_keeps (ws : List (Int × Int × ℝ)) : ∀ (m : IMap (IMap ℝ)) (a b : Int),
    (get2 m a b).isSome → (get2 (fill ws m) a b).isSome := by
  induction ws with
  | nil => intro m a b h; exact h
  | cons w ws ih =>
    intro m a b h
    rw [fill_cons]
    apply ih
    simp only [get2_set2]
    split
    · rfl
    · split
      · rfl
      · exact h

theorem fill_complete (ws : List (Int × Int × ℝ)) : ∀ (m : IMap (IMap ℝ)) (a b : Int) (d : ℝ),
    (a, b, d) ∈ ws → (get2 (fill ws m) a b).isSome ∧ (get2 (fill ws m) b a).isSome := by
  induction ws with
  | nil => intro m a b d h; cases h
  | cons w ws ih =>
    intro m a b d h
    rw [fill_cons]
    rcases List.mem_cons.1 h with rfl | h
    · refine ⟨fill_keeps _ _ _ _ ?_, fill_keeps _ _ _ _ ?_⟩
      · rw [get2_set2, if_pos ⟨rfl, rfl⟩]; rfl
      · rw [get2_set2]
        split
        · rfl
        · rw [get2_set2, if_pos ⟨rfl, rfl⟩]; rfl
    · exact ih _ a b d h

/-- `q'` lies in the octant below `p`. -/
def Below (p q' : Pos) : Prop := q'.x ≤ p.x ∧ q'.y ≤ p.y ∧ q'.z ≤ p.z

theorem latticeWrites_mem {c : Cuboid} (g : Good c) (hsp : 0 < c.spacing) {i : Int} {p : Pos}
    (hp : SiteAt c i p) {cutoff : ℝ} {s : List (Int × Int × ℝ)}
    (h : c.latticeWrites ⌊cutoff / c.spacing⌋ cutoff i = .ok s) (w : Int × Int × ℝ) :
    w ∈ s ↔ w.1 = i ∧ w.2.1 ≠ i ∧ ∃ q q', SiteAt c w.2.1 q ∧ Image c q q' ∧ Low c q' ∧ Below p q' ∧
      w.2.2 = euclid c p q' ∧ w.2.2 ≤ cutoff := by
  unfold latticeWrites at h
  rw [rawPos_of_siteAt g hp, ok_bind] at h
  simp only [bind_eq_ok, chk_eq_ok] at h
  obtain ⟨_, ⟨rfl, -⟩, _, ⟨rfl, -⟩, _, ⟨rfl, -⟩, xs, hxs, h⟩ := h
  rw [mem_scan' g (fun a b => (i, a, b)) h]
  constructor
  · rintro ⟨j, d, rfl, hji, q, q', h1, h2, h3, h4, h5, h6, h7, h8⟩
    exact ⟨rfl, hji, q, q', h1, h2, h3, ⟨((loopRange_eq_ok hxs).1 _ |>.1 h4).2, h5.2, h6.2⟩, h7, h8⟩
  · rintro ⟨rfl, hji, q, q', h1, h2, h3, ⟨b1, b2, b3⟩, h7, h8⟩
    obtain ⟨e1, e2, e3⟩ := component_le hsp (h7 ▸ h8)
    rw [abs_le] at e1 e2 e3
    exact ⟨w.2.1, w.2.2, rfl, hji, q, q', h1, h2, h3, ((loopRange_eq_ok hxs).1 _).2 ⟨by omega, b1⟩,
      ⟨by omega, b2⟩, ⟨by omega, b3⟩, h7, h8⟩

theorem getAll_ok {c : Cuboid} {cutoff : ℝ} {m : IMap (IMap ℝ)}
    (h : c.getAllNeighborDistances cutoff = .ok m) :
    ∃ ws is, m = fill ws [] ∧ (∀ i, i ∈ is ↔ ValidIndex c i) ∧
      forEach (c.latticeWrites ⌊cutoff / c.spacing⌋ cutoff) is = .ok ws := by
  unfold getAllNeighborDistances at h
  simp only [bind_eq_ok, chk_eq_ok, ok_inj] at h
  obtain ⟨n, hn, _, ⟨rfl, -⟩, _, ⟨rfl, -⟩, is, his, ws, hws, rfl⟩ := h
  obtain ⟨-, rfl, -⟩ := numSites_eq_ok hn
  refine ⟨ws, is, rfl, fun i => ?_, hws⟩
  rw [(loopRange_eq_ok his).1]
  unfold ValidIndex; omega

theorem getAll_mem {c : Cuboid} (g : Good c) (hsp : 0 < c.spacing) {cutoff : ℝ} {ws is}
    (his : ∀ i, i ∈ is ↔ ValidIndex c i)
    (h : forEach (c.latticeWrites ⌊cutoff / c.spacing⌋ cutoff) is = .ok ws) (i j : Int) (d : ℝ) :
    (i, j, d) ∈ ws ↔ j ≠ i ∧ ∃ p q q', SiteAt c i p ∧ SiteAt c j q ∧ Image c q q' ∧ Low c q' ∧ Below p q' ∧
      d = euclid c p q' ∧ d ≤ cutoff := by
  rw [mem_forEach h]
  constructor
  · rintro ⟨i', hi', s, hs, hm⟩
    obtain ⟨p, hp⟩ := siteAt_exists g ((his _).1 hi')
    obtain ⟨rfl, h2, q, q', h3⟩ := (latticeWrites_mem g hsp hp hs _).1 hm
    exact ⟨h2, p, q, q', hp, h3⟩
  · rintro ⟨hji, p, q, q', hp, h3⟩
    have hi := (his _).2 (siteAt_bounds g hp)
    obtain ⟨s, hs⟩ := forEach_isOk h _ hi
    exact ⟨i, hi, s, hs, (latticeWrites_mem g hsp hp hs _).2 ⟨rfl, hji, q, q', h3⟩⟩

/-- Nearest image from below. -/
theorem below_low {c : Cuboid} (g : Good c) (hsp : 0 ≤ c.spacing) {p q q' : Pos} (hp : InBox c p)
    (h : Image c q q') (hb : Below p q') :
    ∃ q'', Image c q q'' ∧ Low c q'' ∧ Below p q'' ∧ euclid c p q'' ≤ euclid c p q' := by
  have key : ∀ (b : Boundary) (dim x v x' : Int), 0 < dim → 0 ≤ x → AxisImage b dim v x' → x' ≤ x →
      ∃ y, AxisImage b dim v y ∧ (b = .periodic → -dim ≤ y) ∧ y ≤ x ∧ x' ≤ y := by
    intro b dim x v x' hd hx h hle
    cases b with
    | fixed => exact ⟨x', h, by simp, hle, le_refl _⟩
    | periodic =>
      obtain ⟨k, rfl⟩ := h
      have m0 := Int.emod_nonneg (x - v) hd.ne'
      have m1 := Int.emod_lt_of_pos (x - v) hd
      have e := Int.emod_add_mul_ediv (x - v) dim
      refine ⟨v + (x - v) / dim * dim, ⟨_, rfl⟩, fun _ => ?_, ?_, ?_⟩
      · rw [mul_comm]; omega
      · rw [mul_comm]; omega
      · have : k ≤ (x - v) / dim := (Int.le_ediv_iff_mul_le hd).2 (by omega)
        have := mul_le_mul_of_nonneg_right this hd.le
        omega
  obtain ⟨x, ax, lx, bx, cx⟩ := key _ _ _ _ _ g.l hp.1.1 h.1 hb.1
  obtain ⟨y, ay, ly, by', cy⟩ := key _ _ _ _ _ g.w hp.2.1.1 h.2.1 hb.2.1
  obtain ⟨z, az, lz, bz, cz⟩ := key _ _ _ _ _ g.h hp.2.2.1 h.2.2 hb.2.2
  refine ⟨⟨x, y, z⟩, ⟨ax, ay, az⟩, ⟨lx, ly, lz⟩, ⟨bx, by', bz⟩, ?_⟩
  unfold euclid
  apply mul_le_mul_of_nonneg_left _ hsp
  apply Real.sqrt_le_sqrt
  have cast : ∀ a b e : Int, a ≤ b → e ≤ a → ((b : ℝ) - a) ^ 2 ≤ ((b : ℝ) - e) ^ 2 := by
    intro a b e h1 h2
    have h1 : (a : ℝ) ≤ b := by exact_mod_cast h1
    have h2 : (e : ℝ) ≤ a := by exact_mod_cast h2
    nlinarith
  have := cast _ _ _ bx cx
  have := cast _ _ _ by' cy
  have := cast _ _ _ bz cz
  simp only
  linarith

end Cuboid
end Mythical
