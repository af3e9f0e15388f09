import Verif.Lemmas.Box
import Verif.Lemmas.ToF

/-! # The rates of the box: helper lemmas -/

namespace Mythical.Box
open Cuboid CuboidSpec BoxSpec

/-- The rate from `i` to `j` over a distance of `dx` along x. -/
noncomputable def value (E : Int → ℝ) (field : ℝ) (dx i j : Int) : ℝ :=
  coef * Real.exp (-(reorganization - (E j - E i + dx * field)) ^ 2 / (4 * reorganization * kBT))

theorem energyAt_ok {d : Int} {energies : List ℝ} {E : Int → ℝ} (hE : Energies d energies E) {i : Int} (h0 : 0 ≤ i)
    (h1 : i < d * d * d) : ToF.energyAt energies i = .ok (E i) := by
  unfold ToF.energyAt
  rw [if_neg (by omega), hE i h0 (by rw [pow_succ, pow_two]; exact h1)]

theorem rate_ok {d : Int} {energies : List ℝ} {E : Int → ℝ} (hE : Energies d energies E) {i j : Int} (i0 : 0 ≤ i)
    (i1 : i < d * d * d) (j0 : 0 ≤ j) (j1 : j < d * d * d) (field : ℝ) (dx : Int) :
    rate energies field dx i j = .ok (value E field dx i j) := by
  unfold rate value
  rw [energyAt_ok hE j0 j1, ok_bind, energyAt_ok hE i0 i1, ok_bind]
  simp only
  congr 6
  ring

/-- The step from `p` to `q` that the loops provide. -/
def Step (d : Int) (p q : Pos) : Prop := InCube d p ∧ InCube d q ∧ Adjacent p q ∧ ¬ EntersFace p q

/-- The inner loops for one site. -/
theorem setRates_ok {d : Int} (h0 : 0 < d) (h1 : d ≤ 1290) {energies : List ℝ} {E : Int → ℝ} (hE : Energies d energies E)
    (field : ℝ) {i : Int} {p : Pos} (hp : At d i p) :
    ∀ (ns : List (Int × Pos)), (∀ nq ∈ ns, At d nq.1 nq.2) → ∀ R : IMap (IMap ℝ), ToF.Neat R →
      ∃ R', ns.foldlM (setRate energies field p.x i) R = .ok R' ∧ ToF.Neat R' ∧
        (∀ a b, (∀ q, (b, q) ∈ ns → a ≠ i) → get2 R' a b = get2 R a b) ∧
        ∀ b q, (b, q) ∈ ns → get2 R' i b = some (value E field (q.x - p.x) i b) := by
  intro ns
  induction ns with
  | nil => intro _ R hR; exact ⟨R, rfl, hR, fun a b _ => rfl, fun b q h => by cases h⟩
  | cons nq ns ih =>
    intro hns R hR
    obtain ⟨n, q⟩ := nq
    have hq : At d n q := hns (n, q) (by simp)
    have b1 := at_bounds h0 h1 hp
    have b2 := at_bounds h0 h1 hq
    have hx : FitsInt (q.x - p.x) := by
      have := hq.1.1; have := hp.1.1
      exact fitsInt_of (by omega) (by omega)
    have hs : setRate energies field p.x i R (n, q) = .ok (set2 R i n (value E field (q.x - p.x) i n)) := by
      unfold setRate
      rw [chk_ok hx, ok_bind, rate_ok hE b1.1 b1.2 b2.1 b2.2, ok_bind]
    obtain ⟨R', h, hn, hout, hin⟩ := ih (fun nq hnq => hns nq (by simp [hnq])) _ (ToF.neat_set2 hR i n (value E field (q.x - p.x) i n))
    refine ⟨R', by rw [List.foldlM_cons, hs]; exact h, hn, fun a b hab => ?_, fun b q' hbq => ?_⟩
    · rw [hout a b fun q' hq' => hab q' (by simp [hq']), get2_set2, if_neg]
      rintro ⟨rfl, rfl⟩
      exact hab q (by simp) rfl
    · by_cases hc : ∃ q'', (b, q'') ∈ ns
      · obtain ⟨q'', hq''⟩ := hc
        have e : q'' = q' := at_unique h0 h1 (hns (b, q'') (by simp [hq''])) (hns (b, q') hbq)
        rw [hin b q'' hq'', e]
      · push Not at hc
        rw [hout i b fun q'' h => absurd h (hc q'')]
        rcases List.mem_cons.1 hbq with e | e
        · obtain ⟨e1, e2⟩ := Prod.ext_iff.1 e
          simp only at e1 e2
          subst e1 e2
          rw [get2_set2, if_pos ⟨rfl, rfl⟩]
        · exact absurd e (hc q')

/-- What the loops have stored when they have dealt with the sites at the positions `ps`. -/
structure Stored (d : Int) (E : Int → ℝ) (field : ℝ) (ps : List Pos) (R : IMap (IMap ℝ)) : Prop where
  neat : ToF.Neat R
  iff : ∀ i j k, get2 R i j = some k ↔ ∃ p ∈ ps, ∃ q, At d i p ∧ At d j q ∧ Adjacent p q ∧ ¬ EntersFace p q ∧
    k = value E field (q.x - p.x) i j

/-- The rates of one site are stored, or the assertion fails because it has none. -/
theorem siteRates_cases {d : Int} (h0 : 0 < d) (h1 : d ≤ 1290) {energies : List ℝ} {E : Int → ℝ} (hE : Energies d energies E)
    (field : ℝ) {p : Pos} (hp : InCube d p) {ps : List Pos} {R : IMap (IMap ℝ)} (hR : Stored d E field ps R)
    (hnew : p ∉ ps) :
    ((∃ q, Step d p q) → ∃ R', siteRates d energies field R p = .ok R' ∧ Stored d E field (ps ++ [p]) R') ∧
    ((¬ ∃ q, Step d p q) → siteRates d energies field R p = .error .assertFail) := by
  have ha := at_of_inCube hp
  generalize hi : p.x + d * p.y + d * d * p.z = i at ha
  obtain ⟨ns, hns, hnd, hmem⟩ := around_ok h0 h1 ha
  obtain ⟨R', hR', hneat, hout, hin⟩ := setRates_ok h0 h1 hE field ha ns (fun nq h => ((hmem nq.1 nq.2).1 h).1) R hR.neat
  have hrow : ∀ j, get2 R i j = none := by
    intro j
    rw [Option.eq_none_iff_forall_ne_some]
    intro k hk
    obtain ⟨p', hp', q, a1, -⟩ := (hR.iff i j k).1 hk
    exact hnew (at_unique h0 h1 ha a1 ▸ hp')
  have hsite : siteRates d energies field R p = if ((R'.get? i).getD []).length ≠ 0 then .ok R' else .error .assertFail := by
    unfold siteRates
    rw [to1D_ok h0 h1 ha, ok_bind, hns, ok_bind, hR', ok_bind]
  have hst : Stored d E field (ps ++ [p]) R' := by
    refine ⟨hneat, fun a b k => ?_⟩
    by_cases hb : a = i ∧ ∃ q, (b, q) ∈ ns
    · obtain ⟨rfl, q, hq⟩ := hb
      rw [hin b q hq]
      have hq' := (hmem b q).1 hq
      constructor
      · intro e
        exact ⟨p, by simp, q, ha, hq'.1, hq'.2.1, hq'.2.2, (Option.some.inj e).symm⟩
      · rintro ⟨p', -, q', c1, c2, -, -, rfl⟩
        rw [at_unique h0 h1 c1 ha, at_unique h0 h1 c2 hq'.1]
    · rw [hout a b fun q hq e => hb ⟨e, q, hq⟩, hR.iff]
      constructor
      · rintro ⟨p', hp', rest⟩
        exact ⟨p', by simp [hp'], rest⟩
      · rintro ⟨p', hp', q, c1, c2, c3, c4, rfl⟩
        rcases List.mem_append.1 hp' with hp' | hp'
        · exact ⟨p', hp', q, c1, c2, c3, c4, rfl⟩
        · obtain rfl := List.mem_singleton.1 hp'
          have : a = i := by rw [c1.2, ← hi]
          exact absurd ⟨this, q, (hmem b q).2 ⟨c2, c3, c4⟩⟩ hb
  refine ⟨fun ⟨q, hq⟩ => ⟨R', ?_, hst⟩, fun hno => ?_⟩
  · rw [hsite, if_pos]
    have : get2 R' i (q.x + d * q.y + d * d * q.z) ≠ none := by
      rw [hin _ q ((hmem _ q).2 ⟨at_of_inCube hq.2.1, hq.2.2.1, hq.2.2.2⟩)]
      exact Option.some_ne_none _
    intro e
    apply this
    unfold get2
    cases hg : R'.get? i with
    | none => rfl
    | some r =>
      rw [hg] at e
      have : r = [] := List.length_eq_zero_iff.1 e
      subst this
      rfl
  · rw [hsite, if_neg]
    have hns0 : ns = [] := by
      rw [List.eq_nil_iff_forall_not_mem]
      rintro ⟨j, q⟩ hq
      have := (hmem j q).1 hq
      exact hno ⟨q, hp, this.1.1, this.2⟩
    rw [not_not]
    cases hg : R'.get? i with
    | none => rfl
    | some r =>
      exfalso
      have hne := (hneat.2 _ (IMap.mem_of_get? hg)).2
      obtain ⟨kv, hkv⟩ := List.exists_mem_of_ne_nil _ hne
      have hw := (hneat.2 _ (IMap.mem_of_get? hg)).1
      have : get2 R' i kv.1 = some kv.2 := by
        unfold get2
        rw [hg]
        exact IMap.get?_of_mem hw hkv
      rw [hout i kv.1 (fun q hq => absurd hq (by rw [hns0]; exact List.not_mem_nil)), hrow kv.1] at this
      cases this

theorem mem_axis {d x : Int} : x ∈ axis d ↔ 0 ≤ x ∧ x < d := by
  unfold axis
  simp only [List.mem_map, List.mem_range]
  constructor
  · rintro ⟨k, hk, rfl⟩; omega
  · intro h; exact ⟨x.toNat, by omega, by omega⟩

theorem nodup_axis (d : Int) : (axis d).Nodup := List.Nodup.map (fun a b h => by simpa using h) List.nodup_range

theorem mem_cube {d : Int} {p : Pos} : p ∈ cube d ↔ InCube d p := by
  unfold cube InCube
  simp only [List.mem_flatMap, List.mem_map, mem_axis]
  constructor
  · rintro ⟨x, hx, y, hy, z, hz, rfl⟩; exact ⟨hx, hy, hz⟩
  · intro h; exact ⟨p.x, h.1, p.y, h.2.1, p.z, h.2.2, rfl⟩

theorem nodup_cube (d : Int) : (cube d).Nodup := by
  unfold cube
  refine List.nodup_flatMap.2 ⟨fun x _ => List.nodup_flatMap.2 ⟨fun y _ => (nodup_axis d).map fun a b h => (Pos.mk.inj h).2.2, ?_⟩, ?_⟩
  · refine (nodup_axis d).imp fun {a b} hab => ?_
    simp only [Function.onFun, List.disjoint_left, List.mem_map]
    rintro q ⟨z, -, rfl⟩ ⟨z', -, e⟩
    exact hab (Pos.mk.inj e).2.1.symm
  · refine (nodup_axis d).imp fun {a b} hab => ?_
    simp only [Function.onFun, List.disjoint_left, List.mem_flatMap, List.mem_map]
    rintro q ⟨y, -, z, -, rfl⟩ ⟨y', -, z', -, e⟩
    exact hab (Pos.mk.inj e).1.symm

/-- The loops over all sites. -/
theorem fold_ok {d : Int} (h0 : 0 < d) (h1 : d ≤ 1290) {energies : List ℝ} {E : Int → ℝ} (hE : Energies d energies E)
    (field : ℝ) : ∀ (todo ps : List Pos) (R : IMap (IMap ℝ)), Stored d E field ps R → (ps ++ todo).Nodup → (∀ p ∈ todo, InCube d p) →
      ((∀ p ∈ todo, ∃ q, Step d p q) → ∃ R', todo.foldlM (siteRates d energies field) R = .ok R' ∧ Stored d E field (ps ++ todo) R') ∧
      ((∃ p ∈ todo, ¬ ∃ q, Step d p q) → todo.foldlM (siteRates d energies field) R = .error .assertFail) := by
  intro todo
  induction todo with
  | nil => intro ps R hR _ _; exact ⟨fun _ => ⟨R, rfl, by simpa using hR⟩, fun ⟨p, hp, _⟩ => by cases hp⟩
  | cons p todo ih =>
    intro ps R hR hnd hin
    have hp : p ∉ ps := by
      intro h
      exact (List.nodup_append'.1 hnd).2.2 h (by simp)
    have hc := siteRates_cases h0 h1 hE field (hin p (by simp)) hR hp
    by_cases hq : ∃ q, Step d p q
    · obtain ⟨R', hR', hst⟩ := hc.1 hq
      have := ih (ps ++ [p]) R' hst (by simpa using hnd) fun p' hp' => hin p' (by simp [hp'])
      rw [List.append_assoc] at this
      refine ⟨fun hall => ?_, fun ⟨p', hp', hno⟩ => ?_⟩
      · obtain ⟨R'', h1, h2⟩ := this.1 fun p' hp' => hall p' (by simp [hp'])
        exact ⟨R'', by rw [List.foldlM_cons, hR']; exact h1, h2⟩
      · rw [List.foldlM_cons, hR']
        rcases List.mem_cons.1 hp' with rfl | hp'
        · exact absurd hq hno
        · exact this.2 ⟨p', hp', hno⟩
    · refine ⟨fun hall => absurd (hall p (by simp)) hq, fun _ => ?_⟩
      rw [List.foldlM_cons, hc.2 hq]
      rfl

theorem stored_nil (d : Int) (E : Int → ℝ) (field : ℝ) : Stored d E field [] [] :=
  ⟨⟨IMap.wf_nil, fun ir h => by cases h⟩, fun i j k => by simp [get2]⟩

theorem total_ok {d : Int} (h0 : 0 < d) (h1 : d ≤ 1290) : total d = .ok (d * d * d) := by
  have hc := cube_le h0 h1
  have : 0 < d * d := by positivity
  have : d * d ≤ d * d * d := by nlinarith
  unfold total
  rw [chk_ok (fitsInt_of (by omega) (by omega)), ok_bind, chk_ok (fitsInt_of (by omega) (by omega))]

/-- Every site of a box of three or more sites per axis has a neighbour. -/
theorem step_exists {d : Int} (h3 : 3 ≤ d) {p : Pos} (hp : InCube d p) : ∃ q, Step d p q := by
  obtain ⟨⟨x0, x1⟩, ⟨y0, y1⟩, z0, z1⟩ := hp
  by_cases hx : p.x + 1 < d
  · refine ⟨⟨p.x + 1, p.y, p.z⟩, ⟨⟨x0, x1⟩, ⟨y0, y1⟩, z0, z1⟩, ⟨⟨by dsimp; omega, hx⟩, ⟨y0, y1⟩, z0, z1⟩, ⟨?_, ?_, ?_, ?_⟩, ?_⟩
    · intro e
      have := congrArg Pos.x e
      simp at this
    all_goals simp [EntersFace]
    omega
  · refine ⟨⟨p.x - 1, p.y, p.z⟩, ⟨⟨x0, x1⟩, ⟨y0, y1⟩, z0, z1⟩, ⟨⟨by dsimp; omega, by dsimp; omega⟩, ⟨y0, y1⟩, z0, z1⟩, ⟨?_, ?_, ?_, ?_⟩, ?_⟩
    · intro e
      have := congrArg Pos.x e
      dsimp only at this
      omega
    all_goals simp [EntersFace]
    omega

/-- In smaller boxes the last site has none. -/
theorem no_step {d : Int} (h0 : 0 < d) (h2 : d < 3) : ¬ ∃ q, Step d ⟨d - 1, d - 1, d - 1⟩ q := by
  rintro ⟨q, -, ⟨⟨x0, x1⟩, ⟨y0, y1⟩, z0, z1⟩, ⟨hne, h1, h2', h3⟩, he⟩
  simp only [EntersFace, abs_le] at h1 h2' h3 he
  apply hne
  cases q
  simp only [Pos.mk.injEq] at *
  omega

/-- The rates of the box. -/
theorem rates_ok {d : Int} (h3 : 3 ≤ d) (h1 : d ≤ 1290) {energies : List ℝ} {E : Int → ℝ} (hE : Energies d energies E)
    (field : ℝ) : ∃ R, rates d energies field = .ok R ∧ Stored d E field (cube d) R := by
  unfold rates
  rw [total_ok (by omega) h1, ok_bind]
  exact (fold_ok (by omega) h1 hE field (cube d) [] [] (stored_nil d E field) (by simpa using nodup_cube d)
    fun p hp => mem_cube.1 hp).1 fun p hp => step_exists h3 (mem_cube.1 hp)

theorem rates_fails {d : Int} (h0 : 0 < d) (h2 : d < 3) {energies : List ℝ} {E : Int → ℝ} (hE : Energies d energies E)
    (field : ℝ) : rates d energies field = .error .assertFail := by
  unfold rates
  rw [total_ok h0 (by omega), ok_bind]
  exact (fold_ok h0 (by omega) hE field (cube d) [] [] (stored_nil d E field) (by simpa using nodup_cube d)
    fun p hp => mem_cube.1 hp).2 ⟨⟨d - 1, d - 1, d - 1⟩, mem_cube.2 ⟨⟨by dsimp; omega, by dsimp; omega⟩, ⟨by dsimp; omega, by dsimp; omega⟩, by dsimp; omega, by dsimp; omega⟩,
    no_step h0 h2⟩

/-- Along one axis a step is possible. -/
theorem axis_step {d x : Int} (h3 : 3 ≤ d) (x0 : 0 ≤ x) (x1 : x < d) : ∃ y, (0 ≤ y ∧ y < d) ∧ y ≠ x ∧ |x - y| ≤ 1 ∧ ¬ (x = 1 ∧ y = 0) := by
  by_cases h : x + 1 < d
  · exact ⟨x + 1, by omega, by omega, by rw [abs_le]; omega, by omega⟩
  · exact ⟨x - 1, by omega, by omega, by rw [abs_le]; omega, by omega⟩

/-- Every site of a box of three or more sites per axis has two neighbours. -/
theorem two_neighbors {d i : Int} {p : Pos} (h3 : 3 ≤ d) (h1 : d ≤ 1290) (hp : At d i p) {ns : List (Int × Pos)} (hns : around d p = .ok ns) :
    ∃ j j', j ≠ j' ∧ j ∈ ns.map Prod.fst ∧ j' ∈ ns.map Prod.fst := by
  obtain ⟨ns', hns', -, hmem⟩ := around_ok (by omega) h1 hp
  rw [hns] at hns'
  obtain rfl := ok_inj.1 hns'
  obtain ⟨⟨x0, x1⟩, ⟨y0, y1⟩, z0, z1⟩ := hp.1
  obtain ⟨x, hx, nx, ax, ex⟩ := axis_step h3 x0 x1
  obtain ⟨y, hy, ny, ay, ey⟩ := axis_step h3 y0 y1
  have a1 : At d (x + d * p.y + d * d * p.z) ⟨x, p.y, p.z⟩ := ⟨⟨hx, ⟨y0, y1⟩, z0, z1⟩, rfl⟩
  have a2 : At d (p.x + d * y + d * d * p.z) ⟨p.x, y, p.z⟩ := ⟨⟨⟨x0, x1⟩, hy, z0, z1⟩, rfl⟩
  refine ⟨_, _, fun e => ?_, List.mem_map.2 ⟨(_, _), (hmem _ _).2 ⟨a1, ⟨fun e => nx ?_, ax, ?_, ?_⟩, ?_⟩, rfl⟩,
    List.mem_map.2 ⟨(_, _), (hmem _ _).2 ⟨a2, ⟨fun e => ny ?_, ?_, ay, ?_⟩, ?_⟩, rfl⟩⟩
  · dsimp only at e
    rw [e] at a1
    have := at_unique (by omega) h1 a1 a2
    exact nx (congrArg Pos.x this)
  · exact (congrArg Pos.x e).symm
  · simp
  · simp
  · unfold EntersFace; dsimp only; omega
  · exact (congrArg Pos.y e).symm
  · simp
  · simp
  · unfold EntersFace; dsimp only; omega

end Mythical.Box
