import Verif.Lemmas.BenchRun
import Verif.Lemmas.BoxRates
import Verif.Lemmas.ToFWhole

/-! # Helper lemmas for the program that simulates with and without clusters: the box -/

set_option linter.unusedSectionVars false
set_option linter.unusedVariables false

namespace Mythical.Bench
open World SystemSpec ProgramSpec BenchSpec BoxSpec CrudeSpec Cuboid Box
open _root_.Mythical.ToF (layout memOf)

theorem sitesOf_ok {d : Int} (h0 : 0 < d) (h1 : d ≤ 1290) {n : Nat} {occ : List Int} {pos : IMap Pos} (hs : Seated d n occ pos) :
    ∃ sites, sitesOf d pos n = .ok sites ∧ sites.length = n ∧ sites.Nodup ∧ ∀ (k : Nat) i, sites[k]? = some i → ∃ p, pos.get? k = some p ∧ At d i p := by
  obtain ⟨g, hg⟩ : ∃ g : Nat → Int, g = fun k : Nat => match pos.get? (k : Int) with
    | some p => p.x + d * p.y + d * d * p.z
    | none => 0 := ⟨_, rfl⟩
  have hk : ∀ k < n, ∃ p, pos.get? (k : Int) = some p ∧ At d (g k) p := fun k hk => by
    obtain ⟨p, hp⟩ := (hs.walkers k).2 ⟨by omega, by omega⟩
    refine ⟨p, hp, ?_⟩
    have : g k = p.x + d * p.y + d * d * p.z := by rw [hg]; simp only [hp]
    rw [this]
    exact at_of_inCube (hs.inside _ p hp)
  have hmap : ∀ l : List Nat, (∀ k ∈ l, k < n) → (l.mapM fun k : Nat => Crude.siteOf d pos k) = .ok (l.map g) := by
    intro l
    induction l with
    | nil => intro _; rfl
    | cons a l ih =>
      intro hl
      obtain ⟨p, hp, ha⟩ := hk a (hl a List.mem_cons_self)
      rw [List.mapM_cons, ih fun k hk => hl k (List.mem_cons_of_mem _ hk), Crude.siteOf_ok h0 h1 hp ha]
      rfl
  refine ⟨(List.range n).map g, hmap _ fun k hk => List.mem_range.1 hk, by simp, ?_, fun k i hi => ?_⟩
  · refine List.Nodup.map_on (fun a ha b hb e => ?_) List.nodup_range
    obtain ⟨p, hp, hpa⟩ := hk a (List.mem_range.1 ha)
    obtain ⟨q, hq, hqa⟩ := hk b (List.mem_range.1 hb)
    rw [← e] at hqa
    have := Cuboid.siteAt_unique (good_lattice h0 h1) (siteAt_iff.2 hpa) (siteAt_iff.2 hqa)
    subst this
    exact_mod_cast hs.apart _ _ p hp hq
  · rw [List.getElem?_map] at hi
    obtain ⟨j, hj, rfl⟩ := Option.map_eq_some_iff.1 hi
    obtain ⟨hlt, hj⟩ := List.getElem?_eq_some_iff.1 hj
    rw [List.getElem_range] at hj
    subst hj
    exact hk k (by simpa using hlt)

/-- A walker is placed at one of the positions drawn. -/
theorem place_from {d : Int} {n : Nat} : ∀ (picks : List Pos) (k : Nat) (occ occ' : List Int) (pos pos' : IMap Pos),
    Crude.place d n picks k occ pos = .ok (occ', pos') → ∀ i q, pos'.get? i = some q → pos.get? i = some q ∨ q ∈ picks := by
  intro picks
  induction picks with
  | nil =>
    intro k occ occ' pos pos' h i q hq
    unfold Crude.place at h
    split at h
    · cases h
    · cases h
      exact .inl hq
  | cons a picks ih =>
    intro k occ occ' pos pos' h i q hq
    unfold Crude.place at h
    split at h
    · split at h
      · obtain ⟨site, -, h⟩ := bind_eq_ok.1 h
        split at h
        · exact (ih _ _ _ _ _ h i q hq).imp id (List.mem_cons_of_mem a)
        · rcases ih _ _ _ _ _ h i q hq with e | e
          · rw [IMap.get?_set] at e
            split at e
            · cases e
              exact .inr List.mem_cons_self
            · exact .inl e
          · exact .inr (List.mem_cons_of_mem a e)
      · cases h
    · cases h
      exact .inl hq

/-- The rates of the box in any order and walkers on different sites of it are what a simulation starts with. -/
theorem setting_box {K : Type} [Field K] [LinearOrder K] [IsStrictOrderedRing K] [FloorRing K] {d : Int} (h3 : 3 ≤ d) (h1 : d ≤ 1290)
    {R R' : IMap (IMap K)} (hwf : R.WF) (hb : BoxRates d R) (hk : ∀ ir ∈ R, ∃ p, At d ir.1 p) (hR : Rearranged R' R) {n : Nat} (hn : 0 < n)
    {occ : List Int} {pos : IMap Pos} (hp : Seated d n occ pos) {sites : List Int} (hsites : sitesOf d pos n = .ok sites) {cutoff : K} {rate : Int}
    (hc : 0 < cutoff) (hr : 0 < rate) {luck : Luck K} (hl : ∀ k, SiteSpec.Draw (luck.first k).2 ∧ 0 < (luck.first k).1)
    (hd : ∀ evs h, SiteSpec.Draw (luck.draw evs h).u ∧ 0 < (luck.draw evs h).e) : Setting (memOf R') (layout R') sites cutoff rate luck := by
  obtain ⟨l, e, hlen, hnd, hat⟩ := sitesOf_ok (by omega) h1 hp
  rw [hsites] at e
  cases e
  have hh := ToF.layout_holds R'
  unfold ToFSpec.Holds at hh
  have hkeys : ∀ i, (∃ row, (i, row) ∈ layout R') ↔ ∃ row, (i, row) ∈ R := by
    intro i
    have e1 : (layout R').map Prod.fst = R'.map Prod.fst := by
      have := congrArg (List.map Prod.fst) hh
      rw [List.map_map] at this
      exact this
    have e2 : ∀ {V : Type} (m : IMap V), (∃ row, (i, row) ∈ m) ↔ i ∈ m.map Prod.fst := by
      intro V m
      rw [List.mem_map]
      constructor
      · rintro ⟨row, h⟩; exact ⟨_, h, rfl⟩
      · rintro ⟨⟨a, row⟩, h, rfl⟩; exact ⟨row, h⟩
    rw [e2, e2, e1, hR.row.1.mem_iff]
  have hrow : ∀ jr ∈ R, ∃ p, At d jr.1 p ∧ jr.2.WF ∧ (∀ j, j ∈ jr.2.keys ↔ ∃ q, At d j q ∧ CrudeSpec.Step d p q) ∧ ∀ jk ∈ jr.2, 0 < jk.2 := fun jr hj => by
    obtain ⟨p, hp⟩ := hk jr hj
    obtain ⟨row, hg, a, b, c⟩ := hb _ p hp
    rw [IMap.get?_of_mem hwf hj] at hg
    cases hg
    exact ⟨p, hp, a, b, c⟩
  have hne : ∀ jr ∈ R, jr.2 ≠ [] := fun jr hj e => by
    obtain ⟨p, hp, -, b, -⟩ := hrow jr hj
    obtain ⟨q, hq⟩ := step_exists h3 hp.1
    have := (b _).2 ⟨q, at_of_inCube hq.2.1, hq⟩
    rw [e] at this
    cases this
  have hAt : ∀ i, Mentions (layout R') i → ∃ p, At d i p := by
    rintro i ⟨ir, hir, h⟩
    have hmem : (ir.1, ir.2.map fun na => (na.1, memOf R' na.2)) ∈ R' := by
      have := List.mem_map_of_mem (f := fun ir : Int × IMap Addr => (ir.1, ir.2.map fun na => (na.1, memOf R' na.2))) hir
      exact (congrArg (_ ∈ ·) hh).mp this
    obtain ⟨jr, hj, e1, hperm⟩ := hR.row.2 _ hmem
    simp only at e1 hperm
    obtain ⟨p, hp, -, b, -⟩ := hrow jr hj
    rcases h with rfl | ⟨na, hna, rfl⟩
    · exact ⟨p, e1 ▸ hp⟩
    · obtain ⟨q, hq, -⟩ := (b na.1).1 (List.mem_map_of_mem (f := Prod.fst)
        (hperm.subset (List.mem_map_of_mem (f := fun na : Int × Addr => (na.1, memOf R' na.2)) hna)))
      exact ⟨q, hq⟩
  have hin : ∀ i p, At d i p → ∃ row, (i, row) ∈ layout R' := fun i p h => (hkeys i).2 (by
    obtain ⟨row, hg, -⟩ := hb i p h
    exact ⟨row, IMap.mem_of_get? hg⟩)
  refine ⟨proper_layout ⟨hwf, fun ir hir => ⟨(hrow ir hir).choose_spec.2.1, hne ir hir⟩⟩ (fun ir hir => (hrow ir hir).choose_spec.2.2.2) hR,
    fun i hi => ?_, hnd, fun i hi => ?_, fun e => ?_, ?_, hc, hr, hl, hd⟩
  · obtain ⟨p, hp⟩ := hAt i hi
    refine ⟨fun e => ?_, hin i p hp⟩
    have h0 := (Cuboid.siteAt_bounds (good_lattice (by omega) h1) (siteAt_iff.2 hp)).1
    rw [e] at h0
    exact absurd h0 (by decide)
  · obtain ⟨k, hk⟩ := List.mem_iff_getElem?.1 hi
    obtain ⟨p, -, hp⟩ := hat k i hk
    obtain ⟨row, h⟩ := hin i p hp
    exact ⟨_, h, .inl rfl⟩
  · rw [e] at hlen
    simp at hlen
    omega
  · rw [hlen]
    have hc := cube_le (d := d) (by omega) h1
    rcases Crude.seated_le hp with h | h
    · simp only [INT_MAX]
      nlinarith
    · omega

theorem stored_keys {d : Int} {E : Int → ℝ} {field : ℝ} {R : IMap (IMap ℝ)} (hs : Stored d E field (cube d) R) : ∀ ir ∈ R, ∃ p, At d ir.1 p := by
  intro ir hir
  obtain ⟨jk, hjk⟩ := List.exists_mem_of_ne_nil _ (hs.neat.2 ir hir).2
  have hg : get2 R ir.1 jk.1 = some jk.2 := by
    unfold get2
    rw [IMap.get?_of_mem hs.neat.1 hir]
    exact IMap.get?_of_mem (hs.neat.2 ir hir).1 hjk
  obtain ⟨p, -, q, a, b, -⟩ := (hs.iff _ _ _).1 hg
  exact ⟨p, a⟩

end Mythical.Bench
