import Verif.Lemmas.ToFOutput
import Verif.Props.ToFMain
import Verif.Props.CuboidAll

/-! # Helper lemmas for `main` of the time-of-flight program -/

set_option linter.unusedSectionVars false
set_option linter.unusedVariables false

namespace Mythical.ToF
open Mythical World SystemSpec ToFSpec CuboidSpec Cuboid

/-! ## Energies -/

theorem energies_ok {K : Type} [Zero K] (n : Nat) (draw : Nat → K) : generateSiteEnergies n draw = .ok ((List.range n).map draw) := by
  unfold generateSiteEnergies
  have key : ∀ k ≤ n, (List.range k).foldlM (fun (v : List K) i => if i < v.length then (.ok (v.set i (draw i)) : Except Fault (List K))
      else .error .outOfRange) (List.replicate n 0) = .ok ((List.range k).map draw ++ List.replicate (n - k) 0) := by
    intro k hk
    induction k with
    | zero => simp; rfl
    | succ k ih =>
      rw [List.range_succ, List.foldlM_append, ih (by omega)]
      simp only [ok_bind, List.foldlM_cons, List.foldlM_nil]
      rw [if_pos (by simp; omega)]
      simp only [ok_bind]
      show (Except.ok _ : Except Fault (List K)) = _
      congr 1
      rw [List.set_append_right _ _ (by simp), List.map_append, List.append_assoc]
      congr 1
      rw [List.length_map, List.length_range, Nat.sub_self, show n - k = (n - (k + 1)) + 1 by omega, List.replicate_succ]
      rfl
  rw [key n le_rfl]
  simp

/-! ## Addresses -/

theorem layoutRow_holds {K : Type} [Zero K] (L pre post : List K) (row : IMap K) (hL : L = pre ++ row.map Prod.snd ++ post) :
    (layoutRow pre.length row).map (fun na => (na.1, L.getD na.2 0)) = row := by
  induction row generalizing pre with
  | nil => rfl
  | cons jr row ih =>
    obtain ⟨j, r⟩ := jr
    unfold layoutRow
    rw [List.map_cons]
    have h0 : L.getD pre.length 0 = r := by
      rw [hL]
      simp
    have h1 := ih (pre := pre ++ [r]) (by rw [hL]; simp)
    rw [List.length_append] at h1
    rw [show pre.length + 1 = pre.length + [r].length from rfl, h1, h0]

theorem layoutFrom_holds {K : Type} [Zero K] (L pre : List K) (R : IMap (IMap K)) (hL : L = pre ++ rateList R) :
    (layoutFrom pre.length R).map (fun ir => (ir.1, ir.2.map fun na => (na.1, L.getD na.2 0))) = R := by
  induction R generalizing pre with
  | nil => rfl
  | cons ir R ih =>
    obtain ⟨i, row⟩ := ir
    unfold layoutFrom
    rw [List.map_cons]
    have hsplit : L = pre ++ row.map Prod.snd ++ rateList R := by
      rw [hL]
      unfold rateList
      simp
    have h1 := ih (pre := pre ++ row.map Prod.snd) hsplit
    rw [List.length_append, List.length_map] at h1
    rw [h1, layoutRow_holds L pre _ row hsplit]

theorem layout_holds {K : Type} [Field K] (R : IMap (IMap K)) : Holds (memOf R) (layout R) R :=
  layoutFrom_holds (rateList R) [] R rfl

/-! ## The order of the entries does not matter -/

variable {c : Cuboid}

theorem suits_perm {R R' : IMap (IMap ℝ)} {mem mem' : Addr → ℝ} {m m' : IMap (IMap Addr)} (hs : Suits c mem m) (hh : Holds mem m R)
    (hh' : Holds mem' m' R') {R1 : IMap (IMap ℝ)} (hp : R1.Perm R) (hf : List.Forall₂ (fun a b => a.1 = b.1 ∧ a.2.Perm b.2) R' R1) :
    Suits c mem' m' := by
  unfold Holds at hh hh'
  -- rows correspond
  have fwd : ∀ ir ∈ m', ∃ jr ∈ m, jr.1 = ir.1 ∧ (ir.2.map fun na => (na.1, mem' na.2)).Perm (jr.2.map fun na => (na.1, mem na.2)) := by
    intro ir hir
    have h1 : (ir.1, ir.2.map fun na => (na.1, mem' na.2)) ∈ R' := by rw [← hh']; exact List.mem_map_of_mem hir
    obtain ⟨b, hb, hab, hab'⟩ : ∃ b ∈ R1, ir.1 = b.1 ∧ (ir.2.map fun na => (na.1, mem' na.2)).Perm b.2 := by
      obtain ⟨k, hk, he⟩ := List.getElem_of_mem h1
      have hk' : k < R1.length := by rw [← hf.length_eq]; exact hk
      have := List.forall₂_iff_get.1 hf
      have h2 := this.2 k hk hk'
      simp only [List.get_eq_getElem] at h2
      rw [he] at h2
      exact ⟨_, List.getElem_mem hk', h2⟩
    have hb := hp.subset hb
    rw [← hh] at hb
    obtain ⟨jr, hjr, rfl⟩ := List.mem_map.1 hb
    exact ⟨jr, hjr, hab.symm, hab'⟩
  have bwd : ∀ jr ∈ m, ∃ ir ∈ m', jr.1 = ir.1 ∧ (ir.2.map fun na => (na.1, mem' na.2)).Perm (jr.2.map fun na => (na.1, mem na.2)) := by
    intro jr hjr
    have h1 : (jr.1, jr.2.map fun na => (na.1, mem na.2)) ∈ R := by rw [← hh]; exact List.mem_map_of_mem hjr
    have h1 := hp.symm.subset h1
    obtain ⟨a, ha, hab, hab'⟩ : ∃ a ∈ R', a.1 = jr.1 ∧ a.2.Perm (jr.2.map fun na => (na.1, mem na.2)) := by
      obtain ⟨k, hk, he⟩ := List.getElem_of_mem h1
      have hk' : k < R'.length := by rw [hf.length_eq]; exact hk
      have := List.forall₂_iff_get.1 hf
      have h2 := this.2 k hk' hk
      simp only [List.get_eq_getElem] at h2
      rw [he] at h2
      exact ⟨_, List.getElem_mem hk', h2⟩
    rw [← hh'] at ha
    obtain ⟨ir, hir, rfl⟩ := List.mem_map.1 ha
    exact ⟨ir, hir, hab.symm, hab'⟩
  have ent : ∀ {ir jr : Int × IMap Addr}, (ir.2.map fun na => (na.1, mem' na.2)).Perm (jr.2.map fun na => (na.1, mem na.2)) →
      (∀ na ∈ ir.2, ∃ nb ∈ jr.2, nb.1 = na.1 ∧ mem nb.2 = mem' na.2) ∧ (∀ nb ∈ jr.2, ∃ na ∈ ir.2, na.1 = nb.1) := by
    intro ir jr hperm
    constructor
    · intro na hna
      obtain ⟨nb, hnb, e⟩ := List.mem_map.1 (hperm.subset (List.mem_map_of_mem (f := fun na : Int × Addr => (na.1, mem' na.2)) hna))
      exact ⟨nb, hnb, by simpa using congrArg Prod.fst e, by simpa using congrArg Prod.snd e⟩
    · intro nb hnb
      obtain ⟨na, hna, e⟩ := List.mem_map.1 (hperm.symm.subset (List.mem_map_of_mem (f := fun na : Int × Addr => (na.1, mem na.2)) hnb))
      exact ⟨na, hna, by simpa using congrArg Prod.fst e⟩
  have keys : (m'.map Prod.fst).Perm (m.map Prod.fst) := by
    have e1 : m'.map Prod.fst = R'.map Prod.fst := by rw [← hh', List.map_map]; rfl
    have e2 : m.map Prod.fst = R.map Prod.fst := by rw [← hh, List.map_map]; rfl
    have e3 : R'.map Prod.fst = R1.map Prod.fst := by
      clear fwd bwd ent e1 e2 hh' hp
      induction hf with
      | nil => rfl
      | cons h _ ih => rw [List.map_cons, List.map_cons, h.1, ih]
    rw [e1, e2, e3]
    exact hp.map Prod.fst
  refine ⟨⟨?_, fun ir hir => ?_⟩, fun ir hir => ?_, fun ir hir na hna => ?_, fun i hi => ?_, fun i a ha h0 => ?_⟩
  · have := hs.maps.1
    unfold IMap.WF at this ⊢
    exact keys.nodup_iff.2 this
  · obtain ⟨jr, hjr, -, hperm⟩ := fwd ir hir
    have h1 := hs.maps.2 jr hjr
    unfold IMap.WF at h1 ⊢
    have := hperm.map Prod.fst
    rw [List.map_map, List.map_map] at this
    exact this.nodup_iff.2 h1
  · obtain ⟨jr, hjr, -, hperm⟩ := fwd ir hir
    obtain ⟨h1, h2⟩ := hs.rows jr hjr
    refine ⟨fun e => h1 ?_, fun na hna => ?_⟩
    · rw [e] at hperm
      exact List.map_eq_nil_iff.1 hperm.nil_eq.symm
    · obtain ⟨nb, hnb, -, e⟩ := (ent hperm).1 na hna
      rw [← e]
      exact h2 nb hnb
  · obtain ⟨jr, hjr, he, hperm⟩ := fwd ir hir
    obtain ⟨nb, hnb, e, -⟩ := (ent hperm).1 na hna
    obtain ⟨h1, kr, hkr, h2, nc, hnc, h3⟩ := hs.twoWay jr hjr nb hnb
    obtain ⟨lr, hlr, he', hperm'⟩ := bwd kr hkr
    obtain ⟨nd, hnd, h4⟩ := (ent hperm').2 nc hnc
    exact ⟨by rw [← e, ← he]; exact h1, lr, hlr, by rw [← he', h2, e], nd, hnd, by rw [h4, h3, he]⟩
  · obtain ⟨ir, hir, h⟩ := hi
    obtain ⟨jr, hjr, he, hperm⟩ := fwd ir hir
    refine hs.sites i ⟨jr, hjr, ?_⟩
    rcases h with h | ⟨na, hna, h⟩
    · exact .inl (he.trans h)
    · obtain ⟨nb, hnb, e, -⟩ := (ent hperm).1 na hna
      exact .inr ⟨nb, hnb, e.trans h⟩
  · obtain ⟨jr, hjr, h⟩ := hs.plane i a ha h0
    obtain ⟨ir, hir, he, hperm⟩ := bwd jr hjr
    refine ⟨ir, hir, ?_⟩
    rcases h with h | ⟨nb, hnb, h⟩
    · exact .inl (he.symm.trans h)
    · obtain ⟨na, hna, e⟩ := (ent hperm).2 nb hnb
      exact .inr ⟨na, hna, e.trans h⟩

/-- Any rates are within some bounds. -/
theorem rows_within {mem : Addr → ℝ} {m : IMap (IMap Addr)} (hs : Suits c mem m) : ∃ r R : ℝ, 0 < r ∧ 0 < R ∧ RowsWithin mem m r R := by
  replace hs := hs.rows
  induction m with
  | nil => exact ⟨1, 1, one_pos, one_pos, fun _ h => nomatch h⟩
  | cons ir m ih =>
    obtain ⟨r, R, h1, h2, h3⟩ := ih fun jr hjr => hs jr (List.mem_cons_of_mem _ hjr)
    have hrow : ∀ l : List (Int × Addr), (∀ na ∈ l, 0 < mem na.2) → ∃ r, 0 < r ∧ ∀ na ∈ l, r ≤ mem na.2 := by
      intro l
      induction l with
      | nil => exact fun _ => ⟨1, one_pos, fun _ h => nomatch h⟩
      | cons na l ih =>
        intro h
        obtain ⟨r, h1, h2⟩ := ih fun nb hnb => h nb (List.mem_cons_of_mem _ hnb)
        refine ⟨min r (mem na.2), lt_min h1 (h na List.mem_cons_self), fun nb hnb => ?_⟩
        rcases List.mem_cons.1 hnb with rfl | hnb
        · exact min_le_right _ _
        · exact (min_le_left _ _).trans (h2 nb hnb)
    obtain ⟨r', i1, i2⟩ := hrow ir.2 (hs ir List.mem_cons_self).2
    refine ⟨min r r', max R (ir.2.map fun na => mem na.2).sum, lt_min h1 i1, lt_max_of_lt_left h2, fun jr hjr => ?_⟩
    rcases List.mem_cons.1 hjr with rfl | hjr
    · exact ⟨fun na hna => (min_le_right _ _).trans (i2 na hna), le_max_right _ _⟩
    · exact ⟨fun na hna => (min_le_left _ _).trans ((h3 jr hjr).1 na hna), (h3 jr hjr).2.trans (le_max_left _ _)⟩

/-- `main` up to the loops. -/
theorem main_prefix {S : Setup} (hS : Sound S) (energy : Nat → ℝ) {visit visit' : IMap (IMap ℝ) → List (Int × List (Int × ℝ))}
    (hv : Visits visit) (hv' : Visits visit') :
    ∃ c R, Cuboid.construct S.len S.wid S.hei S.spacing S.xb S.yb S.zb = .ok c ∧
      calculateRates c S.params ((List.range (S.len * S.wid * S.hei).toNat).map energy) visit = .ok R ∧
      Built c ∧ 2 ≤ c.length ∧ Suits c (memOf (visit' R)) (layout (visit' R)) ∧
      ∀ (env : Env ℝ) (ch : Chances ℝ) (opens : Bool) (n : Nat), main env S energy visit visit' ch opens n = (do
        let (s, fin) ← program env (memOf (visit' R)) c (layout (visit' R)) S.config ch n
        if fin then do
          let file ← printTransientCurrent opens (s.samples.map Prod.fst) (s.samples.map Prod.snd) S.dt
          .ok (s, some file)
        else .ok (s, none)) := by
  obtain ⟨c, hc⟩ : ∃ c : Cuboid, c = ⟨S.len, S.wid, S.hei, S.len * S.wid * S.hei, S.spacing, S.xb, S.yb, S.zb⟩ := ⟨_, rfl⟩
  have hg : Good c := by
    rw [hc]
    exact ⟨by have := hS.len; show 0 < S.len; omega, hS.wid, hS.hei, rfl, hS.fits⟩
  have hb := built_of_good hg
  have hcon : Cuboid.construct S.len S.wid S.hei S.spacing S.xb S.yb S.zb = .ok c := by
    have := hb
    unfold Built at this
    rw [hc] at this ⊢
    exact this
  have hsp : c.spacing = S.spacing := by rw [hc]
  have hlen : 2 ≤ c.length := by rw [hc]; exact hS.len
  have htot : c.total = S.len * S.wid * S.hei := by rw [hc]
  obtain ⟨D, hD⟩ := C20_getAll_returns hb (by rw [hsp]; exact hS.spacing) (hS.spacing.le.trans hS.near) (by rw [hsp]; exact hS.far)
  have hE : Energies c ((List.range (S.len * S.wid * S.hei).toNat).map energy) fun i => energy i.toNat := by
    rintro i ⟨h0, h1⟩
    have h1 : i < S.len * S.wid * S.hei := by rw [hc] at h1; exact h1
    rw [List.getElem?_map, List.getElem?_range (by omega)]
    rfl
  obtain ⟨R, hR, hs⟩ := C73_rates hb hlen (by rw [hsp]; exact hS.spacing) hS.lambda hS.temp hS.coupling (by rw [hsp]; exact hS.near) hE hD hv
  obtain ⟨R1, hp, hf⟩ := hv' R
  refine ⟨c, R, hcon, hR, hb, hlen, suits_perm (hs _ _ (layout_holds R)) (layout_holds R) (layout_holds (visit' R)) hp hf,
    fun env ch opens n => ?_⟩
  unfold main
  rw [hcon, ok_bind, energies_ok, ok_bind, htot, hR, ok_bind]

end Mythical.ToF
