import Verif.Spec.Programs
import Verif.Lemmas.ToFWhole
import Verif.Lemmas.BoxRates
import Verif.Lemmas.Walker

/-! # The programs under src/tests: helper lemmas for the walkers that are not placed -/

set_option linter.unusedSectionVars false

namespace Mythical.World
variable {K : Type} [Field K] [LinearOrder K] [IsStrictOrderedRing K] [FloorRing K]
variable {mem : Addr → K} {w : World K}

theorem initSite_clusters (id : Int) (rates : IMap Addr) : (initSite mem w id rates).2.clusters = w.clusters := by
  unfold initSite
  split
  · rfl
  · split <;> rfl

theorem initSites_clusters : ∀ (l : List (Int × IMap Addr)) (w : World K), (initSites mem w l).2.clusters = w.clusters
  | [], _ => rfl
  | (id, rates) :: l, w => by
    have := initSite_clusters (mem := mem) (w := w) id rates
    unfold initSites
    split
    · next h => rw [h] at this; exact this
    · next h => rw [h] at this; rw [initSites_clusters l]; exact this

theorem initDrains_clusters : ∀ (l : List Int) (w : World K), (initDrains w l).2.clusters = w.clusters
  | [], _ => rfl
  | id :: l, w => by
    unfold initDrains
    split
    · rfl
    · rw [initDrains_clusters l]

theorem initializeSystem_clusters (m : IMap (IMap Addr)) : (w.initializeSystem mem m).2.clusters = w.clusters := by
  have := initSites_clusters (mem := mem) m w
  unfold initializeSystem
  split
  · rfl
  · split
    · next h => rw [h] at this; exact this
    · next h => rw [h] at this; rw [initDrains_clusters]; exact this

theorem initDrains_feats : ∀ (l : List Int) (w : World K), w.feats ≠ [] → (initDrains w l).2.feats ≠ []
  | [], _, h => h
  | id :: l, w, h => by
    unfold initDrains
    split
    · exact h
    · exact initDrains_feats l _ (ToF.set_ne_nil _ _ _)

theorem initSites_feats : ∀ (l : List (Int × IMap Addr)) (w : World K), w.feats ≠ [] → (initSites mem w l).2.feats ≠ []
  | [], _, h => h
  | (id, rates) :: l, w, h => by
    have : (initSite mem w id rates).2.feats ≠ [] := by
      unfold initSite
      split
      · exact h
      · split
        · exact h
        · exact ToF.set_ne_nil _ _ _
    unfold initSites
    split
    · next h => rw [h] at this; exact this
    · next h => rw [h] at this; exact initSites_feats l _ this

theorem initializeSystem_feats {m : IMap (IMap Addr)} {u : Unit} {w' : World K} (h : initializeSystem mem w m = (.ok u, w')) (hm : m ≠ []) :
    w'.feats ≠ [] := by
  obtain ⟨-, w1, h1, h2⟩ := initializeSystem_ok h
  have : w1.feats ≠ [] := by
    obtain _ | ⟨⟨id, rates⟩, l⟩ := m
    · exact absurd rfl hm
    · unfold initSites at h1
      split at h1
      · cases h1
      · next h =>
        have h0 := congrArg (fun x => x.2.feats) h
        have h3 := congrArg (fun x => x.2.feats) h1
        simp only at h0 h3
        rw [← h3]
        refine initSites_feats l _ ?_
        unfold initSite at h
        split at h
        · cases h
        · split at h
          · cases h
          · cases h
            exact ToF.set_ne_nil _ _ _
  have e := congrArg (fun x => x.2.feats) h2
  simp only at e
  rw [← e]
  exact initDrains_feats _ _ this

end Mythical.World

namespace Mythical
open World SystemSpec ToF ToFSpec ProgramSpec

variable {K : Type} [Field K] [LinearOrder K] [IsStrictOrderedRing K] [FloorRing K]
variable {env : Env K} {mem : Addr → K} {p p' : Prog K} {m : IMap (IMap Addr)}

/-- The walker is on no site. -/
def Lost (p : Prog K) (h : Int) : Prop := ∃ x, p.world.walkers.get? h = some x ∧ x.site = unassignedId

theorem Lost.keep {h : Int} (hl : Lost p h) (e : p'.world.walkers = p.world.walkers) : Lost p' h := by
  unfold Lost
  rw [e]
  exact hl

theorem call_setting {op : Op K} (h : p.call env mem op = .ok p')
    (ho : (∃ t, op = .setTimeResolution t) ∨ (∃ n, op = .setMinThreshold n) ∨ (∃ n, op = .setRandomSeed n) ∨
      ∃ m, op = .initializeSystem m) : p'.world.walkers = p.world.walkers := by
  obtain ⟨r, e, -⟩ := call_ok h
  have e2 := congrArg Prod.snd e
  rcases ho with ⟨t, rfl⟩ | ⟨n, rfl⟩ | ⟨n, rfl⟩ | ⟨m, rfl⟩
  · change (p.world.setTimeResolution t).2 = p'.world at e2
    rw [← e2]; unfold World.setTimeResolution; split <;> rfl
  · change p.world.setMinThreshold n = p'.world at e2
    rw [← e2]; rfl
  · change (p.world.setRandomSeed n).2 = p'.world at e2
    rw [← e2]; unfold World.setRandomSeed; split <;> rfl
  · change (p.world.initializeSystem mem m).2 = p'.world at e2
    rw [← e2]; exact initializeSystem_walkers m

theorem call_newWalker (h : Int) : p.call env mem (.newWalker h) =
    .ok ⟨p.world.newWalker h, p.calls ++ [⟨p.world, mem, .newWalker h, .ok 0, p.world.newWalker h⟩]⟩ := call_of rfl

theorem lost_new (h : Int) (hc : p.call env mem (.newWalker h) = .ok p') : Lost p' h := by
  rw [call_newWalker] at hc
  obtain rfl := ok_inj.1 hc
  exact ⟨_, IMap.get?_set_self .., rfl⟩

/-- `initializeWalkers` throws at the first walker if that is on no site. -/
theorem call_lost {h wid : Int} {e u : K} {l : List (Entry K)} (hl : Lost p h) :
    p.call env mem (.initializeWalkers (⟨wid, h, e, u⟩ :: l)) = .error .runtimeError := by
  obtain ⟨x, hx, hs⟩ := hl
  refine call_error ?_
  show (World.initializeWalkers p.world (⟨wid, h, e, u⟩ :: l)).1.map _ = _
  have h1 : World.initWalker p.world ⟨wid, h, e, u⟩ = .error .runtimeError := by
    unfold World.initWalker World.walkerOf World.walkerSite
    simp only [hx, ok_bind, hs, if_true]
    rfl
  unfold World.initializeWalkers
  split
  · rfl
  · unfold World.initWalkers
    rw [h1]
    rfl

theorem call_occupy {h i : Int} {x : Walker K} (hx : p.world.walkers.get? h = some x) :
    p.call env mem (.walkerOccupy h i) =
      .ok ⟨{ p.world with walkers := p.world.walkers.set h { x with site := i } },
        p.calls ++ [⟨p.world, mem, .walkerOccupy h i, .ok 0, { p.world with walkers := p.world.walkers.set h { x with site := i } }⟩]⟩ := by
  refine call_of ?_
  show World.simple p.world (World.walkerOccupy p.world h i) = _
  unfold World.walkerOccupy World.walkerOf
  rw [hx]
  rfl

/-! ## The settings -/

/-- Nothing has been set up yet. -/
def Fresh (p : Prog K) : Prop := p.world.feats = [] ∧ p.world.sites = []

theorem seed_ok (n : Nat) (hf : Fresh p) : ∃ p', p.call env mem (.setRandomSeed n) = .ok p' ∧ Fresh p' ∧ p'.world.clusters = p.world.clusters := by
  have : p.world.setRandomSeed n = (.ok (), { p.world with seed := some (n % 2 ^ 64) }) := by
    unfold World.setRandomSeed
    rw [if_neg (by rw [hf.1]; exact fun h => h rfl)]
  refine ⟨_, call_of (r := 0) (w := { p.world with seed := some (n % 2 ^ 64) }) ?_, hf, rfl⟩
  show ((p.world.setRandomSeed n).1.map _, (p.world.setRandomSeed n).2) = _
  rw [this]
  rfl

theorem threshold_ok (n : Int) (hf : Fresh p) : ∃ p', p.call env mem (.setMinThreshold n) = .ok p' ∧ Fresh p' ∧
    p'.world.timeRes = p.world.timeRes ∧ p'.world.clusters = p.world.clusters :=
  ⟨_, call_of rfl, hf, rfl, rfl⟩

theorem resolution_ok {t : K} (ht : 0 < t) (hf : Fresh p) : ∃ p', p.call env mem (.setTimeResolution t) = .ok p' ∧ Fresh p' ∧
    p'.world.timeRes = some t ∧ p'.world.clusters = p.world.clusters := by
  have : p.world.setTimeResolution t = (.ok (), { p.world with timeRes := some t }) := by
    unfold World.setTimeResolution
    rw [if_neg (not_le.2 ht)]
  refine ⟨_, call_of (r := 0) (w := { p.world with timeRes := some t }) ?_, hf, rfl, rfl⟩
  show ((p.world.setTimeResolution t).1.map _, (p.world.setTimeResolution t).2) = _
  rw [this]
  rfl

theorem system_ok (hm : Proper mem m) (hf : Fresh p) {t : K} (ht : p.world.timeRes = some t) :
    ∃ p', p.call env mem (.initializeSystem m) = .ok p' ∧ p'.world.clusters = p.world.clusters ∧
      (m ≠ [] → p'.world.feats ≠ []) := by
  obtain ⟨w', h⟩ := initializeSystem_total (mem := mem) (w := p.world) hm.1 hm.2 (by rw [ht]; exact Option.some_ne_none _)
    fun i _ => by rw [hf.2]; rfl
  refine ⟨_, call_of (r := 0) (w := w') ?_, by rw [← initializeSystem_clusters (mem := mem) (w := p.world) m, h],
    fun hm => initializeSystem_feats h hm⟩
  show ((p.world.initializeSystem mem m).1.map _, (p.world.initializeSystem mem m).2) = _
  rw [h]
  rfl

/-! ## The toy program -/

theorem Toy.create1_lost {k : Int} (h : Toy.create1 env mem k p = .ok p') : Lost p' k := by
  unfold Toy.create1 at h
  obtain ⟨p1, -, h⟩ := bind_eq_ok.1 h
  obtain ⟨p2, -, h⟩ := bind_eq_ok.1 h
  exact lost_new _ h

theorem Toy.create1_ok (k : Int) : ∃ p', Toy.create1 env mem k p = .ok p' := by
  unfold Toy.create1
  rw [call_newWalker, ok_bind, call_occupy (x := ⟨unassignedId, unassignedId, -1⟩) (IMap.get?_set_self ..), ok_bind, call_newWalker]
  exact ⟨_, rfl⟩

theorem Toy.walkers_lost {l : Toy.Luck K} {n k : Nat} : Toy.walkers env mem (Toy.create1 env mem) l (n + 1) k p = .error .runtimeError := by
  unfold Toy.walkers
  obtain ⟨p', h⟩ := Toy.create1_ok (env := env) (mem := mem) (p := p) k
  rw [h, ok_bind, call_lost (Toy.create1_lost h)]
  rfl

/-- The settings and the rates of a simulation are accepted. -/
theorem Toy.part_ok (create : Int → Prog K → Except Fault (Prog K)) {A : Toy.Args K} (hA : 0 < A.inc) (threshold : Int) (l : Toy.Luck K)
    (hm : Proper mem m) (hf : Fresh p) : ∃ p', p'.world.clusters = p.world.clusters ∧
      Toy.part env mem m create A threshold l p = Toy.walkers env mem create l A.walkers.toNat 0 p' := by
  unfold Toy.part
  obtain ⟨p1, h1, f1, c1⟩ := seed_ok (env := env) (mem := mem) 3 hf
  rw [h1, ok_bind]
  obtain ⟨p2, h2, f2, -, c2⟩ := threshold_ok (env := env) (mem := mem) threshold f1
  rw [h2, ok_bind]
  obtain ⟨p3, h3, f3, t3, c3⟩ := resolution_ok (env := env) (mem := mem) hA f2
  rw [h3, ok_bind]
  obtain ⟨p4, h4, c4, -⟩ := system_ok (env := env) hm f3 t3
  rw [h4, ok_bind]
  exact ⟨p4, by rw [c4, c3, c2, c1], rfl⟩

/-- The rates of the toy system are positive. -/
theorem Toy.table_proper {r1 r2 : K} (h1 : 0 < r1) (h2 : 0 < r2) : Proper (Toy.values r1 r2) Toy.table := by
  have hv : ∀ a, 0 < Toy.values r1 r2 a := fun a => by unfold Toy.values; split <;> assumption
  refine ⟨by decide, fun ir hir => ⟨?_, ?_, fun na _ => hv na.2⟩⟩
  · rcases List.mem_cons.1 hir with rfl | hir
    · decide
    · cases List.mem_singleton.1 hir; decide
  · rcases List.mem_cons.1 hir with rfl | hir
    · simp
    · cases List.mem_singleton.1 hir; simp

/-! ## The time-of-flight program -/

namespace Flight
open Cuboid

theorem create_keep {d : Int} {h : Int} {x : Walker K} : ∀ (ps : List Pos) (k : Nat) {p p' : Prog K}, (h ≠ -1) → (∀ j : Nat, k ≤ j → h ≠ j) →
    create env mem d k ps p = .ok p' → p.world.walkers.get? h = some x → p'.world.walkers.get? h = some x
  | [], _, p, p', _, _, hc, hx => by
    unfold create at hc
    obtain rfl := ok_inj.1 hc
    exact hx
  | a :: ps, k, p, p', h1, hk, hc, hx => by
    unfold create at hc
    rw [call_newWalker, ok_bind] at hc
    obtain ⟨i, -, hc⟩ := bind_eq_ok.1 hc
    rw [call_occupy (x := ⟨unassignedId, unassignedId, -1⟩) (IMap.get?_set_self ..), ok_bind, call_newWalker, ok_bind] at hc
    refine create_keep ps (k + 1) h1 (fun j hj => hk j (by omega)) hc ?_
    show IMap.get? (IMap.set (IMap.set (IMap.set _ _ _) _ _) _ _) h = _
    rw [IMap.get?_set, if_neg (hk k le_rfl).symm, IMap.get?_set, if_neg h1.symm, IMap.get?_set, if_neg h1.symm]
    exact hx

theorem create_lost {d : Int} {a : Pos} {ps : List Pos} {k : Nat} (hc : create env mem d k (a :: ps) p = .ok p') : Lost p' k := by
  unfold create at hc
  obtain ⟨p1, -, hc⟩ := bind_eq_ok.1 hc
  obtain ⟨i, -, hc⟩ := bind_eq_ok.1 hc
  obtain ⟨p2, -, hc⟩ := bind_eq_ok.1 hc
  obtain ⟨p3, h3, hc⟩ := bind_eq_ok.1 hc
  obtain ⟨x, hx, hs⟩ := lost_new _ h3
  exact ⟨x, create_keep ps (k + 1) (by omega) (fun j hj => by omega) hc hx, hs⟩

theorem create_ok {d : Int} : ∀ (ps : List Pos) (k : Nat) (p : Prog K), (∀ a ∈ ps, ∃ i, Box.flat d a = .ok i) → Fresh p →
    ∃ p', create env mem d k ps p = .ok p' ∧ Fresh p'
  | [], _, p, _, hf => ⟨p, rfl, hf⟩
  | a :: ps, k, p, ha, hf => by
    obtain ⟨i, hi⟩ := ha a (by simp)
    unfold create
    rw [call_newWalker, ok_bind, hi, ok_bind, call_occupy (x := ⟨unassignedId, unassignedId, -1⟩) (IMap.get?_set_self ..), ok_bind,
      call_newWalker, ok_bind]
    exact create_ok ps (k + 1) _ (fun b hb => ha b (by simp [hb])) hf

theorem entries_cons (n : Nat) (first : Nat → K × K) : ∃ l, entries (n + 1) first = ⟨0, 0, (first 0).1, (first 0).2⟩ :: l := by
  unfold entries
  rw [List.range_succ_eq_map, List.map_cons]
  exact ⟨_, rfl⟩

theorem start_fails {d : Int} (ps : List Pos) (seed threshold : Int) (cutoff : K) (sampleRate : Int) (first : Nat → K × K) :
    ∃ f, start env mem d m ps seed threshold cutoff sampleRate first = .error f := by
  cases hr : start env mem d m ps seed threshold cutoff sampleRate first with
  | error f => exact ⟨f, rfl⟩
  | ok q =>
    exfalso
    unfold start at hr
    obtain ⟨p1, h1, hr⟩ := bind_eq_ok.1 hr
    obtain ⟨inc, -, hr⟩ := bind_eq_ok.1 hr
    obtain ⟨p2, h2, hr⟩ := bind_eq_ok.1 hr
    obtain ⟨p3, h3, hr⟩ := bind_eq_ok.1 hr
    obtain ⟨p4, h4, hr⟩ := bind_eq_ok.1 hr
    obtain ⟨p5, h5, hr⟩ := bind_eq_ok.1 hr
    obtain ⟨p6, h6, hr⟩ := bind_eq_ok.1 hr
    cases ps with
    | nil => cases hr
    | cons a ps =>
      have hl := create_lost h1
      have hl := hl.keep (call_setting h2 (.inr (.inr (.inl ⟨_, rfl⟩))))
      have hl := hl.keep (call_setting h3 (.inl ⟨_, rfl⟩))
      have hl := hl.keep (call_setting h4 (.inr (.inl ⟨_, rfl⟩)))
      have hl := hl.keep (call_setting h5 (.inr (.inr (.inr ⟨_, rfl⟩))))
      obtain ⟨l, he⟩ := entries_cons ps.length first
      rw [List.length_cons, he] at h6
      rw [call_lost (h := 0) hl] at h6
      cases h6

theorem start_exact {d : Int} {ps : List Pos} (seed threshold : Int) {cutoff : K} {sampleRate : Int} (first : Nat → K × K)
    (hm : Proper mem m) (hp : ∀ a ∈ ps, ∃ i, Box.flat d a = .ok i) (hc : 0 < cutoff) (hs : 0 < sampleRate) (hne : ps ≠ []) :
    start env mem d m ps seed threshold cutoff sampleRate first = .error .runtimeError := by
  have hsK : (0 : K) < (sampleRate : K) := by exact_mod_cast hs
  unfold start
  obtain ⟨p1, h1, f1⟩ := create_ok (env := env) (mem := mem) ps 0 ⟨World.new 0, []⟩ hp ⟨rfl, rfl⟩
  rw [h1, ok_bind]
  unfold quot
  rw [if_neg hsK.ne', ok_bind]
  obtain ⟨p2, h2, f2, -⟩ := seed_ok (env := env) (mem := mem) (seed % 2 ^ 64).toNat f1
  rw [h2, ok_bind]
  obtain ⟨p3, h3, f3, t3, -⟩ := resolution_ok (env := env) (mem := mem) (div_pos hc hsK) f2
  rw [h3, ok_bind]
  obtain ⟨p4, h4, f4, t4, -⟩ := threshold_ok (env := env) (mem := mem) threshold f3
  rw [h4, ok_bind]
  obtain ⟨p5, h5, -⟩ := system_ok (env := env) hm f4 (t4.trans t3)
  rw [h5, ok_bind]
  cases ps with
  | nil => exact absurd rfl hne
  | cons a ps =>
    have hl := create_lost h1
    have hl := hl.keep (call_setting h2 (.inr (.inr (.inl ⟨_, rfl⟩))))
    have hl := hl.keep (call_setting h3 (.inl ⟨_, rfl⟩))
    have hl := hl.keep (call_setting h4 (.inr (.inl ⟨_, rfl⟩)))
    have hl := hl.keep (call_setting h5 (.inr (.inr (.inr ⟨_, rfl⟩))))
    obtain ⟨l, he⟩ := entries_cons ps.length first
    rw [List.length_cons, he, call_lost (h := 0) hl]
    rfl

end Flight

/-! ## The order of the maps -/

theorem _root_.Mythical.ProgramSpec.Rearranged.row {V : Type} {m' m : IMap (IMap V)} (h : Rearranged m' m) : (m'.map Prod.fst).Perm (m.map Prod.fst) ∧
    ∀ ir ∈ m', ∃ jr ∈ m, jr.1 = ir.1 ∧ ir.2.Perm jr.2 := by
  obtain ⟨m1, hp, hf⟩ := h
  constructor
  · have e3 : m'.map Prod.fst = m1.map Prod.fst := by
      clear hp
      induction hf with
      | nil => rfl
      | cons h _ ih => rw [List.map_cons, List.map_cons, h.1, ih]
    rw [e3]
    exact hp.map Prod.fst
  · intro ir hir
    obtain ⟨k, hk, he⟩ := List.getElem_of_mem hir
    have hk' : k < m1.length := by rw [← hf.length_eq]; exact hk
    have h2 := (List.forall₂_iff_get.1 hf).2 k hk hk'
    simp only [List.get_eq_getElem] at h2
    rw [he] at h2
    exact ⟨_, hp.subset (List.getElem_mem hk'), h2.1.symm, h2.2⟩

theorem _root_.Mythical.ProgramSpec.Proper.rearranged {m' : IMap (IMap Addr)} (hm : Proper mem m) (h : Rearranged m' m) : Proper mem m' := by
  obtain ⟨h1, h2⟩ := h.row
  refine ⟨?_, fun ir hir => ?_⟩
  · have := hm.1
    unfold IMap.WF at this ⊢
    exact h1.nodup_iff.2 this
  · obtain ⟨jr, hj, -, hp⟩ := h2 ir hir
    obtain ⟨a, b, c⟩ := hm.2 jr hj
    refine ⟨?_, fun e => b ?_, fun na hna => c na (hp.subset hna)⟩
    · unfold IMap.WF at a ⊢
      exact (hp.map Prod.fst).nodup_iff.2 a
    · rw [e] at hp
      exact hp.symm.eq_nil

/-- Rates with positive values give proper maps of references in any order. -/
theorem proper_layout {K : Type} [Field K] [LinearOrder K] {R R' : IMap (IMap K)} (hn : R.WF ∧ ∀ ir ∈ R, ir.2.WF ∧ ir.2 ≠ []) (hpos : ∀ ir ∈ R, ∀ jk ∈ ir.2, 0 < jk.2) (h : Rearranged R' R) :
    Proper (memOf R') (layout R') := by
  obtain ⟨h1, h2⟩ := h.row
  have hh := layout_holds R'
  unfold Holds at hh
  have hrow : ∀ ir ∈ layout R', (ir.1, ir.2.map fun na => (na.1, memOf R' na.2)) ∈ R' := fun ir hir =>
    (congrArg (_ ∈ ·) hh).mp (List.mem_map_of_mem (f := fun ir : Int × IMap Addr => (ir.1, ir.2.map fun na => (na.1, memOf R' na.2))) hir)
  refine ⟨?_, fun ir hir => ?_⟩
  · have e1 : (layout R').map Prod.fst = R'.map Prod.fst := by
      have := congrArg (List.map Prod.fst) hh
      rw [List.map_map] at this
      exact this
    have := hn.1
    unfold IMap.WF at this ⊢
    rw [e1]
    exact h1.nodup_iff.2 this
  · obtain ⟨jr, hj, -, hp⟩ := h2 _ (hrow ir hir)
    obtain ⟨a, b⟩ := hn.2 jr hj
    simp only at hp
    refine ⟨?_, fun e => b ?_, fun na hna => ?_⟩
    · have := (hp.map Prod.fst)
      rw [List.map_map] at this
      unfold IMap.WF at a ⊢
      exact this.nodup_iff.2 a
    · rw [e] at hp
      exact hp.symm.eq_nil
    · exact hpos jr hj _ (hp.subset (List.mem_map_of_mem (f := fun na : Int × Addr => (na.1, memOf R' na.2)) hna))

/-- The rates of the box are positive. -/
theorem Box.stored_pos {d : Int} {E : Int → ℝ} {field : ℝ} {ps : List Cuboid.Pos} {R : IMap (IMap ℝ)} (hs : Box.Stored d E field ps R) :
    ∀ ir ∈ R, ∀ jk ∈ ir.2, 0 < jk.2 := by
  intro ir hir jk hjk
  have hg : Cuboid.get2 R ir.1 jk.1 = some jk.2 := by
    unfold Cuboid.get2
    rw [IMap.get?_of_mem hs.neat.1 hir]
    exact IMap.get?_of_mem (hs.neat.2 ir hir).1 hjk
  obtain ⟨p, -, q, -, -, -, -, e⟩ := (hs.iff _ _ _).1 hg
  rw [e]
  unfold Box.value Box.coef Box.hbar Box.pi Box.transfer Box.kBT
  positivity

end Mythical

namespace Mythical.Flight
open Cuboid

theorem place_ok {d walkers : Int} : ∀ (picks : List (Int × Int)) (ps : List Pos) {qs : List Pos}, place d walkers picks ps = .ok qs →
    (∀ a ∈ ps, ∃ i, Box.flat d a = .ok i) → (∀ a ∈ qs, ∃ i, Box.flat d a = .ok i) ∧ walkers ≤ qs.length ∧
      ((ps.length : Int) ≤ max walkers 0 → (qs.length : Int) ≤ max walkers 0)
  | [], ps, qs, h, hp => by
    unfold place at h
    split at h
    · cases h
    · next hw =>
      obtain rfl := ok_inj.1 h
      exact ⟨hp, not_lt.1 hw, fun h => h⟩
  | (y, z) :: picks, ps, qs, h, hp => by
    unfold place at h
    split at h
    · next hw =>
      split at h
      · obtain ⟨i, hi, h⟩ := bind_eq_ok.1 h
        have := place_ok picks _ h ?_
        · refine ⟨this.1, this.2.1, fun _ => this.2.2 ?_⟩
          split
          · omega
          · rw [List.length_append, List.length_singleton]
            push_cast
            omega
        · split
          · exact hp
          · intro a ha
            rcases List.mem_append.1 ha with ha | ha
            · exact hp a ha
            · obtain rfl := List.mem_singleton.1 ha
              unfold Box.to1D at hi
              split at hi
              · exact ⟨i, hi⟩
              · cases hi
      · cases h
    · next hw =>
      obtain rfl := ok_inj.1 h
      exact ⟨hp, not_lt.1 hw, fun h => h⟩

theorem place_none {d walkers : Int} (hw : walkers ≤ 0) (picks : List (Int × Int)) : place d walkers picks [] = .ok [] := by
  cases picks <;> (unfold place; rw [if_neg (by simp; omega)])

end Mythical.Flight
