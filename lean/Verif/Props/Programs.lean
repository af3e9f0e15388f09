import Verif.Lemmas.Programs
import Verif.Lemmas.SystemWitness
import Mathlib.Data.Rat.Floor

/-!
# C106: two of the programs under src/tests stop at their first walker
-/

namespace Mythical
open World SystemSpec ToF ToFSpec ProgramSpec BoxSpec Cuboid

variable {K : Type} [Field K] [LinearOrder K] [IsStrictOrderedRing K] [FloorRing K]

/-- **C106**. With at least one walker the toy program never comes to its end, whatever its arguments, the order of the hash maps and
the numbers drawn. -/
theorem C106_toy (env : Env K) {A : Toy.Args K} (hw : 1 ≤ A.walkers) (m m' : IMap (IMap Addr)) (l l' : Toy.Luck K) :
    ∃ f, Toy.main env A m m' l l' = .error f := by
  cases hr : Toy.main env A m m' l l' with
  | error f => exact ⟨f, rfl⟩
  | ok n =>
    exfalso
    unfold Toy.main at hr
    obtain ⟨r1, -, hr⟩ := bind_eq_ok.1 hr
    obtain ⟨r2, -, hr⟩ := bind_eq_ok.1 hr
    obtain ⟨p, hp, -⟩ := bind_eq_ok.1 hr
    unfold Toy.part at hp
    obtain ⟨p1, -, hp⟩ := bind_eq_ok.1 hp
    obtain ⟨p2, -, hp⟩ := bind_eq_ok.1 hp
    obtain ⟨p3, -, hp⟩ := bind_eq_ok.1 hp
    obtain ⟨p4, -, hp⟩ := bind_eq_ok.1 hp
    obtain ⟨k, hk⟩ : ∃ k, A.walkers.toNat = k + 1 := ⟨A.walkers.toNat - 1, by omega⟩
    rw [hk, Toy.walkers_lost] at hp
    cases hp

/-- **C106**. With positive times it ends with the exception that `initializeWalkers` throws for a walker that is on no site; without
walkers it comes to its end and has found no cluster. -/
theorem C106_toy_outcome (env : Env K) {A : Toy.Args K} (h1 : 0 < A.time1) (h2 : 0 < A.time2) (hi : 0 < A.inc) {m m' : IMap (IMap Addr)}
    (hm : Rearranged m Toy.table) (hm' : Rearranged m' Toy.table) (l l' : Toy.Luck K) :
    Toy.main env A m m' l l' = if 1 ≤ A.walkers then .error .runtimeError else .ok 0 := by
  have hp := Toy.table_proper (one_div_pos.2 h1) (one_div_pos.2 h2)
  unfold Toy.main quot
  rw [if_neg h1.ne', ok_bind, if_neg h2.ne', ok_bind]
  simp only
  obtain ⟨q, hq, e⟩ := Toy.part_ok (env := env) (Toy.create1 env _) hi infIterations l (hp.rearranged hm)
    (p := ⟨World.new 0, []⟩) ⟨rfl, rfl⟩
  rw [e]
  split
  · obtain ⟨k, hk⟩ : ∃ k, A.walkers.toNat = k + 1 := ⟨A.walkers.toNat - 1, by omega⟩
    rw [hk, Toy.walkers_lost]
    rfl
  · have hk : A.walkers.toNat = 0 := by omega
    rw [hk]
    unfold Toy.walkers
    rw [ok_bind, if_neg (by unfold World.getClusters ClusterContainer.getSiteIdsOfClusters; rw [hq]; simp [World.new])]
    obtain ⟨q', hq', e'⟩ := Toy.part_ok (env := env) (Toy.create2 env (Toy.values (1 / A.time1) (1 / A.time2))) hi A.threshold l' (hp.rearranged hm')
      (p := ⟨{ World.new 0 with nextId := q.world.nextId }, []⟩) ⟨rfl, rfl⟩
    rw [e', hk]
    unfold Toy.walkers
    rw [ok_bind]
    unfold World.getClusters ClusterContainer.getSiteIdsOfClusters
    rw [hq']
    simp [World.new]

/-- Draws for the toy program: each walker takes `n` hops. -/
def Toy.luck (n : Nat) : Luck ℚ where
  first _ := (1, 1 / 10)
  hops _ := List.replicate n ⟨1, 1 / 10, witVis, [], fun l => l, fun l => List.Perm.refl l⟩

/-- The program with two walkers fails; a first simulation that places its walkers as the second one does comes to its end without a
cluster. -/
example : Rearranged Toy.table Toy.table ∧
    Toy.main Cluster.witEnv ⟨1, 10, 2, 5, 1⟩ Toy.table Toy.table (Toy.luck 5) (Toy.luck 5) = .error .runtimeError ∧
    ((Toy.part Cluster.witEnv (Toy.values 1 (1 / 10)) Toy.table (Toy.create2 Cluster.witEnv (Toy.values 1 (1 / 10))) ⟨1, 10, 2, 5, 1⟩
      infIterations (Toy.luck 5) ⟨World.new 0, []⟩).map fun p => (p.world.getClusters.length, p.calls.length)) = .ok (0, 14) := by
  refine ⟨⟨_, List.Perm.refl _, List.forall₂_same.2 fun a _ => ⟨rfl, List.Perm.refl _⟩⟩, by decide +kernel, by decide +kernel⟩

/-- **C106**. The time-of-flight simulation among the regression tests never reaches its loops, whatever its arguments, the order of the
hash maps and the numbers drawn. -/
theorem C106_flight (env : Env ℝ) (d walkers seed threshold sampleRate : Int) (cutoff field : ℝ) (energies : List ℝ)
    (visit : IMap (IMap ℝ) → List (Int × List (Int × ℝ))) (picks : List (Int × Int)) (first : Nat → ℝ × ℝ) :
    ∃ f, Flight.main env d walkers seed threshold sampleRate cutoff field energies visit picks first = .error f := by
  cases hr : Flight.main env d walkers seed threshold sampleRate cutoff field energies visit picks first with
  | error f => exact ⟨f, rfl⟩
  | ok n =>
    exfalso
    unfold Flight.main at hr
    obtain ⟨R, -, hr⟩ := bind_eq_ok.1 hr
    obtain ⟨_, -, hr⟩ := bind_eq_ok.1 hr
    obtain ⟨ps, -, hr⟩ := bind_eq_ok.1 hr
    obtain ⟨f, hf⟩ := Flight.start_fails (env := env) (mem := memOf (visit R)) (m := layout (visit R)) (d := d) ps seed threshold cutoff
      sampleRate first
    rw [hf] at hr
    cases hr

/-- **C106**. Once its walkers have their positions it ends, for proper arguments, with the exception that `initializeWalkers` throws for
a walker that is on no site; without walkers its assertion on the first of them is undefined. -/
theorem C106_flight_outcome (env : Env ℝ) {d walkers sampleRate : Int} (seed threshold : Int) {cutoff : ℝ} (field : ℝ) (h3 : 3 ≤ d)
    (h1 : d ≤ 1290) (hs : 0 < sampleRate) (hc : 0 < cutoff) {energies : List ℝ} {E : Int → ℝ} (hE : Energies d energies E)
    {visit : IMap (IMap ℝ) → List (Int × List (Int × ℝ))} (hv : Visits visit) {picks : List (Int × Int)} {ps : List Pos}
    (hp : Flight.place d walkers picks [] = .ok ps) (first : Nat → ℝ × ℝ) :
    Flight.main env d walkers seed threshold sampleRate cutoff field energies visit picks first =
      if 1 ≤ walkers then .error .runtimeError else .error (.ub .endIterator) := by
  obtain ⟨R, hR, hst⟩ := Box.rates_ok h3 h1 hE (field * 10e-7)
  have hpr := proper_layout hst.neat (Box.stored_pos hst) (hv R)
  have hd : mkDistribution d = .ok () := by
    unfold mkDistribution
    rw [chk_ok ⟨by unfold INT_MIN; omega, by unfold INT_MAX; omega⟩, ok_bind, if_pos (by omega)]
  have hpl := Flight.place_ok picks [] hp (by simp)
  unfold Flight.main
  rw [hR, ok_bind, hd, ok_bind, hp, ok_bind]
  split
  · next hw =>
    refine Flight.start_exact seed threshold first hpr hpl.1 hc hs ?_
    rintro rfl
    have := hpl.2.1
    simp at this
    omega
  · next hw =>
    have hps : ps = [] := by
      have := hpl.2.2 (by simp)
      rw [max_eq_right (by omega)] at this
      exact List.length_eq_zero_iff.1 (by omega)
    subst hps
    have hsK : (0 : ℝ) < (sampleRate : ℝ) := by exact_mod_cast hs
    unfold Flight.start Flight.create quot
    rw [ok_bind, if_neg hsK.ne', ok_bind]
    obtain ⟨p2, h2, f2, -⟩ := seed_ok (env := env) (mem := memOf (visit R)) (seed % 2 ^ 64).toNat (p := ⟨World.new 0, []⟩) ⟨rfl, rfl⟩
    rw [h2, ok_bind]
    obtain ⟨p3, h3', f3, t3, -⟩ := resolution_ok (env := env) (mem := memOf (visit R)) (div_pos hc hsK) f2
    rw [h3', ok_bind]
    obtain ⟨p4, h4, f4, t4, -⟩ := threshold_ok (env := env) (mem := memOf (visit R)) threshold f3
    rw [h4, ok_bind]
    have hne : layout (visit R) ≠ [] := by
      intro e
      have e1 : visit R = [] := by
        have := layout_holds (visit R)
        unfold Holds at this
        rw [e] at this
        exact this.symm
      have e2 : R = [] := by
        have := (Rearranged.row (hv R)).1
        rw [e1] at this
        exact List.map_eq_nil_iff.1 this.symm.eq_nil
      obtain ⟨q, hq⟩ := Box.step_exists (p := ⟨0, 0, 0⟩) h3 ⟨⟨le_rfl, by dsimp; omega⟩, ⟨le_rfl, by dsimp; omega⟩, le_rfl, by dsimp; omega⟩
      have := (hst.iff _ _ _).2 ⟨_, Box.mem_cube.2 hq.1, q, Box.at_of_inCube hq.1, Box.at_of_inCube hq.2.1, hq.2.2.1, hq.2.2.2, rfl⟩
      rw [e2] at this
      cases this
    obtain ⟨p5, h5, -, hf5⟩ := system_ok (env := env) hpr f4 (t4.trans t3)
    rw [h5, ok_bind]
    have h6 : World.initializeWalkers p5.world (entries ([] : List Pos).length first) = (.ok (), p5.world) := by
      unfold World.initializeWalkers
      rw [if_neg fun e => hf5 hne (List.length_eq_zero_iff.1 e)]
      rfl
    rw [call_of (r := 0) (w := p5.world) (by
      show ((World.initializeWalkers p5.world _).1.map _, (World.initializeWalkers p5.world _).2) = _
      rw [h6]; rfl), ok_bind]
    rfl

/-- A box of 3 sites per axis, all of energy 0, and one walker. -/
example : Energies 3 (List.replicate 27 0) (fun _ => 0) ∧ Visits (fun m => m) ∧ Flight.place 3 1 [(2, 1)] [] = .ok [⟨0, 2, 1⟩] := by
  refine ⟨fun i h0 h1 => ?_, ToF.visits_id, by decide +kernel⟩
  rw [List.getElem?_replicate, if_pos (by norm_num at h1; omega)]

end Mythical
