import Verif.Lemmas.CrudeRun

/-! # The crude Monte Carlo simulation in the programs under src/tests: walkers, sites and times (C88) -/

set_option linter.unusedSectionVars false

namespace Mythical
open Cuboid (Pos)
open BoxSpec CrudeSpec Crude
variable {K : Type} [Field K] [LinearOrder K] [IsStrictOrderedRing K]

/-- **C88.** With rates of a box of 3 to 1290 sites per axis, one or more walkers and any order of the entries of the hash map: if
there are enough different positions among those drawn the walkers are placed, each on a site of its own. If no walker
is due before the cutoff the assertion in line 334 fails. Otherwise the simulation runs, for whatever random numbers, without any
exception or undefined behaviour: in each round the walker whose time is the least stays or makes a step along a rate to a free site,
its time grows by the time drawn for the site it is on then, and all others keep place and time; it is over when no walker is due before
the cutoff. -/
theorem C88_simulation {d : Int} (h3 : 3 ≤ d) (h1 : d ≤ 1290) {R : IMap (IMap K)} (hR : BoxRates d R) {n : Nat} (hn : 0 < n)
    {picks : List Pos} (hp : ∀ q ∈ picks, InCube d q) (e : Nat → K) {order : IMap K → List (Int × K)} (ho : ∀ t, (order t).Perm t)
    (cutoff : K) {ues : List (K × K)} (hu : ∀ ue ∈ ues, ue.1 < 1) :
    (n ≤ picks.toFinset.card → ∃ s0, Begins d R n e s0 ∧
      ((∀ kt ∈ s0.times, cutoff ≤ kt.2) → simulate d R n picks e order cutoff ues = .error .assertFail) ∧
      ((∃ kt ∈ s0.times, kt.2 < cutoff) → ∃ s rounds, simulate d R n picks e order cutoff ues = .ok s ∧ Sound d n s ∧
        Rounds d R cutoff ((ues.take rounds).map Prod.snd) s0 s ∧ rounds ≤ ues.length ∧
        (rounds < ues.length → ∀ kt ∈ s.times, cutoff ≤ kt.2))) ∧
    (picks.toFinset.card < n → simulate d R n picks e order cutoff ues = .error .outOfFuel) := by
  have h0 : 0 < d := by omega
  have hpl := place_cases h0 h1 (n := n) picks 0 [] [] ∅ hp (seated_zero d) (fun q => by simp) (by omega)
  rw [Finset.sdiff_empty, Nat.zero_add] at hpl
  refine ⟨fun hc => ?_, fun hc => ?_⟩
  · obtain ⟨occ, pos, ep, hs⟩ := hpl.1 hc
    obtain ⟨T, eT, hT⟩ := tables_ok h3 h1 hR
    obtain ⟨l, el, hk, hl⟩ := firstTimes_ok h0 h1 (R := R) (fun i p ha => by obtain ⟨_, -, h⟩ := hT i p ha; exact h.sojourn) hs e
    have hsound : Sound d n (⟨occ, pos, sortTimes l⟩ : State K) :=
      ⟨hs, by rw [← hk]; exact (perm_sortTimes l).map _, sorted_sortTimes l⟩
    have hcases : ∃ kt rest, sortTimes l = kt :: rest := by
      cases h : sortTimes l with
      | nil =>
        have := (perm_sortTimes l).length_eq
        rw [h, ← List.length_map (f := Prod.fst) (as := l), hk] at this
        simp at this
        omega
      | cons kt rest => exact ⟨kt, rest, rfl⟩
    obtain ⟨kt, rest, hkt⟩ := hcases
    have hleast : ∀ x ∈ sortTimes l, kt.2 ≤ x.2 := by
      intro x hx
      have := sorted_sortTimes l
      rw [hkt] at hx this
      rcases List.mem_cons.1 hx with rfl | hx
      · exact le_refl _
      · exact (List.pairwise_cons.1 this).1 x hx
    have hsim : simulate d R n picks e order cutoff ues =
        if kt.2 < cutoff then loops d T order cutoff ues ⟨occ, pos, sortTimes l⟩ else .error .assertFail := by
      unfold simulate
      rw [ep, ok_bind]
      simp only
      rw [eT, ok_bind, el, ok_bind]
      simp only [hkt]
    refine ⟨⟨occ, pos, sortTimes l⟩, ⟨hsound, fun k hk' => ?_⟩, fun hall => ?_, fun ⟨x, hx, hxc⟩ => ?_⟩
    · obtain ⟨p, i, a, b, c⟩ := hl k hk'
      exact ⟨p, i, a, b, (perm_sortTimes l).mem_iff.2 c⟩
    · rw [hsim, if_neg (not_lt.2 (hall kt (by rw [hkt]; simp)))]
    · obtain ⟨s, rounds, es, hss, hr, hd, hle⟩ := loops_ok h0 h1 hT ho hn cutoff ues hu _ hsound
      exact ⟨s, rounds, by rw [hsim, if_pos ((hleast x hx).trans_lt hxc), es], hss, hr, hle, hd⟩
  · unfold simulate
    rw [hpl.2 hc]
    rfl

/-- **C88** (time). If no time drawn is negative no walker ever goes back in time. -/
theorem C88_clock {d : Int} (h3 : 3 ≤ d) (h1 : d ≤ 1290) {R : IMap (IMap K)} (hR : BoxRates d R) {cutoff : K} {es : List K}
    {s s' : State K} (h : Rounds d R cutoff es s s') (he : ∀ e ∈ es, 0 ≤ e) :
    ∀ kt' ∈ s'.times, ∃ t, (kt'.1, t) ∈ s.times ∧ t ≤ kt'.2 := by
  obtain ⟨T, -, hT⟩ := tables_ok h3 h1 hR
  induction h with
  | nil s => exact fun kt' h => ⟨kt'.2, h, le_refl _⟩
  | @cons e es s s1 s' _ hr hrs ih =>
    intro kt' hkt'
    obtain ⟨t1, hm, hle⟩ := ih (fun x hx => he x (by simp [hx])) kt' hkt'
    obtain ⟨k, t, hk, -, p, q, i, j, -, -, -, hj, -, -, hperm⟩ := hr
    rcases List.mem_cons.1 (hperm.mem_iff.1 hm) with heq | hin
    · obtain ⟨e1, e2⟩ := Prod.mk.inj heq
      obtain ⟨_, -, hE⟩ := hT j q hj
      refine ⟨t, by rw [e1]; exact hk, ?_⟩
      have : 0 ≤ e / outRate R j := div_nonneg (he e (by simp)) hE.outPos.le
      linarith
    · exact ⟨t1, List.mem_of_mem_erase hin, hle⟩

/-- **C88** (no walkers). Without walkers the program reads the first entry of an empty list, which is undefined behaviour. -/
theorem C88_no_walkers {d : Int} (h3 : 3 ≤ d) (h1 : d ≤ 1290) {R : IMap (IMap K)} (hR : BoxRates d R) (picks : List Pos) (e : Nat → K)
    (order : IMap K → List (Int × K)) (cutoff : K) (ues : List (K × K)) :
    simulate d R 0 picks e order cutoff ues = .error (.ub .endIterator) := by
  obtain ⟨T, eT, -⟩ := tables_ok h3 h1 hR
  unfold simulate
  have : place d 0 picks 0 [] [] = .ok ([], []) := by cases picks <;> simp [place]
  rw [this, ok_bind]
  simp only
  rw [eT, ok_bind]
  rfl

/-- **C88** (too many walkers). With more walkers than sites the loop that places them does not end, whatever positions are drawn. -/
theorem C88_crowded {d : Int} (h0 : 0 < d) (h1 : d ≤ 1290) (R : IMap (IMap K)) {n : Nat} (hn : d ^ 3 < n) {picks : List Pos}
    (hp : ∀ q ∈ picks, InCube d q) (e : Nat → K) (order : IMap K → List (Int × K)) (cutoff : K) (ues : List (K × K)) :
    simulate d R n picks e order cutoff ues = .error .outOfFuel := by
  have hpl := place_cases h0 h1 (n := n) picks 0 [] [] ∅ hp (seated_zero d) (fun q => by simp) (by omega)
  rw [Finset.sdiff_empty, Nat.zero_add] at hpl
  rcases Nat.lt_or_ge picks.toFinset.card n with hc | hc
  · unfold simulate
    rw [hpl.2 hc]
    rfl
  · obtain ⟨occ, pos, -, hs⟩ := hpl.1 hc
    have : 0 < d ^ 3 := by positivity
    rcases seated_le hs with h | h <;> omega

/-! ## A box of three sites per axis with all rates 1 -/

/-- The rates. -/
def Crude.unitRates : IMap (IMap ℚ) :=
  (Box.cube 3).map fun p => (p.x + 3 * p.y + 3 * 3 * p.z, match Box.around 3 p with | .ok ns => ns.map fun nq => (nq.1, 1) | .error _ => [])

theorem Crude.unitRates_box : BoxRates 3 unitRates := by
  have hwf : (unitRates.map Prod.fst).Nodup := by decide +kernel
  intro i p hp
  obtain ⟨ns, hns, hnd, hmem⟩ := Box.around_ok (by norm_num) (by norm_num) hp
  refine ⟨ns.map fun nq => (nq.1, 1), IMap.get?_of_mem hwf (List.mem_map.2 ⟨p, Box.mem_cube.2 hp.1, ?_⟩), ?_, fun j => ?_, fun jk h => ?_⟩
  · rw [hns, hp.2]
  · unfold IMap.WF
    rw [List.map_map]
    exact hnd
  · unfold IMap.keys
    rw [List.map_map, List.mem_map]
    constructor
    · rintro ⟨⟨j', q⟩, h, rfl⟩
      obtain ⟨a, b, c⟩ := (hmem _ _).1 h
      exact ⟨q, a, hp.1, a.1, b, c⟩
    · rintro ⟨q, a, -, -, b, c⟩
      exact ⟨(j, q), (hmem _ _).2 ⟨a, b, c⟩, rfl⟩
  · obtain ⟨nq, -, rfl⟩ := List.mem_map.1 h
    norm_num

/-- Two walkers, one of which is drawn onto the site of the other at first: three rounds. -/
example : (∀ q ∈ [(⟨2, 2, 2⟩ : Pos), ⟨2, 2, 2⟩, ⟨1, 2, 2⟩], InCube 3 q) ∧
    2 ≤ [(⟨2, 2, 2⟩ : Pos), ⟨2, 2, 2⟩, ⟨1, 2, 2⟩].toFinset.card ∧
    ((simulate 3 unitRates 2 [⟨2, 2, 2⟩, ⟨2, 2, 2⟩, ⟨1, 2, 2⟩] (fun _ => 1) id 10 [(1 / 2, 1), (0, 1), (9 / 10, 2)]).map
      fun s => (s.occupied, s.positions, s.times)) = .ok ([26, 13], [(0, ⟨2, 2, 2⟩), (1, ⟨1, 1, 1⟩)], [(0, 2 / 7), (1, 4 / 7)]) := by
  decide +kernel

/-- Times drawn that are not negative; 28 walkers in a box of 27 sites. -/
example : (∀ e ∈ [(1 : ℚ), 1, 1], 0 ≤ e) ∧ (3 : Int) ^ 3 < (28 : Nat) := by decide +kernel

end Mythical
