import Verif.Lemmas.SystemPace
import Verif.Lemmas.SystemWitness

/-! # Very long histories: one walker hopping to and fro between two sites -/

set_option linter.unusedSectionVars false
set_option linter.unusedVariables false

namespace Mythical.World
open Mythical SystemSpec

/-- Two sites with the rate 100 between them. -/
def twoMap : IMap (IMap Addr) := [(1, [(2, 0)]), (2, [(1, 0)])]

/-- The draws of the walker; the traversal time is longer than the time resolution, so that attempts at coarse graining
fail. -/
def idleChoice : Choices ℚ := witChoice (1 / 2) [1000]

/-- The world with the walker on site 1 or site 2. -/
def idle (on2 : Bool) (it thr mn v1 v2 : Int) : World ℚ where
  perfRatio := 1
  seed := none
  timeRes := some 1
  iteration := it
  threshold := thr
  thresholdMin := mn
  feats := [(1, .site 1), (2, .site 2)]
  sites := [(1, ⟨1, v1, if on2 then 0 else 1, 1 / 100, unassignedId, [(2, 0)], [(2, 1)], none⟩),
    (2, ⟨2, v2, if on2 then 1 else 0, 1 / 100, unassignedId, [(1, 0)], [(1, 1)], none⟩)]
  clusters := []
  nextId := 0
  walkers := [(10, if on2 then ⟨2, 1, 1 / 100⟩ else ⟨1, 2, 1 / 100⟩)]

/-- The calls before the first hop. -/
def idleOps : List (Op ℚ) := [
  .setTimeResolution 1, .initializeSystem twoMap, .newWalker 10, .walkerOccupy 10 1, .initializeWalkers [⟨0, 10, 1, 1 / 2⟩]]

/-- Their history. -/
def idleEvs : List (Event ℚ) := (runOps Cluster.witEnv sysRates (World.new 0) idleOps).1

theorem idle_start : Trace Cluster.witEnv (World.new 0) idleEvs (idle false 0 1000 1000 1 0) := by
  have h : Trace Cluster.witEnv (World.new 0) idleEvs (runOps Cluster.witEnv sysRates (World.new 0) idleOps).2 :=
    runOps_trace (by decide +kernel)
  have e : (runOps Cluster.witEnv sysRates (World.new 0) idleOps).2 = idle false 0 1000 1000 1 0 := by decide +kernel
  rwa [e] at h

theorem idle_pick (n : Int) : Site.pickLoop (1 / 2 : ℚ) 0 [(n, 1)] = n := by
  unfold Site.pickLoop
  rw [if_pos (by norm_num)]

/-- A free hop, step by step. -/
theorem hopMove_free {K : Type} [Field K] [LinearOrder K] [IsStrictOrderedRing K] [FloorRing K] {w w1 w2 w3 w4 : World K}
    {wid h n : Int} {a : Choices K} {x : Walker K} {t : K} (hx : w.walkerOf h = .ok x) (h1 : x.site ≠ unassignedId)
    (h2 : x.pot ≠ unassignedId) (h3 : w.isOccupiedAt (w.feat x.pot) x.pot = .ok false)
    (h4 : w.vacateAt (w.feat x.site) x.site = .ok w1) (h5 : w1.occupyAt (w.feat x.pot) x.pot = .ok w2)
    (h6 : w2.dwellAt (w.feat x.pot) wid a.e = .ok (t, w3)) (h7 : w3.pickAt (w.feat x.pot) wid a.u = .ok (n, w4)) :
    w.hopMove wid h a = .ok (x.pot, { w4 with walkers := w4.walkers.set h ⟨x.pot, n, t⟩ }) := by
  unfold hopMove walkerSite walkerPot
  simp only [hx, ok_bind, if_neg h1, if_neg h2, h3, h4, h5, h6, h7, Bool.false_eq_true, if_false]

theorem idle_move (on2 : Bool) (it thr mn v1 v2 : Int) (h1 : FitsInt (v1 + 1)) (h2 : FitsInt (v2 + 1)) :
    (idle on2 it thr mn v1 v2).hopMove 0 10 idleChoice = .ok (if on2 then 1 else 2,
      idle (!on2) it thr mn (if on2 then v1 + 1 else v1) (if on2 then v2 else v2 + 1)) := by
  have c1 := chk_ok h1
  have c2 := chk_ok h2
  cases on2
  · let W : Int → World ℚ := fun v => { idle false it thr mn v1 v2 with
      sites := [(1, ⟨1, v1, 0, 1 / 100, unassignedId, [(2, 0)], [(2, 1)], none⟩),
        (2, ⟨2, v, 1, 1 / 100, unassignedId, [(1, 0)], [(1, 1)], none⟩)] }
    have m5 : ({ idle false it thr mn v1 v2 with
        sites := [(1, ⟨1, v1, 0, 1 / 100, unassignedId, [(2, 0)], [(2, 1)], none⟩),
        (2, ⟨2, v2, 0, 1 / 100, unassignedId, [(1, 0)], [(1, 1)], none⟩)] } : World ℚ).occupyAt (.site 2) 2 =
        ((chk (v2 + 1) >>= fun v => .ok ⟨2, v, 1, 1 / 100, unassignedId, [(1, 0)], [(1, 1)], none⟩) >>=
          fun s => .ok { W v2 with sites := (W v2).sites.put 2 s }) := rfl
    rw [c2] at m5
    rw [hopMove_free (x := ⟨1, 2, 1 / 100⟩) (w2 := W (v2 + 1)) (w3 := W (v2 + 1)) (w4 := W (v2 + 1)) (n := 1)
      (t := 1 * (1 / 100)) rfl (by decide) (by decide) rfl rfl m5 rfl (by
        show Except.ok (Site.pickLoop (1 / 2 : ℚ) 0 [(1, 1)], W (v2 + 1)) = _
        rw [idle_pick])]
    rw [one_mul]; rfl
  · let W : Int → World ℚ := fun v => { idle true it thr mn v1 v2 with
      sites := [(1, ⟨1, v, 1, 1 / 100, unassignedId, [(2, 0)], [(2, 1)], none⟩),
        (2, ⟨2, v2, 0, 1 / 100, unassignedId, [(1, 0)], [(1, 1)], none⟩)] }
    have m5 : ({ idle true it thr mn v1 v2 with
        sites := [(1, ⟨1, v1, 0, 1 / 100, unassignedId, [(2, 0)], [(2, 1)], none⟩),
        (2, ⟨2, v2, 0, 1 / 100, unassignedId, [(1, 0)], [(1, 1)], none⟩)] } : World ℚ).occupyAt (.site 1) 1 =
        ((chk (v1 + 1) >>= fun v => .ok ⟨1, v, 1, 1 / 100, unassignedId, [(2, 0)], [(2, 1)], none⟩) >>=
          fun s => .ok { W v1 with sites := (W v1).sites.put 1 s }) := rfl
    rw [c1] at m5
    rw [hopMove_free (x := ⟨2, 1, 1 / 100⟩) (w2 := W (v1 + 1)) (w3 := W (v1 + 1)) (w4 := W (v1 + 1)) (n := 2)
      (t := 1 * (1 / 100)) rfl (by decide) (by decide) rfl rfl m5 rfl (by
        show Except.ok (Site.pickLoop (1 / 2 : ℚ) 0 [(2, 1)], W (v1 + 1)) = _
        rw [idle_pick])]
    rw [one_mul]; rfl

/-- The world after `n` hops. -/
def idleAt (it thr mn : Int) (n : Nat) : World ℚ := idle (decide (n % 2 = 1)) it thr mn (1 + (n / 2 : Nat)) ((n + 1) / 2 : Nat)

/-- The hop of the walker. -/
abbrev idleHop : Op ℚ := .hop 0 10 idleChoice

theorem idleAt_move {it thr mn : Int} {n : Nat} (hn : n ≤ 2 ^ 32 - 6) : ∃ j,
    (idleAt it thr mn n).hopMove 0 10 idleChoice = .ok (j, idleAt it thr mn (n + 1)) := by
  have h := idle_move (decide (n % 2 = 1)) it thr mn (1 + (n / 2 : Nat)) ((n + 1) / 2 : Nat)
    (fitsInt_of (by omega) (by omega)) (fitsInt_of (by omega) (by omega))
  refine ⟨if decide (n % 2 = 1) = true then 1 else 2, h.trans ?_⟩
  unfold idleAt
  rcases Nat.mod_two_eq_zero_or_one n with e | e
  · have e' : (n + 1) % 2 = 1 := by omega
    have a1 : (n + 1) / 2 = n / 2 := by omega
    have a2 : (n + 1 + 1) / 2 = n / 2 + 1 := by omega
    simp [e, e', a1, a2]
  · have e' : (n + 1) % 2 = 0 := by omega
    have a1 : (n + 1) / 2 = n / 2 + 1 := by omega
    have a2 : (n + 1 + 1) / 2 = n / 2 + 1 := by omega
    simp [e, e', a1, a2, add_assoc]

theorem idleAt_hop {it thr mn : Int} {n : Nat} (hn : n ≤ 2 ^ 32 - 6) (h0 : 0 ≤ it) (h1 : it + 1 ≤ thr) (h2 : thr ≤ 2 ^ 31 - 1) :
    (idleAt it thr mn n).step Cluster.witEnv sysRates idleHop = (.ok 0, idleAt (it + 1) thr mn (n + 1)) := by
  obtain ⟨j, hm⟩ := idleAt_move (it := it) (thr := thr) (mn := mn) hn
  have h : (idleAt it thr mn n).hop Cluster.witEnv sysRates 0 10 idleChoice = (.ok (), idleAt (it + 1) thr mn (n + 1)) := by
    unfold hop
    rw [hm]
    simp only
    unfold hopCount
    have : (idleAt it thr mn (n + 1)).iteration = it := rfl
    rw [this, chk_ok (fitsInt_of (by omega) (by omega))]
    simp only
    have : ¬ (it + 1 > (idleAt it thr mn (n + 1)).threshold) := not_lt.2 h1
    rw [if_neg this]
    rfl
  simp only [step, h]
  rfl

/-- A history of proper calls that leads to `w`, with one walker, and with thresholds as `Q` allows. -/
structure Idle (Q : Int → Prop) (evs : List (Event ℚ)) (w : World ℚ) : Prop where
  trace : Trace Cluster.witEnv (World.new 0) evs w
  usage : Usage evs
  walker : active evs = [10]
  mins : ∀ ev ∈ evs, ∀ m, ev.op = .setMinThreshold m → Q m

theorem usage_of {evs : List (Event ℚ)} {ev : Event ℚ} (h : Usage evs) (hp : Proper (active evs) (Hopped evs) ev) :
    Usage (evs ++ [ev]) := by
  intro b e a he
  rcases List.eq_nil_or_concat a with rfl | ⟨a', x, rfl⟩
  · obtain ⟨rfl, e⟩ := List.append_inj' he rfl
    cases e
    exact hp
  · rw [List.concat_eq_append, ← List.cons_append, ← List.append_assoc] at he
    obtain ⟨e, -⟩ := List.append_inj' he rfl
    exact h b _ a' e

theorem Idle.hop {Q : Int → Prop} {evs : List (Event ℚ)} {w w' : World ℚ} (h : Idle Q evs w)
    (hs : w.step Cluster.witEnv sysRates idleHop = (.ok 0, w')) :
    Idle Q (evs ++ [⟨w, sysRates, idleHop, .ok 0, w'⟩]) w' where
  trace := .snoc sysRates h.trace hs trivial
  usage := usage_of h.usage ⟨by rw [h.walker]; simp, 0, rfl⟩
  walker := by rw [active_snoc]; exact h.walker
  mins := by
    intro ev hev m hm
    rcases List.mem_append.1 hev with hev | hev
    · exact h.mins ev hev m hm
    · rw [List.mem_singleton] at hev
      subst hev
      cases hm

theorem hopsIn_snoc {K : Type} {evs : List (Event K)} {ev : Event K} :
    hopsIn (evs ++ [ev]) = hopsIn evs + if isHop ev.op then 1 else 0 := by
  unfold hopsIn
  rw [List.countP_append]
  simp [List.countP_cons]

theorem Idle.run {Q : Int → Prop} {evs : List (Event ℚ)} {it thr mn : Int} {n : Nat} (h : Idle Q evs (idleAt it thr mn n))
    (h0 : 0 ≤ it) (h2 : thr ≤ 2 ^ 31 - 1) (k : Nat) (hn : n + k ≤ 2 ^ 32 - 5) (h1 : it + k ≤ thr) :
    ∃ evs', Idle Q (evs ++ evs') (idleAt (it + k) thr mn (n + k)) ∧ hopsIn (evs ++ evs') = hopsIn evs + k ∧
      ∀ ev ∈ evs', isHop ev.op = true := by
  induction k with
  | zero => exact ⟨[], by simpa using h, by simp, by simp⟩
  | succ k ih =>
    obtain ⟨l, hl, hc, hh⟩ := ih (by omega) (by push_cast at h1; omega)
    have hs := idleAt_hop (it := it + k) (thr := thr) (mn := mn) (n := n + k) (by omega) (by omega) (by push_cast at h1; omega) h2
    refine ⟨l ++ [⟨idleAt (it + k) thr mn (n + k), sysRates, idleHop, .ok 0, idleAt (it + k + 1) thr mn (n + k + 1)⟩], ?_, ?_, ?_⟩
    · have := hl.hop hs
      rw [List.append_assoc] at this
      push_cast
      rw [← add_assoc, ← add_assoc]
      exact this
    · rw [← List.append_assoc, hopsIn_snoc, hc]
      simp [isHop, add_assoc]
    · intro ev hev
      rcases List.mem_append.1 hev with hev | hev
      · exact hh ev hev
      · rw [List.mem_singleton] at hev
        subst hev; rfl

theorem idle_init (Q : Int → Prop) : Idle Q idleEvs (idleAt 0 1000 1000 0) where
  trace := idle_start
  usage := usageB_iff (by decide +kernel)
  walker := by decide +kernel
  mins := by
    intro ev hev m hm
    have : idleEvs.all (fun ev => match ev.op with | .setMinThreshold _ => false | _ => true) = true := by decide +kernel
    rw [List.all_eq_true] at this
    have := this ev hev
    rw [hm] at this
    cases this

/-- The threshold after `k` failed attempts, and the number of hops made by then. -/
def phase (k : Nat) : Int × Nat := (1000 * 2 ^ k, 1000 * (2 ^ k - 1) + k)

/-- The failing attempts. -/
theorem phase_step : ∀ k : Fin 21, (idleAt (phase k).1 (phase k).1 1000 ((phase k).2 + (phase k).1.toNat)).step
    Cluster.witEnv sysRates idleHop = (.ok 0, idleAt 0 (phase (k + 1)).1 1000 (phase (k + 1)).2) := by decide +kernel

/-- The attempt after which the threshold would be doubled beyond the largest `int`. -/
theorem phase_end : ((idleAt (phase 21).1 (phase 21).1 1000 ((phase 21).2 + (phase 21).1.toNat)).step
    Cluster.witEnv sysRates idleHop).1 = .error (.ub .intOverflow) := by decide +kernel

theorem phase_try : coarseGrain Cluster.witEnv sysRates
    { idleAt (phase 21).1 (phase 21).1 1000 ((phase 21).2 + (phase 21).1.toNat + 1) with
      iteration := (idleAt (phase 21).1 (phase 21).1 1000 ((phase 21).2 + (phase 21).1.toNat + 1)).iteration + 1 } idleChoice 1 =
    (.ok false, { idleAt (phase 21).1 (phase 21).1 1000 ((phase 21).2 + (phase 21).1.toNat + 1) with
      iteration := (idleAt (phase 21).1 (phase 21).1 1000 ((phase 21).2 + (phase 21).1.toNat + 1)).iteration + 1 }) := by
  decide +kernel

theorem phase_bounds : ∀ k : Fin 22, (phase k).1 ≤ 2 ^ 31 - 1 ∧ 0 ≤ (phase k).1 ∧
    (phase k).2 + (phase k).1.toNat ≤ 2 ^ 32 - 6 ∧ (phase (k + 1 : Nat)).2 = (phase k).2 + (phase k).1.toNat + 1 := by decide +kernel

theorem idle_wait {Q : Int → Prop} {evs : List (Event ℚ)} {k : Nat} (hk : k < 22)
    (h : Idle Q evs (idleAt 0 (phase k).1 1000 (phase k).2)) :
    ∃ evs', Idle Q (evs ++ evs') (idleAt (phase k).1 (phase k).1 1000 ((phase k).2 + (phase k).1.toNat)) ∧
      hopsIn (evs ++ evs') = hopsIn evs + (phase k).1.toNat := by
  obtain ⟨b1, b2, b3, -⟩ := phase_bounds ⟨k, hk⟩
  simp only at b1 b2 b3
  obtain ⟨l, hl, hc, -⟩ := h.run le_rfl b1 (phase k).1.toNat (by omega) (by omega)
  rw [zero_add, Int.toNat_of_nonneg b2] at hl
  exact ⟨l, hl, hc⟩

theorem idle_phases (Q : Int → Prop) (k : Nat) (hk : k ≤ 21) :
    ∃ evs, Idle Q evs (idleAt 0 (phase k).1 1000 (phase k).2) ∧ hopsIn evs = (phase k).2 := by
  induction k with
  | zero => exact ⟨_, idle_init Q, by decide +kernel⟩
  | succ k ih =>
    obtain ⟨evs, h, hc⟩ := ih (by omega)
    obtain ⟨l, hl, hc'⟩ := idle_wait (by omega) h
    have hs := hl.hop (phase_step ⟨k, by omega⟩)
    refine ⟨_, hs, ?_⟩
    rw [hopsIn_snoc, hc', hc]
    have := (phase_bounds ⟨k, by omega⟩).2.2.2
    simp only at this
    simp [isHop, this]

/-- Coarse graining is switched off before the first hop. -/
theorem idle_off : Idle (fun m => m = infIterations)
    (idleEvs ++ [⟨idleAt 0 1000 1000 0, sysRates, .setMinThreshold infIterations, .ok 0, idleAt 0 infIterations infIterations 0⟩])
    (idleAt 0 infIterations infIterations 0) := by
  have h0 := idle_init (fun m => m = infIterations)
  exact
    { trace := .snoc sysRates h0.trace rfl trivial
      usage := usage_of h0.usage trivial
      walker := by rw [active_snoc]; exact h0.walker
      mins := by
        intro ev hev m hm
        rcases List.mem_append.1 hev with hev | hev
        · exact h0.mins ev hev m hm
        · rw [List.mem_singleton] at hev
          subst hev
          cases hm; rfl }

end Mythical.World
