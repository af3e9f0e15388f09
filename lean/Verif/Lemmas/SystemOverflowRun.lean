import Verif.Lemmas.SystemOverflowGrain
import Verif.Spec.SystemOverflow

/-! # Counters of a system do not overflow: histories -/

set_option linter.unusedSectionVars false
set_option linter.unusedVariables false

namespace Mythical
variable {K : Type} [Field K] [LinearOrder K] [IsStrictOrderedRing K] [FloorRing K]
variable {env env0 : Env K} {mem : Addr → K}

namespace World
open SystemSpec
variable {w w' w1 w2 w3 : World K} {lo up top : Int} {κ : K}

theorem Room.mono (h : Room lo up top κ) {lo' up' top' : Int} (h1 : lo' ≤ lo) (h2 : up' ≤ up) (h3 : top' ≤ top) : Room lo' up' top' κ where
  rate := h.rate
  lo := h1.trans h.lo
  sum := by
    have a : (up' : K) ≤ up := by exact_mod_cast h2
    have := mul_le_mul_of_nonneg_right a h.rate
    linarith [h.sum]
  top := h3.trans h.top

theorem Calm.map {α β : Type} {r : Except Fault α} {f : α → β} (h : Calm r) : Calm (r.map f) := by
  cases r with
  | error e => exact h.error
  | ok x => exact .ok _

theorem simple_calm {r : Except Fault (World K)} (h : Calm r) : Calm (w.simple r).1 := by
  cases r with
  | error e => exact h.error
  | ok x => exact .ok _

/-- An attempt that comes to nothing leaves the world as it is. -/
theorem coarseGrain_nothing {a : Choices K} {v : Int} (h : coarseGrain env mem w a v = (.ok false, w')) : w' = w := by
  unfold coarseGrain at h
  split at h
  · cases h
  · split at h
    · cases h
    · cases h; rfl
    · unfold coarseGrainBasin at h
      split at h
      · cases h
      · split at h
        · split at h <;> cases h
        · split at h
          · split at h <;> cases h
          · cases h; rfl

theorem Small.hopCount (h : Small lo up top κ w) (hr : Room lo up (top + 2) κ) (hst : Struct env0 w) (hall : AllSettled mem w)
    (hsh : AllShares κ w) (a : Choices K) (j : Int) :
    (FitsInt (w.iteration + 1) → (w.thresholdMin ≠ infIterations → w.threshold < w.iteration + 1 → FitsInt (w.threshold * 2)) →
      Calm (hopCount env mem w a j).1) ∧
    ∀ u w', World.hopCount env mem w a j = (.ok u, w') → Small lo up (top + 2) κ w' := by
  have hup : Small lo up (top + 2) κ w := h.mono hr.rate le_rfl le_rfl (by omega)
  have hc := fun it => Small.coarseGrain (env := env) (w := { w with iteration := it }) (h.of_eq rfl rfl rfl) hr
    (hst.keep (.of_eq rfl rfl rfl le_rfl)) (hall.keep (env := env) (.of_eq rfl rfl rfl le_rfl)) (fun k x hx => hsh k x hx) a j
  constructor
  · intro h1 h2
    unfold World.hopCount
    rw [chk_ok h1]
    simp only
    split
    · next hlt =>
      split
      · next hm =>
        have := (hc (w.iteration + 1)).1
        split
        · next e _ he => rw [he] at this; exact this.error
        · exact .ok _
        · next w3 he =>
          have e1 := coarseGrain_nothing he
          subst e1
          have hlt : w.iteration + 1 > w.threshold := hlt
          rw [chk_ok (h2 hm (by omega))]
          exact .ok _
      · exact .ok _
    · exact .ok _
  · intro u w' he
    unfold World.hopCount at he
    split at he
    · cases he
    · next it hit =>
      simp only at he
      split at he
      · split at he
        · have := (hc it).2
          split at he
          · cases he
          · next w3 hg => cases he; exact (this _ _ hg).of_eq rfl rfl rfl
          · next w3 hg =>
            split at he
            · cases he
            · cases he; exact (this _ _ hg).of_eq rfl rfl rfl
        · cases he; exact hup.of_eq rfl rfl rfl
      · cases he; exact hup.of_eq rfl rfl rfl

theorem Small.step (h : Small lo up top κ w) {op : Op K} (hr : Room (lo + departures op) (up + arrivals op) (top + idsTaken op) κ)
    (hst : Struct env0 w) (hall : AllSettled mem w) (hsh : AllShares κ w) {res : Except Fault Int}
    (hs : w.step env mem op = (res, w')) (hhop : ∀ wid h a, op = .hop wid h a → ∃ n, res = .ok n) :
    Small (lo + departures op) (up + arrivals op) (top + idsTaken op) κ w' := by
  have same : ∀ u : World K, u.sites = w.sites → u.clusters = w.clusters → u.nextId = w.nextId →
      Small (lo + departures op) (up + arrivals op) (top + idsTaken op) κ u := fun u h1 h2 h3 =>
    (h.of_eq h1 h2 h3).mono hr.rate (by omega) (by omega) (by omega)
  cases op with
  | setTimeResolution t =>
    simp only [World.step, Prod.mk.injEq] at hs
    rw [← hs.2]
    unfold World.setTimeResolution
    split <;> exact same _ rfl rfl rfl
  | setMinThreshold n =>
    simp only [World.step, Prod.mk.injEq] at hs
    rw [← hs.2]
    exact same _ rfl rfl rfl
  | setRandomSeed n =>
    simp only [World.step, Prod.mk.injEq] at hs
    rw [← hs.2]
    unfold World.setRandomSeed
    split <;> exact same _ rfl rfl rfl
  | setPerformanceRatio n =>
    simp only [World.step, Prod.mk.injEq] at hs
    rw [← hs.2]
    exact same _ rfl rfl rfl
  | initializeSystem m =>
    simp only [World.step, Prod.mk.injEq] at hs
    rw [← hs.2]
    exact (h.adds initializeSystem_adds).mono hr.rate (by omega) (by omega) (by omega)
  | newWalker n =>
    simp only [World.step, Prod.mk.injEq] at hs
    rw [← hs.2]
    exact same _ rfl rfl rfl
  | walkerOccupy k i =>
    simp only [World.step] at hs
    unfold simple World.walkerOccupy walkerOf at hs
    cases e : w.walkers.get? k with
    | none => rw [e] at hs; cases hs; exact same _ rfl rfl rfl
    | some x => rw [e] at hs; cases hs; exact same _ rfl rfl rfl
  | walkerSetPotential k i =>
    simp only [World.step] at hs
    unfold simple World.walkerSetPotential walkerOf at hs
    cases e : w.walkers.get? k with
    | none => rw [e] at hs; cases hs; exact same _ rfl rfl rfl
    | some x => rw [e] at hs; cases hs; exact same _ rfl rfl rfl
  | walkerSetDwell k i =>
    simp only [World.step] at hs
    unfold simple World.walkerSetDwell walkerOf at hs
    cases e : w.walkers.get? k with
    | none => rw [e] at hs; cases hs; exact same _ rfl rfl rfl
    | some x => rw [e] at hs; cases hs; exact same _ rfl rfl rfl
  | initializeWalkers l =>
    simp only [World.step, Prod.mk.injEq] at hs
    rw [← hs.2]
    unfold World.initializeWalkers
    split
    · exact same _ rfl rfl rfl
    · exact (h.initWalkers l (hr.mono (by omega) le_rfl (by omega))).2.mono hr.rate (by omega) le_rfl (by omega)
  | hop wid k a =>
    obtain ⟨n, rfl⟩ := hhop wid k a rfl
    simp only [World.step, Prod.mk.injEq] at hs
    obtain ⟨h1, rfl⟩ := hs
    obtain ⟨⟨r, w'⟩, hf⟩ : ∃ p, w.hop env mem wid k a = p := ⟨_, rfl⟩
    rw [hf] at h1 ⊢
    cases r with
    | error e => cases h1
    | ok u =>
      unfold World.hop at hf
      split at hf
      · cases hf
      · next j w1 hm =>
        have hk := hst.hopMove_keep hm
        have hm1 := (h.hopMove (hr.mono le_rfl le_rfl (by omega)) wid k a).2 j w1 hm
        exact (hm1.hopCount (env := env) hr (hst.keep hk) (hall.keep hk) (hsh.keep hk) a j).2 _ _ hf
  | removeWalker wid k =>
    simp only [World.step] at hs
    have := (h.removeWalker (hr.mono le_rfl (by omega) (by omega)) wid k).2
    unfold simple at hs
    split at hs
    · next w1 e => cases hs; exact (this _ e).mono hr.rate le_rfl (by omega) (by omega)
    · cases hs; exact same _ rfl rfl rfl
  | getVisitFrequencyOfSite i =>
    simp only [World.step] at hs
    have := (h.visitFrequency (hr.mono (by omega) (by omega) (by omega)) hst hall hsh i).2
    rw [hs] at this
    exact this.mono hr.rate (by omega) (by omega) (by omega)
  | elsewhere k =>
    simp only [World.step] at hs
    split at hs
    · cases hs; exact same _ rfl rfl rfl
    · next next hn =>
      cases hs
      obtain ⟨rfl, -⟩ := chk_eq_ok.1 hn
      refine ⟨?_, ?_, fun i s hs => ?_, fun c x hx => (h.cluster c x hx).mono hr.rate (by omega) (by omega), ?_⟩
      · have := h.lo0; omega
      · have := h.up0; omega
      · have := h.site i s hs; omega
      · have := h.ids
        show 0 ≤ w.nextId + k ∧ w.nextId + k ≤ top + (k : Nat)
        omega

theorem total_snoc (f : Op K → Nat) (evs : List (Event K)) (ev : Event K) (op : Op K) :
    total f (evs ++ [ev]) op = total f evs ev.op + f op := by
  simp [total, Nat.add_assoc]

/-- The counters after a history. -/
theorem Trace.small {n : Nat} {evs : List (Event K)} (ht : Trace env (World.new n) evs w) (hu : HopsReturn evs)
    (hf : RatesFixed mem evs) (hp : RatesPositive mem evs) {r R : K} (hr0 : 0 < r) (hw : Within mem r R w)
    (hκ : κ = (R / (r * r) + 1) / 2)
    (hroom : Room ((evs.map fun ev => departures ev.op).sum : Nat) ((evs.map fun ev => arrivals ev.op).sum : Nat)
      (n + (evs.map fun ev => idsTaken ev.op).sum : Nat) κ) :
    Small ((evs.map fun ev => departures ev.op).sum : Nat) ((evs.map fun ev => arrivals ev.op).sum : Nat)
      (n + (evs.map fun ev => idsTaken ev.op).sum : Nat) κ w := by
  generalize hw0 : (World.new n : World K) = w0 at ht
  induction ht with
  | nil =>
    subst hw0
    refine ⟨le_rfl, le_rfl, fun i s hs => ?_, fun c x hx => ?_, ?_⟩
    · cases hs
    · cases hx
    · show 0 ≤ (n : Int) ∧ (n : Int) ≤ ((n + 0 : Nat) : Int)
      omega
  | @snoc w1 w' evs op res mem' ht h hr ih =>
    obtain ⟨hu1, hu2⟩ := hopsReturn_snoc hu
    have hf1 : RatesFixed mem evs := fun ev he => hf ev (List.mem_append_left _ he)
    have hp1 : RatesPositive mem evs := fun ev he => hp ev (List.mem_append_left _ he)
    have hmem : mem' = mem := hf _ (List.mem_append_right _ (List.mem_singleton_self _))
    subst hmem
    subst hw0
    simp only [List.map_append, List.map_cons, List.map_nil, List.sum_append, List.sum_cons, List.sum_nil, Nat.add_zero] at hroom ⊢
    have hst := ht.struct hu1
    have hw1 := hw.step hst h hr hu2
    have hsm := ih hu1 hf1 hp1 hw1 (hroom.mono (by omega) (by omega) (by omega))
    have := hsm.step (op := op) (hroom.mono (by omega) (by omega) (by omega)) hst (ht.settled hu1 hf1 hp1)
      (by rw [hκ]; exact ht.shares hu1 hf1 hp1 hr0 hw1) h hu2
    exact this.mono hroom.rate (by omega) (by omega) (by omega)

/-- The next call after a history ends without overflow. -/
theorem Trace.calm {n : Nat} {evs : List (Event K)} (ht : Trace env0 (World.new n) evs w) (hu : HopsReturn evs)
    (hf : RatesFixed mem evs) (hp : RatesPositive mem evs) {r R : K} (hr0 : 0 < r) (hR : 0 < R) (hw : Within mem r R w)
    (hm : ∀ ev ∈ evs, ∀ n, ev.op = .setMinThreshold n → 0 ≤ n) {op : Op K} (hop : SensibleCall mem op) (hfit : Fits n r R evs op) :
    Calm (w.step env mem op).1 := by
  obtain ⟨κ, hκ⟩ : ∃ κ : K, κ = (R / (r * r) + 1) / 2 := ⟨_, rfl⟩
  have hroom : Room ((total departures evs op : Nat) : Int) (total arrivals evs op : Nat) (n + total idsTaken evs op : Nat) κ := by
    refine ⟨?_, by have := hfit.departures; omega, ?_, by have := hfit.ids; omega⟩
    · rw [hκ]
      have : 0 < R / (r * r) := div_pos hR (mul_pos hr0 hr0)
      linarith
    · have := hfit.arrivals
      rw [hκ]
      push_cast
      linarith
  unfold total at hroom
  have hst := ht.struct hu
  have hall := ht.settled hu hf hp
  have hsh : AllShares κ w := by rw [hκ]; exact ht.shares hu hf hp hr0 hw
  have h := ht.small hu hf hp hr0 hw hκ (hroom.mono (by omega) (by omega) (by omega))
  replace hroom := hroom.mono (lo' := ((evs.map fun ev => departures ev.op).sum : Nat) + departures op)
    (up' := ((evs.map fun ev => arrivals ev.op).sum : Nat) + arrivals op)
    (top' := (n + (evs.map fun ev => idsTaken ev.op).sum : Nat) + idsTaken op) (by omega) (by omega) (by omega)
  generalize (((evs.map fun ev => departures ev.op).sum : Nat) : Int) = lo at *
  generalize (((evs.map fun ev => arrivals ev.op).sum : Nat) : Int) = up at *
  generalize (((n + (evs.map fun ev => idsTaken ev.op).sum : Nat)) : Int) = top at *
  cases op with
  | setTimeResolution t =>
    refine Calm.map ?_
    unfold World.setTimeResolution
    split
    · exact .err soft_invalid
    · exact .ok _
  | setMinThreshold n => exact .ok _
  | setRandomSeed n =>
    refine Calm.map ?_
    unfold World.setRandomSeed
    split
    · exact .err soft_runtime
    · exact .ok _
  | setPerformanceRatio n => exact .ok _
  | initializeSystem m => exact Calm.map (initializeSystem_calm hop)
  | newWalker n => exact .ok _
  | walkerOccupy k i => exact simple_calm (.bind (w.walkerOf_calm k) fun _ _ => .ok _)
  | walkerSetPotential k i => exact simple_calm (.bind (w.walkerOf_calm k) fun _ _ => .ok _)
  | walkerSetDwell k i => exact simple_calm (.bind (w.walkerOf_calm k) fun _ _ => .ok _)
  | initializeWalkers l =>
    refine Calm.map ?_
    unfold World.initializeWalkers
    split
    · exact .err soft_runtime
    · exact (h.initWalkers l (hroom.mono (by omega) le_rfl (by omega))).1
  | hop wid k a =>
    refine Calm.map ?_
    unfold World.hop
    obtain ⟨m1, m2⟩ := h.hopMove (hroom.mono le_rfl le_rfl (by omega)) wid k a
    split
    · next e he => exact m1.of_eq he
    · next j w1 he =>
      have hk := hst.hopMove_keep he
      obtain ⟨p1, p2, p3⟩ := ht.pace hu
      obtain ⟨b1, b2, b3, b4⟩ := pace_bounds hm
      obtain ⟨s1, s2, s3, -⟩ := hopMove_scalars he
      have hn : ((hopsIn evs : Nat) : Int) < 2 ^ 30 := by exact_mod_cast hfit.hops
      exact ((m2 j w1 he).hopCount (env := env) hroom (hst.keep hk) (hall.keep hk) (hsh.keep hk) a j).1
        (fitsInt_of (by omega) (by omega)) (fun _ _ => fitsInt_of (by omega) (by omega))
  | removeWalker wid k => exact simple_calm (h.removeWalker (hroom.mono le_rfl (by omega) (by omega)) wid k).1
  | getVisitFrequencyOfSite i => exact (h.visitFrequency (hroom.mono (by omega) (by omega) (by omega)) hst hall hsh i).1
  | elsewhere k =>
    have := h.ids
    have := hroom.top
    simp only [World.step]
    rw [chk_ok (fitsInt_of (by omega) (by
      have : idsTaken (Op.elsewhere k : Op K) = k := rfl
      omega))]
    exact .ok _

end World
end Mythical
