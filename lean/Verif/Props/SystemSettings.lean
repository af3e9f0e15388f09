import Verif.Lemmas.SystemTwoWay
import Verif.Lemmas.SystemSolid
import Verif.Lemmas.SystemWitness

/-! # The settings of the system (C75) -/

set_option linter.unusedSectionVars false

namespace Mythical
open World SystemSpec
variable {K : Type} [Field K] [LinearOrder K] [IsStrictOrderedRing K] [FloorRing K]

theorem World.lastSet_snoc {α : Type} {sets : World.Op K → Option α} {evs : List (Event K)} {ev : Event K} {a : α} :
    LastSet sets (evs ++ [ev]) a ↔ sets ev.op = some a ∨ (sets ev.op = none ∧ LastSet sets evs a) := by
  constructor
  · rintro ⟨b, x, l, e, h1, h2⟩
    rcases List.eq_nil_or_concat l with rfl | ⟨l', y, rfl⟩
    · obtain ⟨-, e⟩ := List.append_inj' e rfl
      cases e
      exact .inl h1
    · rw [List.concat_eq_append, ← List.cons_append, ← List.append_assoc] at e
      obtain ⟨e1, e2⟩ := List.append_inj' e rfl
      cases e2
      exact .inr ⟨h2 _ (by simp), b, x, l', e1, h1, fun z hz => h2 z (by simp [hz])⟩
  · rintro (h | ⟨h, b, x, l, rfl, h1, h2⟩)
    · exact ⟨evs, ev, [], rfl, h, fun _ h => nomatch h⟩
    · refine ⟨b, x, l ++ [ev], by simp, h1, fun z hz => ?_⟩
      rcases List.mem_append.1 hz with hz | hz
      · exact h2 z hz
      · rw [List.mem_singleton.1 hz]; exact h

theorem World.lastSet_nil {α : Type} {sets : World.Op K → Option α} {a : α} : ¬ LastSet sets ([] : List (Event K)) a := by
  rintro ⟨b, x, l, e, -⟩
  simp at e

/-- **C75** (time resolution). At every moment `getTimeResolution` returns the positive value given in the last call that gave
one, whatever calls were made since; it throws a `runtime_error` if there is none. So the time resolution is always positive. -/
theorem C75_resolution (env : Env K) (n0 : Nat) (evs : List (Event K)) (w : World K) (ht : Trace env (World.new n0) evs w)
    (hu : HopsReturn evs) :
    (∀ t, w.getTimeResolution = .ok t ↔ LastSet resolutionSet evs t) ∧
    ((∀ t, ¬ LastSet resolutionSet evs t) → w.getTimeResolution = .error .runtimeError) := by
  have key : ∀ t, w.timeRes = some t ↔ LastSet resolutionSet evs t := by
    generalize hw0 : (World.new n0 : World K) = w0 at ht
    induction ht with
    | nil =>
      subst hw0
      exact fun t => ⟨fun h => (nomatch h), fun h => absurd h lastSet_nil⟩
    | @snoc w1 w' evs op res mem' ht h hr ih =>
      obtain ⟨hu1, hu2⟩ := hopsReturn_snoc hu
      subst hw0
      intro t
      rw [lastSet_snoc]
      show _ ↔ resolutionSet op = some t ∨ (resolutionSet op = none ∧ _)
      by_cases hop : ∃ t', op = .setTimeResolution t' ∧ 0 < t'
      · obtain ⟨t', rfl, h0⟩ := hop
        have e : w'.timeRes = some t' := by
          simp only [step, Prod.mk.injEq] at h
          rw [← h.2]
          unfold World.setTimeResolution
          rw [if_neg (not_le.2 h0)]
        simp [resolutionSet, h0, e]
      · have hn : resolutionSet op = none := by
          cases op with
          | setTimeResolution t' =>
            have : ¬ 0 < t' := fun h => hop ⟨t', rfl, h⟩
            simp [resolutionSet, this]
          | _ => rfl
        rcases step_timeRes_eq (ht.struct hu1) h hr hu2 with e | ⟨t', rfl, h0, e⟩
        · rw [e, ih hu1 t, hn]; simp
        · exact absurd ⟨t', rfl, h0⟩ hop
  constructor
  · intro t
    rw [← key]
    unfold World.getTimeResolution
    split <;> simp_all
  · intro hn
    unfold World.getTimeResolution
    split
    · rfl
    · next t e => exact absurd ((key t).1 e) (hn t)

/-- **C75** (performance ratio). At every moment the performance ratio is the value given in the last call of
`setPerformanceRatio`, and 1 before the first. -/
theorem C75_ratio (env : Env K) (n0 : Nat) (evs : List (Event K)) (w : World K) (ht : Trace env (World.new n0) evs w)
    (hu : HopsReturn evs) : LastSet ratioSet evs w.perfRatio ∨ ((∀ r, ¬ LastSet ratioSet evs r) ∧ w.perfRatio = 1) := by
  generalize hw0 : (World.new n0 : World K) = w0 at ht
  induction ht with
  | nil => subst hw0; exact .inr ⟨fun r => lastSet_nil, rfl⟩
  | @snoc w1 w' evs op res mem' ht h hr ih =>
    obtain ⟨hu1, hu2⟩ := hopsReturn_snoc hu
    subst hw0
    simp only [lastSet_snoc]
    by_cases hop : ∃ r, op = .setPerformanceRatio r
    · obtain ⟨r, rfl⟩ := hop
      left; left
      simp only [step, Prod.mk.injEq] at h
      rw [← h.2]; rfl
    · have hn : ratioSet op = none := by
        cases op with
        | setPerformanceRatio r => exact absurd ⟨r, rfl⟩ hop
        | _ => rfl
      rcases step_ratio (ht.struct hu1) h hr hu2 with e | ⟨r, rfl, -⟩
      · rw [e, hn]
        rcases ih hu1 with h | ⟨h1, h2⟩
        · exact .inl (.inr ⟨rfl, h⟩)
        · exact .inr ⟨fun r h => h.elim (fun h => nomatch h) fun h => h1 r h.2, h2⟩
      · exact absurd ⟨r, rfl⟩ hop

/-- **C75** (checks). `setTimeResolution` accepts exactly the positive values, `setRandomSeed` exactly those given before any site
is known. A refused call throws (`invalid_argument`, `runtime_error`) and changes nothing. -/
theorem C75_checks (env : Env K) (n0 : Nat) (evs : List (Event K)) (w : World K) (ht : Trace env (World.new n0) evs w)
    (hu : HopsReturn evs) (ev : Event K) (hev : ev ∈ evs) :
    (∀ t, ev.op = .setTimeResolution t →
      (0 < t → ev.res = .ok 0) ∧ (t ≤ 0 → ev.res = .error .invalidArgument ∧ ev.post = ev.pre)) ∧
    (∀ n, ev.op = .setRandomSeed n →
      ((∀ i, ¬ Known ev.pre i) → ev.res = .ok 0) ∧
      ((∃ i, Known ev.pre i) → ev.res = .error .runtimeError ∧ ev.post = ev.pre)) := by
  obtain ⟨before, after, rfl⟩ := List.append_of_mem hev
  obtain ⟨h1, hstep, -, -⟩ := ht.prefix rfl
  have hst := h1.struct fun e he => hu e (List.mem_append_left _ he)
  constructor
  · intro t ho
    rw [ho] at hstep
    simp only [step, Prod.mk.injEq] at hstep
    constructor
    · intro h0
      rw [← hstep.1]
      unfold World.setTimeResolution
      rw [if_neg (not_le.2 h0)]
      rfl
    · intro h0
      rw [← hstep.1, ← hstep.2]
      unfold World.setTimeResolution
      rw [if_pos h0]
      exact ⟨rfl, rfl⟩
  · intro n ho
    rw [ho] at hstep
    simp only [step, Prod.mk.injEq] at hstep
    constructor
    · intro hno
      have : ev.pre.feats = [] := by
        cases hf : ev.pre.feats with
        | nil => rfl
        | cons p l =>
          exfalso
          refine hno p.1 (known_iff.2 fun hn => ?_)
          have := (hst.known p.1).2 hn
          rw [IMap.get?_of_mem hst.featsWF (v := p.2) (by rw [hf]; exact List.mem_cons_self)] at this
          cases this
      rw [← hstep.1]
      unfold World.setRandomSeed
      rw [this]
      rfl
    · rintro ⟨i, hi⟩
      have : ev.pre.feats.length ≠ 0 := by
        intro h0
        have h0 := List.length_eq_zero_iff.1 h0
        exact known_iff.1 hi ((hst.known i).1 (by rw [h0]; rfl))
      rw [← hstep.1, ← hstep.2]
      unfold World.setRandomSeed
      rw [if_pos this]
      exact ⟨rfl, rfl⟩

/-! ## A history with refused settings -/

/-- Settings before and after the initialisation, two of which are refused. -/
def World.settingOps : List (World.Op ℚ) := [
  .setTimeResolution 1, .setRandomSeed 7, .initializeSystem sysMap, .setTimeResolution (-2), .setRandomSeed 8,
  .newWalker 10, .walkerOccupy 10 1, .setPerformanceRatio 3, .setTimeResolution (1 / 2),
  .initializeWalkers [⟨0, 10, 1, 1 / 2⟩], .setTimeResolution 0, .hop 0 10 (witChoice (1 / 2) [1 / 100])]

/-- The history of these calls. -/
def World.settingEvs : List (Event ℚ) := (runOps Cluster.witEnv sysRates (World.new 0) settingOps).1

/-- The world it leads to. -/
def World.settingWorld : World ℚ := (runOps Cluster.witEnv sysRates (World.new 0) settingOps).2

theorem World.settingTrace : Trace Cluster.witEnv (World.new 0) settingEvs settingWorld := runOps_trace (by decide +kernel)

theorem World.settingUsage : Usage settingEvs := usageB_iff (by decide +kernel)

example : settingEvs.length = 12 := by decide +kernel

/-- The time resolution is 1/2 in the end. -/
example : LastSet resolutionSet settingEvs (1 / 2) :=
  ((C75_resolution _ 0 _ _ settingTrace settingUsage.hopsReturn).1 _).1 (by decide +kernel)

example : LastSet ratioSet settingEvs 3 := by
  have h : settingWorld.perfRatio = 3 := by decide +kernel
  rcases C75_ratio _ 0 _ _ settingTrace settingUsage.hopsReturn with h' | ⟨-, h'⟩
  · rwa [h] at h'
  · rw [h] at h'; exact absurd h' (by norm_num)

/-- The calls number 3 and 4 are refused. -/
example : (settingEvs[3]'(by decide +kernel)).post = (settingEvs[3]'(by decide +kernel)).pre ∧
    (settingEvs[4]'(by decide +kernel)).res = .error .runtimeError := by
  constructor
  · exact (((C75_checks _ 0 _ _ settingTrace settingUsage.hopsReturn _ (List.getElem_mem (n := 3) _)).1 (-2) (by rfl)).2 (by norm_num)).2
  · exact (((C75_checks _ 0 _ _ settingTrace settingUsage.hopsReturn _ (List.getElem_mem (n := 4) _)).2 8 (by rfl)).2
      ⟨1, unassignedId, by decide +kernel⟩).1

end Mythical
