import Verif.Lemmas.LineLoops
import Mathlib.Data.Rat.Floor

/-!
# C108: the sampling of the current in the simulation on a line (regression/test_1Dsystem.cpp)

What the library returns for the hops is arbitrary here.
-/

namespace Mythical
open LineSpec Line

variable {K : Type} [Field K] [LinearOrder K] [IsStrictOrderedRing K]
variable {d : Int} {cutoff nm : K} {sampleRate : Int} {fuel : Nat} {runs : List ((List (K × Int) → Int × K) × K)} {l : List (Rep K)}

theorem Line.simulate_eq (hc : 0 < cutoff) (hr : 0 < sampleRate) : ∃ n : Nat, (n : Int) = sampleRate ∧ 0 < n ∧
    0 < cutoff / (sampleRate : K) ∧ cutoff = n * (cutoff / (sampleRate : K)) ∧
    simulate d cutoff nm sampleRate fuel runs = repetitions d cutoff (cutoff / sampleRate) nm n fuel runs (cutoff / sampleRate) := by
  have hsK : (0 : K) < (sampleRate : K) := by exact_mod_cast hr
  have hpos := div_pos hc hsK
  have e : ((sampleRate.toNat : Nat) : Int) = sampleRate := Int.toNat_of_nonneg hr.le
  refine ⟨sampleRate.toNat, e, by omega, hpos, ?_, ?_⟩
  · have : ((sampleRate.toNat : Nat) : K) = (sampleRate : K) := by
      rw [← Int.cast_natCast, e]
    rw [this]
    field_simp
  · unfold simulate quot
    rw [if_neg hsK.ne', ok_bind, if_neg (not_le.2 hpos)]

/-- **C108**. No entry outside of the vector is written, whatever the hops are: on the line the repetitions can only fail through a
first dwell time that is not below the cutoff, or not come to an end. -/
theorem C108_in_range (hc : 0 < cutoff) (hr : 0 < sampleRate) (hM : sampleRate ≤ INT_MAX) {f : Fault}
    (h : simulate d cutoff nm sampleRate fuel runs = .error f) (h0 : 0 < d) (hd : d ≤ INT_MAX) (hl : ∀ hf ∈ runs, OnLine d hf.1) :
    f = .outOfFuel ∨ f = .assertFail ∧ ∃ hf ∈ runs, cutoff ≤ hf.2 := by
  obtain ⟨n, hn, hn0, hinc, hcut, e⟩ := simulate_eq (d := d) (nm := nm) (fuel := fuel) (runs := runs) hc hr
  rw [e] at h
  rcases repetitions_fault hinc hcut hn0 (by omega) runs _ le_rfl h with h | h | ⟨hf, hm, s1, h1, h2⟩
  · exact .inl h
  · exact .inr h
  · exact .inl (inner_fault (hl hf hm) hd fuel h2 (h1 (hl hf hm) h0))

/-- Hops from site to site in one direction, half a second on each. -/
def Line.march (l : List (ℚ × Int)) : Int × ℚ := (l.length + 1, 1 / 2)

/-- Two repetitions with these hops, two samples in two seconds. The first one takes up all samples. -/
def Line.marches : Except Fault (List (Rep ℚ)) := simulate 10 2 1 2 20 [(march, 1 / 2), (march, 1 / 2)]

/-- It comes to its end; with a first dwell time of 2 it does not. -/
example : (marches.map fun l => l.map fun s => (s.currents, s.pos)) = .ok [([1, 2], 3), ([5, 0], 5)] ∧
    (simulate 10 2 1 2 20 [(march, 2)]).map (fun _ => 0) = .error .assertFail := by decide +kernel

/-- **C108**. The entries of a repetition add up to the distance from site 0 to the last site reached, in metres per sampling
interval. -/
theorem C108_sum (hc : 0 < cutoff) (hr : 0 < sampleRate) (h : simulate d cutoff nm sampleRate fuel runs = .ok l) {s : Rep K} (hs : s ∈ l) :
    (s.currents.length : Int) = sampleRate ∧ s.currents.sum = s.pos * nm / (cutoff / sampleRate) := by
  obtain ⟨n, hn, hn0, hinc, hcut, e⟩ := simulate_eq (d := d) (nm := nm) (fuel := fuel) (runs := runs) hc hr
  rw [e] at h
  obtain ⟨r, hr'⟩ := List.mem_iff_getElem?.1 hs
  obtain ⟨hf, -, hS, -, hrep⟩ := (repetitions_get hinc hcut hn0 runs _ le_rfl h).2 r s hr'
  obtain ⟨m, hm⟩ := repetition_ok hinc hcut hn0 hS hrep
  exact ⟨by rw [hm.len, hn], hm.sum⟩

/-- **C108**. So the mean current that the program prints is the sum of the distances reached, in metres, per cutoff time and
repetition. -/
theorem C108_mean (hc : 0 < cutoff) (hr : 0 < sampleRate) (h : simulate d cutoff nm sampleRate fuel runs = .ok l) (hne : runs ≠ []) :
    mean (l.map Rep.currents) = .ok ((l.map fun s => (s.pos : K)).sum * nm / cutoff / runs.length) := by
  have hsK : (0 : K) < (sampleRate : K) := by exact_mod_cast hr
  obtain ⟨n, hn, hn0, hinc, hcut, e⟩ := simulate_eq (d := d) (nm := nm) (fuel := fuel) (runs := runs) hc hr
  have hlen : l.length = runs.length := (repetitions_get hinc hcut hn0 runs _ le_rfl (e ▸ h)).1
  have h1 : ((l.map Rep.currents).map List.sum).sum = (l.map fun s => (s.pos : K)).sum * nm / (cutoff / sampleRate) := by
    have : ∀ l' : List (Rep K), (∀ s ∈ l', s ∈ l) →
        ((l'.map Rep.currents).map List.sum).sum = (l'.map fun s => (s.pos : K)).sum * nm / (cutoff / sampleRate) := by
      intro l' hl'
      induction l' with
      | nil => simp
      | cons s l' ih =>
        simp only [List.map_cons, List.sum_cons]
        rw [ih fun x hx => hl' x (by simp [hx]), (C108_sum hc hr h (hl' s (by simp))).2]
        ring
    exact this l fun _ h => h
  have h2 : ((l.map Rep.currents).map fun t => (t.length : K)).sum = runs.length * sampleRate := by
    have : ∀ l' : List (Rep K), (∀ s ∈ l', s ∈ l) → ((l'.map Rep.currents).map fun t => (t.length : K)).sum = l'.length * sampleRate := by
      intro l' hl'
      induction l' with
      | nil => simp
      | cons s l' ih =>
        simp only [List.map_cons, List.sum_cons]
        have hs := (C108_sum hc hr h (hl' s (by simp))).1
        have hs' : (s.currents.length : K) = sampleRate := by rw [← Int.cast_natCast, hs]
        rw [ih fun x hx => hl' x (by simp [hx]), hs', List.length_cons]
        push_cast
        ring
    rw [this l fun _ h => h, hlen]
  have hr0 : (0 : K) < runs.length := by exact_mod_cast List.length_pos_iff.2 hne
  unfold mean quot
  rw [h1, h2, if_neg (mul_pos hr0 hsK).ne']
  congr 1
  field_simp

/-- In the two repetitions above: the sites 3 and 5 are reached. -/
example : (marches.bind fun l => mean (l.map Rep.currents)) = .ok ((3 + 5) * 1 / 2 / 2) := by decide +kernel

/-- **C108** (what the entries are). Let `N` be the number of samples taken in the repetitions before. The entries of a repetition are the
currents in windows that end `N` sampling intervals late; the first window begins at time 0. -/
theorem C108_windows (hc : 0 < cutoff) (hr : 0 < sampleRate) (h : simulate d cutoff nm sampleRate fuel runs = .ok l)
    (hd : ∀ hf ∈ runs, NonnegTimes hf.1 ∧ 0 ≤ hf.2) {r : Nat} {s : Rep K} (hs : l[r]? = some s) {N : Int}
    (hN : N = ((l.take r).map Rep.index).sum) {inc : K} (hi : inc = cutoff / sampleRate) {k : Nat} (hk : (k : Int) < sampleRate) :
    s.currents[k]? = some (gained s.log (if k = 0 then 0 else (N + k) * inc) ((N + k + 1) * inc) * nm / inc) := by
  subst hi
  obtain ⟨n, hn, hn0, hinc, hcut, e⟩ := simulate_eq (d := d) (nm := nm) (fuel := fuel) (runs := runs) hc hr
  rw [e] at h
  obtain ⟨hf, hm, hS, -, hrep⟩ := (repetitions_get hinc hcut hn0 runs _ le_rfl h).2 r s hs
  obtain ⟨hd1, hd2⟩ := hd hf (List.mem_iff_getElem?.2 ⟨r, hm⟩)
  rw [← hN] at hS hrep
  obtain ⟨m, hh, hT, -⟩ := repetition_told hd1 hd2 hinc hcut hn0 hS hrep
  have hkl : k < s.currents.length := by rw [hh.len]; omega
  have hget : s.currents[k]? = some (s.currents.getD k 0) := by
    rw [List.getD_eq_getElem?_getD, List.getElem?_eq_getElem hkl]
    rfl
  rw [hget, Option.some_inj]
  generalize cutoff / (sampleRate : K) = inc at *
  have e1 : lower inc (inc + (N : K) * inc) k = if k = 0 then 0 else (N + k) * inc := by
    unfold lower
    split
    · rfl
    · ring
  have e2 : inc + (N : K) * inc + k * inc = (N + k + 1) * inc := by ring
  rw [← e1, ← e2]
  by_cases hkm : k < m
  · exact hT.entry k hkm
  · rw [hh.zero k (not_lt.1 hkm), gained_none fun a ha => .inl ((hT.past a ha).trans_le (lower_mono hinc (hinc.trans_le hS) (not_lt.1 hkm)))]
    ring

/-- **C108** (what holds of the intended windows). In the first repetition entry `k` is the current in the sampling interval `k`.
Missing: the other repetitions. -/
theorem C108_first_partial (hc : 0 < cutoff) (hr : 0 < sampleRate) (h : simulate d cutoff nm sampleRate fuel runs = .ok l)
    (hd : ∀ hf ∈ runs, NonnegTimes hf.1 ∧ 0 ≤ hf.2) {s : Rep K} (hs : l[0]? = some s) {inc : K} (hi : inc = cutoff / sampleRate) {k : Nat}
    (hk : (k : Int) < sampleRate) : s.currents[k]? = some (gained s.log (k * inc) ((k + 1) * inc) * nm / inc) := by
  rw [C108_windows hc hr h hd hs (N := 0) rfl hi hk]
  cases k with
  | zero => simp
  | succ k => simp

/-- **C108** (what is false of the intended windows). In the second of the two repetitions above, the first entry is 5, not the current
in the first sampling interval, and the second entry is 0. -/
theorem C108_windows_counterexample : ∃ (runs : List ((List (ℚ × Int) → Int × ℚ) × ℚ)) (l : List (Rep ℚ)) (s : Rep ℚ),
    (∀ hf ∈ runs, NonnegTimes hf.1 ∧ 0 ≤ hf.2) ∧ simulate 10 2 1 2 20 runs = .ok l ∧ l[1]? = some s ∧
    s.currents = [5, 0] ∧ gained s.log 0 1 * 1 / 1 = 1 ∧ gained s.log 1 2 * 1 / 1 = 2 := by
  have hm : marches.isOk = true := by decide +kernel
  obtain ⟨l, hl⟩ : ∃ l, marches = .ok l := by
    cases e : marches with
    | ok l => exact ⟨l, rfl⟩
    | error f => rw [e] at hm; cases hm
  have h1 : (marches.map fun l => l.map fun s => (s.currents, gained s.log 0 1 * 1 / 1, gained s.log 1 2 * 1 / 1)) =
      .ok [([1, 2], 1, 2), ([5, 0], 1, 2)] := by decide +kernel
  rw [hl] at h1
  have h1 := ok_inj.1 h1
  obtain ⟨a, b, rfl⟩ : ∃ a b, l = [a, b] := List.length_eq_two.1 (by simpa using congrArg List.length h1)
  simp only [List.map_cons, List.map_nil, List.cons.injEq, Prod.mk.injEq] at h1
  refine ⟨_, [a, b], b, fun hf h => ?_, hl, rfl, h1.2.1.1, h1.2.1.2.1, h1.2.1.2.2⟩
  have : hf = (march, 1 / 2) := by simpa using h
  subst this
  exact ⟨fun l => by unfold march; norm_num, by norm_num⟩

/-- **C108** (how far off). Once the repetitions before have taken all samples but one of a cutoff time or more, all of the
displacement of a repetition is in its first entry. -/
theorem C108_lumped (hc : 0 < cutoff) (hr : 0 < sampleRate) (h : simulate d cutoff nm sampleRate fuel runs = .ok l)
    (hd : ∀ hf ∈ runs, NonnegTimes hf.1 ∧ 0 ≤ hf.2) {r : Nat} {s : Rep K} (hs : l[r]? = some s)
    (hN : sampleRate ≤ ((l.take r).map Rep.index).sum + 1) :
    s.currents = (s.pos * nm / (cutoff / sampleRate)) :: List.replicate (sampleRate - 1).toNat 0 := by
  obtain ⟨n, hn, hn0, hinc, hcut, e⟩ := simulate_eq (d := d) (nm := nm) (fuel := fuel) (runs := runs) hc hr
  rw [e] at h
  obtain ⟨hf, hm, hS, -, hrep⟩ := (repetitions_get hinc hcut hn0 runs _ le_rfl h).2 r s hs
  obtain ⟨hd1, hd2⟩ := hd hf (List.mem_iff_getElem?.2 ⟨r, hm⟩)
  generalize ((l.take r).map Rep.index).sum = N at *
  obtain ⟨m, hh, hT, -⟩ := repetition_told hd1 hd2 hinc hcut hn0 hS hrep
  have hm1 : m ≤ 1 := by
    by_contra hm1
    have h1 := hT.began 1 (by omega)
    rw [show (1 : Nat) = 0 + 1 from rfl, lower_succ] at h1
    have h2 : (n : K) ≤ N + 1 := by
      have : ((n : Int) : K) ≤ ((N + 1 : Int) : K) := by exact_mod_cast hn ▸ hN
      push_cast at this
      exact this
    have h3 := mul_le_mul_of_nonneg_right h2 hinc.le
    rw [← hcut] at h3
    push_cast at h1
    linarith
  have hlen := hh.len
  have hsum := hh.sum
  have hz := hh.zero
  rcases hcur : s.currents with _ | ⟨a, t⟩
  · rw [hcur] at hlen
    simp at hlen
    omega
  · rw [hcur] at hlen hsum hz
    have ht : t = List.replicate (sampleRate - 1).toNat 0 := by
      rw [List.eq_replicate_iff]
      refine ⟨by simp at hlen; omega, fun b hb => ?_⟩
      obtain ⟨k, hk⟩ := List.mem_iff_getElem?.1 hb
      have := hz (k + 1) (by omega)
      rw [List.getD_cons_succ, List.getD_eq_getElem?_getD, hk] at this
      exact this
    rw [ht, List.sum_cons, List.sum_replicate, smul_zero, add_zero] at hsum
    rw [ht, hsum]

/-- The first repetition above takes two samples. -/
example : (marches.map fun l => (2 ≤ ((l.take 1).map Rep.index).sum + 1 : Bool)) = .ok true := by decide +kernel

end Mythical
