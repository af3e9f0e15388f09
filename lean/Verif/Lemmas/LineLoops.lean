import Verif.Spec.Line
import Verif.Lemmas.Cuboid

/-! # The loops of the simulation on the line: helper lemmas -/

set_option linter.unusedSectionVars false

namespace Mythical.Line
open LineSpec

variable {K : Type} [Field K] [LinearOrder K] [IsStrictOrderedRing K]
variable {d : Int} {hop : List (K × Int) → Int × K}

/-- What the inner loop does. -/
structure Inner (s s' : Rep K) (new : List (K × Int)) : Prop where
  log : s'.log = s.log ++ new
  dx : s'.deltaX = s.deltaX + total new
  pos : (s'.pos : K) = s.pos + total new
  early : ∀ h ∈ new, h.1 < s.sampleTime
  time : ∀ t, s'.time = some t → s.sampleTime ≤ t
  index : s'.index = s.index
  sample : s'.sampleTime = s.sampleTime
  currents : s'.currents = s.currents

theorem total_append (a b : List (K × Int)) : total (a ++ b) = total a + total b := by simp [total]

theorem inner_ok : ∀ (fuel : Nat) {s s' : Rep K}, inner d hop fuel s = .ok s' → ∃ new, Inner s s' new
  | 0, s, s', h => by cases h
  | fuel + 1, s, s', h => by
    unfold inner at h
    split at h
    · next ht =>
      obtain rfl := ok_inj.1 h
      exact ⟨[], by simp, by simp [total], by simp [total], by simp, by simp [ht], rfl, rfl, rfl⟩
    · next t ht =>
      split at h
      · next hlt =>
        obtain ⟨dx, hdx, h⟩ := bind_eq_ok.1 h
        obtain ⟨last, -, h⟩ := bind_eq_ok.1 h
        obtain ⟨new, hn⟩ := inner_ok fuel h
        obtain ⟨rfl, -⟩ := chk_eq_ok.1 hdx
        refine ⟨(t, (hop s.log).1 - s.pos) :: new, ?_, ?_, ?_, ?_, hn.time, hn.index, hn.sample, hn.currents⟩
        · rw [hn.log]; simp
        · rw [hn.dx]; simp [total]; ring
        · rw [hn.pos]
          simp only [total, List.map_cons, List.sum_cons]
          push_cast
          ring
        · intro x hx
          rcases List.mem_cons.1 hx with rfl | hx
          · exact hlt
          · exact hn.early x hx
      · next hlt =>
        obtain rfl := ok_inj.1 h
        refine ⟨[], by simp, by simp [total], by simp [total], by simp, fun t' e => ?_, rfl, rfl, rfl⟩
        rw [ht] at e
        cases e
        exact not_lt.1 hlt

/-- The times of the hops do not fall below that of the first one. -/
theorem inner_late (hd : NonnegTimes hop) {a : K} : ∀ (fuel : Nat) {s s' : Rep K}, inner d hop fuel s = .ok s' →
    (∀ t, s.time = some t → a ≤ t) → ∀ new, s'.log = s.log ++ new → (∀ h ∈ new, a ≤ h.1) ∧ ∀ t, s'.time = some t → a ≤ t
  | 0, s, s', h, _, _, _ => by cases h
  | fuel + 1, s, s', h, ha, new, hl => by
    unfold inner at h
    split at h
    · next ht =>
      obtain rfl := ok_inj.1 h
      have : new = [] := by simpa using hl
      subst this
      exact ⟨by simp, by simp [ht]⟩
    · next t ht =>
      split at h
      · next hlt =>
        obtain ⟨dx, hdx, h⟩ := bind_eq_ok.1 h
        obtain ⟨last, -, h⟩ := bind_eq_ok.1 h
        obtain ⟨new', hn⟩ := inner_ok fuel h
        have e := hn.log
        simp only [List.append_assoc, List.singleton_append] at e
        rw [hl] at e
        have e := List.append_cancel_left e
        subst e
        have := inner_late (a := a) hd fuel h (fun t' ht' => by
          simp only at ht'
          split at ht'
          · cases ht'
          · cases ht'
            have h1 := ha t ht
            have h2 : 0 ≤ (hop s.log).2 := hd s.log
            linarith) new' hn.log
        refine ⟨fun x hx => ?_, this.2⟩
        rcases List.mem_cons.1 hx with rfl | hx
        · exact ha t ht
        · exact this.1 x hx
      · next hlt =>
        obtain rfl := ok_inj.1 h
        have : new = [] := by simpa using hl
        subst this
        exact ⟨by simp, fun t' e => ha t' e⟩

/-- How the inner loop can fail if the hops stay on the line. -/
theorem inner_fault (hh : OnLine d hop) (hd : d ≤ INT_MAX) : ∀ (fuel : Nat) {s : Rep K} {f : Fault}, inner d hop fuel s = .error f →
    0 ≤ s.pos ∧ s.pos < d → f = .outOfFuel
  | 0, s, f, h, _ => by cases h; rfl
  | fuel + 1, s, f, h, hp => by
    have h1 := hh s.log
    have hM : INT_MAX = 2147483647 := rfl
    unfold inner at h
    split at h
    · cases h
    · split at h
      · rw [chk_ok (fitsInt_of (by omega) (by omega)), ok_bind, chk_ok (fitsInt_of (by omega) (by omega)), ok_bind] at h
        exact inner_fault hh hd fuel h h1
      · cases h

theorem inner_onLine (hh : OnLine d hop) : ∀ (fuel : Nat) {s s' : Rep K}, inner d hop fuel s = .ok s' →
    0 ≤ s.pos ∧ s.pos < d → 0 ≤ s'.pos ∧ s'.pos < d
  | 0, s, f, h, _ => by cases h
  | fuel + 1, s, f, h, hp => by
    unfold inner at h
    split at h
    · obtain rfl := ok_inj.1 h; exact hp
    · split at h
      · obtain ⟨dx, -, h⟩ := bind_eq_ok.1 h
        obtain ⟨last, -, h⟩ := bind_eq_ok.1 h
        exact inner_onLine hh fuel h (hh s.log)
      · obtain rfl := ok_inj.1 h; exact hp

variable {cutoff inc nm : K} {rate : Nat}

/-- What holds at the head of the outer loop after `n` rounds; `s0` is the first sampling time. -/
structure Head (inc nm s0 : K) (rate n : Nat) (s : Rep K) : Prop where
  index : s.index = n
  sample : s.sampleTime = s0 + n * inc
  len : s.currents.length = rate
  zero : ∀ k, n ≤ k → s.currents.getD k 0 = 0
  sum : s.currents.sum = s.pos * nm / inc
  time : 0 < n → ∀ t, s.time = some t → s0 + (n - 1) * inc ≤ t

theorem sum_set {l : List K} {k : Nat} (hk : k < l.length) (h0 : l.getD k 0 = 0) (x : K) : (l.set k x).sum = l.sum + x := by
  induction l generalizing k with
  | nil => simp at hk
  | cons a l ih =>
    cases k with
    | zero =>
      simp at h0
      simp [h0]
      ring
    | succ k =>
      simp only [List.set_cons_succ, List.sum_cons]
      rw [ih (by simpa using hk) (by simpa using h0)]
      ring

/-- One round of the outer loop. -/
theorem head_step {s0 : K} {n fuel : Nat} {s s1 : Rep K} (h : Head inc nm s0 rate n s)
    (hi : inner d hop fuel { s with deltaX := 0 } = .ok s1) (hn : n < rate) :
    Head inc nm s0 rate (n + 1) { s1 with currents := s1.currents.set s1.index.toNat (s1.deltaX * nm / inc), index := s1.index + 1,
                                          sampleTime := s1.sampleTime + inc } := by
  obtain ⟨new, hs⟩ := inner_ok fuel hi
  have e1 : s1.index = n := hs.index.trans h.index
  have e2 : s1.currents = s.currents := hs.currents
  have e3 : s1.sampleTime = s0 + n * inc := hs.sample.trans h.sample
  refine ⟨?_, ?_, ?_, fun k hk => ?_, ?_, fun _ t ht => ?_⟩
  · simp only [e1]; push_cast; ring
  · simp only [e3]; push_cast; ring
  · simp only [List.length_set, e2]; exact h.len
  · simp only [e1, Int.toNat_natCast, e2]
    rw [List.getD_eq_getElem?_getD, List.getElem?_set_ne (by omega), ← List.getD_eq_getElem?_getD]
    exact h.zero k (by omega)
  · simp only [e1, Int.toNat_natCast, e2]
    rw [sum_set (by rw [h.len]; exact hn) (h.zero n le_rfl), h.sum, hs.pos, hs.dx]
    ring
  · have := hs.time t ht
    have e : (s0 + ((n + 1 : Nat) - 1) * inc : K) = s0 + n * inc := by push_cast; ring
    rw [e, ← e3, hs.sample]
    exact this

/-- The index of the entry to be written is in range. -/
theorem head_lt {s0 : K} {n : Nat} {s : Rep K} {t : K} (h : Head inc nm s0 rate n s) (ht : s.time = some t) (hlt : t < cutoff)
    (hinc : 0 < inc) (hc : cutoff = rate * inc) (hr : 0 < rate) (h0 : inc ≤ s0) : n < rate := by
  rcases Nat.eq_zero_or_pos n with rfl | hn
  · exact hr
  · have h1 := h.time hn t ht
    have h2 : (n : K) * inc < rate * inc := by
      have : (n : K) * inc = inc + (n - 1) * inc := by ring
      rw [this, ← hc]
      linarith
    exact_mod_cast lt_of_mul_lt_mul_right h2 hinc.le

/-- The outer loop writes one entry per round, within the range of the vector. -/
theorem outer_ok {s0 : K} (hinc : 0 < inc) (hc : cutoff = rate * inc) (hr : 0 < rate) (h0 : inc ≤ s0) {fuel : Nat} :
    ∀ (m n : Nat) {s s' : Rep K}, Head inc nm s0 rate n s → outer d hop cutoff inc nm fuel m s = .ok s' →
      ∃ n', Head inc nm s0 rate n' s'
  | 0, _, _, _, _, h => by cases h
  | m + 1, n, s, s', hh, h => by
    unfold outer at h
    split at h
    · obtain rfl := ok_inj.1 h; exact ⟨n, hh⟩
    · next t ht =>
      split at h
      · next hlt =>
        obtain ⟨s1, hi, h⟩ := bind_eq_ok.1 h
        split at h
        · obtain ⟨i, hi', h⟩ := bind_eq_ok.1 h
          obtain ⟨rfl, -⟩ := chk_eq_ok.1 hi'
          exact outer_ok hinc hc hr h0 m (n + 1) (head_step hh hi (head_lt hh ht hlt hinc hc hr h0)) h
        · cases h
      · obtain rfl := ok_inj.1 h; exact ⟨n, hh⟩

/-- How the outer loop can fail. -/
theorem outer_fault {s0 : K} (hinc : 0 < inc) (hc : cutoff = rate * inc) (hr : 0 < rate) (h0 : inc ≤ s0) (hrate : (rate : Int) ≤ INT_MAX)
    {fuel : Nat} : ∀ (m n : Nat) {s : Rep K} {f : Fault}, Head inc nm s0 rate n s → outer d hop cutoff inc nm fuel m s = .error f →
      f = .outOfFuel ∨ ∃ s1 : Rep K, (OnLine d hop → 0 ≤ s.pos ∧ s.pos < d → 0 ≤ s1.pos ∧ s1.pos < d) ∧ inner d hop fuel s1 = .error f
  | 0, _, _, _, _, h => by cases h; exact .inl rfl
  | m + 1, n, s, f, hh, h => by
    unfold outer at h
    split at h
    · cases h
    · next t ht =>
      split at h
      · next hlt =>
        have hn := head_lt hh ht hlt hinc hc hr h0
        cases hi : inner d hop fuel { s with deltaX := 0 } with
        | error f' =>
          rw [hi] at h
          cases h
          exact .inr ⟨{ s with deltaX := 0 }, fun _ h => h, hi⟩
        | ok s1 =>
          rw [hi, ok_bind] at h
          obtain ⟨new, hs⟩ := inner_ok fuel hi
          have e1 : s1.index = n := hs.index.trans hh.index
          have e2 : s1.currents = s.currents := hs.currents
          rw [if_pos ⟨by omega, by rw [e1, e2, hh.len]; exact_mod_cast hn⟩] at h
          rw [chk_ok (show FitsInt (s1.index + 1) from ⟨by rw [e1]; unfold INT_MIN; omega, by rw [e1]; omega⟩), ok_bind] at h
          rcases outer_fault hinc hc hr h0 hrate m (n + 1) (head_step hh hi hn) h with h | ⟨s2, h2, h3⟩
          · exact .inl h
          · exact .inr ⟨s2, fun hon hp => h2 hon (inner_onLine (s := { s with deltaX := 0 }) (s' := s1) hon fuel hi hp), h3⟩
      · cases h

/-! ## The windows -/

theorem gained_append (a b : List (K × Int)) (x y : K) : gained (a ++ b) x y = gained a x y + gained b x y := by simp [gained]

theorem gained_none {l : List (K × Int)} {x y : K} (h : ∀ a ∈ l, a.1 < x ∨ y ≤ a.1) : gained l x y = 0 := by
  unfold gained
  rw [List.filter_eq_nil_iff.2]
  · rfl
  · intro a ha hc
    simp only [decide_eq_true_eq] at hc
    rcases h a ha with h | h
    · exact absurd hc.1 (not_le.2 h)
    · exact absurd hc.2 (not_lt.2 h)

theorem gained_all {l : List (K × Int)} {x y : K} (h : ∀ a ∈ l, x ≤ a.1 ∧ a.1 < y) : gained l x y = total l := by
  unfold gained total
  rw [List.filter_eq_self.2]
  intro a ha
  simpa using h a ha

/-- The start of window `k`. -/
def lower (inc s0 : K) (k : Nat) : K := if k = 0 then 0 else s0 + (k - 1) * inc

/-- What the entries written so far contain. -/
structure Told (cutoff inc nm s0 : K) (n : Nat) (s : Rep K) : Prop where
  began : ∀ k < n, lower inc s0 k < cutoff
  entry : ∀ k < n, s.currents.getD k 0 = gained s.log (lower inc s0 k) (s0 + k * inc) * nm / inc
  past : ∀ h ∈ s.log, h.1 < lower inc s0 n
  now : ∀ t, s.time = some t → lower inc s0 n ≤ t

theorem lower_succ (s0 : K) (n : Nat) : lower inc s0 (n + 1) = s0 + n * inc := by
  unfold lower
  rw [if_neg (by omega)]
  push_cast
  ring

theorem lower_mono {s0 : K} (hinc : 0 < inc) (h0 : 0 < s0) {a b : Nat} (h : a ≤ b) : lower inc s0 a ≤ lower inc s0 b := by
  obtain rfl | ⟨b, rfl⟩ : b = 0 ∨ ∃ b', b = b' + 1 := by cases b <;> simp
  · rw [Nat.le_zero.1 h]
  · rw [lower_succ]
    cases a with
    | zero => unfold lower; rw [if_pos rfl]; positivity
    | succ a =>
      rw [lower_succ]
      have : (a : K) ≤ b := by exact_mod_cast Nat.le_of_succ_le_succ h
      nlinarith

theorem told_step (hd : NonnegTimes hop) (hinc : 0 < inc) {s0 : K} (h0 : 0 < s0) {n fuel : Nat} {s s1 : Rep K} (h : Head inc nm s0 rate n s)
    (hT : Told cutoff inc nm s0 n s) (hi : inner d hop fuel { s with deltaX := 0 } = .ok s1) (hn : n < rate) {t0 : K}
    (ht0 : s.time = some t0) (hlt0 : t0 < cutoff) :
    Told cutoff inc nm s0 (n + 1) { s1 with currents := s1.currents.set s1.index.toNat (s1.deltaX * nm / inc), index := s1.index + 1,
                                            sampleTime := s1.sampleTime + inc } := by
  obtain ⟨new, hs⟩ := inner_ok fuel hi
  have hl := inner_late (a := lower inc s0 n) hd fuel hi (fun t ht => hT.now t ht) new hs.log
  have e1 : s1.index = n := hs.index.trans h.index
  have e2 : s1.currents = s.currents := hs.currents
  have elog : s1.log = s.log ++ new := hs.log
  have edx : s1.deltaX = total new := by rw [hs.dx]; simp
  have early : ∀ x ∈ new, x.1 < s0 + n * inc := fun x hx => by rw [← h.sample]; exact hs.early x hx
  refine ⟨fun k hk => ((lower_mono hinc h0 (Nat.le_of_lt_succ hk)).trans (hT.now t0 ht0)).trans_lt hlt0, fun k hk => ?_, fun x hx => ?_, fun t ht => ?_⟩
  · simp only [e1, Int.toNat_natCast, e2, elog]
    rw [gained_append]
    by_cases hkn : k = n
    · subst hkn
      rw [List.getD_eq_getElem?_getD, List.getElem?_set_self (by rw [h.len]; exact hn), Option.getD_some, edx,
        gained_none fun a ha => .inl (hT.past a ha), gained_all fun a ha => ⟨hl.1 a ha, early a ha⟩]
      ring
    · have hkn : k < n := by omega
      rw [List.getD_eq_getElem?_getD, List.getElem?_set_ne (by omega), ← List.getD_eq_getElem?_getD, hT.entry k hkn]
      rw [gained_none (l := new) fun a ha => .inr ?_, add_zero]
      rw [← lower_succ]
      exact (lower_mono hinc h0 hkn).trans (hl.1 a ha)
  · simp only [elog] at hx
    rw [lower_succ]
    rcases List.mem_append.1 hx with hx | hx
    · have := hT.past x hx
      have h2 := lower_mono (inc := inc) hinc h0 (Nat.le_succ n)
      rw [Nat.succ_eq_add_one, lower_succ] at h2
      exact this.trans_le h2
    · exact early x hx
  · rw [lower_succ, ← h.sample]
    exact hs.time t ht

/-- What the outer loop leaves behind. -/
theorem outer_told (hd : NonnegTimes hop) {s0 : K} (hinc : 0 < inc) (hc : cutoff = rate * inc) (hr : 0 < rate) (h0 : inc ≤ s0) {fuel : Nat} :
    ∀ (m n : Nat) {s s' : Rep K}, Head inc nm s0 rate n s → Told cutoff inc nm s0 n s → outer d hop cutoff inc nm fuel m s = .ok s' →
      ∃ n', Head inc nm s0 rate n' s' ∧ Told cutoff inc nm s0 n' s' ∧ (∀ t, s'.time = some t → cutoff ≤ t)
  | 0, _, _, _, _, _, h => by cases h
  | m + 1, n, s, s', hh, hT, h => by
    unfold outer at h
    split at h
    · next ht => obtain rfl := ok_inj.1 h; exact ⟨n, hh, hT, by simp [ht]⟩
    · next t ht =>
      split at h
      · next hlt =>
        obtain ⟨s1, hi, h⟩ := bind_eq_ok.1 h
        split at h
        · obtain ⟨i, hi', h⟩ := bind_eq_ok.1 h
          obtain ⟨rfl, -⟩ := chk_eq_ok.1 hi'
          have hn := head_lt hh ht hlt hinc hc hr h0
          exact outer_told hd hinc hc hr h0 m (n + 1) (head_step hh hi hn) (told_step hd hinc (hinc.trans_le h0) hh hT hi hn ht hlt) h
        · cases h
      · next hlt =>
        obtain rfl := ok_inj.1 h
        refine ⟨n, hh, hT, fun t' e => ?_⟩
        rw [ht] at e; cases e
        exact not_lt.1 hlt

/-! ## The repetitions -/

theorem head_start (s0 first : K) : Head inc nm s0 rate 0 ⟨some first, 0, 0, 0, s0, List.replicate rate 0, []⟩ :=
  ⟨rfl, by simp, by simp, fun k _ => by
    rw [List.getD_eq_getElem?_getD, List.getElem?_replicate]
    split <;> rfl, by simp, fun h => absurd h (lt_irrefl 0)⟩

theorem told_start_line (s0 : K) {first : K} (hf : 0 ≤ first) : Told cutoff inc nm s0 0 ⟨some first, 0, 0, 0, s0, List.replicate rate 0, []⟩ :=
  ⟨fun k hk => absurd hk (by omega), fun k hk => absurd hk (by omega), fun h hh => absurd hh List.not_mem_nil, fun t ht => by
    cases ht
    unfold lower
    rw [if_pos rfl]
    exact hf⟩

theorem repetition_ok {first S : K} {fuel : Nat} {s : Rep K} (hinc : 0 < inc) (hc : cutoff = rate * inc) (hr : 0 < rate) (hS : inc ≤ S)
    (h : repetition d hop first cutoff inc nm rate fuel S = .ok s) : ∃ n, Head inc nm S rate n s := by
  unfold repetition at h
  split at h
  · exact outer_ok hinc hc hr hS fuel 0 (head_start S first) h
  · cases h

theorem repetition_told (hd : NonnegTimes hop) {first S : K} (hf : 0 ≤ first) {fuel : Nat} {s : Rep K} (hinc : 0 < inc)
    (hc : cutoff = rate * inc) (hr : 0 < rate) (hS : inc ≤ S) (h : repetition d hop first cutoff inc nm rate fuel S = .ok s) :
    ∃ n, Head inc nm S rate n s ∧ Told cutoff inc nm S n s ∧ ∀ t, s.time = some t → cutoff ≤ t := by
  unfold repetition at h
  split at h
  · exact outer_told hd hinc hc hr hS fuel 0 (head_start S first) (told_start_line S hf) h
  · cases h

/-- The sampling time at the start of a repetition. -/
theorem repetitions_get {fuel : Nat} (hinc : 0 < inc) (hc : cutoff = rate * inc) (hr : 0 < rate) :
    ∀ (runs : List ((List (K × Int) → Int × K) × K)) (S : K), inc ≤ S → ∀ {l : List (Rep K)},
      repetitions d cutoff inc nm rate fuel runs S = .ok l → l.length = runs.length ∧ ∀ r s, l[r]? = some s →
        ∃ hf, runs[r]? = some hf ∧ inc ≤ S + (((l.take r).map Rep.index).sum : Int) * inc ∧ 0 ≤ ((l.take r).map Rep.index).sum ∧
          repetition d hf.1 hf.2 cutoff inc nm rate fuel (S + (((l.take r).map Rep.index).sum : Int) * inc) = .ok s
  | [], S, _, l, h => by
    unfold repetitions at h
    obtain rfl := ok_inj.1 h
    exact ⟨rfl, fun r s h => by simp at h⟩
  | (hop, first) :: runs, S, hS, l, h => by
    unfold repetitions at h
    obtain ⟨s, hs, h⟩ := bind_eq_ok.1 h
    obtain ⟨l', hl, h⟩ := bind_eq_ok.1 h
    obtain rfl := ok_inj.1 h
    obtain ⟨n, hn⟩ := repetition_ok hinc hc hr hS hs
    have hS' : inc ≤ s.sampleTime := by
      rw [hn.sample]
      have : (0 : K) ≤ n * inc := by positivity
      linarith
    obtain ⟨e, ih⟩ := repetitions_get hinc hc hr runs s.sampleTime hS' hl
    refine ⟨by simp [e], fun r s' hr' => ?_⟩
    cases r with
    | zero =>
      simp only [List.getElem?_cons_zero, Option.some_inj] at hr'
      subst hr'
      exact ⟨(hop, first), rfl, by simpa using hS, by simp, by simpa using hs⟩
    | succ r =>
      rw [List.getElem?_cons_succ] at hr'
      obtain ⟨hf, h1, h2, h3, h4⟩ := ih r s' hr'
      have hsum : S + (((List.take (r + 1) (s :: l')).map Rep.index).sum : Int) * inc =
          s.sampleTime + (((l'.take r).map Rep.index).sum : Int) * inc := by
        rw [List.take_succ_cons, List.map_cons, List.sum_cons, hn.index, hn.sample]
        push_cast
        ring
      refine ⟨hf, by rw [List.getElem?_cons_succ]; exact h1, by rw [hsum]; exact h2, ?_, by rw [hsum]; exact h4⟩
      rw [List.take_succ_cons, List.map_cons, List.sum_cons, hn.index]
      omega

/-- How the repetitions can fail. -/
theorem repetitions_fault {fuel : Nat} (hinc : 0 < inc) (hc : cutoff = rate * inc) (hr : 0 < rate) (hrate : (rate : Int) ≤ INT_MAX) :
    ∀ (runs : List ((List (K × Int) → Int × K) × K)) (S : K), inc ≤ S → ∀ {f : Fault},
      repetitions d cutoff inc nm rate fuel runs S = .error f → f = .outOfFuel ∨ (f = .assertFail ∧ ∃ hf ∈ runs, cutoff ≤ hf.2) ∨
        ∃ hf ∈ runs, ∃ s1 : Rep K, (OnLine d hf.1 → 0 < d → 0 ≤ s1.pos ∧ s1.pos < d) ∧ inner d hf.1 fuel s1 = .error f
  | [], S, _, f, h => by cases h
  | (hop, first) :: runs, S, hS, f, h => by
    unfold repetitions at h
    cases hs : repetition d hop first cutoff inc nm rate fuel S with
    | error f' =>
      rw [hs] at h
      cases h
      unfold repetition at hs
      split at hs
      · rcases outer_fault hinc hc hr hS hrate fuel 0 (head_start S first) hs with h | ⟨s1, h1, h2⟩
        · exact .inl h
        · exact .inr (.inr ⟨(hop, first), by simp, s1, fun ho hd => h1 ho ⟨le_rfl, hd⟩, h2⟩)
      · next hlt =>
        cases hs
        exact .inr (.inl ⟨rfl, (hop, first), by simp, not_lt.1 hlt⟩)
    | ok s =>
      rw [hs, ok_bind] at h
      obtain ⟨n, hn⟩ := repetition_ok hinc hc hr hS hs
      have hS' : inc ≤ s.sampleTime := by
        rw [hn.sample]
        have : (0 : K) ≤ n * inc := by positivity
        linarith
      cases hl : repetitions d cutoff inc nm rate fuel runs s.sampleTime with
      | ok l => rw [hl] at h; cases h
      | error f' =>
        rw [hl] at h
        cases h
        rcases repetitions_fault hinc hc hr hrate runs s.sampleTime hS' hl with h | ⟨h, x, hx, h'⟩ | ⟨x, hx, h⟩
        · exact .inl h
        · exact .inr (.inl ⟨h, x, by simp [hx], h'⟩)
        · exact .inr (.inr ⟨x, by simp [hx], h⟩)

end Mythical.Line
