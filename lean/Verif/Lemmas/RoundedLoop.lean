import Verif.Spec.Rounded
import Verif.Spec.RoundedLoop
import Verif.Lemmas.Rounded
import Verif.Lemmas.Queue
import Verif.Lemmas.Except

/-! # Lemmas on the loops of the time-of-flight example in rounded arithmetic -/

set_option linter.unusedSectionVars false

namespace Mythical.Rounded
open Mythical RoundSpec Queue
variable {K : Type} [Field K] [LinearOrder K] [IsStrictOrderedRing K] [FloorRing K]
variable {fl : K → K} {ε : K}

theorem clock_append (t : K) (l l' : List K) : clock fl t (l ++ l') = clock fl (clock fl t l) l' := by
  induction l generalizing t with
  | nil => rfl
  | cons x l ih => exact ih _

theorem clock_snoc (t : K) (l : List K) (x : K) : clock fl t (l ++ [x]) = fl (clock fl t l + x) := clock_append t l [x]

theorem clock_eq_total (t : K) (l : List K) : clock fl t l = total fl t l := by
  induction l generalizing t with
  | nil => rfl
  | cons x l ih => exact ih _

theorem tick_succ (dt : K) (k : Nat) : tick fl dt (k + 1) = fl (tick fl dt k + dt) := by
  rw [tick, List.replicate_succ', clock_snoc]; rfl

theorem fl_ge (R : Rounding fl ε) {t d : K} (ht : fl t = t) (hd : 0 ≤ d) : t ≤ fl (t + d) :=
  calc t = fl t := ht.symm
    _ ≤ fl (t + d) := R.mono (by linarith)

theorem tick_fixed (R : Rounding fl ε) (dt : K) (k : Nat) : fl (tick fl dt k) = tick fl dt k := by
  cases k with
  | zero => exact R.zero
  | succ k => rw [tick_succ, R.idem]

theorem tick_mono (R : Rounding fl ε) {dt : K} (hdt : 0 ≤ dt) : Monotone (tick fl dt) :=
  monotone_nat_of_le_succ fun k => by rw [tick_succ]; exact fl_ge R (tick_fixed R dt k) hdt

theorem tick_one {dt : K} (hf : fl dt = dt) : tick fl dt 1 = dt := by
  rw [tick_succ]; show fl (0 + dt) = dt; rw [zero_add, hf]

/-- The shifts of the hops at a time from `a` to before `b`. -/
def shifts (a b : K) (l : List (Popped K)) : List Int :=
  (l.filter fun h => decide (a ≤ h.time ∧ h.time < b)).map fun h => h.hop.shift

theorem dwells_append (w : Int) (l l' : List (Popped K)) : dwells w (l ++ l') = dwells w l ++ dwells w l' := by
  simp [dwells]

theorem dwells_single (w : Int) (h : Popped K) : dwells w [h] = if h.walker = w then [h.hop.dwell] else [] := by
  by_cases hw : h.walker = w <;> simp [dwells, hw]

/-- What holds after `n` steps in the loops. -/
structure Going (fl : K → K) (cfg : ToF.Config K) (inp : Int → Nat → Hop K) (q : Queue K) (n : Nat) (s : Loops K) : Prop where
  ready : Ready fl s.queue
  flag : s.queue.sorted = q.sorted
  time : ∀ e ∈ s.queue.entries, ∃ t, (e.1, t) ∈ q.entries ∧ e.2 = clock fl t (dwells e.1 s.hops)
  mono : s.hops.Pairwise fun a b => a.time ≤ b.time
  last : ∀ h ∈ s.hops, ∀ e ∈ s.queue.entries, h.time ≤ e.2
  perm : (s.queue.entries.map Prod.fst ++ (s.hops.filter fun h => h.hop.leaves).map (·.walker)).Perm (q.entries.map Prod.fst)
  made : ∀ pre h post, s.hops = pre ++ h :: post → h.hop = inp h.walker (hopsOf h.walker pre) ∧
    ∃ t, (h.walker, t) ∈ q.entries ∧ h.time = clock fl t (dwells h.walker pre)
  next : s.sampleTime = tick fl cfg.dt (s.samples.length + 1)
  low : ∀ e ∈ s.queue.entries, tick fl cfg.dt s.samples.length ≤ e.2
  before : ∀ h ∈ s.hops, h.time < s.sampleTime
  done : s.inside = false → ∀ h ∈ s.hops, h.time < tick fl cfg.dt s.samples.length
  delta : s.inside = true → s.deltaX = clock fl 0 ((shifts (tick fl cfg.dt s.samples.length) s.sampleTime s.hops).map fun i : Int => (i : K))
  rows : ∀ k r, s.samples[k]? = some r → r.1 = tick fl cfg.dt (k + 1) ∧
    r.2 = current fl cfg (q.size - gone (tick fl cfg.dt (k + 1)) s.hops)
      (clock fl 0 ((shifts (tick fl cfg.dt k) (tick fl cfg.dt (k + 1)) s.hops).map fun i : Int => (i : K)))
  steps : n = s.hops.length + 2 * s.samples.length + if s.inside then 1 else 0
  bound : s.inside = true → s.sampleTime ≤ fl (cfg.cutoffTime + cfg.dt)
  hopBound : ∀ h ∈ s.hops, h.time < fl (cfg.cutoffTime + cfg.dt)
  rowBound : s.samples ≠ [] → tick fl cfg.dt s.samples.length ≤ fl (cfg.cutoffTime + cfg.dt)

variable {cfg : ToF.Config K} {inp : Int → Nat → Hop K} {q : Queue K} {s s' : Loops K} {n : Nat}

theorem going_begin (hq : Ready fl q) (hf : fl cfg.dt = cfg.dt) : Going fl cfg inp q 0 (beginLoops cfg q) where
  ready := hq
  flag := rfl
  time := fun e he => ⟨e.2, he, rfl⟩
  mono := List.Pairwise.nil
  last := by simp [beginLoops]
  perm := by simp [beginLoops]
  made := by simp [beginLoops]
  next := (tick_one hf).symm
  low := hq.nonneg
  before := by simp [beginLoops]
  done := by simp [beginLoops]
  delta := by simp [beginLoops]
  rows := by simp [beginLoops]
  steps := rfl
  bound := by simp [beginLoops]
  hopBound := by simp [beginLoops]
  rowBound := by simp [beginLoops]

theorem due_iff (hq : Queue.Ordered q.entries) (t : K) : ∃ b, ToF.due q t = .ok b ∧ (b = true → ∃ e es, q.entries = e :: es ∧ e.2 < t) ∧
    (b = false → ∀ e ∈ q.entries, t ≤ e.2) := by
  obtain ⟨es, f⟩ := q
  cases es with
  | nil => exact ⟨false, by simp [ToF.due, size], by simp, by simp⟩
  | cons e es =>
    have hat : Queue.at_ ⟨e :: es, f⟩ 0 = .ok e := by simp [Queue.at_]
    refine ⟨decide (e.2 < t), ?_, fun h => ⟨e, es, rfl, of_decide_eq_true h⟩, fun h => ?_⟩
    · show (if (e :: es).length = 0 then _ else _) = _
      rw [if_neg (by simp), hat]; rfl
    · have h1 : t ≤ e.2 := not_lt.1 (of_decide_eq_false h)
      have hq' := (List.pairwise_cons.1 hq).1
      intro x hx
      rcases List.mem_cons.1 hx with rfl | hx
      · exact h1
      · exact h1.trans (hq' x hx)

theorem shifts_snoc_out {a b : K} {l : List (Popped K)} {h : Popped K} (hb : b ≤ h.time) : shifts a b (l ++ [h]) = shifts a b l := by
  simp [shifts, not_lt.2 hb]

theorem shifts_snoc_in {a b : K} {l : List (Popped K)} {h : Popped K} (ha : a ≤ h.time) (hb : h.time < b) :
    shifts a b (l ++ [h]) = shifts a b l ++ [h.hop.shift] := by
  simp [shifts, ha, hb]

theorem gone_snoc_out {b : K} {l : List (Popped K)} {h : Popped K} (hb : b ≤ h.time) : gone b (l ++ [h]) = gone b l := by
  simp [gone, not_lt.2 hb]

theorem gone_all {b : K} {l : List (Popped K)} (hb : ∀ h ∈ l, h.time < b) : gone b l = (l.filter fun h => h.hop.leaves).length := by
  unfold gone
  congr 1
  exact List.filter_congr fun h hh => by simp [hb h hh]

theorem shifts_none {a b : K} {l : List (Popped K)} (ha : ∀ h ∈ l, h.time < a) : shifts a b l = [] := by
  unfold shifts
  rw [List.filter_eq_nil_iff.2, List.map_nil]
  intro h hh
  simp [not_le.2 (ha h hh)]

/-- The fields that depend on one more hop. -/
theorem going_hop (R : Rounding fl ε) (hdt : 0 ≤ cfg.dt) (hd : ∀ w k, 0 ≤ (inp w k).dwell) (g : Going fl cfg inp q n s)
    (hi : s.inside = true) {e : Int × K} {es : List (Int × K)} (he : s.queue.entries = e :: es) (hlt : e.2 < s.sampleTime) :
    ∃ s', iterateHop fl inp s = .ok s' ∧ Going fl cfg inp q (n + 1) s' := by
  set h := inp e.1 (hopsOf e.1 s.hops) with hh
  have hpop : s.queue.popCurrent = .ok (e, ⟨es, s.queue.sorted⟩) := by rw [popCurrent, he]
  have hmem : e ∈ s.queue.entries := by rw [he]; exact List.mem_cons_self ..
  have hord := g.ready.ordered
  have hnd := g.ready.once
  rw [he] at hord hnd
  rw [List.pairwise_cons] at hord
  rw [List.map_cons, List.nodup_cons] at hnd
  have hge : e.2 ≤ fl (e.2 + h.dwell) := fl_ge R (g.ready.dbl e hmem) (hd _ _)
  have hlow := g.low e hmem
  obtain ⟨t, ht, het⟩ := g.time e hmem
  set qs : List (Int × K) := if h.leaves then es else insertBefore (e.1, fl (e.2 + h.dwell)) es with hqs
  have hin : ∀ x ∈ qs, x ∈ es ∨ (h.leaves = false ∧ x = (e.1, fl (e.2 + h.dwell))) := by
    intro x hx
    rw [hqs] at hx
    by_cases hl : h.leaves
    · rw [if_pos hl] at hx; exact .inl hx
    · rw [if_neg hl] at hx
      rcases List.mem_cons.1 ((insertBefore_perm _ es).mem_iff.1 hx) with rfl | hx
      · exact .inr ⟨by simpa using hl, rfl⟩
      · exact .inl hx
  have hge' : ∀ x ∈ qs, e.2 ≤ x.2 := by
    intro x hx
    rcases hin x hx with hx | ⟨-, rfl⟩
    · exact hord.1 x hx
    · exact hge
  have hS : s.sampleTime = tick fl cfg.dt (s.samples.length + 1) := g.next
  refine ⟨{ s with queue := ⟨qs, s.queue.sorted⟩, deltaX := fl (s.deltaX + (h.shift : K)), hops := s.hops ++ [⟨e.1, e.2, h⟩] }, ?_, ?_⟩
  · unfold iterateHop
    rw [hpop]
    show (if h.leaves then _ else _) = _
    by_cases hl : h.leaves
    · rw [if_pos hl, hqs, if_pos hl]
    · rw [if_neg hl, hqs, if_neg hl]; rfl
  · refine ⟨⟨?_, ?_, ?_, ?_⟩, g.flag, ?_, ?_, ?_, ?_, ?_, g.next, ?_, ?_, fun h => by simp [hi] at h, ?_, ?_, ?_, g.bound, ?_, g.rowBound⟩
    · show qs.Pairwise _
      rw [hqs]
      by_cases hl : h.leaves
      · rw [if_pos hl]; exact hord.2
      · rw [if_neg hl]; exact insertBefore_ordered _ hord.2
    · show (qs.map Prod.fst).Nodup
      rw [hqs]
      by_cases hl : h.leaves
      · rw [if_pos hl]; exact hnd.2
      · rw [if_neg hl, ((insertBefore_perm _ es).map Prod.fst).nodup_iff, List.map_cons, List.nodup_cons]
        exact hnd
    · intro x hx
      rcases hin x hx with hx | ⟨-, rfl⟩
      · exact g.ready.dbl x (by rw [he]; exact List.mem_cons_of_mem _ hx)
      · exact R.idem _
    · intro x hx
      exact (g.ready.nonneg e hmem).trans (hge' x hx)
    · intro x hx
      rcases hin x hx with hx | ⟨-, rfl⟩
      · obtain ⟨t', h1, h2⟩ := g.time x (by rw [he]; exact List.mem_cons_of_mem _ hx)
        refine ⟨t', h1, ?_⟩
        have hne : e.1 ≠ x.1 := fun hc => hnd.1 (List.mem_map.2 ⟨x, hx, hc.symm⟩)
        rw [dwells_append, dwells_single, if_neg hne, List.append_nil]; exact h2
      · refine ⟨t, ht, ?_⟩
        rw [dwells_append, dwells_single, if_pos rfl, clock_snoc, ← het]
    · refine List.pairwise_append.2 ⟨g.mono, List.pairwise_singleton _ _, fun a ha b hb => ?_⟩
      rw [List.mem_singleton.1 hb]
      exact g.last a ha e hmem
    · intro a ha x hx
      rcases List.mem_append.1 ha with ha | ha
      · exact (g.last a ha e hmem).trans (hge' x hx)
      · rw [List.mem_singleton.1 ha]; exact hge' x hx
    · refine List.Perm.trans ?_ g.perm
      show ((qs.map Prod.fst) ++ ((s.hops ++ [(⟨e.1, e.2, h⟩ : Popped K)]).filter _).map _).Perm _
      rw [he, hqs, List.filter_append, List.map_append]
      by_cases hl : h.leaves
      · rw [if_pos hl]
        simp only [List.filter_cons, hl, if_true, List.filter_nil, List.map_cons, List.map_nil]
        rw [← List.append_assoc]
        exact (List.perm_append_singleton _ _).trans (by simp)
      · rw [if_neg hl]
        simp only [List.filter_cons, hl, List.filter_nil, List.map_nil, List.append_nil, Bool.false_eq_true, if_false]
        exact ((insertBefore_perm _ es).map Prod.fst).append_right _
    · intro pre a post hp
      rcases List.eq_nil_or_concat post with rfl | ⟨post', b, rfl⟩
      · obtain ⟨h1, h2⟩ := List.append_inj' hp rfl
        obtain rfl := List.singleton_inj.1 h2
        rw [← h1]
        exact ⟨rfl, t, ht, het⟩
      · rw [List.concat_eq_append, ← List.cons_append, ← List.append_assoc] at hp
        exact g.made _ _ _ (List.append_inj' hp rfl).1
    · intro x hx
      exact hlow.trans (hge' x hx)
    · intro a ha
      rcases List.mem_append.1 ha with ha | ha
      · exact g.before a ha
      · rw [List.mem_singleton.1 ha]; exact hlt
    · intro _
      show fl _ = clock fl 0 ((shifts _ _ (s.hops ++ [_])).map _)
      rw [shifts_snoc_in hlow hlt, List.map_append, List.map_singleton, clock_snoc, ← g.delta hi]
    · intro k r hr
      have hk : k < s.samples.length := (List.getElem?_eq_some_iff.1 hr).1
      have hle : tick fl cfg.dt (k + 1) ≤ e.2 := le_trans (tick_mono R hdt hk) hlow
      have := g.rows k r hr
      rwa [← gone_snoc_out (h := ⟨e.1, e.2, h⟩) hle, ← shifts_snoc_out (h := ⟨e.1, e.2, h⟩) hle] at this
    · have := g.steps
      simp only [List.length_append, List.length_singleton]
      omega
    · intro a ha
      rcases List.mem_append.1 ha with ha | ha
      · exact g.hopBound a ha
      · rw [List.mem_singleton.1 ha]; exact lt_of_lt_of_le hlt (g.bound hi)

theorem going_sample (R : Rounding fl ε) (hdt : 0 ≤ cfg.dt) (g : Going fl cfg inp q n s) (hi : s.inside = true)
    (hle : ∀ e ∈ s.queue.entries, s.sampleTime ≤ e.2) : Going fl cfg inp q (n + 1) (sampleNow fl cfg s) := by
  have hlen : (sampleNow fl cfg s).samples.length = s.samples.length + 1 := by simp [sampleNow]
  have hge : s.sampleTime ≤ fl (s.sampleTime + cfg.dt) := fl_ge R (by rw [g.next]; exact tick_fixed R _ _) hdt
  refine ⟨g.ready, g.flag, g.time, g.mono, g.last, g.perm, g.made, ?_, ?_, ?_, ?_, fun h => by simp [sampleNow] at h, ?_, ?_,
    fun h => by simp [sampleNow] at h, g.hopBound, ?_⟩
  · rw [hlen, tick_succ, ← g.next]; rfl
  · rw [hlen, ← g.next]; exact hle
  · intro h hh
    exact lt_of_lt_of_le (g.before h hh) hge
  · intro _ h hh
    rw [hlen, ← g.next]; exact g.before h hh
  · intro k r hr
    change (s.samples ++ [_])[k]? = some r at hr
    rcases lt_or_ge k s.samples.length with hk | hk
    · rw [List.getElem?_append_left hk] at hr
      exact g.rows k r hr
    · rw [List.getElem?_append_right hk] at hr
      have h0 : k - s.samples.length = 0 := by
        by_contra hc
        rw [List.getElem?_eq_none (by simp; omega)] at hr
        cases hr
      obtain rfl : k = s.samples.length := by omega
      rw [h0] at hr
      obtain rfl : _ = r := by simpa using hr
      refine ⟨g.next, ?_⟩
      show current fl cfg s.queue.size s.deltaX = current fl cfg (q.size - gone _ s.hops) (clock fl 0 ((shifts _ _ s.hops).map _))
      rw [← g.next, ← g.delta hi, gone_all g.before]
      congr 1
      have := g.perm.length_eq
      simp only [List.length_append, List.length_map] at this
      simp only [size]; omega
  · have := g.steps
    rw [hlen, this, if_pos hi]
    show _ = s.hops.length + 2 * (s.samples.length + 1) + 0
    omega
  · intro _
    rw [hlen, ← g.next]; exact g.bound hi

theorem going_enter (R : Rounding fl ε) (g : Going fl cfg inp q n s) (hi : s.inside = false)
    {e : Int × K} {es : List (Int × K)} (he : s.queue.entries = e :: es) (hlt : e.2 < cfg.cutoffTime) :
    Going fl cfg inp q (n + 1) { s with deltaX := 0, inside := true } := by
  refine ⟨g.ready, g.flag, g.time, g.mono, g.last, g.perm, g.made, g.next, g.low, g.before, fun h => by simp at h, ?_, g.rows, ?_, ?_, g.hopBound,
    g.rowBound⟩
  · intro _
    show (0 : K) = clock fl 0 ((shifts _ _ s.hops).map _)
    rw [shifts_none (g.done hi)]; rfl
  · have := g.steps
    rw [hi] at this
    simpa using this
  · intro _
    show s.sampleTime ≤ _
    rw [g.next, tick_succ]
    refine R.mono ?_
    have := g.low e (by rw [he]; exact List.mem_cons_self ..)
    linarith

theorem going_advance (R : Rounding fl ε) (hdt : 0 ≤ cfg.dt)
    (hd : ∀ w k, 0 ≤ (inp w k).dwell) (g : Going fl cfg inp q n s) :
    (∃ s', advance fl cfg inp s = .ok (some s') ∧ Going fl cfg inp q (n + 1) s') ∨
    (advance fl cfg inp s = .ok none ∧ s.inside = false ∧ ∀ e ∈ s.queue.entries, cfg.cutoffTime ≤ e.2) := by
  unfold advance
  by_cases hi : s.inside = true
  · rw [if_pos hi]
    obtain ⟨b, h1, h2, h3⟩ := due_iff g.ready.ordered s.sampleTime
    rw [h1, ok_bind]
    cases b with
    | true =>
      obtain ⟨e, es, he, hlt⟩ := h2 rfl
      obtain ⟨s', h4, h5⟩ := going_hop R hdt hd g hi he hlt
      rw [if_pos rfl, h4]
      exact .inl ⟨s', rfl, h5⟩
    | false => exact .inl ⟨_, rfl, going_sample R hdt g hi (h3 rfl)⟩
  · rw [if_neg hi]
    have hi' : s.inside = false := by simpa using hi
    obtain ⟨b, h1, h2, h3⟩ := due_iff g.ready.ordered cfg.cutoffTime
    rw [h1, ok_bind]
    cases b with
    | true =>
      obtain ⟨e, es, he, hlt⟩ := h2 rfl
      exact .inl ⟨_, rfl, going_enter R g hi' he hlt⟩
    | false => exact .inr ⟨rfl, hi', h3 rfl⟩

theorem going_loops (R : Rounding fl ε) (hdt : 0 ≤ cfg.dt)
    (hd : ∀ w k, 0 ≤ (inp w k).dwell) (j : Nat) (g : Going fl cfg inp q n s) :
    ∃ s' fin m, loops fl cfg inp j s = .ok (s', fin) ∧ Going fl cfg inp q m s' ∧ (fin = false → m = n + j) ∧
      (fin = true → s'.inside = false ∧ ∀ e ∈ s'.queue.entries, cfg.cutoffTime ≤ e.2) := by
  induction j generalizing n s with
  | zero => exact ⟨s, false, n, rfl, g, fun _ => rfl, fun h => by simp at h⟩
  | succ j ih =>
    unfold loops
    rcases going_advance R hdt hd g with ⟨s', h1, h2⟩ | ⟨h1, h2⟩
    · rw [h1]
      obtain ⟨s'', fin, m, h3, h4, h5, h6⟩ := ih h2
      exact ⟨s'', fin, m, h3, h4, fun h => by rw [h5 h]; omega, h6⟩
    · rw [h1]
      exact ⟨s, true, n, rfl, g, fun h => by simp at h, fun _ => h2⟩

/-! ## Numbers of hops and of samples -/

theorem clock_fixed (R : Rounding fl ε) {t : K} (ht : fl t = t) (l : List K) : fl (clock fl t l) = clock fl t l := by
  rcases List.eq_nil_or_concat l with rfl | ⟨l, x, rfl⟩
  · exact ht
  · rw [List.concat_eq_append, clock_snoc, R.idem]

theorem clock_ge (R : Rounding fl ε) {t : K} (ht : fl t = t) {l : List K} (hl : ∀ x ∈ l, 0 ≤ x) : t ≤ clock fl t l := by
  induction l generalizing t with
  | nil => exact le_refl _
  | cons x l ih =>
    exact (fl_ge R ht (hl x (List.mem_cons_self ..))).trans (ih (R.idem _) fun y hy => hl y (List.mem_cons_of_mem _ hy))

/-- A time that is not too large for the duration added. -/
theorem fl_grows (R : Rounding fl ε) (h0 : 0 ≤ ε) (h4 : ε ≤ 1 / 4) {t d T : K} (ht : 0 ≤ t) (hT : t ≤ T) (hd : 4 * ε * T ≤ d) :
    t + d / 2 ≤ fl (t + d) := by
  have hd0 : 0 ≤ d := le_trans (by have := ht.trans hT; positivity) hd
  have h1 := (R.bounds (add_nonneg ht hd0)).1
  have h2 : ε * t ≤ ε * T := mul_le_mul_of_nonneg_left hT h0
  have h3 : ε * d ≤ 1 / 4 * d := mul_le_mul_of_nonneg_right h4 hd0
  nlinarith

theorem tick_grows (R : Rounding fl ε) (h0 : 0 ≤ ε) (h4 : ε ≤ 1 / 4) {dt T : K} (hdt : 0 ≤ dt) (hd : 4 * ε * T ≤ dt) (m : Nat)
    (hT : tick fl dt m ≤ T) : m * (dt / 2) ≤ tick fl dt m := by
  induction m with
  | zero => simp [tick, clock]
  | succ m ih =>
    have hle := (tick_mono R hdt (Nat.le_succ m)).trans hT
    have h1 := ih hle
    have hn : 0 ≤ tick fl dt m := by
      have := tick_mono R hdt (Nat.zero_le m)
      simpa [tick, clock] using this
    have h2 := fl_grows R h0 h4 hn hle hd
    rw [tick_succ]; push_cast; linarith

theorem clock_range (R : Rounding fl ε) (h0 : 0 ≤ ε) (h4 : ε ≤ 1 / 4) {d T : K} (hd : 4 * ε * T ≤ d) {f : Nat → K} (hf : ∀ k, 0 ≤ f k)
    (h2 : ∀ k, d ≤ f k ∨ d ≤ f (k + 1)) {t : K} (ht : fl t = t) (ht0 : 0 ≤ t) (j : Nat) (hT : clock fl t ((List.range j).map f) ≤ T) :
    (j / 2 : Nat) * (d / 2) ≤ clock fl t ((List.range j).map f) := by
  set c : Nat → K := fun j => clock fl t ((List.range j).map f) with hc
  have hs : ∀ k, c (k + 1) = fl (c k + f k) := by
    intro k
    simp only [hc, List.range_succ, List.map_append, List.map_singleton, clock_snoc]
  have hfx : ∀ k, fl (c k) = c k := fun k => clock_fixed R ht _
  have hm : Monotone c := monotone_nat_of_le_succ fun k => by rw [hs]; exact fl_ge R (hfx k) (hf k)
  have hn : ∀ k, 0 ≤ c k := fun k => ht0.trans (hm (Nat.zero_le k))
  have main : ∀ i, c (2 * i) ≤ T → (i : K) * (d / 2) ≤ c (2 * i) := by
    intro i
    induction i with
    | zero => intro _; simpa using hn 0
    | succ i ih =>
      intro hi
      have hl1 : c (2 * i + 1) ≤ T := (hm (by omega)).trans hi
      have hl0 : c (2 * i) ≤ T := (hm (by omega)).trans hi
      have h3 := ih hl0
      have hgo : c (2 * i) + d / 2 ≤ c (2 * (i + 1)) := by
        rcases h2 (2 * i) with h | h
        · have := fl_grows R h0 h4 (hn (2 * i)) hl0 (hd.trans h)
          rw [← hs] at this
          have h5 : c (2 * i + 1) ≤ c (2 * (i + 1)) := hm (by omega)
          linarith
        · have := fl_grows R h0 h4 (hn (2 * i + 1)) hl1 (hd.trans h)
          rw [← hs] at this
          have h5 : c (2 * i) ≤ c (2 * i + 1) := hm (by omega)
          have h6 : c (2 * i + 1 + 1) = c (2 * (i + 1)) := by congr 1
          rw [h6] at this
          linarith
      push_cast; linarith
  have h5 : c (2 * (j / 2)) ≤ c j := hm (by omega)
  exact (main _ (h5.trans hT)).trans h5

theorem hops_split (w : Int) (l : List (Popped K)) : hopsOf w l = (dwells w l).length := by simp [hopsOf, dwells]

theorem dwells_range (hm : ∀ pre h post, s.hops = pre ++ h :: post → h.hop = inp h.walker (hopsOf h.walker pre)) (w : Int) :
    ∀ l post, s.hops = l ++ post → dwells w l = (List.range (hopsOf w l)).map fun i => (inp w i).dwell := by
  intro l
  induction l using List.reverseRecOn with
  | nil => intro _ _; simp [dwells, hopsOf]
  | append_singleton l a ih =>
    intro post hp
    have hp' : s.hops = l ++ a :: post := by rw [hp, List.append_assoc]; rfl
    have h1 := ih _ hp'
    have h2 := hm _ _ _ hp'
    rw [hops_split, dwells_append, dwells_single]
    by_cases hw : a.walker = w
    · rw [if_pos hw, List.length_append, List.length_singleton, List.range_succ, List.map_append, ← hops_split, ← h1, List.map_singleton,
        h2, hw]
    · rw [if_neg hw, List.append_nil, ← hops_split, h1]

theorem hops_le (l : List (Popped K)) (ids : List Int) (h : ∀ a ∈ l, a.walker ∈ ids) : l.length ≤ (ids.map fun w => hopsOf w l).sum := by
  induction l with
  | nil => simp
  | cons a l ih =>
    have h1 := ih fun b hb => h b (List.mem_cons_of_mem _ hb)
    have h2 := h a (List.mem_cons_self ..)
    have h3 : ∀ w, hopsOf w (a :: l) = hopsOf w l + if a.walker = w then 1 else 0 := by
      intro w
      by_cases hw : a.walker = w <;> simp [hopsOf, hw]
    have h4 : ∀ ids : List Int, a.walker ∈ ids → 1 ≤ (ids.map fun w => if a.walker = w then 1 else 0).sum := by
      intro ids
      induction ids with
      | nil => simp
      | cons w ws ih =>
        intro hm
        rw [List.map_cons, List.sum_cons]
        by_cases hw : a.walker = w
        · rw [if_pos hw]; omega
        · have := ih (by simpa [hw] using hm)
          omega
    simp only [h3, List.sum_map_add, List.length_cons]
    exact Nat.add_le_add h1 (h4 ids h2)

theorem hopsOf_last (w : Int) (l : List (Popped K)) (h : hopsOf w l ≠ 0) :
    ∃ pre a post, l = pre ++ a :: post ∧ a.walker = w ∧ hopsOf w l = hopsOf w pre + 1 := by
  induction l using List.reverseRecOn with
  | nil => simp [hopsOf] at h
  | append_singleton l a ih =>
    by_cases hw : a.walker = w
    · exact ⟨l, a, [], rfl, hw, by simp [hopsOf, hw]⟩
    · have h1 : hopsOf w (l ++ [a]) = hopsOf w l := by simp [hopsOf, hw]
      obtain ⟨pre, b, post, h2, h3, h4⟩ := ih (by rwa [h1] at h)
      exact ⟨pre, b, post ++ [a], by rw [h2]; simp, h3, by rw [h1, h4]⟩

theorem hopsOf_bound (R : Rounding fl ε) (h0 : 0 ≤ ε) (h4 : ε ≤ 1 / 4) (hq : Ready fl q) (hd : ∀ w k, 0 ≤ (inp w k).dwell)
    (g : Going fl cfg inp q n s) {d : K} (hd0 : 0 < d) (hdT : 4 * ε * fl (cfg.cutoffTime + cfg.dt) ≤ d)
    (h2 : ∀ w k, d ≤ (inp w k).dwell ∨ d ≤ (inp w (k + 1)).dwell) (hT : 0 ≤ fl (cfg.cutoffTime + cfg.dt)) (w : Int) :
    (hopsOf w s.hops : K) ≤ 4 * fl (cfg.cutoffTime + cfg.dt) / d + 3 := by
  set T := fl (cfg.cutoffTime + cfg.dt) with hTd
  have hpos : 0 ≤ 4 * T / d := by positivity
  by_cases hz : hopsOf w s.hops = 0
  · rw [hz]; push_cast; linarith
  · obtain ⟨pre, a, post, h3, rfl, h5⟩ := hopsOf_last w s.hops hz
    obtain ⟨-, t, ht, hta⟩ := g.made _ _ _ h3
    have hlt := g.hopBound a (by rw [h3]; simp)
    rw [hta, dwells_range (fun pre h post hp => (g.made pre h post hp).1) _ pre _ h3] at hlt
    have := clock_range R h0 h4 hdT (f := fun i => (inp a.walker i).dwell) (fun k => hd _ _) (fun k => h2 _ _) (hq.dbl _ ht) (hq.nonneg _ ht)
      (hopsOf a.walker pre) hlt.le
    have h6 : ((hopsOf a.walker pre / 2 : Nat) : K) * (d / 2) < T := lt_of_le_of_lt this hlt
    have h7 : hopsOf a.walker pre ≤ 2 * (hopsOf a.walker pre / 2) + 1 := by omega
    have h8 : (hopsOf a.walker pre : K) ≤ 2 * ((hopsOf a.walker pre / 2 : Nat) : K) + 1 := by exact_mod_cast h7
    have h9 : ((hopsOf a.walker pre / 2 : Nat) : K) ≤ 2 * T / d := by
      rw [le_div_iff₀ hd0]; linarith
    rw [h5]; push_cast
    have h10 : 4 * T / d = 2 * (2 * T / d) := by ring
    linarith

end Mythical.Rounded
