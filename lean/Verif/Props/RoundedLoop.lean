import Verif.Lemmas.RoundedLoop
import Verif.Lemmas.RoundedTables
import Verif.Lemmas.Rounding
import Verif.Props.RoundedIter

/-! # C94: the loops of the time-of-flight example in double arithmetic -/

set_option linter.unusedSectionVars false

namespace Mythical.Rounded
open Mythical RoundSpec Queue
variable {K : Type} [Field K] [LinearOrder K] [IsStrictOrderedRing K] [FloorRing K]
variable {fl : K → K} {ε : K} {cfg : ToF.Config K} {inp : Int → Nat → Hop K} {q : Queue K} {s : Loops K} {n : Nat} {fin : Bool}

/-- **C94**, the model: with exact arithmetic a step in these loops is a step of the model of the whole program, for some result
of the hop. -/
theorem C94_exact {env : Env K} {mem : Addr → K} {c : Cuboid} {ch : ToF.Chances K} {a b : ToF.Sim K} (hops : List (Popped K)) (times : List K)
    (ht : times.length = a.samples.length) (h : ToF.advance env mem c cfg ch a = .ok (some b)) : ∃ (hop : Hop K) (hops' : List (Popped K)) (times' : List K),
    times'.length = b.samples.length ∧
    advance id cfg (fun _ _ => hop) ⟨a.queue, a.sampleTime, a.deltaX, a.inside, hops, times.zip (a.samples.map Prod.fst)⟩ =
      .ok (some ⟨b.queue, b.sampleTime, b.deltaX, b.inside, hops', times'.zip (b.samples.map Prod.fst)⟩) := by
  unfold ToF.advance at h
  by_cases hi : a.inside = true
  · rw [if_pos hi] at h
    obtain ⟨due, hd, h⟩ := bind_eq_ok.1 h
    cases due with
    | true =>
      rw [if_pos rfl] at h
      obtain ⟨b', hb, h⟩ := bind_eq_ok.1 h
      obtain rfl : b' = b := by simpa using h
      unfold ToF.iterate at hb
      obtain ⟨⟨e, q'⟩, hp, hb⟩ := bind_eq_ok.1 hb
      obtain ⟨hd', -, hb⟩ := bind_eq_ok.1 hb
      obtain ⟨x, -, hb⟩ := bind_eq_ok.1 hb
      obtain ⟨i, -, hb⟩ := bind_eq_ok.1 hb
      obtain ⟨old, -, hb⟩ := bind_eq_ok.1 hb
      obtain ⟨p, -, hb⟩ := bind_eq_ok.1 hb
      obtain ⟨y, -, hb⟩ := bind_eq_ok.1 hb
      obtain ⟨j, -, hb⟩ := bind_eq_ok.1 hb
      obtain ⟨new, -, hb⟩ := bind_eq_ok.1 hb
      obtain ⟨d, -, hb⟩ := bind_eq_ok.1 hb
      obtain ⟨last, -, hb⟩ := bind_eq_ok.1 hb
      by_cases hl : new < last
      · rw [if_pos hl] at hb
        have hb := ok_inj.1 hb
        subst hb
        refine ⟨⟨y.dwell, d, false⟩, hops ++ [⟨e.1, e.2, ⟨y.dwell, d, false⟩⟩], times, ht, ?_⟩
        unfold advance
        simp only [hi, if_true, hd, ok_bind, iterateHop, hp, Bool.false_eq_true, if_false, id]
      · rw [if_neg hl] at hb
        obtain ⟨p', -, hb⟩ := bind_eq_ok.1 hb
        obtain ⟨r, -, hb⟩ := bind_eq_ok.1 hb
        have hb := ok_inj.1 hb
        subst hb
        refine ⟨⟨y.dwell, d, true⟩, hops ++ [⟨e.1, e.2, ⟨y.dwell, d, true⟩⟩], times, ht, ?_⟩
        unfold advance
        simp only [hi, if_true, hd, ok_bind, iterateHop, hp, id]
    | false =>
      rw [if_neg (by simp)] at h
      obtain ⟨b', hb, h⟩ := bind_eq_ok.1 h
      obtain rfl : b' = b := by simpa using h
      simp only [ToF.sample] at hb
      split at hb
      · obtain ⟨ix, -, hb⟩ := bind_eq_ok.1 hb
        have hb := ok_inj.1 hb
        subst hb
        refine ⟨⟨0, 0, false⟩, hops, times ++ [a.sampleTime], by simp [ht], ?_⟩
        unfold advance
        have hcur : current id cfg a.queue.size a.deltaX = ToF.current cfg a.queue.size a.deltaX := rfl
        simp only [hi, if_true, hd, ok_bind, Bool.false_eq_true, if_false, sampleNow, hcur, id, List.map_append, List.map_cons, List.map_nil]
        rw [List.zip_append (by simpa using ht)]
        rfl
      · cases hb
  · rw [if_neg hi] at h
    obtain ⟨due, hd, h⟩ := bind_eq_ok.1 h
    cases due with
    | true =>
      rw [if_pos rfl] at h
      have h := Option.some.inj (ok_inj.1 h)
      subst h
      refine ⟨⟨0, 0, false⟩, hops, times, ht, ?_⟩
      unfold advance
      have hi' : a.inside = false := by simpa using hi
      simp only [hi', hd, ok_bind, if_true, Bool.false_eq_true, if_false]
    | false => simp at h

/-- **C94**, order: the loops never fail; the times at which charges are popped never go down and no charge in the queue is due
before; the queue stays in order; every charge is in the queue or left, once; and when the loops are over, no charge is due
before the cutoff time. -/
theorem C94_monotone (R : Rounding fl ε) (hq : Ready fl q) (hf : fl cfg.dt = cfg.dt) (hdt : 0 ≤ cfg.dt) (hd : ∀ w k, 0 ≤ (inp w k).dwell) (n : Nat) :
    ∃ s fin, loops fl cfg inp n (beginLoops cfg q) = .ok (s, fin) ∧ (s.hops.Pairwise fun a b => a.time ≤ b.time) ∧
      (∀ h ∈ s.hops, ∀ e ∈ s.queue.entries, h.time ≤ e.2) ∧ Ready fl s.queue ∧
      (s.queue.entries.map Prod.fst ++ (s.hops.filter fun h => h.hop.leaves).map (·.walker)).Perm (q.entries.map Prod.fst) ∧
      (fin = true → ∀ e ∈ s.queue.entries, cfg.cutoffTime ≤ e.2) := by
  obtain ⟨s, fin, m, h1, g, -, h2⟩ := going_loops R hdt hd n (going_begin (inp := inp) hq hf)
  exact ⟨s, fin, h1, g.mono, g.last, g.ready, g.perm, fun h => (h2 h).2⟩

theorem going_of (R : Rounding fl ε) (hq : Ready fl q) (hf : fl cfg.dt = cfg.dt) (hdt : 0 ≤ cfg.dt) (hd : ∀ w k, 0 ≤ (inp w k).dwell)
    (h : loops fl cfg inp n (beginLoops cfg q) = .ok (s, fin)) : ∃ m, Going fl cfg inp q m s ∧ (fin = false → m = n) := by
  obtain ⟨s', fin', m, h1, g, h2, -⟩ := going_loops R hdt hd n (going_begin (inp := inp) hq hf)
  rw [h] at h1
  obtain ⟨rfl, rfl⟩ := Prod.mk.inj (ok_inj.1 h1)
  exact ⟨m, g, fun h => by rw [h2 h]; omega⟩

theorem clock_near (R : Rounding fl ε) (h0 : 0 ≤ ε) {t : K} (ht : fl t = t) (ht0 : 0 ≤ t) {l : List K} (hl : ∀ x ∈ l, 0 ≤ x)
    (hm : 2 * ((l.length + 1 : Nat) * ε) ≤ 1) : |clock fl t l - (t + l.sum)| ≤ 2 * ((l.length + 1 : Nat) * ε) * (t + l.sum) := by
  have h1 : ε ≤ 1 := by
    have : (1 : K) * ε ≤ (l.length + 1 : Nat) * ε := mul_le_mul_of_nonneg_right (by exact_mod_cast Nat.le_add_left 1 _) h0
    linarith
  have hr := Rel.total h0 h1 R (l := t :: l) (by
    intro x hx
    rcases List.mem_cons.1 hx with rfl | hx
    · exact ht0
    · exact hl x hx)
  rw [total_cons, zero_add, ht, ← clock_eq_total, List.sum_cons, List.length_cons] at hr
  obtain ⟨b1, b2⟩ := Rel.bounds h1 h0 hr hm
  have hp : 0 ≤ ((l.length + 1 : Nat) : K) * ε * (t + l.sum) := mul_nonneg (by positivity) hr.left
  rw [abs_le]
  constructor <;> linarith

/-- **C94**, clocks: the time of a charge in the queue is its first time and the dwell times of its `k` hops added up, with a
relative error of at most `2 (k + 1) ε`. -/
theorem C94_clocks (R : Rounding fl ε) (h0 : 0 ≤ ε) (hq : Ready fl q) (hf : fl cfg.dt = cfg.dt) (hdt : 0 ≤ cfg.dt)
    (hd : ∀ w k, 0 ≤ (inp w k).dwell) (h : loops fl cfg inp n (beginLoops cfg q) = .ok (s, fin)) {e : Int × K} (he : e ∈ s.queue.entries)
    (hm : 2 * (((s.hops.filter fun h => h.walker == e.1).length + 1 : Nat) * ε) ≤ 1) : ∃ t, (e.1, t) ∈ q.entries ∧
      |e.2 - (t + (dwells e.1 s.hops).sum)| ≤
        2 * (((s.hops.filter fun h => h.walker == e.1).length + 1 : Nat) * ε) * (t + (dwells e.1 s.hops).sum) := by
  obtain ⟨m, g, -⟩ := going_of R hq hf hdt hd h
  obtain ⟨t, h1, h2⟩ := g.time e he
  have hlen : (dwells e.1 s.hops).length = (s.hops.filter fun h => h.walker == e.1).length := by simp [dwells]
  refine ⟨t, h1, ?_⟩
  rw [← hlen] at hm ⊢
  rw [h2]
  refine clock_near R h0 (hq.dbl _ h1) (hq.nonneg _ h1) ?_ hm
  intro x hx
  rw [dwells_range (fun pre h post hp => (g.made pre h post hp).1) _ s.hops [] (by simp)] at hx
  obtain ⟨i, -, rfl⟩ := List.mem_map.1 hx
  exact hd _ _

theorem fileTimes_get (dt : K) (n : Nat) : ∀ (i : Nat), i < n → (fileTimes fl dt n 0)[i]? = some (tick fl dt (i + 1)) := by
  have key : ∀ (n i k : Nat), i < n → (fileTimes fl dt n (tick fl dt k))[i]? = some (tick fl dt (k + i + 1)) := by
    intro n
    induction n with
    | zero => intro i k h; omega
    | succ n ih =>
      intro i k h
      cases i with
      | zero => rw [fileTimes, List.getElem?_cons_zero, ← tick_succ (fl := fl)]
      | succ i =>
        rw [fileTimes, List.getElem?_cons_succ, ← tick_succ (fl := fl), ih i (k + 1) (by omega)]
        congr 2; omega
  intro i h
  have := key n i 0 h
  rwa [Nat.zero_add] at this

theorem rel_factor (h0 : 0 ≤ ε) (h1 : ε ≤ 1) (R : Rounding fl ε) (x : K) : ∃ f, Rel ε 1 1 f ∧ fl x = x * f := by
  have one : Rel ε 1 1 (1 : K) := (Rel.refl h0 h1 zero_le_one).mono h0 h1 (Nat.zero_le _)
  by_cases hx : x = 0
  · exact ⟨1, one, by rw [hx, R.zero]; simp⟩
  · refine ⟨fl x / x, ?_, by field_simp⟩
    have h2 := R.err x
    have h3 : |fl x / x - 1| ≤ ε := by
      have : fl x / x - 1 = (fl x - x) / x := by field_simp
      rw [this, abs_div, div_le_iff₀ (abs_pos.2 hx)]; exact h2
    obtain ⟨h4, h5⟩ := abs_le.1 h3
    refine ⟨zero_le_one, by linarith, by rw [pow_one]; linarith, ?_⟩
    rw [pow_one]
    nlinarith [mul_nonneg h0 h0]

/-- The formula for the current in rounded arithmetic. -/
theorem current_near (R : Rounding fl ε) (h0 : 0 ≤ ε) (h12 : 12 * ε ≤ 1) {m : Nat} (hm : m ≠ 0) (hdt : 0 < cfg.dt) (hv : cfg.volume ≠ 0) (D : Int) :
    ∃ y, current fl cfg m (D : K) = some y ∧ |y - density cfg m D| ≤ 12 * ε * |density cfg m D| := by
  have h1 : ε < 1 := by linarith
  have hn : (0 : K) < (m : K) * cfg.dt := mul_pos (by exact_mod_cast Nat.pos_of_ne_zero hm) hdt
  have hn' := R.pos h1 hn
  refine ⟨_, if_neg (not_or.2 ⟨hn'.ne', hv⟩), ?_⟩
  obtain ⟨f1, r1, e1⟩ := rel_factor h0 h1.le R (cfg.q * m)
  obtain ⟨f2, r2, e2⟩ := rel_factor h0 h1.le R (fl (cfg.q * m) / cfg.volume)
  obtain ⟨f3, r3, e3⟩ := rel_factor h0 h1.le R ((D : K) * cfg.nm)
  obtain ⟨f4, r4, e4⟩ := rel_factor h0 h1.le R ((m : K) * cfg.dt)
  obtain ⟨f5, r5, e5⟩ := rel_factor h0 h1.le R (fl ((D : K) * cfg.nm) / fl ((m : K) * cfg.dt))
  obtain ⟨f6, r6, e6⟩ := rel_factor h0 h1.le R (fl (fl (cfg.q * m) / cfg.volume) * fl (fl ((D : K) * cfg.nm) / fl ((m : K) * cfg.dt)))
  have hf4 : 0 < f4 := by
    rw [e4] at hn'
    exact (mul_pos_iff_of_pos_left hn).1 hn'
  have i4 : Rel ε 1 1 (1 / f4) := by
    have := Rel.inv h0 h1.le r4 zero_lt_one hf4
    rwa [one_div_one] at this
  have prod : Rel ε 6 1 (f1 * f2 * f3 * (1 / f4) * f5 * f6) := by
    have := Rel.mul h0 h1.le (Rel.mul h0 h1.le (Rel.mul h0 h1.le (Rel.mul h0 h1.le (Rel.mul h0 h1.le r1 r2) r3) i4) r5) r6
    simpa using this
  obtain ⟨b1, b2⟩ := Rel.bounds h1.le h0 prod (by push_cast; linarith)
  push_cast at b1 b2
  have eq : fl (fl (fl (cfg.q * m) / cfg.volume) * fl (fl ((D : K) * cfg.nm) / fl ((m : K) * cfg.dt))) =
      density cfg m D * (f1 * f2 * f3 * (1 / f4) * f5 * f6) := by
    rw [e6, e2, e5, e1, e3, e4, density]
    have := hn.ne'
    have hmK : (m : K) ≠ 0 := by exact_mod_cast hm
    have := hdt.ne'
    field_simp
  rw [eq, show ∀ a b : K, a * b - a = (b - 1) * a from fun a b => by ring, abs_mul]
  refine mul_le_mul_of_nonneg_right ?_ (abs_nonneg _)
  rw [abs_le]; constructor <;> linarith

theorem clock_int {N : Int} (hN : ∀ i : Int, |i| ≤ N → fl (i : K) = i) {L : Int} (l : List Int) (hl : ∀ i ∈ l, |i| ≤ L) (t : Int)
    (ht : |t| + L * l.length ≤ N) (hL : 0 ≤ L) : clock fl (t : K) (l.map fun i : Int => (i : K)) = ((t + l.sum : Int) : K) := by
  induction l generalizing t with
  | nil => simp [clock]
  | cons i l ih =>
    have h1 := hl i (List.mem_cons_self ..)
    have h2 : |t + i| ≤ |t| + |i| := abs_add_le _ _
    rw [List.length_cons] at ht
    push_cast at ht
    have h3 : 0 ≤ L * (l.length : Int) := by positivity
    rw [List.map_cons, clock, ← Int.cast_add, hN _ (by linarith), ih (fun j hj => hl j (List.mem_cons_of_mem _ hj)) _ (by linarith),
      List.sum_cons, add_assoc]

/-- **C94**, file: the time in row `i` of the file is, to the last bit, the end of the interval of sample `i`, and `dt (i + 1)` up
to the part `2 (i + 1) ε`. The current in the row is that of the hops in the interval and of the charges that are still there at
its end, up to the part `12 ε` (`shift` of at most `L` planes, integers up to `N` exact); it is not a number if no charge is
left. -/
theorem C94_file (R : Rounding fl ε) (h0 : 0 ≤ ε) (h12 : 12 * ε ≤ 1) (hq : Ready fl q) (hf : fl cfg.dt = cfg.dt) (hdt : 0 < cfg.dt)
    (hv : cfg.volume ≠ 0) (hd : ∀ w k, 0 ≤ (inp w k).dwell) {N L : Int} (hN : ∀ i : Int, |i| ≤ N → fl (i : K) = i)
    (hL : ∀ w k, |(inp w k).shift| ≤ L) (h : loops fl cfg inp n (beginLoops cfg q) = .ok (s, fin)) (hs : L * s.hops.length ≤ N)
    {i : Nat} {t : K} {j : Option K} (hi : s.samples[i]? = some (t, j)) :
    (fileTimes fl cfg.dt s.samples.length 0)[i]? = some t ∧
    (2 * ((i + 1 : Nat) * ε) ≤ 1 → |t - (i + 1 : Nat) * cfg.dt| ≤ 2 * ((i + 1 : Nat) * ε) * ((i + 1 : Nat) * cfg.dt)) ∧
    (gone t s.hops ≠ q.size → ∃ y, j = some y ∧ |y - density cfg (q.size - gone t s.hops) (moved (tick fl cfg.dt i) t s.hops)| ≤
      12 * ε * |density cfg (q.size - gone t s.hops) (moved (tick fl cfg.dt i) t s.hops)|) ∧
    (gone t s.hops = q.size → j = none) := by
  obtain ⟨m, g, -⟩ := going_of R hq hf hdt.le hd h
  obtain ⟨h1, h2⟩ := g.rows i _ hi
  simp only at h1 h2
  rw [← h1] at h2
  have hlen : i < s.samples.length := (List.getElem?_eq_some_iff.1 hi).1
  have hg : gone t s.hops ≤ q.size := by
    have hp := g.perm.length_eq
    simp only [List.length_append, List.length_map] at hp
    have : gone t s.hops ≤ (s.hops.filter fun h => h.hop.leaves).length := by
      exact List.Sublist.length_le (List.monotone_filter_right _ fun a ha => by simp at ha; exact ha.1)
    simp only [size]; omega
  refine ⟨by rw [fileTimes_get _ _ _ hlen, h1], fun hm => ?_, fun hne => ?_, fun heq => ?_⟩
  · have := clock_near R h0 hf hdt.le (l := List.replicate i cfg.dt) (fun x hx => by rw [List.eq_of_mem_replicate hx]; exact hdt.le)
      (by rwa [List.length_replicate])
    have h3 : t = clock fl cfg.dt (List.replicate i cfg.dt) := by
      rw [h1, tick, List.replicate_succ, clock, zero_add, hf]
    have h4 : cfg.dt + (List.replicate i cfg.dt).sum = (i + 1 : Nat) * cfg.dt := by
      rw [List.sum_replicate, nsmul_eq_mul]; push_cast; ring
    rwa [← h3, h4, List.length_replicate] at this
  · have hD : clock fl 0 ((shifts (tick fl cfg.dt i) t s.hops).map fun i : Int => (i : K)) = ((moved (tick fl cfg.dt i) t s.hops : Int) : K) := by
      have h3 : ∀ x ∈ shifts (tick fl cfg.dt i) t s.hops, |x| ≤ L := by
        intro x hx
        obtain ⟨a, ha, rfl⟩ := List.mem_map.1 hx
        obtain ⟨pre, post, hp⟩ := List.append_of_mem (List.mem_filter.1 ha).1
        rw [(g.made _ _ _ hp).1]; exact hL _ _
      have hL0 : 0 ≤ L := (abs_nonneg _).trans (hL 0 0)
      have h4 : (shifts (tick fl cfg.dt i) t s.hops).length ≤ s.hops.length := by
        simp only [shifts, List.length_map]; exact List.length_filter_le _ _
      have := clock_int hN _ h3 0 (by
        rw [abs_zero, zero_add]
        exact le_trans (mul_le_mul_of_nonneg_left (by exact_mod_cast h4) hL0) hs) hL0
      rw [Int.cast_zero, zero_add] at this
      exact this
    rw [h2, hD]
    exact current_near R h0 h12 (by omega) hdt hv _
  · rw [h2, heq, Nat.sub_self]
    exact if_pos (.inl (by simp [R.zero]))

/-- **C94**, the end: if of two dwell times of a charge in a row at least one is at least `d`, and neither `d` nor the sample
increment is small against the rounding error of the largest times (`T` is the cutoff time and one sample increment), the loops
are over after `charges (4T/d + 3) + 4T/dt + 1` steps. -/
theorem C94_ends_partial (R : Rounding fl ε) (h0 : 0 ≤ ε) (h4 : ε ≤ 1 / 4) (hq : Ready fl q) (hf : fl cfg.dt = cfg.dt) (hdt : 0 < cfg.dt)
    (hc : 0 ≤ cfg.cutoffTime) (hd : ∀ w k, 0 ≤ (inp w k).dwell) {d T : K} (hT : T = fl (cfg.cutoffTime + cfg.dt)) (hd0 : 0 < d)
    (h2 : ∀ w k, d ≤ (inp w k).dwell ∨ d ≤ (inp w (k + 1)).dwell) (hdT : 4 * ε * T ≤ d) (hdtT : 4 * ε * T ≤ cfg.dt)
    (hn : q.size * (4 * T / d + 3) + 4 * T / cfg.dt + 1 < (n : K)) : ∃ s, loops fl cfg inp n (beginLoops cfg q) = .ok (s, true) := by
  obtain ⟨s, fin, m, h1, g, h3, -⟩ := going_loops R hdt.le hd n (going_begin (inp := inp) hq hf)
  cases fin with
  | true => exact ⟨s, h1⟩
  | false =>
    exfalso
    subst hT
    obtain rfl : m = n := by rw [h3 rfl]; omega
    set T := fl (cfg.cutoffTime + cfg.dt) with hTd
    have hT0 : 0 ≤ T := R.nonneg (add_nonneg hc hdt.le)
    have hw := hopsOf_bound R h0 h4 hq hd g hd0 hdT h2 hT0
    have hlen : (s.hops.length : K) ≤ q.size * (4 * T / d + 3) := by
      have h5 := hops_le s.hops (q.entries.map Prod.fst) (by
        intro a ha
        obtain ⟨pre, post, hp⟩ := List.append_of_mem ha
        obtain ⟨-, t, ht, -⟩ := g.made _ _ _ hp
        exact List.mem_map.2 ⟨_, ht, rfl⟩)
      have h6 : ∀ ids : List Int, (((ids.map fun w => hopsOf w s.hops).sum : Nat) : K) ≤ ids.length * (4 * T / d + 3) := by
        intro ids
        induction ids with
        | nil => simp
        | cons w ws ih =>
          rw [List.map_cons, List.sum_cons, List.length_cons, Nat.cast_add, Nat.cast_succ]
          have := hw w
          rw [add_mul, one_mul]
          linarith
      have h7 := h6 (q.entries.map Prod.fst)
      rw [List.length_map] at h7
      exact le_trans (by exact_mod_cast h5) h7
    have hrows : (s.samples.length : K) ≤ 2 * T / cfg.dt := by
      by_cases he : s.samples = []
      · rw [he]; simp only [List.length_nil, Nat.cast_zero]; positivity
      · have h8 := g.rowBound he
        have h9 := tick_grows R h0 h4 hdt.le hdtT _ h8
        rw [le_div_iff₀ hdt]
        linarith
    have hst : (m : K) ≤ s.hops.length + 2 * s.samples.length + 1 := by
      have h10 := g.steps
      have h11 : m ≤ s.hops.length + 2 * s.samples.length + 1 := by
        rw [h10]; split <;> omega
      exact_mod_cast h11
    have h12 : 4 * T / cfg.dt = 2 * (2 * T / cfg.dt) := by ring
    linarith

/-! ## A standstill -/

/-- Two charges, the first with dwell times of 2^-54. -/
def twoCharges : Queue ℚ := ⟨[(0, 1), (1, 3)], true⟩

/-- Sample increment and cutoff time are 2. -/
def twoSeconds : ToF.Config ℚ := ⟨2, 2, 2, 0, 1, 1, 1⟩

/-- The hops of the charges. -/
def shortStays : Int → Nat → Hop ℚ := fun _ _ => ⟨1 / 2 ^ 54, 0, false⟩

theorem twoCharges_ready {fl : ℚ → ℚ} (h : fl 1 = 1 ∧ fl 3 = 3) : Ready fl twoCharges :=
  ⟨by simp [twoCharges], by simp [twoCharges], by simp [twoCharges, h], by simp [twoCharges]⟩

theorem binary64_one : binary64 (1 : ℚ) = 1 ∧ binary64 (3 : ℚ) = 3 ∧ binary64 (2 : ℚ) = 2 ∧ binary64 (1 + 1 / 2 ^ 54 : ℚ) = 1 := by decide +kernel

theorem standstill (n : Nat) : ∃ hops, loops binary64 twoSeconds shortStays (n + 1) (beginLoops twoSeconds twoCharges) =
    .ok (⟨twoCharges, 2, 0, true, hops, []⟩, false) ∧ hops.length = n := by
  have key : ∀ (n : Nat) (l : List (Popped ℚ)), ∃ hops, loops binary64 twoSeconds shortStays n ⟨twoCharges, 2, 0, true, l, []⟩ =
      .ok (⟨twoCharges, 2, 0, true, hops, []⟩, false) ∧ hops.length = l.length + n := by
    intro n
    induction n with
    | zero => intro l; exact ⟨l, rfl, rfl⟩
    | succ n ih =>
      intro l
      obtain ⟨hops, h1, h2⟩ := ih (l ++ [⟨0, 1, ⟨1 / 2 ^ 54, 0, false⟩⟩])
      refine ⟨hops, ?_, by rw [h2]; simp; omega⟩
      rw [← h1]
      have hdue : ToF.due twoCharges 2 = .ok true := by
        simp [ToF.due, twoCharges, size, Queue.at_]
      have hpop : twoCharges.popCurrent = .ok ((0, 1), ⟨[(1, 3)], true⟩) := rfl
      have hadv : advance binary64 twoSeconds shortStays ⟨twoCharges, 2, 0, true, l, []⟩ =
          .ok (some ⟨twoCharges, 2, 0, true, l ++ [⟨0, 1, ⟨1 / 2 ^ 54, 0, false⟩⟩], []⟩) := by
        unfold advance
        simp only [if_true, hdue, ok_bind, iterateHop, hpop, shortStays, Bool.false_eq_true, if_false]
        have h0 : binary64 (0 + ((0 : Int) : ℚ)) = 0 := by rw [Int.cast_zero, add_zero, binary64_zero]
        rw [h0, binary64_one.2.2.2]
        simp [twoCharges, sortedAdd, insertBefore]
      conv_lhs => unfold loops
      rw [hadv]
  obtain ⟨hops, h1, h2⟩ := key n []
  refine ⟨hops, ?_, by simpa using h2⟩
  rw [← h1]
  conv_lhs => unfold loops
  have hadv : advance binary64 twoSeconds shortStays (beginLoops twoSeconds twoCharges) = .ok (some ⟨twoCharges, 2, 0, true, [], []⟩) := by
    unfold advance
    have hdue : ToF.due twoCharges 2 = .ok true := by
      simp [ToF.due, twoCharges, size, Queue.at_]
    simp only [beginLoops, Bool.false_eq_true, if_false, twoSeconds, hdue, ok_bind, if_true]
  rw [hadv]

/-- **C94** fails without a condition on the dwell times: a charge with positive dwell times all of the same length hops for ever at the
same time, while with exact arithmetic the loops end. -/
theorem C94_counterexample : (∀ w k, 0 < (shortStays w k).dwell) ∧ Ready binary64 twoCharges ∧
    (∀ n, ∃ s, loops binary64 twoSeconds shortStays (n + 1) (beginLoops twoSeconds twoCharges) = .ok (s, false) ∧ s.queue = twoCharges ∧
      s.hops.length = n) ∧
    ∃ n s, loops id twoSeconds shortStays n (beginLoops twoSeconds twoCharges) = .ok (s, true) := by
  refine ⟨fun _ _ => by norm_num [shortStays], twoCharges_ready ⟨binary64_one.1, binary64_one.2.1⟩, fun n => ?_, ?_⟩
  · obtain ⟨hops, h1, h2⟩ := standstill n
    exact ⟨_, h1, rfl, h2⟩
  · have R : Rounding (id : ℚ → ℚ) 0 := ⟨monotone_id, fun _ => rfl, fun x => by simp⟩
    obtain ⟨n, hn⟩ := exists_nat_gt ((twoCharges.size : ℚ) * (4 * 4 / (1 / 2 ^ 54) + 3) + 4 * 4 / 2 + 1)
    obtain ⟨s, h⟩ := C94_ends_partial (cfg := twoSeconds) (inp := shortStays) (n := n) R (le_refl _) (by norm_num) (twoCharges_ready ⟨rfl, rfl⟩) rfl
      (by norm_num [twoSeconds]) (by norm_num [twoSeconds]) (fun _ _ => by norm_num [shortStays]) (d := 1 / 2 ^ 54) (T := 4) (by norm_num [twoSeconds])
      (by norm_num) (fun _ _ => .inl (by norm_num [shortStays])) (by norm_num) (by norm_num [twoSeconds]) (by simpa [twoSeconds] using hn)
    exact ⟨n, s, h⟩

/-- The constants of the example (ToF_example.cpp 163-164, 167) as `double`s, with units of length and charge of 1. -/
def tofNumbers : ToF.Config ℚ := ⟨200, binary64 (4 / 10 ^ 9), binary64 (binary64 (2 / 10 ^ 9) / 300), 1943, 1, 1, 1⟩

/-- The hypotheses of the theorems with the numbers of the example, dwell times of at least 10^-23 s, and shifts of at most 200 planes. -/
example : Rounding (binary64 : ℚ → ℚ) (1 / 2 ^ 53) ∧ binary64 tofNumbers.dt = tofNumbers.dt ∧ 0 < tofNumbers.dt ∧ 0 ≤ tofNumbers.cutoffTime ∧
    4 * (1 / 2 ^ 53) * binary64 (tofNumbers.cutoffTime + tofNumbers.dt) ≤ 1 / 10 ^ 23 ∧
    4 * (1 / 2 ^ 53) * binary64 (tofNumbers.cutoffTime + tofNumbers.dt) ≤ tofNumbers.dt ∧ 12 * (1 / 2 ^ 53 : ℚ) ≤ 1 ∧
    (∀ i : Int, |i| ≤ 2 ^ 53 → binary64 (i : ℚ) = i) := by
  refine ⟨binary64_rounding, by decide +kernel, by decide +kernel, by decide +kernel, by decide +kernel, by decide +kernel, by norm_num, fun i hi => ?_⟩
  have := binary64_fixed (K := ℚ) i 0 hi
  simpa using this

/-- A run with two charges, one of which hops twice and leaves: one sample. -/
example : (match loops binary64 twoSeconds (fun w k => ⟨3 / 4, 1, w == 0 && k == 1⟩) 7 (beginLoops twoSeconds twoCharges) with
    | .ok r => decide (r.1.queue.entries = [(1, 3)]) && decide (r.1.samples = [(2, some 1)]) &&
        decide ((r.1.hops.map fun h => (h.walker, h.time)) = [(0, 1), (0, 7 / 4)]) && r.2
    | .error _ => false) = true := by decide +kernel

end Mythical.Rounded
