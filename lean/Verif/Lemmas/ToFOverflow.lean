import Verif.Lemmas.ToFEnds
import Verif.Lemmas.SystemOverflowRun

/-! # Helper lemmas for the time-of-flight program: the counters -/

set_option linter.unusedSectionVars false
set_option linter.unusedVariables false

namespace Mythical.ToF
open Mythical World SystemSpec ToFSpec CuboidSpec Queue
variable {K : Type} [Field K] [LinearOrder K] [IsStrictOrderedRing K] [FloorRing K]
variable {env : Env K} {mem : Addr → K} {c : Cuboid} {m : IMap (IMap Addr)} {cfg : Config K} {ch : Chances K} {s s' : Sim K}
variable {p p' : Prog K}

/-- What the calls made so far add to the counters. -/
structure Tally (cfg : Config K) (p : Prog K) : Prop where
  arrivals : (p.calls.map fun ev => arrivals ev.op).sum = cfg.charges + hopsIn p.calls
  departures : (p.calls.map fun ev => departures ev.op).sum ≤ 2 * hopsIn p.calls
  ids : (p.calls.map fun ev => idsTaken ev.op).sum = 2 * hopsIn p.calls
  thresholds : ∀ ev ∈ p.calls, ∀ n, ev.op ≠ .setMinThreshold n

theorem hopsIn_snoc (evs : List (Event K)) (ev : Event K) : hopsIn (evs ++ [ev]) = hopsIn evs + if isHop ev.op then 1 else 0 := by
  unfold hopsIn
  rw [List.countP_append]
  simp [List.countP_cons]

theorem tally_start (h : start env mem c m cfg ch = .ok s) : Tally cfg s.prog ∧ hopsIn s.prog.calls = 0 := by
  obtain ⟨p, hp, hc, -⟩ := start_calls h
  obtain ⟨r, -, e⟩ := call_ok hc
  have hz : ∀ f : World.Op K → Nat, (∀ k, f (.newWalker k) = 0) → (∀ k i, f (.walkerOccupy k i) = 0) → (∀ k, f (.setRandomSeed k) = 0) →
      (∀ t, f (.setTimeResolution t) = 0) → (∀ m, f (.initializeSystem m) = 0) → (p.calls.map fun ev => f ev.op).sum = 0 := by
    intro f h1 h2 h3 h4 h5
    refine List.sum_eq_zero fun x hx => ?_
    obtain ⟨ev, hev, rfl⟩ := List.mem_map.1 hx
    rcases hp ev hev with ⟨_, e⟩ | ⟨_, _, e⟩ | e | e | e <;> rw [e]
    · exact h1 _
    · exact h2 _ _
    · exact h3 _
    · exact h4 _
    · exact h5 _
  have hh : hopsIn p.calls = 0 := by
    unfold hopsIn
    rw [List.countP_eq_zero]
    intro ev hev
    rcases hp ev hev with ⟨_, e⟩ | ⟨_, _, e⟩ | e | e | e <;> rw [e] <;> simp [isHop]
  have hh' : hopsIn s.prog.calls = 0 := by
    rw [e, hopsIn_snoc, hh]
    rfl
  refine ⟨⟨?_, ?_, ?_, ?_⟩, hh'⟩
  · rw [hh', e, List.map_append, List.sum_append, hz SystemSpec.arrivals] <;> try (intros; rfl)
    show 0 + ((entries cfg.charges ch.first).length + 0) = _
    unfold entries
    simp
  · rw [hh', e, List.map_append, List.sum_append, hz SystemSpec.departures] <;> try (intros; rfl)
  · rw [hh', e, List.map_append, List.sum_append, hz SystemSpec.idsTaken] <;> try (intros; rfl)
  · intro ev hev n
    rw [e] at hev
    rcases List.mem_append.1 hev with hev | hev
    · rcases hp ev hev with ⟨_, e⟩ | ⟨_, _, e⟩ | e | e | e <;> rw [e] <;> exact fun h => nomatch h
    · rw [List.mem_singleton.1 hev]
      exact fun h => nomatch h

theorem Tally.hop (h : Tally cfg p) {k l : Int} {a : Choices K} (hc : p.call env mem (.hop k l a) = .ok p') :
    hopsIn p'.calls = hopsIn p.calls + 1 ∧
      (p'.calls.map fun ev => SystemSpec.arrivals ev.op).sum = cfg.charges + hopsIn p'.calls ∧
      (p'.calls.map fun ev => SystemSpec.departures ev.op).sum ≤ 2 * hopsIn p.calls + 1 ∧
      (p'.calls.map fun ev => idsTaken ev.op).sum = 2 * hopsIn p'.calls ∧ ∀ ev ∈ p'.calls, ∀ n, ev.op ≠ .setMinThreshold n := by
  obtain ⟨r, -, e⟩ := call_ok hc
  have h1 : hopsIn p'.calls = hopsIn p.calls + 1 := by rw [e, hopsIn_snoc]; rfl
  have h2 := h.arrivals
  have h3 := h.departures
  have h4 := h.ids
  refine ⟨h1, ?_, ?_, ?_, ?_⟩
  · rw [h1, e, List.map_append, List.sum_append]
    show _ + (1 + 0) = _
    omega
  · rw [e, List.map_append, List.sum_append]
    show _ + (1 + 0) ≤ _
    omega
  · rw [h1, e, List.map_append, List.sum_append]
    show _ + (2 + 0) = _
    omega
  · intro ev hev n
    rw [e] at hev
    rcases List.mem_append.1 hev with hev | hev
    · exact h.thresholds ev hev n
    · rw [List.mem_singleton.1 hev]
      exact fun h => nomatch h

theorem tally_advance (h : Tally cfg s.prog) (ha : advance env mem c cfg ch s = .ok (some s')) :
    Tally cfg s'.prog ∧ hopsIn s'.prog.calls ≤ hopsIn s.prog.calls + 1 ∧ s'.samples.length ≤ s.samples.length + 1 := by
  rcases advance_ok ha with ⟨-, -, s1, h1, e⟩ | ⟨-, -, s1, h1, e⟩ | ⟨-, -, e⟩ | ⟨-, -, e⟩
  · cases e
    obtain ⟨e, es, x, i, old, p, y, j, new, d, -, -, -, -, -, -, hp, -, -, -, -, -, hcase⟩ := iterate_ok h1
    obtain ⟨i1, i2, i3, i4, i5⟩ := h.hop hp
    rcases hcase with ⟨-, rfl⟩ | ⟨-, p', hp', rfl⟩
    · exact ⟨⟨i2, by rw [i1]; exact i3.trans (by omega), i4, i5⟩, i1.le, Nat.le_succ _⟩
    · obtain ⟨r, -, e⟩ := call_ok hp'
      have k1 : hopsIn p'.calls = hopsIn p.calls := by rw [e, hopsIn_snoc]; rfl
      refine ⟨⟨?_, ?_, ?_, ?_⟩, by show hopsIn p'.calls ≤ _; rw [k1, i1], Nat.le_succ _⟩
      · show (p'.calls.map _).sum = _ + hopsIn p'.calls
        rw [k1, ← i2, e, List.map_append, List.sum_append]
        rfl
      · show (p'.calls.map _).sum ≤ 2 * hopsIn p'.calls
        rw [k1, i1, e, List.map_append, List.sum_append]
        show _ + (1 + 0) ≤ _
        omega
      · show (p'.calls.map _).sum = 2 * hopsIn p'.calls
        rw [k1, ← i4, e, List.map_append, List.sum_append]
        rfl
      · intro ev hev n
        have hev : ev ∈ p'.calls := hev
        rw [e] at hev
        rcases List.mem_append.1 hev with hev | hev
        · exact i5 ev hev n
        · rw [List.mem_singleton.1 hev]
          exact fun h => nomatch h
  · cases e
    have := sample_ok h1
    subst this
    exact ⟨h, Nat.le_succ _, by simp⟩
  · cases e; exact ⟨h, Nat.le_succ _, Nat.le_succ _⟩
  · cases e

/-- The counters have room for one more hop. -/
structure Space (r R : K) (cfg : Config K) (hops : Nat) : Prop where
  arrivals : ((cfg.charges + (hops + 1) : Nat) : K) * (R / (r * r) + 3) ≤ 2 * 2147483647
  hops : hops + 1 < 2 ^ 30

theorem Space.mono {r R : K} (hr : 0 < r) (hR : 0 < R) {h h' : Nat} (H : Space r R cfg h') (hh : h ≤ h') : Space r R cfg h := by
  refine ⟨le_trans (mul_le_mul_of_nonneg_right ?_ ?_) H.arrivals, by have := H.hops; omega⟩
  · exact_mod_cast by omega
  · have : 0 < R / (r * r) := div_pos hR (mul_pos hr hr)
    linarith

theorem call_calm {op : World.Op K} (h : Mythical.Calm (p.world.step env mem op).1) : Mythical.Calm (p.call env mem op) := by
  intro e he
  unfold Prog.call at he
  split at he
  · next f w hs =>
    cases he
    exact h e (by rw [hs])
  · cases he

theorem due_calm (q : Queue K) (t : K) : Mythical.Calm (due q t) := by
  obtain ⟨b, hb⟩ := due_total q t
  rw [hb]
  exact .ok _

theorem iterate_calm (hb : Built c) (hm : Suits c mem m) (hch : Possible c mem ch) (hcfg : Sensible cfg) (hI : Inv env mem c m cfg s)
    {r R : K} (hr : 0 < r) (hR : 0 < R) (hrow : RowsWithin mem m r R) (hT : Tally cfg s.prog) (hS : Space r R cfg (hopsIn s.prog.calls)) :
    Mythical.Calm (iterate env mem c cfg ch s) := by
  by_cases hne : s.queue.entries = []
  · unfold iterate popCurrent
    rw [hne]
    exact .err (by unfold Soft; decide)
  obtain ⟨e, es, he⟩ := List.exists_cons_of_ne_nil hne
  have hmem : e ∈ s.queue.entries := by rw [he]; exact List.mem_cons_self
  have hid : e.1 ∈ ids s := List.mem_map_of_mem hmem
  have hact := hI.act.subset hid
  have hrng := hI.range _ hid
  have g := Cuboid.good_of_built hb
  have hlen : c.length ≤ 2147483647 := by
    have h1 := g.fits
    have : c.length * 1 ≤ c.length * (c.width * c.height) :=
      mul_le_mul_of_nonneg_left (by have := mul_pos g.w g.h; omega) g.l.le
    rw [mul_assoc] at h1
    omega
  obtain ⟨i, ⟨x, hx, rfl, h0⟩, hi⟩ := (hI.story.trace.inv hI.story.usage).occup.placed _ hact
  obtain ⟨a, haS, ha⟩ := getX_valid hb (hI.story.valid hm (known_iff.2 hi))
  have hpop : s.queue.popCurrent = .ok (e, ⟨es, s.queue.sorted⟩) := by unfold popCurrent; rw [he]
  have hwx : s.prog.world.walkerOf e.1 = .ok x := by unfold walkerOf; rw [hx]
  unfold iterate
  rw [hpop, ok_bind]
  simp only [holeAt_ok.2 ⟨hrng, rfl⟩, ok_bind, hwx, walkerSite_ok.2 ⟨h0, rfl⟩, ha]
  have hfit : Fits 0 r R s.prog.calls (.hop e.1 e.1 (ch.draw s.prog.calls e.1)) := by
    have h1 := hT.departures
    have h2 := hT.ids
    have h3 := hS.hops
    refine ⟨?_, ?_, ?_, by omega⟩
    · have : total SystemSpec.arrivals s.prog.calls (.hop e.1 e.1 (ch.draw s.prog.calls e.1)) = cfg.charges + (hopsIn s.prog.calls + 1) := by
        unfold total
        rw [hT.arrivals]
        rfl
      rw [this]
      exact hS.arrivals
    · show _ + 1 ≤ _
      omega
    · show 0 + (_ + 2) ≤ _
      omega
  refine Calm.bind (call_calm (hI.story.trace.calm hI.story.usage.hopsReturn hI.story.fixed (hI.story.pos hm) hr hR
    (hI.story.within hm hrow) (fun ev hev n ho => absurd ho (hT.thresholds ev hev n)) trivial hfit)) fun p hp => ?_
  obtain ⟨hs, hsame, -, ⟨y, hy, ⟨y', hy', -, hy0⟩, hv, -⟩, -⟩ :=
    hI.story.hop hm hact (hch.draw _ _) (fun v w1 e' => hch.times _ _ v w1 (by rw [hI.story.last]; exact e')) hp
  have hwy : p.world.walkerOf e.1 = .ok y := by unfold walkerOf; rw [hy]
  obtain ⟨b, hbS, hb'⟩ := getX_valid hb hv
  simp only [hwy, ok_bind, walkerSite_ok.2 ⟨hy0, rfl⟩, hb']
  have k1 := haS.1.1
  have k2 := hbS.1.1
  have k3 := g.l
  refine Calm.bind (.chk (fitsInt_of (by omega) (by omega))) fun d _ => Calm.bind (.chk (fitsInt_of (by omega) (by omega))) fun l _ => ?_
  split
  · exact .ok _
  · obtain ⟨j1, j2, j3, j4, j5⟩ := hT.hop hp
    have hfit' : Fits 0 r R p.calls (.removeWalker e.1 e.1) := by
      have h3 := hS.hops
      refine ⟨?_, ?_, ?_, by omega⟩
      · have : total SystemSpec.arrivals p.calls (.removeWalker e.1 e.1) = cfg.charges + (hopsIn s.prog.calls + 1) := by
          unfold total
          rw [j2, j1]
          rfl
        rw [this]
        exact hS.arrivals
      · show _ + 1 ≤ _
        omega
      · show 0 + (_ + 0) ≤ _
        omega
    refine Calm.bind (call_calm (hs.trace.calm hs.usage.hopsReturn hs.fixed (hs.pos hm) hr hR
      (hs.within hm hrow) (fun ev hev n ho => absurd ho (j5 ev hev n)) trivial hfit')) fun p' _ => Calm.bind (.chk ?_) fun _ _ => .ok _
    have q1 := ids_length hI
    have q2 : 0 < s.queue.size := List.length_pos_iff.2 hne
    have q3 : (cfg.charges : Int) ≤ 2147483647 := hcfg.fits.2
    rw [hI.remain]
    exact fitsInt_of (by omega) (by omega)

theorem sample_calm (hI : Inv env mem c m cfg s) (h : s.samples.length + 1 ≤ 2147483647) : Mythical.Calm (sample cfg s) := by
  unfold sample
  dsimp only
  rw [if_pos ⟨by rw [hI.index]; exact Int.natCast_nonneg _, by rw [hI.index]; simp⟩]
  exact Calm.bind (.chk (by rw [hI.index]; exact fitsInt_of (by omega) (by omega))) fun _ _ => .ok _

theorem advance_calm (hb : Built c) (hm : Suits c mem m) (hch : Possible c mem ch) (hcfg : Sensible cfg) (hI : Inv env mem c m cfg s)
    {r R : K} (hr : 0 < r) (hR : 0 < R) (hrow : RowsWithin mem m r R) (hT : Tally cfg s.prog) (hS : Space r R cfg (hopsIn s.prog.calls))
    (h : s.samples.length + 1 ≤ 2147483647) : Mythical.Calm (advance env mem c cfg ch s) := by
  unfold advance
  split
  · refine Calm.bind (due_calm _ _) fun b _ => ?_
    split
    · exact Calm.bind (iterate_calm hb hm hch hcfg hI hr hR hrow hT hS) fun _ _ => .ok _
    · exact Calm.bind (sample_calm hI h) fun _ _ => .ok _
  · refine Calm.bind (due_calm _ _) fun b _ => ?_
    split <;> exact .ok _

theorem loops_calm (hb : Built c) (hm : Suits c mem m) (hch : Possible c mem ch) (hcfg : Sensible cfg) (hI : Inv env mem c m cfg s)
    {r R : K} (hr : 0 < r) (hR : 0 < R) (hrow : RowsWithin mem m r R) (hT : Tally cfg s.prog) {n N : Nat}
    (hS : Space r R cfg N) (h1 : hopsIn s.prog.calls + n ≤ N + 1) (h2 : s.samples.length + n ≤ N + 1) :
    Mythical.Calm (loops env mem c cfg ch n s) := by
  induction n generalizing s with
  | zero => exact .ok _
  | succ n ih =>
    have h3 := hS.hops
    have ha := advance_calm hb hm hch hcfg hI hr hR hrow hT (hS.mono hr hR (by omega)) (by omega)
    rw [loops_succ]
    split
    · next f hf => exact ha.of_eq hf
    · exact .ok _
    · next s' hs' =>
      obtain ⟨i1, i2, i3⟩ := tally_advance hT hs'
      exact ih (advance_inv hb hm hch hI hs') i1 (by omega) (by omega)

theorem program_calm (hS : Setting c mem m cfg ch) {r R : K} (hr : 0 < r) (hR : 0 < R) (hrow : RowsWithin mem m r R) {n : Nat}
    (h1 : ((cfg.charges + n : Nat) : K) * (R / (r * r) + 3) ≤ 2 * 2147483647) (h2 : n < 2 ^ 30) :
    Mythical.Calm (program env mem c m cfg ch n) := by
  unfold program
  obtain ⟨sites, -, -, -, ⟨s, i1, -⟩ | ⟨i1, -⟩⟩ := start_spec (env := env) hS.built hS.suits hS.possible hS.sensible hS.length hS.enough
  · rw [i1, ok_bind]
    obtain ⟨hT, hh⟩ := tally_start i1
    obtain ⟨-, -, -, -, hsm⟩ := (start_calls i1).choose_spec
    cases n with
    | zero => exact .ok _
    | succ n =>
      exact loops_calm hS.built hS.suits hS.possible hS.sensible (start_ok hS i1).1 hr hR hrow hT ⟨h1, h2⟩ (by rw [hh]; omega)
        (by rw [hsm]; simp)
  · rw [i1, error_bind]
    exact .err soft_assert

end Mythical.ToF
