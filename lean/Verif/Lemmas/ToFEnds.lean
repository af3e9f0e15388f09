import Verif.Lemmas.ToFRun
import Verif.Lemmas.SystemStays
import Verif.Spec.ToFEnds

/-! # Helper lemmas for the time-of-flight program: the clocks of the charges and the number of steps -/

set_option linter.unusedSectionVars false
set_option linter.unusedVariables false

namespace Mythical.ToF
open Mythical World SystemSpec ToFSpec CuboidSpec Queue
variable {K : Type} [Field K] [LinearOrder K] [IsStrictOrderedRing K] [FloorRing K]
variable {env : Env K} {mem : Addr → K} {c : Cuboid} {m : IMap (IMap Addr)} {cfg : Config K} {ch : Chances K} {s s' : Sim K}
variable {p p' : Prog K}

/-! ## The calls made -/

/-- All calls made are of a kind. -/
def AllOps (P : World.Op K → Prop) (p : Prog K) : Prop := ∀ ev ∈ p.calls, P ev.op

theorem AllOps.call {P : World.Op K → Prop} (h : AllOps P p) {op : World.Op K} (hc : p.call env mem op = .ok p') (ho : P op) : AllOps P p' := by
  obtain ⟨r, -, e⟩ := call_ok hc
  intro ev hev
  rw [e] at hev
  rcases List.mem_append.1 hev with hev | hev
  · exact h ev hev
  · rw [List.mem_singleton.1 hev]; exact ho

theorem AllOps.place {P : World.Op K → Prop} (hn : ∀ k, P (.newWalker k)) (ho : ∀ k i, P (.walkerOccupy k i)) {l : List Int} {k : Int}
    (h : AllOps P p) (hc : ToF.place env mem p k l = .ok p') : AllOps P p' := by
  induction l generalizing p k with
  | nil => cases hc; exact h
  | cons i l ih =>
    unfold ToF.place at hc
    obtain ⟨p1, h1, hc⟩ := bind_eq_ok.1 hc
    obtain ⟨p2, h2, hc⟩ := bind_eq_ok.1 hc
    exact ih ((h.call h1 (hn _)).call h2 (ho _ _)) hc

/-- The calls made before the loops. -/
theorem start_calls (h : start env mem c m cfg ch = .ok s) :
    ∃ p, AllOps (fun op => (∃ k, op = .newWalker k) ∨ (∃ k i, op = .walkerOccupy k i) ∨ op = .setRandomSeed cfg.seed ∨
        op = .setTimeResolution cfg.dt ∨ op = .initializeSystem m) p ∧
      p.call env mem (.initializeWalkers (entries cfg.charges ch.first)) = .ok s.prog ∧
      createQueue s.prog.world cfg.charges ch.sort cfg.cutoffTime = .ok s.queue ∧ s.inside = false ∧ s.samples = [] := by
  unfold start at h
  obtain ⟨l, -, h⟩ := bind_eq_ok.1 h
  obtain ⟨p1, h1, h⟩ := bind_eq_ok.1 h
  obtain ⟨p2, h2, h⟩ := bind_eq_ok.1 h
  obtain ⟨p3, h3, h⟩ := bind_eq_ok.1 h
  obtain ⟨p4, h4, h⟩ := bind_eq_ok.1 h
  obtain ⟨p5, h5, h⟩ := bind_eq_ok.1 h
  obtain ⟨q, hq, h⟩ := bind_eq_ok.1 h
  cases h
  refine ⟨p4, ?_, h5, hq, rfl, rfl⟩
  refine AllOps.call (AllOps.call (AllOps.call (AllOps.place (fun k => .inl ⟨k, rfl⟩) (fun k i => .inr (.inl ⟨k, i, rfl⟩)) ?_ h1) h2
    (.inr (.inr (.inl rfl)))) h3 (.inr (.inr (.inr (.inl rfl))))) h4 (.inr (.inr (.inr (.inr rfl))))
  intro ev hev
  cases hev

/-! ## The clocks -/

theorem stays_snoc {wid : Int} {evs : List (Event K)} {ev : Event K} : staysOf wid (evs ++ [ev]) = staysOf wid evs ++ staysIn wid ev := by
  unfold staysOf
  rw [List.flatMap_append, List.flatMap_singleton]

/-- The number of hops made by all charges, with one added for each. -/
def staysNumber (cfg : Config K) (p : Prog K) : Nat := ((List.range cfg.charges).map fun k : Nat => (staysOf (k : Int) p.calls).length).sum

/-- The times in the queue are the sums of the stays; all but the last stay of a charge end before the last sample is due; and
the steps made are counted. -/
structure Clock (cfg : Config K) (n : Nat) (s : Sim K) : Prop where
  times : ∀ e ∈ s.queue.entries, e.2 = (staysOf e.1 s.prog.calls).sum
  before : ∀ k : Int, (staysOf k s.prog.calls).dropLast.sum < cfg.cutoffTime + cfg.dt
  nonempty : ∀ k : Int, 0 ≤ k → k < cfg.charges → staysOf k s.prog.calls ≠ []
  now : s.inside = true → s.sampleTime - cfg.dt < cfg.cutoffTime
  samples : cfg.dt * s.samples.length < cfg.cutoffTime + cfg.dt
  steps : n + cfg.charges = staysNumber cfg s.prog + 2 * s.samples.length + (if s.inside then 1 else 0)

theorem natsum_change {f g : Nat → Nat} {n j : Nat} (hj : j < n) (h : ∀ k, k ≠ j → g k = f k) (h1 : g j = f j + 1) :
    ((List.range n).map g).sum = ((List.range n).map f).sum + 1 := by
  induction n with
  | zero => omega
  | succ n ih =>
    simp only [List.range_succ, List.map_append, List.sum_append, List.map_cons, List.map_nil, List.sum_cons, List.sum_nil]
    by_cases hn : j = n
    · subst hn
      have : (List.range j).map g = (List.range j).map f := List.map_congr_left fun k hk => h k (by have := List.mem_range.1 hk; omega)
      rw [this, h1]
      omega
    · rw [ih (by omega), h n (by omega)]
      omega

/-- The stays in the calls of one round. -/
theorem hop_stays {k : Int} {a : Choices K} {y : Walker K} (hc : p.call env mem (.hop k k a) = .ok p') (hy : p'.world.walkers.get? k = some y)
    (wid : Int) : staysOf wid p'.calls = staysOf wid p.calls ++ if wid = k then [y.dwell] else [] := by
  obtain ⟨r, -, e⟩ := call_ok hc
  rw [e, stays_snoc]
  congr 1
  show (if k = wid then dwellOf p'.world k else []) = _
  unfold dwellOf
  rw [hy]
  by_cases h : wid = k
  · rw [if_pos h, if_pos h.symm]
  · rw [if_neg h, if_neg (Ne.symm h)]

theorem remove_stays {k : Int} (hc : p.call env mem (.removeWalker k k) = .ok p') (wid : Int) : staysOf wid p'.calls = staysOf wid p.calls := by
  obtain ⟨r, -, e⟩ := call_ok hc
  rw [e, stays_snoc]
  exact List.append_nil _

theorem clock_start (hS : Setting c mem m cfg ch) (h : start env mem c m cfg ch = .ok s) : Clock cfg 0 s := by
  obtain ⟨hI, -, -, -, hne⟩ := start_ok hS h
  obtain ⟨p, hp, hc, hq, hin, hsm⟩ := start_calls h
  have hempty : ∀ k, staysOf k p.calls = [] := by
    intro k
    unfold staysOf
    rw [List.flatMap_eq_nil_iff]
    intro ev hev
    unfold staysIn
    rcases hp ev hev with ⟨_, e⟩ | ⟨_, _, e⟩ | e | e | e <;> rw [e]
  obtain ⟨r, hstep, hcalls⟩ := call_ok hc
  have hentry : ∀ (k : Nat), k < cfg.charges →
      (entries cfg.charges ch.first).filter (fun a => a.wid = (k : Int)) = [⟨(k : Int), (k : Int), (ch.first k).1, (ch.first k).2⟩] := by
    intro k hk
    unfold entries
    rw [List.filter_map]
    have : (List.range cfg.charges).filter ((fun a : Entry K => decide (a.wid = (k : Int))) ∘
        fun k : Nat => (⟨(k : Int), (k : Int), (ch.first k).1, (ch.first k).2⟩ : Entry K)) = [k] := by
      have h1 : (List.range cfg.charges).filter ((fun a : Entry K => decide (a.wid = (k : Int))) ∘
        fun k : Nat => (⟨(k : Int), (k : Int), (ch.first k).1, (ch.first k).2⟩ : Entry K)) = (List.range cfg.charges).filter (fun j => j == k) := by
        refine List.filter_congr fun j _ => ?_
        simp only [Function.comp_apply]
        by_cases hjk : j = k
        · simp [hjk]
        · simp [hjk]
      rw [h1, List.filter_beq, List.count_eq_one_of_mem List.nodup_range (List.mem_range.2 hk)]
      rfl
    rw [this]
    rfl
  have hst : ∀ (k : Nat), k < cfg.charges → staysOf (k : Int) s.prog.calls = dwellOf s.prog.world k := by
    intro k hk
    rw [hcalls, stays_snoc, hempty, List.nil_append]
    show ((entries cfg.charges ch.first).filter (fun a => a.wid = (k : Int))).flatMap _ = _
    rw [hentry k hk, List.flatMap_singleton]
  have hout : ∀ k : Int, ¬ (0 ≤ k ∧ k < cfg.charges) → staysOf k s.prog.calls = [] := by
    intro k hk
    rw [hcalls, stays_snoc, hempty, List.nil_append]
    show ((entries cfg.charges ch.first).filter (fun a => a.wid = k)).flatMap _ = _
    rw [List.filter_eq_nil_iff.2]
    · rfl
    · intro a ha
      unfold entries at ha
      obtain ⟨j, hj, rfl⟩ := List.mem_map.1 ha
      have := List.mem_range.1 hj
      simp only [decide_eq_true_eq]
      omega
  have hdw : ∀ k ∈ List.range cfg.charges, ∃ x, s.prog.world.walkers.get? k = some x ∧ x.dwell = (dwellOf s.prog.world k).sum := by
    intro k hk
    have hk := List.mem_range.1 hk
    have : ∃ x, s.prog.world.walkers.get? (k : Int) = some x := by
      have hk' : (k : Int) ∈ ids s ∨ (k : Int) ∉ ids s := em _
      rcases hk' with hk' | hk'
      · obtain ⟨x, ⟨i, a, ⟨y, hy, -⟩, -⟩, -⟩ := hI.ahead _ hk'
        exact ⟨y, hy⟩
      · obtain ⟨i, a, ⟨y, hy, -⟩, -⟩ := hI.gone k (by omega) (by omega) hk'
        exact ⟨y, hy⟩
    obtain ⟨x, hx⟩ := this
    refine ⟨x, hx, ?_⟩
    unfold dwellOf
    rw [hx]
    simp
  rcases createQueue_spec (srt := ch.sort) (cutoff := cfg.cutoffTime) hS.sensible.charges hdw with ⟨q, hq', hqp, -, -, k0, hk0, hlt⟩ | ⟨hq', -⟩
  swap
  · rw [hq] at hq'; cases hq'
  rw [hq] at hq'; cases hq'
  have hone : ∀ (k : Nat), k < cfg.charges → (staysOf (k : Int) s.prog.calls).length = 1 := by
    intro k hk
    rw [hst k hk]
    obtain ⟨x, hx, -⟩ := hdw k (List.mem_range.2 hk)
    unfold dwellOf
    rw [hx]
    rfl
  have htime : ∀ e ∈ s.queue.entries, e.2 = (staysOf e.1 s.prog.calls).sum := by
    intro e he
    obtain ⟨k, hk, rfl⟩ := List.mem_map.1 (hqp.subset he)
    rw [hst k (List.mem_range.1 hk)]
  have hcut : 0 < cfg.cutoffTime := by
    have h0 : ((k0 : Int), (dwellOf s.prog.world k0).sum) ∈ s.queue.entries :=
      hqp.symm.subset (List.mem_map.2 ⟨k0, List.mem_range.2 hk0, rfl⟩)
    have h1 := hI.lower _ h0
    have h2 : s.sampleTime - cfg.dt = 0 := by
      rw [hI.time, hsm]
      simp
    rw [h2] at h1
    exact lt_of_le_of_lt h1 hlt
  have hdt := hS.sensible.dt
  refine ⟨htime, ?_, ?_, fun h => (by rw [hin] at h; cases h), by rw [hsm]; simp; linarith, ?_⟩
  · intro k
    have : (staysOf k s.prog.calls).dropLast = [] := by
      by_cases hk : 0 ≤ k ∧ k < cfg.charges
      · have := hone k.toNat (by omega)
        rw [Int.toNat_of_nonneg hk.1] at this
        obtain ⟨x, hx⟩ := List.length_eq_one_iff.1 this
        rw [hx]; rfl
      · rw [hout k hk]; rfl
    rw [this]
    simp only [List.sum_nil]
    linarith
  · intro k h0 h1
    have := hone k.toNat (by omega)
    rw [Int.toNat_of_nonneg h0] at this
    intro e
    rw [e] at this
    cases this
  · rw [hin, hsm]
    unfold staysNumber
    have : (List.range cfg.charges).map (fun k : Nat => (staysOf (k : Int) s.prog.calls).length) = (List.range cfg.charges).map fun _ => 1 :=
      List.map_congr_left fun k hk => hone k (List.mem_range.1 hk)
    rw [this]
    simp

theorem clock_advance (hS : Setting c mem m cfg ch) {n : Nat} (hI : Inv env mem c m cfg s) (hC : Clock cfg n s)
    (h : advance env mem c cfg ch s = .ok (some s')) : Clock cfg (n + 1) s' := by
  have hdt := hS.sensible.dt
  rcases advance_ok h with ⟨hin, hd, s1, h1, e⟩ | ⟨hin, hd, s1, h1, e⟩ | ⟨hin, hd, e⟩ | ⟨-, -, e⟩
  · cases e
    obtain ⟨e, es, x, i, old, p, y, j, new, d, he, hr, hx, rfl, -, hold, hp, hy, rfl, -, hnew, rfl, hcase⟩ := iterate_ok h1
    have hhop := hop_stays hp hy
    have hnd : ∀ f ∈ es, f.1 ≠ e.1 := by
      have := hI.nodup
      unfold ids at this
      rw [he, List.map_cons, List.nodup_cons] at this
      intro f hf hfe
      exact this.1 (hfe ▸ List.mem_map_of_mem hf)
    have hmem : e ∈ s.queue.entries := by rw [he]; exact List.mem_cons_self
    have hlt : e.2 < s.sampleTime := by
      rw [due_cons he] at hd
      simpa using hd
    have hnow := hC.now hin
    have key : ∃ q : Prog K, s'.prog = q ∧ (∀ wid, staysOf wid q.calls = staysOf wid s.prog.calls ++ if wid = e.1 then [y.dwell] else []) ∧
        s'.inside = s.inside ∧ s'.sampleTime = s.sampleTime ∧ s'.samples = s.samples ∧
        ∀ f ∈ s'.queue.entries, f = (e.1, e.2 + y.dwell) ∨ f ∈ es := by
      rcases hcase with ⟨-, rfl⟩ | ⟨-, p', hp', rfl⟩
      · refine ⟨p, rfl, hhop, rfl, rfl, rfl, fun f hf => ?_⟩
        exact List.mem_cons.1 ((insertBefore_perm _ _).subset hf)
      · refine ⟨p', rfl, fun wid => ?_, rfl, rfl, rfl, fun f hf => .inr hf⟩
        rw [remove_stays hp', hhop]
    obtain ⟨q, hq, hst, k1, k2, k3, k4⟩ := key
    refine ⟨?_, ?_, ?_, ?_, ?_, ?_⟩
    · intro f hf
      rw [hq, hst]
      rcases k4 f hf with rfl | hf
      · rw [if_pos rfl, List.sum_append, ← hC.times e hmem]
        simp
      · rw [if_neg (hnd f hf), List.append_nil]
        exact hC.times f (by rw [he]; exact List.mem_cons_of_mem _ hf)
    · intro k
      rw [hq, hst]
      by_cases hk : k = e.1
      · rw [if_pos hk, List.dropLast_concat, hk, ← hC.times e hmem]
        linarith
      · rw [if_neg hk, List.append_nil]
        exact hC.before k
    · intro k h0 h1
      rw [hq, hst]
      intro hn
      exact hC.nonempty k h0 h1 (List.append_eq_nil_iff.1 hn).1
    · rw [k1, k2]; exact hC.now
    · rw [k3]; exact hC.samples
    · rw [k1, k3, hq]
      have : staysNumber cfg q = staysNumber cfg s.prog + 1 := by
        unfold staysNumber
        refine natsum_change (j := e.1.toNat) (by omega) (fun k hk => ?_) ?_
        · rw [hst, if_neg (by omega), List.append_nil]
        · rw [Int.toNat_of_nonneg hr.1, hst, if_pos rfl, List.length_append]
          rfl
      rw [this]
      have := hC.steps
      omega
  · cases e
    have := sample_ok h1
    subst this
    refine ⟨hC.times, hC.before, hC.nonempty, fun h => (by cases h), ?_, ?_⟩
    · have := hC.now hin
      rw [hI.time] at this
      simp only [List.length_append, List.length_cons, List.length_nil]
      push_cast
      linarith
    · have := hC.steps
      rw [hin] at this
      simp only [List.length_append, List.length_cons, List.length_nil, if_true] at this ⊢
      simp only [Bool.false_eq_true, if_false]
      omega
  · cases e
    refine ⟨hC.times, hC.before, hC.nonempty, fun _ => ?_, hC.samples, ?_⟩
    · obtain ⟨e, es, he⟩ := List.exists_cons_of_ne_nil (due_true hd)
      have h1 := hI.lower e (by rw [he]; exact List.mem_cons_self)
      rw [due_cons he] at hd
      have h2 : e.2 < cfg.cutoffTime := by simpa using hd
      exact lt_of_le_of_lt h1 h2
    · have := hC.steps
      rw [hin] at this
      simp only [Bool.false_eq_true, if_false] at this
      simp only [if_true]
      omega
  · cases e

theorem loops_steps {P : Nat → Sim K → Prop} (hP : ∀ n s s', P n s → advance env mem c cfg ch s = .ok (some s') → P (n + 1) s') {n k : Nat}
    {fin : Bool} (h0 : P k s) (h : loops env mem c cfg ch n s = .ok (s', fin)) : ∃ j ≤ n, P (k + j) s' ∧ (fin = false → j = n) := by
  induction n generalizing s k with
  | zero => cases h; exact ⟨0, le_rfl, h0, fun _ => rfl⟩
  | succ n ih =>
    rw [loops_succ] at h
    cases ha : advance env mem c cfg ch s with
    | error f => rw [ha] at h; cases h
    | ok o =>
      rw [ha] at h
      cases o with
      | none => cases h; exact ⟨0, by omega, h0, fun h => nomatch h⟩
      | some s2 =>
        obtain ⟨j, hj, h1, h2⟩ := ih (hP _ _ _ h0 ha) h
        exact ⟨j + 1, by omega, by rw [show k + (j + 1) = k + 1 + j by omega]; exact h1, fun hf => by rw [h2 hf]⟩

theorem program_clock (hS : Setting c mem m cfg ch) {n : Nat} {fin : Bool} (h : program env mem c m cfg ch n = .ok (s, fin)) :
    ∃ j ≤ n, Clock cfg j s ∧ (fin = false → j = n) := by
  obtain ⟨s0, h0, h⟩ := bind_eq_ok.1 h
  obtain ⟨hI, -⟩ := start_ok hS h0
  obtain ⟨j, h1, ⟨-, h2⟩, h3⟩ := loops_steps (P := fun n s => Inv env mem c m cfg s ∧ Clock cfg n s)
    (fun n s s' ⟨i1, i2⟩ ha => ⟨advance_inv hS.built hS.suits hS.possible i1 ha, clock_advance hS i1 i2 ha⟩) ⟨hI, clock_start hS h0⟩ h
  rw [Nat.zero_add] at h2
  exact ⟨j, h1, h2, h3⟩

/-! ## The bounds -/

/-- The rates of the world are those of the map. -/
theorem Story.within (hs : Story env mem m p) (hm : Suits c mem m) {r R : K} (hr : RowsWithin mem m r R) : Within mem r R p.world := by
  intro i t ht
  obtain ⟨hw, -, -⟩ := hs.trace.good hs.usage.hopsReturn hs.fixed (hs.pos hm) i t ht
  obtain ⟨hb, -⟩ := hs.trace.bothWays hs.usage.hopsReturn (hs.sys hm) (hs.maps hm) (hs.two hm)
  obtain ⟨ev, he, m', sd, s0, ho, hn, htw, rfl⟩ := (hs.trace.static hs.usage.hopsReturn).1 i t ht
  obtain ⟨rfl, -⟩ := hs.only ev he m' ho
  obtain ⟨rates, hmem⟩ : ∃ rates, (s0.id, rates) ∈ m' := by
    have hn' := hn
    rcases hn' with ⟨rates, -, hr, -⟩ | ⟨e, -⟩
    · exact ⟨rates, hr⟩
    · exact absurd (by rw [htw.neigh, e]; rfl) (hb _ _ ht).1
  have hwr := hm.maps.2 _ hmem
  have hperm : List.Perm t.neigh rates := perm_of_get? hw hwr (by rw [htw.neigh]; exact hn.rates hm.maps.1 hmem hwr)
  obtain ⟨h1, h2⟩ := hr _ hmem
  refine ⟨(hb _ _ ht).1, fun na hna => h1 na (hperm.subset hna), ?_⟩
  rw [Site.sumRates_eq, (hperm.map _).sum_eq]
  exact h2

/-- The draws and time resolutions in a call of the program. -/
def Slow (cfg : Config K) (ε : K) (op : World.Op K) : Prop :=
  (∀ l, op = .initializeWalkers l → ∀ a ∈ l, ε ≤ a.e) ∧ (∀ wid h a, op = .hop wid h a → ε ≤ a.e) ∧
    ∀ t, op = .setTimeResolution t → cfg.dt ≤ t

theorem slow_start {ε : K} (hε : ChancesAtLeast ε ch) (h : start env mem c m cfg ch = .ok s) : AllOps (Slow cfg ε) s.prog := by
  obtain ⟨p, hp, hc, -⟩ := start_calls h
  refine AllOps.call (fun ev hev => ?_) hc ⟨fun l e a ha => ?_, fun _ _ _ e => (nomatch e), fun _ e => (nomatch e)⟩
  · rcases hp ev hev with ⟨_, e⟩ | ⟨_, _, e⟩ | e | e | e <;> rw [e] <;>
      refine ⟨fun _ e => (nomatch e), fun _ _ _ e => (nomatch e), fun t e => ?_⟩ <;> cases e
    exact le_rfl
  · cases e
    unfold entries at ha
    obtain ⟨k, -, rfl⟩ := List.mem_map.1 ha
    exact hε.1 k

theorem slow_advance {ε : K} (hε : ChancesAtLeast ε ch) (hs : AllOps (Slow cfg ε) s.prog)
    (h : advance env mem c cfg ch s = .ok (some s')) : AllOps (Slow cfg ε) s'.prog := by
  rcases advance_ok h with ⟨-, -, s1, h1, e⟩ | ⟨-, -, s1, h1, e⟩ | ⟨-, -, e⟩ | ⟨-, -, e⟩
  · cases e
    obtain ⟨e, es, x, i, old, p, y, j, new, d, -, -, -, -, -, -, hp, -, -, -, -, -, hcase⟩ := iterate_ok h1
    have := hs.call hp ⟨fun _ e => (nomatch e), fun wid h a e => (by cases e; exact hε.2 _ _), fun _ e => (nomatch e)⟩
    rcases hcase with ⟨-, rfl⟩ | ⟨-, p', hp', rfl⟩
    · exact this
    · exact this.call hp' ⟨fun _ e => (nomatch e), fun _ _ _ e => (nomatch e), fun _ e => (nomatch e)⟩
  · cases e
    have := sample_ok h1
    subst this
    exact hs
  · cases e; exact hs
  · cases e

theorem program_slow {ε : K} (hε : ChancesAtLeast ε ch) {n : Nat} {fin : Bool} (h : program env mem c m cfg ch n = .ok (s, fin)) :
    DrawsAtLeast ε s.prog.calls ∧ ResolutionsAtLeast cfg.dt s.prog.calls := by
  obtain ⟨s0, h0, h⟩ := bind_eq_ok.1 h
  have hs : AllOps (Slow cfg ε) s.prog :=
    (loops_ind (P := fun s => AllOps (Slow cfg ε) s.prog) (fun s s' h1 ha => slow_advance hε h1 ha) (slow_start hε h0) h).1
  refine ⟨fun ev hev => ?_, fun ev hev t n ho _ => (hs ev hev).2.2 t ho⟩
  obtain ⟨h1, h2, -⟩ := hs ev hev
  cases ho : ev.op with
  | initializeWalkers l => exact h1 l ho
  | hop wid h a => exact h2 wid h a ho
  | _ => trivial

end Mythical.ToF
