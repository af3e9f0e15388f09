import Verif.Lemmas.ToFRun
import Verif.Props.ToF
import Verif.Lemmas.SystemWitness

/-! # The time-of-flight program (C73, C74) -/

set_option linter.unusedSectionVars false

namespace Mythical
open Cuboid CuboidSpec World SystemSpec ToF ToFSpec
variable {K : Type} [Field K] [LinearOrder K] [IsStrictOrderedRing K] [FloorRing K]
variable {env : Env K} {mem : Addr → K} {c : Cuboid} {m : IMap (IMap Addr)} {cfg : Config K} {ch : Chances K}

/-- **C73** (start). The charges are placed on different sites of the first plane. The program gets to its loops, with every
charge on its site and in the queue with the time at which it leaves it, its first draw divided by the sum of the rates out of
the site, exactly if one of these times is before the cutoff time. Else it is ended by the `assert` in `createQueue`. -/
theorem C73_start (hS : Setting c mem m cfg ch) :
    ∃ sites : List Int, sites.Nodup ∧ sites.length = cfg.charges ∧ (∀ i ∈ sites, ∃ a, SiteAt c i a ∧ a.x = 0) ∧
      ((∃ (k : Nat) (i : Int), sites[k]? = some i ∧ (ch.first k).1 / escapeRate mem m i < cfg.cutoffTime) →
        ∃ s, program env mem c m cfg ch 0 = .ok (s, false) ∧ s.queue.size = cfg.charges ∧
          ∀ (k : Nat) i, sites[k]? = some i →
            On s.prog.world k i ∧ ((k : Int), (ch.first k).1 / escapeRate mem m i) ∈ s.queue.entries) ∧
      ((∀ (k : Nat) i, sites[k]? = some i → cfg.cutoffTime ≤ (ch.first k).1 / escapeRate mem m i) →
        ∀ n, program env mem c m cfg ch n = .error .assertFail) := by
  obtain ⟨sites, h1, h2, h3, h4⟩ := start_spec (env := env) hS.built hS.suits hS.possible hS.sensible hS.length hS.enough
  refine ⟨sites, h1, h2, h3, fun ⟨k, i, hk, hlt⟩ => ?_, fun hall n => ?_⟩
  · rcases h4 with ⟨s, i1, hI, -, -, -, i2, -⟩ | ⟨-, i2⟩
    · refine ⟨s, by unfold program; rw [i1]; rfl, ?_, i2⟩
      refine le_antisymm (ids_length hI) ?_
      have hsub : (List.range cfg.charges).map (fun k : Nat => (k : Int)) ⊆ ids s := by
        intro k hk
        obtain ⟨l, hl, rfl⟩ := List.mem_map.1 hk
        have hl := List.mem_range.1 hl
        rw [← h2] at hl
        exact List.mem_map_of_mem (f := Prod.fst) (i2 l _ (List.getElem?_eq_getElem hl)).2
      have hnd : ((List.range cfg.charges).map (fun k : Nat => (k : Int))).Nodup :=
        List.nodup_range.map fun a b h => by simpa using h
      have := (hnd.subperm hsub).length_le
      unfold ids at this
      rw [List.length_map, List.length_map, List.length_range] at this
      exact this
    · exact absurd (i2 k i hk) (not_le.2 hlt)
  · rcases h4 with ⟨s, -, -, -, -, -, -, k, i, hk, hlt⟩ | ⟨i1, -⟩
    · exact absurd (hall k i hk) (not_le.2 hlt)
    · unfold program; rw [i1]; rfl

/-- **C73** (crowd). With more charges than sites in the first plane, the program never gets past the placing of the charges,
however many random numbers are drawn. -/
theorem C73_crowd (hb : Built c) (hd : ∀ d ∈ ch.picks, (0 ≤ d.1 ∧ d.1 < c.width) ∧ 0 ≤ d.2 ∧ d.2 < c.height)
    (hn : c.width * c.height < cfg.charges) (n : Nat) : program env mem c m cfg ch n = .error .outOfFuel := by
  unfold program start
  rw [pickSites_crowded hb hn hd]
  rfl

/-- **C73** (returns). The program makes any number of steps in its loops: no exception is thrown, no access is out of range, and
no call of the library waits for ever. The only other outcomes are the `assert` in `createQueue` and the overflow of a counter. -/
theorem C73_returns (hS : Setting c mem m cfg ch) (n : Nat) :
    ∃ N r, (∀ f ≥ N, program { env with fuel := f } mem c m cfg ch n = r) ∧ (OnlyOverflow r ∨ r = .error .assertFail) := by
  cases h0 : start { env with fuel := 0 } mem c m cfg ch with
  | error f =>
    refine ⟨0, .error f, fun f' _ => ?_, .inr ?_⟩
    · unfold program
      rw [start_fuel (f' := 0), h0]
      rfl
    · obtain ⟨sites, -, -, -, ⟨s, i1, -⟩ | ⟨i1, -⟩⟩ :=
        start_spec (env := { env with fuel := 0 }) hS.built hS.suits hS.possible hS.sensible hS.length hS.enough
      · rw [h0] at i1; cases i1
      · rw [h0] at i1; cases i1; rfl
  | ok s =>
    have hst : ∀ f, start { env with fuel := f } mem c m cfg ch = .ok s := fun f => by rw [start_fuel (f' := 0), h0]
    obtain ⟨N, r, hr, hN⟩ := loops_total (env := env) (s := s) (N := 0) hS.built hS.suits hS.possible n
      fun f _ => (start_ok hS (hst f)).1
    refine ⟨N, r, fun f hf => ?_, .inl hr⟩
    unfold program
    rw [hst f]
    exact hN f hf

/-- **C73** (state). At every moment in the loops: the queue holds just the charges that are still in the system, each once and
ordered by time, and `charges_remain` is their number. These are the charges which have not reached the last plane; all others
are in it. No time in the queue is before the end of the last sampling interval. Samples are taken at the multiples of the
sampling interval, and the numbers of charges left do not increase. When the loops end, the queue is empty or no charge
hops before the cutoff time. -/
theorem C73_state (hS : Setting c mem m cfg ch) {n : Nat} {s : Sim K} {fin : Bool}
    (h : program env mem c m cfg ch n = .ok (s, fin)) :
    ((s.queue.entries.map Prod.fst).Nodup ∧ (∀ k ∈ s.queue.entries.map Prod.fst, 0 ≤ k ∧ k < cfg.charges) ∧
      s.queue.entries.Pairwise (fun e e' => e.2 ≤ e'.2) ∧ s.remain = s.queue.entries.length) ∧
    (∀ k : Int, 0 ≤ k → k < cfg.charges → (k ∈ s.queue.entries.map Prod.fst ↔ k ∈ active s.prog.calls) ∧
      ∃ x, AtPlane c s.prog.world k x ∧ (k ∈ s.queue.entries.map Prod.fst ↔ x ≠ c.length - 1)) ∧
    ((∀ e ∈ s.queue.entries, s.sampleTime - cfg.dt ≤ e.2) ∧ s.sampleTime = cfg.dt * (s.samples.length + 1) ∧
      (s.samples.map Prod.snd).Pairwise (fun a b => b ≤ a) ∧ ∀ p ∈ s.samples, s.remain ≤ p.2 ∧ p.2 ≤ cfg.charges) ∧
    (fin = true → ∀ e ∈ s.queue.entries, cfg.cutoffTime ≤ e.2) := by
  obtain ⟨hI, -, -, hf⟩ := program_ok hS h
  refine ⟨⟨hI.nodup, hI.range, hI.ordered, hI.remain⟩, fun k h0 h1 => ⟨⟨fun h => hI.act.subset h, fun h => hI.act.symm.subset h⟩, ?_⟩,
    ⟨hI.lower, hI.time, hI.left⟩, fun hfin e he => ?_⟩
  · by_cases hk : k ∈ s.queue.entries.map Prod.fst
    · obtain ⟨x, hx, hlt⟩ := hI.ahead k hk
      exact ⟨x, hx, ⟨fun _ => by omega, fun _ => hk⟩⟩
    · exact ⟨_, hI.gone k h0 h1 hk, ⟨fun h => absurd h hk, fun h => absurd rfl h⟩⟩
  · rcases advance_ok (hf hfin) with ⟨-, -, s1, -, e⟩ | ⟨-, -, s1, -, e⟩ | ⟨-, -, e⟩ | ⟨-, hd, -⟩
    · cases e
    · cases e
    · cases e
    · cases hes : s.queue.entries with
      | nil => rw [hes] at he; cases he
      | cons e0 es =>
        rw [due_cons hes] at hd
        have h0 : cfg.cutoffTime ≤ e0.2 := by simpa using hd
        have ho := hI.ordered
        rw [hes] at ho he
        rcases List.mem_cons.1 he with rfl | he
        · exact h0
        · exact h0.trans ((List.pairwise_cons.1 ho).1 e he)

/-- **C73** (hop). A step that makes calls lets one of the charges with the earliest time in the queue hop, at a time in the
current sampling interval. The charge then goes back into the queue with a later time, the old one plus its new dwell time, or,
if it has reached the last plane, is removed from the system. -/
theorem C73_hop (hS : Setting c mem m cfg ch) {n : Nat} {s s' : Sim K} {fin : Bool}
    (h : program env mem c m cfg ch n = .ok (s, false)) (h' : program env mem c m cfg ch (n + 1) = .ok (s', fin))
    (hc : s'.prog.calls ≠ s.prog.calls) :
    ∃ e ∈ s.queue.entries, (∀ e' ∈ s.queue.entries, e.2 ≤ e'.2) ∧ s.sampleTime - cfg.dt ≤ e.2 ∧ e.2 < s.sampleTime ∧
      ∃ ev evs, s'.prog.calls = s.prog.calls ++ ev :: evs ∧ ev.op = .hop e.1 e.1 (ch.draw s.prog.calls e.1) ∧
        ((∃ y x, s'.prog.world.walkers.get? e.1 = some y ∧ 0 < y.dwell ∧ AtPlane c s'.prog.world e.1 x ∧ x < c.length - 1 ∧
            evs = [] ∧ (e.1, e.2 + y.dwell) ∈ s'.queue.entries) ∨
         (AtPlane c s'.prog.world e.1 (c.length - 1) ∧ ∃ ev', evs = [ev'] ∧ ev'.op = .removeWalker e.1 e.1)) := by
  obtain ⟨hI, -⟩ := program_ok hS h
  obtain ⟨hI', -⟩ := program_ok hS h'
  rcases program_next h h' with ⟨-, rfl⟩ | ha
  · exact absurd rfl hc
  rcases advance_ok ha with ⟨-, hd, s1, h1, e⟩ | ⟨-, -, s1, h1, e⟩ | ⟨-, -, e⟩ | ⟨-, -, e⟩
  · cases e
    obtain ⟨e, es, x, i, old, p, y, j, new, d, he, hr, hx, rfl, -, hold, hp, hy, rfl, -, hnew, rfl, hcase⟩ := iterate_ok h1
    have hmem : e ∈ s.queue.entries := by rw [he]; exact List.mem_cons_self
    have hids : ids s = e.1 :: es.map Prod.fst := by unfold ids; rw [he]; rfl
    have hact : e.1 ∈ active s.prog.calls := hI.act.subset (by rw [hids]; exact List.mem_cons_self)
    obtain ⟨-, -, -, ⟨y', hy', hon, hv, hdw⟩, -⟩ :=
      hI.story.hop hS.suits hact (hS.possible.draw _ _)
        (fun v w1 e' => hS.possible.times _ _ v w1 (by rw [hI.story.last]; exact e')) hp
    rw [hy] at hy'; cases hy'
    obtain ⟨r, -, hcalls⟩ := call_ok hp
    obtain ⟨a, hsa, hax⟩ := getX_valid hS.built hv
    rw [hnew] at hax; cases hax
    refine ⟨e, hmem, ?_, hI.lower e hmem, ?_, ?_⟩
    · have ho := hI.ordered
      rw [he] at ho ⊢
      intro e' he'
      rcases List.mem_cons.1 he' with rfl | he'
      · exact le_rfl
      · exact (List.pairwise_cons.1 ho).1 e' he'
    · rw [due_cons he] at hd
      simpa using hd
    · rcases hcase with ⟨hlt, rfl⟩ | ⟨hge, p', hp', rfl⟩
      · exact ⟨_, [], hcalls, rfl, .inl ⟨y, a.x, hy, hdw, ⟨_, a, hon, hsa, rfl⟩, hlt, rfl,
          (Queue.insertBefore_perm _ _).symm.subset List.mem_cons_self⟩⟩
      · obtain ⟨r', -, hcalls'⟩ := call_ok hp'
        refine ⟨_, [_], by rw [hcalls', hcalls, List.append_assoc]; rfl, rfl, .inr ⟨?_, _, rfl, rfl⟩⟩
        refine hI'.gone e.1 hr.1 hr.2 ?_
        have hnd := hI.nodup
        rw [hids] at hnd
        exact (List.nodup_cons.1 hnd).1
  · cases e
    rw [sample_ok h1] at hc
    exact absurd rfl hc
  · cases e; exact absurd rfl hc
  · cases e

/-- **C73** (time). Time does not run backwards: the times in the queue at a later moment are not before the earliest at an earlier
moment. -/
theorem C73_time (hS : Setting c mem m cfg ch) {n k : Nat} {s s' : Sim K} {fin fin' : Bool}
    (h : program env mem c m cfg ch n = .ok (s, fin)) (h' : program env mem c m cfg ch (n + k) = .ok (s', fin')) {e : Int × K}
    (he : ∀ f ∈ s.queue.entries, e.2 ≤ f.2) {e' : Int × K} (he' : e' ∈ s'.queue.entries) : e.2 ≤ e'.2 :=
  program_bound hS h h' he e' he'

/-- **C73** (rates). The rates which `calculateRates` produces suit the lattice if the cutoff is at least the distance of
neighbouring sites. -/
theorem C73_rates {c : Cuboid} (hb : Built c) (hlen : 2 ≤ c.length) (hsp : 0 < c.spacing) {p : Params} (hl : 0 < p.lambda)
    (hT : 0 < p.temp) (hA : p.A ≠ 0) (hcut : c.spacing ≤ p.cutoff) {energies : List ℝ} {E : Int → ℝ} (hE : Energies c energies E)
    {D : IMap (IMap ℝ)} (hD : c.getAllNeighborDistances p.cutoff = .ok D)
    {visit : IMap (IMap ℝ) → List (Int × List (Int × ℝ))} (hv : Visits visit) :
    ∃ R, calculateRates c p energies visit = .ok R ∧ ∀ mem m, Holds mem m R → Suits c mem m := by
  have g := good_of_built hb
  obtain ⟨x, -, hx2⟩ := xOf hb
  obtain ⟨R, h1, h2, h3, h4⟩ := C71_rates hb hsp hl hT hA hE hD hv
  obtain ⟨R', i1, ⟨hw, hr⟩, -⟩ := calculateRates_ok hb hsp hl hT hE hD hx2 hv
  obtain rfl := ok_inj.1 (h1.symm.trans i1)
  refine ⟨R, h1, fun mem m hh => ?_⟩
  unfold Holds at hh
  have hkeys : R.map Prod.fst = m.map Prod.fst := by rw [← hh, List.map_map]; rfl
  -- entries of `m` are entries of `R`
  have hrow : ∀ ir ∈ m, (ir.1, ir.2.map fun na => (na.1, mem na.2)) ∈ R := fun ir hir => by
    rw [← hh]; exact List.mem_map_of_mem hir
  have hent : ∀ ir ∈ m, ∀ na ∈ ir.2, get2 R ir.1 na.1 = some (mem na.2) := by
    intro ir hir na hna
    have h := hrow ir hir
    unfold get2
    rw [IMap.get?_of_mem hw h]
    exact IMap.get?_of_mem (hr _ h).1 (List.mem_map_of_mem (f := fun na : Int × Addr => (na.1, mem na.2)) hna)
  have hback : ∀ i j k, get2 R i j = some k → ∃ ir ∈ m, ir.1 = i ∧ ∃ na ∈ ir.2, na.1 = j := by
    intro i j k h
    unfold get2 at h
    obtain ⟨r, hri, hrj⟩ := Option.bind_eq_some_iff.1 h
    have hi := IMap.mem_of_get? hri
    rw [← hh] at hi
    obtain ⟨ir, hir, e⟩ := List.mem_map.1 hi
    cases e
    obtain ⟨na, hna, e⟩ := List.mem_map.1 (IMap.mem_of_get? hrj)
    cases e
    exact ⟨ir, hir, rfl, na, hna, rfl⟩
  have hvalid : ∀ i j k, get2 R i j = some k → ValidIndex c i ∧ ValidIndex c j := by
    intro i j k h
    rcases ((h2 i j).1 (by rw [h]; rfl)).2 with ⟨a, b, -, s1, s2, -⟩ | ⟨a, b, -, s1, s2, -⟩
    · exact ⟨siteAt_bounds g s1, siteAt_bounds g s2⟩
    · exact ⟨siteAt_bounds g s2, siteAt_bounds g s1⟩
  have hne : ∀ ir ∈ m, ir.2 ≠ [] := by
    intro ir hir e
    exact (hr _ (hrow ir hir)).2 (by rw [e]; rfl)
  refine ⟨⟨?_, fun ir hir => ?_⟩, fun ir hir => ⟨hne ir hir, fun na hna => (h4 _ _ _ (hent ir hir na hna)).1⟩, fun ir hir na hna => ?_,
    fun i ⟨ir, hir, h⟩ => ?_, fun i a ha h0 => ?_⟩
  · unfold IMap.WF at hw ⊢
    rw [← hkeys]; exact hw
  · have := (hr _ (hrow ir hir)).1
    unfold IMap.WF at this ⊢
    rw [List.map_map] at this
    exact this
  · have h := hent ir hir na hna
    have hs : (get2 R ir.1 na.1).isSome := by rw [h]; rfl
    refine ⟨((h2 _ _).1 hs).1.symm, ?_⟩
    obtain ⟨k, hk⟩ := Option.isSome_iff_exists.1 (h3 _ _ hs)
    exact hback _ _ k hk
  · rcases h with rfl | ⟨na, hna, rfl⟩
    · obtain ⟨na, hna⟩ := List.exists_mem_of_ne_nil _ (hne ir hir)
      exact (hvalid _ _ _ (hent ir hir na hna)).1
    · exact (hvalid _ _ _ (hent ir hir na hna)).2
  · obtain ⟨⟨hx, hy, hz⟩, e⟩ := ha
    have hin : SiteAt c (1 + c.length * (a.y + c.width * a.z)) ⟨1, a.y, a.z⟩ :=
      siteAt_of_inBox (c := c) (p := ⟨1, a.y, a.z⟩) ⟨⟨Int.zero_le_ofNat 1, by show (1 : Int) < _; omega⟩, hy, hz⟩
    have hs : (get2 R i (1 + c.length * (a.y + c.width * a.z))).isSome := by
      refine (h2 _ _).2 ⟨by rw [e, h0]; omega, .inr ⟨_, a, a, hin, ⟨⟨hx, hy, hz⟩, e⟩, ?_, ⟨by rw [h0]; exact Int.zero_le_ofNat 1, le_rfl, le_rfl⟩, ?_⟩⟩
      · unfold Image AxisImage
        refine ⟨?_, ?_, ?_⟩ <;> (split <;> first | rfl | exact ⟨0, by simp⟩)
      · unfold euclid
        rw [h0]
        simpa using hcut
    obtain ⟨k, hk⟩ := Option.isSome_iff_exists.1 hs
    obtain ⟨ir, hir, e', -⟩ := hback _ _ k hk
    exact ⟨ir, hir, .inl e'⟩

/-- **C74**, partial. As long as every current density recorded is a number, the currents account for the motion of the charges:
at the end of a sampling interval the sum of the currents, times interval and volume, is the charge times the distance that all
charges have covered in x. Missing: that every current is a number (`C74_counterexample`). -/
theorem C74_partial (hS : Setting c mem m cfg ch) {n : Nat} {s : Sim K} {fin : Bool}
    (h : program env mem c m cfg ch n = .ok (s, fin)) (hin : s.inside = false) (hnum : ∀ p ∈ s.samples, p.1 ≠ none)
    {X : Int → Int} (hX : ∀ k : Int, 0 ≤ k → k < cfg.charges → AtPlane c s.prog.world k (X k)) :
    (s.samples.map fun p => p.1.getD 0).sum * cfg.dt * cfg.volume =
      cfg.q * cfg.nm * ((((List.range cfg.charges).map fun k : Nat => X k).sum : Int) : K) := by
  obtain ⟨-, hM, -, -⟩ := program_ok hS h
  have := hM hnum
  rw [hin] at this
  simp only [Bool.false_eq_true, if_false, add_zero] at this
  rw [this, sumPlanes_eq fun k h0 h1 => planeOf_at hS.built (hX k h0 h1)]

/-- **C74** (last). Whenever the loops end because all charges have arrived, the last current recorded is not a number. -/
theorem C74_last (hS : Setting c mem m cfg ch) {n : Nat} {s : Sim K} (h : program env mem c m cfg ch n = .ok (s, true))
    (he : s.queue.entries = []) : s.samples.getLast? = some (none, 0) := by
  obtain ⟨-, -, hL, hf⟩ := program_ok hS h
  refine hL ?_ he
  rcases advance_ok (hf rfl) with ⟨-, -, s1, -, e⟩ | ⟨-, -, s1, -, e⟩ | ⟨-, -, e⟩ | ⟨hi, -, -⟩
  · cases e
  · cases e
  · cases e
  · exact hi

/-! ## Two charges on a lattice of 3 x 2 x 1 sites -/

/-- The lattice. -/
noncomputable def ToF.strip : Cuboid := ⟨3, 2, 1, 6, 1, .fixed, .periodic, .fixed⟩

theorem ToF.strip_built : Built strip := built_of_good ⟨by decide, by decide, by decide, by decide, by decide⟩

/-- Rates between neighbouring sites; those forwards are greater. -/
def ToF.stripRates : IMap (IMap Addr) :=
  [(0, [(1, 4), (3, 1)]), (1, [(0, 1), (2, 4), (4, 1)]), (2, [(1, 1), (5, 1)]),
   (3, [(4, 4), (0, 1)]), (4, [(3, 1), (5, 4), (1, 1)]), (5, [(4, 1), (2, 1)])]

/-- The variable `a` holds the rate `a`. -/
def ToF.stripMem (a : Addr) : ℚ := a

/-- Two charges, samples at 1, 2, 3, ..., and the cutoff time 4. -/
def ToF.stripCfg : Config ℚ := ⟨2, 4, 1, 7, 1, 1, 6⟩

/-- An ordering of the queue. -/
def ToF.sortQ : SortCall ℚ where
  run := List.insertionSort fun x y => x.2 ≤ y.2
  perm := List.perm_insertionSort _
  ordered l := by
    have : Std.Total fun x y : Int × ℚ => x.2 ≤ y.2 := ⟨fun a b => le_total a.2 b.2⟩
    have : IsTrans (Int × ℚ) fun x y => x.2 ≤ y.2 := ⟨fun a b c => le_trans⟩
    exact List.pairwise_insertionSort _ l

/-- The draws of a charge in its hops. -/
def ToF.stripDraw (h : Int) : Choices ℚ := { witChoice (9 / 10) [] with e := if h = 1 then 4 else 3 }

/-- The same site is drawn twice for the first charge; the times of the basins searched are covered. -/
noncomputable def ToF.stripChances : Chances ℚ where
  picks := [(1, 0), (1, 0), (0, 0)]
  order l := l
  order_perm l := List.Perm.refl l
  first k := (3 + k, 9 / 10)
  sort := sortQ
  draw evs h := withTimes stripMem (stripDraw h) evs h

theorem ToF.strip_suits : Suits strip stripMem stripRates := by
  refine ⟨by unfold IMap.WF; decide, by decide +kernel, by unfold TwoWay; decide, ?_, ?_⟩
  · rintro i ⟨ir, hir, h⟩
    have : ∀ ir ∈ stripRates, (0 ≤ ir.1 ∧ ir.1 < 6) ∧ ∀ na ∈ ir.2, 0 ≤ na.1 ∧ na.1 < 6 := by decide
    rcases h with rfl | ⟨na, hna, rfl⟩
    · exact (this ir hir).1
    · exact (this ir hir).2 na hna
  · intro i a ha _
    have h := siteAt_bounds (good_of_built strip_built) ha
    have h1 : 0 ≤ i := h.1
    have h2 : i < 6 := h.2
    unfold Mentions
    have h3 : i = 0 ∨ i = 1 ∨ i = 2 ∨ i = 3 ∨ i = 4 ∨ i = 5 := by omega
    rcases h3 with rfl | rfl | rfl | rfl | rfl | rfl <;> decide

theorem ToF.strip_possible : Possible strip stripMem stripChances := by
  refine ⟨by simp only [stripChances, strip]; decide, fun k => ⟨by simp only [stripChances]; unfold SiteSpec.Draw; norm_num, ?_⟩,
    fun evs h => ⟨?_, ?_⟩, fun evs h v w hm => withTimes_covers hm⟩
  · simp only [stripChances]; positivity
  · show SiteSpec.Draw (9 / 10 : ℚ)
    unfold SiteSpec.Draw; norm_num
  · show (0 : ℚ) < if h = 1 then 4 else 3
    split <;> norm_num

theorem ToF.strip_setting : Setting strip stripMem stripRates stripCfg stripChances where
  built := strip_built
  length := by decide
  suits := strip_suits
  sensible := ⟨by decide, by decide, by decide +kernel⟩
  possible := strip_possible
  enough := by simp only [stripChances]; decide

/-- The state of the program after `n` steps. -/
noncomputable def ToF.stripRun (n : Nat) : Except Fault (Sim ℚ × Bool) :=
  program Cluster.witEnv stripMem strip stripRates stripCfg stripChances n

/-- What is seen of a state. -/
structure ToF.View where
  fin : Bool
  samples : List (Option ℚ × Int)
  queue : List (Int × ℚ)
  inside : Bool
  calls : Nat
deriving DecidableEq

/-- The state is as seen. -/
def ToF.Sees (r : Except Fault (Sim ℚ × Bool)) (v : View) : Bool :=
  match r with
  | .ok (s, fin) => decide (⟨fin, s.samples, s.queue.entries, s.inside, s.prog.calls.length⟩ = v)
  | .error _ => false

theorem ToF.sees_ok {r : Except Fault (Sim ℚ × Bool)} {v : View} (h : Sees r v = true) :
    ∃ s, r = .ok (s, v.fin) ∧ s.samples = v.samples ∧ s.queue.entries = v.queue ∧ s.inside = v.inside ∧ s.prog.calls.length = v.calls := by
  unfold Sees at h
  split at h
  · obtain rfl := of_decide_eq_true h
    exact ⟨_, rfl, rfl, rfl, rfl, rfl⟩
  · cases h

/-- At the start. -/
theorem ToF.strip_zero : ∃ s, stripRun 0 = .ok (s, false) ∧ s.samples = [] ∧ s.queue.entries = [(0, 3 / 5), (1, 4 / 5)] ∧
    s.inside = false ∧ s.prog.calls.length = 8 := sees_ok (v := ⟨false, [], [(0, 3 / 5), (1, 4 / 5)], false, 8⟩) (by decide +kernel)

/-- After six steps a sample has been taken, and one charge has arrived. -/
theorem ToF.strip_six : ∃ s, stripRun 6 = .ok (s, false) ∧ s.samples = [(some (1 / 6), 2)] ∧ s.queue.entries = [(1, 8 / 5)] ∧
    s.inside = true ∧ s.prog.calls.length = 12 := sees_ok (v := ⟨false, [(some (1 / 6), 2)], [(1, 8 / 5)], true, 12⟩) (by decide +kernel)

/-- In the next step the other charge hops. -/
theorem ToF.strip_seven : ∃ s, stripRun 7 = .ok (s, false) ∧ s.samples = [(some (1 / 6), 2)] ∧ s.queue.entries = [(1, 34 / 15)] ∧
    s.inside = true ∧ s.prog.calls.length = 13 := sees_ok (v := ⟨false, [(some (1 / 6), 2)], [(1, 34 / 15)], true, 13⟩) (by decide +kernel)

/-- Then a second sample is taken. -/
theorem ToF.strip_eight : ∃ s, stripRun 8 = .ok (s, false) ∧ s.samples = [(some (1 / 6), 2), (some (1 / 3), 1)] ∧
    s.queue.entries = [(1, 34 / 15)] ∧ s.inside = false ∧ s.prog.calls.length = 13 :=
  sees_ok (v := ⟨false, [(some (1 / 6), 2), (some (1 / 3), 1)], [(1, 34 / 15)], false, 13⟩) (by decide +kernel)

/-- The whole run. -/
theorem ToF.strip_end : ∃ s, stripRun 12 = .ok (s, true) ∧ s.samples = [(some (1 / 6), 2), (some (1 / 3), 1), (none, 0)] ∧
    s.queue.entries = [] ∧ s.inside = false ∧ s.prog.calls.length = 15 :=
  sees_ok (v := ⟨true, [(some (1 / 6), 2), (some (1 / 3), 1), (none, 0)], [], false, 15⟩) (by decide +kernel)

/-- **C74** is false of the code: in a run in which both charges arrive before the cutoff time, the last of the three currents
recorded is not a number. -/
theorem C74_counterexample : ∃ (c : Cuboid) (mem : Addr → ℚ) (m : IMap (IMap Addr)) (cfg : Config ℚ) (ch : Chances ℚ),
    Setting c mem m cfg ch ∧ cfg.volume ≠ 0 ∧ ∃ (env : Env ℚ) (n : Nat) (s : Sim ℚ), program env mem c m cfg ch n = .ok (s, true) ∧
      s.samples.length = 3 ∧ ∃ p ∈ s.samples, p.1 = none := by
  obtain ⟨s, h, hs, -⟩ := ToF.strip_end
  exact ⟨_, _, _, _, _, strip_setting, by decide +kernel, _, 12, s, h, by rw [hs]; rfl, (none, 0), by rw [hs]; simp, rfl⟩

/-- The charges start on the sites 0 and 3, and the loops are entered. -/
example : ∃ s, stripRun 0 = .ok (s, false) ∧ s.queue.size = 2 := by
  obtain ⟨sites, -, h2, -, h4, h5⟩ := C73_start (env := Cluster.witEnv) strip_setting
  obtain ⟨s, h, -⟩ := ToF.strip_zero
  by_cases he : ∃ (k : Nat) (i : Int), sites[k]? = some i ∧
      (stripChances.first k).1 / escapeRate stripMem stripRates i < stripCfg.cutoffTime
  · obtain ⟨s', i1, i2, -⟩ := h4 he
    exact ⟨s', i1, i2⟩
  · push Not at he
    have := h5 he 0
    rw [show program Cluster.witEnv stripMem strip stripRates stripCfg stripChances 0 = stripRun 0 from rfl, h] at this
    cases this

/-- With the cutoff time 1/2 the program is ended by the `assert`. -/
example : program Cluster.witEnv stripMem strip stripRates { stripCfg with cutoffTime := 1 / 2 } stripChances 5 = .error .assertFail := by
  have hS : Setting strip stripMem stripRates { stripCfg with cutoffTime := 1 / 2 } stripChances :=
    ⟨strip_built, by decide, strip_suits, ⟨by decide, by decide, by decide +kernel⟩, strip_possible, strip_setting.enough⟩
  obtain ⟨sites, -, -, h3, -, h5⟩ := C73_start (env := Cluster.witEnv) hS
  refine h5 (fun k i hk => ?_) 5
  obtain ⟨a, ⟨⟨-, ⟨y0, y1⟩, z0, z1⟩, e⟩, hx⟩ := h3 i (List.mem_of_getElem? hk)
  simp only [strip] at y1 z1 e
  have hi : i = 0 ∨ i = 3 := by omega
  have he : escapeRate stripMem stripRates i = 5 := by rcases hi with rfl | rfl <;> decide +kernel
  rw [he]
  show (1 / 2 : ℚ) ≤ (3 + k) / 5
  have : (0 : ℚ) ≤ k := Nat.cast_nonneg k
  linarith

/-- Three charges do not fit into the first plane, which has two sites. -/
example (n : Nat) : program Cluster.witEnv stripMem strip stripRates { stripCfg with charges := 3 } stripChances n = .error .outOfFuel :=
  C73_crowd strip_built strip_possible.picks (by decide) n

example : ∃ N r, (∀ f ≥ N, program { Cluster.witEnv with fuel := f } stripMem strip stripRates stripCfg stripChances 12 = r) ∧
    (OnlyOverflow r ∨ r = .error .assertFail) := C73_returns strip_setting 12

/-- When one charge has arrived, it is in the last plane, and the other is not. -/
example : ∃ s x, stripRun 6 = .ok (s, false) ∧ s.remain = 1 ∧ AtPlane strip s.prog.world 0 2 ∧ AtPlane strip s.prog.world 1 x ∧ x ≠ 2 := by
  obtain ⟨s, h, -, hq, -⟩ := ToF.strip_six
  obtain ⟨⟨-, -, -, h1⟩, h2, -⟩ := C73_state strip_setting h
  obtain ⟨-, x, hx, hx'⟩ := h2 0 (by decide) (by decide)
  obtain ⟨-, y, hy, hy'⟩ := h2 1 (by decide) (by decide)
  rw [hq] at hx' hy' h1
  refine ⟨s, y, h, h1, ?_, hy, hy'.1 (by simp)⟩
  have : x = 2 := by
    by_contra hne
    exact absurd (hx'.2 hne) (by simp)
  rwa [this] at hx

/-- The hop of the other charge at 8/5. -/
example : ∃ s s' y x, stripRun 6 = .ok (s, false) ∧ stripRun 7 = .ok (s', false) ∧ s'.prog.world.walkers.get? 1 = some y ∧
    AtPlane strip s'.prog.world 1 x ∧ x < 2 ∧ (1, 8 / 5 + y.dwell) ∈ s'.queue.entries := by
  obtain ⟨s, h, -, hq, -, hc⟩ := ToF.strip_six
  obtain ⟨s', h', -, hq', -, hc'⟩ := ToF.strip_seven
  obtain ⟨e, he, -, -, -, ev, evs, hev, -, hcase⟩ := C73_hop strip_setting h h' (by intro e; rw [e, hc] at hc'; cases hc')
  rw [hq] at he
  obtain rfl := List.mem_singleton.1 he
  rcases hcase with ⟨y, x, h1, -, h2, h3, -, h4⟩ | ⟨-, ev', rfl, -⟩
  · exact ⟨s, s', y, x, h, h', h1, h2, h3, h4⟩
  · rw [hev] at hc'
    simp [hc] at hc'

/-- The time 34/15 in the queue after eight steps is not before the first one. -/
example : (3 / 5 : ℚ) ≤ 34 / 15 := by
  obtain ⟨s, h, -, hq, -⟩ := ToF.strip_zero
  obtain ⟨s', h', -, hq', -⟩ := ToF.strip_eight
  refine C73_time strip_setting (k := 8) (e := (0, 3 / 5)) (e' := (1, 34 / 15)) h h' ?_ (by rw [hq']; simp)
  rw [hq]
  decide +kernel

/-- The example's constants on a lattice of 3 x 4 x 5 sites. -/
example : ∃ R, calculateRates box345 params (List.replicate 60 1) (fun m => m) = .ok R ∧ ∀ mem m, Holds mem m R → Suits box345 mem m := by
  obtain ⟨D, hD⟩ := ToF.box_search
  exact C73_rates box345_built (by decide) (by norm_num [box345]) (by norm_num [params]) (by norm_num [params])
    (by norm_num [params]) (by norm_num [box345, params]) box_energies hD visits_id

/-- After two samples the charges have covered three lattice steps. -/
example : ∃ s, ∃ X : Int → Int, stripRun 8 = .ok (s, false) ∧ AtPlane strip s.prog.world 0 (X 0) ∧ AtPlane strip s.prog.world 1 (X 1) ∧
    X 0 + X 1 = 3 := by
  obtain ⟨s, h, hs, -, hin, -⟩ := ToF.strip_eight
  obtain ⟨-, h2, -⟩ := C73_state strip_setting h
  obtain ⟨-, x, hx, -⟩ := h2 0 (by decide) (by decide)
  obtain ⟨-, y, hy, -⟩ := h2 1 (by decide) (by decide)
  have hX : ∀ k : Int, 0 ≤ k → k < stripCfg.charges → AtPlane strip s.prog.world k (if k = 0 then x else y) := by
    intro k h0 h1
    have h1 : k < 2 := h1
    obtain rfl | rfl : k = 0 ∨ k = 1 := by omega
    · exact hx
    · exact hy
  refine ⟨s, fun k => if k = 0 then x else y, h, hx, hy, ?_⟩
  have := C74_partial strip_setting h hin (by rw [hs]; decide +kernel) hX
  rw [hs] at this
  simp only [stripCfg] at this
  rw [show List.range 2 = [0, 1] from rfl] at this
  norm_num at this
  have h3 : (x : ℚ) + y = 3 := by linarith
  show x + y = 3
  exact_mod_cast h3

/-- The run above ends with a current that is not a number. -/
example : ∃ s, stripRun 12 = .ok (s, true) ∧ s.samples.getLast? = some (none, 0) := by
  obtain ⟨s, h, -, hq, -⟩ := ToF.strip_end
  exact ⟨s, h, C74_last strip_setting h hq⟩

end Mythical
