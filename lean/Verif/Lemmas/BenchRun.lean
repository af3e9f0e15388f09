import Verif.Lemmas.Bench

/-! # Helper lemmas for the program that simulates with and without clusters: the start and the loop -/

set_option linter.unusedSectionVars false
set_option linter.unusedVariables false

namespace Mythical.Bench
open World SystemSpec ProgramSpec BenchSpec ToFSpec
open _root_.Mythical.ToF (Prog call_ok call_of Idle place entries AllOps stays_snoc hop_stays natsum_change onSite_unique Quiet)
variable {K : Type} [Field K] [LinearOrder K] [IsStrictOrderedRing K] [FloorRing K]
variable {env : Env K} {mem : Addr → K} {m : IMap (IMap Addr)} {n0 : Nat} {p p' : Prog K} {s s' : Sim K}
variable {sites : List Int} {seed threshold rate : Int} {cutoff : K} {luck : Luck K}

/-! ## The start -/

theorem Log.calm (h : Log env mem m n0 p) (hm : ProgramSpec.Proper mem m) (hc : ∀ i, Mentions m i → i ≠ unassignedId ∧ ∃ row, (i, row) ∈ m)
    (hl : ∀ i s, p.world.sites.get? i = some s → s.clusterId = unassignedId) : ToF.Calm mem m p.world := by
  intro i t ht
  refine ⟨hl i t ht, ?_⟩
  obtain ⟨hw, hpos, hf⟩ := h.trace.good h.usage.hopsReturn h.fixed (h.pos hm) i t ht
  obtain ⟨row, hrow, hperm⟩ := h.row hm hc ht
  rcases hf with hf | hf
  · rw [hf] at hperm
    exact absurd hperm.symm.eq_nil (hm.2 _ hrow).2.1
  rw [hf.tau, Site.sumRates_eq]
  unfold escapeRate
  rw [IMap.get?_of_mem hm.1 hrow, Option.getD_some, (hperm.map _).sum_eq]

theorem adds_scalars {w w' : World K} (h : Adds mem m w w') :
    w'.clusters = w.clusters ∧ w'.thresholdMin = w.thresholdMin ∧ w'.threshold = w.threshold ∧ w'.iteration = w.iteration ∧
      w'.nextId = w.nextId := by
  induction h with
  | refl => exact ⟨rfl, rfl, rfl, rfl, rfl⟩
  | seed _ ih => exact ih
  | add _ _ _ _ _ _ ih => exact ih

theorem dwells_ok {w : World K} {n : Nat} {t : Nat → K} (h : ∀ k < n, ∃ x, w.walkers.get? (k : Int) = some x ∧ x.dwell = t k) :
    dwells w n = .ok ((List.range n).map fun k : Nat => ((k : Int), t k)) := by
  unfold dwells
  have : ∀ l : List Nat, (∀ k ∈ l, k < n) →
      (l.mapM fun k : Nat => (do let x ← w.walkerOf k; .ok ((k : Int), x.dwell) : Except Fault (Int × K))) =
        .ok (l.map fun k : Nat => ((k : Int), t k)) := by
    intro l
    induction l with
    | nil => intro _; rfl
    | cons a l ih =>
      intro hl
      obtain ⟨x, hx, hd⟩ := h a (hl a List.mem_cons_self)
      rw [List.mapM_cons, ih fun k hk => hl k (List.mem_cons_of_mem _ hk), walkerOf_of hx]
      simp only [ok_bind, hd, List.map_cons]
      rfl
  exact this _ fun k hk => List.mem_range.1 hk

/-- The number of stays of all walkers. -/
def stayCount (n : Nat) (p : Prog K) : Nat := ((List.range n).map fun k : Nat => (staysOf (k : Int) p.calls).length).sum

/-- What holds of a simulation after `v` rounds. -/
structure Inv (env : Env K) (mem : Addr → K) (m : IMap (IMap Addr)) (n0 n : Nat) (cutoff : K) (v : Nat) (s : Sim K) : Prop where
  log : Log env mem m n0 s.prog
  act : active s.prog.calls = (List.range n).map fun k : Nat => (k : Int)
  ids : (s.times.map Prod.fst).Perm ((List.range n).map fun k : Nat => (k : Int))
  ordered : s.times.Pairwise fun a b => a.2 ≤ b.2
  clock : ∀ e ∈ s.times, e.2 = (staysOf e.1 s.prog.calls).sum
  before : ∀ k : Int, (staysOf k s.prog.calls).dropLast.sum < cutoff
  nonempty : ∀ k : Nat, k < n → staysOf k s.prog.calls ≠ []
  count : stayCount n s.prog = v + n

/-- The draws and the time resolutions in the calls. -/
def Pause (θ ε : K) (op : World.Op K) : Prop :=
  (∀ l, op = .initializeWalkers l → ∀ a ∈ l, ε ≤ a.e) ∧ (∀ wid h a, op = .hop wid h a → ε ≤ a.e) ∧
    ∀ t, op = .setTimeResolution t → θ ≤ t

/-- The time walker `k` gets at the start. -/
def firstTime (mem : Addr → K) (m : IMap (IMap Addr)) (luck : Luck K) (k : Nat) (i : Int) : K := (luck.first k).1 / escapeRate mem m i

theorem start_spec (hS : Setting mem m sites cutoff rate luck) :
    (∃ s, start env mem m sites seed threshold cutoff rate luck ⟨World.new n0, []⟩ = .ok s ∧ Inv env mem m n0 sites.length cutoff 0 s ∧
        (threshold = infIterations → Still n0 0 sites.length s.prog.world) ∧
        (∀ ε, (∀ k, ε ≤ (luck.first k).1) → AllOps (Pause (cutoff / rate) ε) s.prog) ∧
        ∃ (k : Nat) (i : Int), sites[k]? = some i ∧ firstTime mem m luck k i < cutoff) ∨
    (start env mem m sites seed threshold cutoff rate luck ⟨World.new n0, []⟩ = .error .assertFail ∧
        ∀ (k : Nat) i, sites[k]? = some i → cutoff ≤ firstTime mem m luck k i) := by
  have hrate : ((rate : Int) : K) ≠ 0 := by exact_mod_cast hS.rate.ne'
  have hinc : 0 < cutoff / (rate : K) := div_pos hS.cutoff (by exact_mod_cast hS.rate)
  obtain ⟨inc, hincd⟩ : ∃ inc, inc = cutoff / (rate : K) := ⟨_, rfl⟩
  have hquot : quot cutoff (rate : K) = .ok inc := by
    unfold quot
    rw [if_neg hrate, hincd]
  rw [← hincd] at hinc
  -- the walkers are created
  obtain ⟨p1, e1, s1, i1, ⟨W, w1⟩, hat, -⟩ := place_ok (env := env) (mem := mem) (m := m) (n0 := n0) log_nil idle_nil sites 0
  have o1 : ∀ ε, AllOps (Pause inc ε) p1 := fun ε => AllOps.place
    (fun k => ⟨fun _ e => (nomatch e), fun _ _ _ e => (nomatch e), fun _ e => (nomatch e)⟩)
    (fun k i => ⟨fun _ e => (nomatch e), fun _ _ _ e => (nomatch e), fun _ e => (nomatch e)⟩) (fun ev hev => by cases hev) e1
  have y1 : AllOps (fun op => ∀ k w w' r, staysIn k (⟨w, mem, op, r, w'⟩ : Event K) = []) p1 := AllOps.place
    (fun k _ _ _ _ => rfl) (fun k i _ _ _ _ => rfl) (fun ev hev => by cases hev) e1
  have w1 : p1.world = { (World.new n0 : World K) with walkers := W } := w1
  -- the parameters are set
  obtain ⟨p2, c2, w2⟩ : ∃ p2, p1.call env mem (.setRandomSeed (seed % 2 ^ 64).toNat) = .ok p2 ∧
      p2.world = { p1.world with seed := some ((seed % 2 ^ 64).toNat % 2 ^ 64) } :=
    ⟨_, call_of (r := 0) (w := { p1.world with seed := some ((seed % 2 ^ 64).toNat % 2 ^ 64) }) (by
      simp only [World.step, World.setRandomSeed]
      rw [if_neg (by rw [w1]; simp [World.new])]
      rfl), rfl⟩
  have s2 := s1.snoc c2 (fun r => trivial) (fun _ e => nomatch e) trivial (fun _ _ e => nomatch e)
  have i2 := i1.snoc c2 (fun _ e => nomatch e) (fun _ _ _ e => nomatch e)
  have o2 : ∀ ε, AllOps (Pause inc ε) p2 := fun ε => (o1 ε).call c2 ⟨fun _ e => (nomatch e), fun _ _ _ e => (nomatch e), fun _ e => (nomatch e)⟩
  have y2 := y1.call c2 (fun _ _ _ _ => rfl)
  obtain ⟨p2', c2', w2'⟩ : ∃ p2', p2.call env mem (.setMinThreshold threshold) = .ok p2' ∧
      p2'.world = { p2.world with threshold := threshold, thresholdMin := threshold } :=
    ⟨_, call_of (r := 0) (w := { p2.world with threshold := threshold, thresholdMin := threshold }) rfl, rfl⟩
  have s2' := s2.snoc c2' (fun r => trivial) (fun _ e => nomatch e) trivial (fun _ _ e => nomatch e)
  have i2' := i2.snoc c2' (fun _ e => nomatch e) (fun _ _ _ e => nomatch e)
  have o2' : ∀ ε, AllOps (Pause inc ε) p2' := fun ε => (o2 ε).call c2' ⟨fun _ e => (nomatch e), fun _ _ _ e => (nomatch e), fun _ e => (nomatch e)⟩
  have y2' := y2.call c2' (fun _ _ _ _ => rfl)
  obtain ⟨p3, c3, w3⟩ : ∃ p3, p2'.call env mem (.setTimeResolution inc) = .ok p3 ∧ p3.world = { p2'.world with timeRes := some inc } :=
    ⟨_, call_of (r := 0) (w := { p2'.world with timeRes := some inc }) (by
      simp only [World.step, World.setTimeResolution]
      rw [if_neg (not_le.2 hinc)]
      rfl), rfl⟩
  have s3 := s2'.snoc c3 (fun r => trivial) (fun _ e => nomatch e) trivial (fun _ _ e => nomatch e)
  have i3 := i2'.snoc c3 (fun _ e => nomatch e) (fun _ _ _ e => nomatch e)
  have o3 : ∀ ε, AllOps (Pause inc ε) p3 := fun ε => (o2' ε).call c3 ⟨fun _ e => (nomatch e), fun _ _ _ e => (nomatch e), fun _ e => by cases e; exact le_rfl⟩
  have y3 := y2'.call c3 (fun _ _ _ _ => rfl)
  have hw3 : p3.world.sites = [] ∧ p3.world.walkers = W ∧ p3.world.clusters = [] ∧ p3.world.thresholdMin = threshold ∧
      p3.world.threshold = threshold ∧ p3.world.iteration = 0 ∧ p3.world.nextId = n0 := by rw [w3, w2', w2, w1]; exact ⟨rfl, rfl, rfl, rfl, rfl, rfl, rfl⟩
  -- the system is set up
  obtain ⟨w4, hw4⟩ := initializeSystem_total (mem := mem) (w := p3.world) hS.proper.1
    (fun ir hir => hS.proper.2 ir hir) (by rw [w3]; simp) (fun i _ => by rw [hw3.1]; rfl)
  obtain ⟨p4, c4, hp4⟩ : ∃ p4, p3.call env mem (.initializeSystem m) = .ok p4 ∧ p4.world = w4 :=
    ⟨_, call_of (r := 0) (w := w4) (by simp only [World.step, hw4]; rfl), rfl⟩
  have s4 := s3.snoc c4 (fun r => trivial) (fun m' e => by cases e; rfl) trivial (fun _ _ e => nomatch e)
  have i4 := i3.snoc c4 (fun _ e => nomatch e) (fun _ _ _ e => nomatch e)
  have o4 : ∀ ε, AllOps (Pause inc ε) p4 := fun ε => (o3 ε).call c4 ⟨fun _ e => (nomatch e), fun _ _ _ e => (nomatch e), fun _ e => (nomatch e)⟩
  have y4 := y3.call c4 (fun _ _ _ _ => rfl)
  have hadds : Adds mem m p3.world p4.world := by
    have := initializeSystem_adds (mem := mem) (w := p3.world) (m := m)
    rw [hw4] at this
    rw [hp4]
    exact this
  have hquiet : Quiet 0 p4.world := ToF.adds_quiet hadds fun i s hs => by rw [hw3.1] at hs; cases hs
  have hcalm : ToF.Calm mem m p4.world := s4.calm hS.proper hS.closed fun i s hs => (hquiet i s hs).1
  have hwk4 : p4.world.walkers = p1.world.walkers := by rw [hadds.walkers, hw3.2.1, w1]
  obtain ⟨a1, a2, a3, a4, a5⟩ := adds_scalars hadds
  have hsite : ∀ (k : Nat) i, sites[k]? = some i → p4.world.walkers.get? k = some ⟨i, unassignedId, -1⟩ ∧ i ≠ unassignedId ∧ Known p4.world i := by
    intro k i hk
    have hi := hS.inside i (List.mem_of_getElem? hk)
    refine ⟨by rw [hwk4, ← zero_add (k : Int)]; exact hat k i hk, (hS.closed i hi).1, ?_⟩
    rw [known_iff, hp4]
    exact ((initializeSystem_known hw4 i).1).2 (.inr (mentions_iff.1 hi))
  have hsome : ∀ k < sites.length, ∃ i, sites[k]? = some i := fun k hk => ⟨_, List.getElem?_eq_getElem hk⟩
  have hlen0 : 0 < sites.length := List.length_pos_of_ne_nil hS.walkers
  have hon4 : ∀ (k : Nat) i, sites[k]? = some i → On p4.world k i := by
    intro k i hk
    obtain ⟨h1, h2, -⟩ := hsite k i hk
    exact ⟨_, h1, rfl, h2⟩
  have hent : ∀ a ∈ entries sites.length luck.first, ∃ (k : Nat) (i : Int), k < sites.length ∧ sites[k]? = some i ∧ a = ⟨(k : Int), (k : Int), (luck.first k).1, (luck.first k).2⟩ := by
    intro a ha
    unfold entries at ha
    obtain ⟨k, hk, rfl⟩ := List.mem_map.1 ha
    obtain ⟨i, hi⟩ := hsome k (List.mem_range.1 hk)
    exact ⟨k, i, List.mem_range.1 hk, hi, rfl⟩
  have hhandles : (entries sites.length luck.first).map (·.handle) = (List.range sites.length).map fun k : Nat => (k : Int) := by
    unfold entries
    rw [List.map_map]
    rfl
  have hhnd : ((entries sites.length luck.first).map (·.handle)).Nodup := by
    rw [hhandles]
    exact List.Nodup.map (fun a b h => by simpa using h) List.nodup_range
  have hdraws : DrawsOf (.initializeWalkers (entries sites.length luck.first)) := by
    intro a ha
    obtain ⟨k, i, -, -, rfl⟩ := hent a ha
    exact hS.first k
  have hfeats : p4.world.feats.length ≠ 0 := by
    obtain ⟨i, hi⟩ := hsome 0 hlen0
    have hk := known_iff.1 (hsite 0 i hi).2.2
    intro h0
    apply hk
    rw [← (s4.trace.struct s4.usage.hopsReturn).known, List.length_eq_zero_iff.1 h0]
    rfl
  have hpres : ∀ a ∈ entries sites.length luck.first, ∃ i, On p4.world a.handle i ∧ Known p4.world i := fun a ha => by
    obtain ⟨k, i, -, hi, rfl⟩ := hent a ha
    exact ⟨i, hon4 k i hi, (hsite k i hi).2.2⟩
  have hel : (entries sites.length luck.first).length = sites.length := by unfold entries; simp
  -- the walkers are set up
  obtain ⟨u, w5, hinit⟩ : ∃ u w', p4.world.initWalkers (entries sites.length luck.first) = (.ok u, w') :=
    ToF.initWalkers_quiet (s4.trace.struct s4.usage.hopsReturn) (v := 0) ⟨le_rfl, by rw [hel]; have := hS.fits; omega⟩ hquiet hpres
  have hstill : threshold = infIterations → Still n0 0 sites.length w5 := by
    intro ht
    have h4 : Still n0 0 0 p4.world := by
      refine ⟨fun i t ht => ?_, a1.trans hw3.2.2.1, ⟨a2.trans (hw3.2.2.2.1.trans ht), a3.trans (hw3.2.2.2.2.1.trans ht)⟩, ?_, a5.trans hw3.2.2.2.2.2.2⟩
      · obtain ⟨q1, q2, q3⟩ := hquiet i t ht
        exact ⟨q1, by omega, by omega⟩
      · rw [a4, hw3.2.2.2.2.2.1]; exact ⟨le_rfl, le_rfl⟩
    obtain ⟨u', w', e, h5⟩ := initWalkers_still (s4.trace.struct s4.usage.hopsReturn) (l := entries sites.length luck.first) (v := 0)
      ⟨le_rfl, by rw [hel]; have := hS.fits; omega⟩ h4 hpres
    rw [hinit] at e
    have e := congrArg Prod.snd e
    have e : w5 = w' := e
    rw [hel, zero_add] at h5
    rw [e]
    exact h5
  obtain ⟨p5, c5, hp5⟩ : ∃ p5, p4.call env mem (.initializeWalkers (entries sites.length luck.first)) = .ok p5 ∧ p5.world = w5 :=
    ⟨_, call_of (r := 0) (w := w5) (by
      simp only [World.step, World.initializeWalkers, if_neg hfeats, hinit]
      rfl), rfl⟩
  have s5 := s4.snoc c5 (fun r => by
      refine ⟨⟨r, rfl⟩, hhnd, fun a _ => by rw [i4.act]; exact List.not_mem_nil, ?_, fun a _ h hh => (by rw [i4.act] at hh; cases hh), .inl i4.hop⟩
      intro a ha b hb' hne i hia hib
      obtain ⟨k, j, -, hj, rfl⟩ := hent a ha
      obtain ⟨k', j', -, hj', rfl⟩ := hent b hb'
      have e1 := onSite_unique hia (hon4 k j hj)
      have e2 := onSite_unique hib (hon4 k' j' hj')
      apply hne
      have hk : k < sites.length := (List.getElem?_eq_some_iff.1 hj).1
      have := (List.getElem?_inj hk hS.apart).1 (hj.trans (by rw [hj', ← e1, ← e2]))
      show (k : Int) = k'
      rw [this])
    (fun _ e => nomatch e) hdraws (fun _ _ e => nomatch e)
  have o5 : ∀ ε, (∀ k, ε ≤ (luck.first k).1) → AllOps (Pause inc ε) p5 := fun ε hε => (o4 ε).call c5
    ⟨fun l e a ha => by
      cases e
      obtain ⟨k, i, -, -, rfl⟩ := hent a ha
      exact hε k, fun _ _ _ e => (nomatch e), fun _ e => (nomatch e)⟩
  obtain ⟨r', hstep5, hcalls5⟩ := call_ok c5
  have hact5 : active p5.calls = (List.range sites.length).map fun k : Nat => (k : Int) := by
    rw [hcalls5, active_snoc, i4.act]
    show [] ++ _ = _
    rw [List.nil_append]
    exact hhandles
  obtain ⟨hgot, -⟩ := ToF.initWalkers_calm (s4.trace.struct s4.usage.hopsReturn) hcalm hhnd hinit
  have hwalk : ∀ (k : Nat) i, sites[k]? = some i → ∃ n, p5.world.walkers.get? k = some ⟨i, n, firstTime mem m luck k i⟩ := by
    intro k i hi
    have hk : k < sites.length := (List.getElem?_eq_some_iff.1 hi).1
    obtain ⟨x, n, hx, hx'⟩ := hgot ⟨(k : Int), (k : Int), (luck.first k).1, (luck.first k).2⟩ (by
      unfold entries
      exact List.mem_map.2 ⟨k, List.mem_range.2 hk, rfl⟩)
    have hx : p4.world.walkers.get? k = some x := hx
    rw [(hsite k i hi).1] at hx
    cases hx
    rw [hp5]
    exact ⟨n, hx'⟩
  -- the stays
  have hempty : ∀ k, staysOf k p4.calls = [] := by
    intro k
    unfold staysOf
    rw [List.flatMap_eq_nil_iff]
    intro ev hev
    have h1 := y4 ev hev k ev.pre ev.post ev.res
    have h2 := s4.fixed ev hev
    rcases ev with ⟨a, b, c, d, e⟩
    simp only at h2
    subst h2
    exact h1
  have hst : ∀ (k : Nat) i, sites[k]? = some i → staysOf (k : Int) p5.calls = [firstTime mem m luck k i] := by
    intro k i hi
    have hk : k < sites.length := (List.getElem?_eq_some_iff.1 hi).1
    obtain ⟨n, hx⟩ := hwalk k i hi
    rw [hcalls5, stays_snoc, hempty, List.nil_append]
    show ((entries sites.length luck.first).filter (fun a => a.wid = (k : Int))).flatMap _ = _
    have hentry : (entries sites.length luck.first).filter (fun a => a.wid = (k : Int)) = [⟨(k : Int), (k : Int), (luck.first k).1, (luck.first k).2⟩] := by
      unfold entries
      rw [List.filter_map]
      have : (List.range sites.length).filter ((fun a : Entry K => decide (a.wid = (k : Int))) ∘
          fun k : Nat => (⟨(k : Int), (k : Int), (luck.first k).1, (luck.first k).2⟩ : Entry K)) = [k] := by
        have h1 : (List.range sites.length).filter ((fun a : Entry K => decide (a.wid = (k : Int))) ∘
          fun k : Nat => (⟨(k : Int), (k : Int), (luck.first k).1, (luck.first k).2⟩ : Entry K)) = (List.range sites.length).filter (fun j => j == k) := by
          refine List.filter_congr fun j _ => ?_
          simp only [Function.comp_apply]
          by_cases hjk : j = k
          · simp [hjk]
          · simp [hjk]
        rw [h1, List.filter_beq, List.count_eq_one_of_mem List.nodup_range (List.mem_range.2 hk)]
        rfl
      rw [this]
      rfl
    rw [hentry, List.flatMap_singleton]
    show dwellOf p5.world k = _
    unfold dwellOf
    rw [hx]
  have hout : ∀ k : Int, ¬ (0 ≤ k ∧ k < sites.length) → staysOf k p5.calls = [] := by
    intro k hk
    rw [hcalls5, stays_snoc, hempty, List.nil_append]
    show ((entries sites.length luck.first).filter (fun a => a.wid = k)).flatMap _ = _
    rw [List.filter_eq_nil_iff.2]
    · rfl
    · intro a ha
      obtain ⟨j, i, hj, -, rfl⟩ := hent a ha
      simp only [decide_eq_true_eq]
      omega
  -- the list of times
  obtain ⟨t, ht⟩ : ∃ t : Nat → K, t = fun k => firstTime mem m luck k ((sites[k]?).getD 0) := ⟨_, rfl⟩
  have htk : ∀ (k : Nat) i, sites[k]? = some i → t k = firstTime mem m luck k i := fun k i hi => by rw [ht]; simp only [hi, Option.getD_some]
  have hdw : dwells p5.world sites.length = .ok ((List.range sites.length).map fun k : Nat => ((k : Int), t k)) := dwells_ok fun k hk => by
    obtain ⟨i, hi⟩ := hsome k hk
    obtain ⟨n, hx⟩ := hwalk k i hi
    exact ⟨_, hx, (htk k i hi).symm⟩
  have hperm := Crude.perm_sortTimes ((List.range sites.length).map fun k : Nat => ((k : Int), t k))
  have hord := Crude.sorted_sortTimes ((List.range sites.length).map fun k : Nat => ((k : Int), t k))
  have hstart : start env mem m sites seed threshold cutoff rate luck ⟨World.new n0, []⟩ =
      match Crude.sortTimes ((List.range sites.length).map fun k : Nat => ((k : Int), t k)) with
      | [] => .error (.ub .endIterator)
      | e :: es => if e.2 < cutoff then .ok ⟨p5, e :: es⟩ else .error .assertFail := by
    unfold start
    rw [e1, ok_bind, hquot, ok_bind, c2, ok_bind, c2', ok_bind, c3, ok_bind, c4, ok_bind, c5, ok_bind, hdw, ok_bind]
    rfl
  rw [hstart]
  generalize Crude.sortTimes ((List.range sites.length).map fun k : Nat => ((k : Int), t k)) = L at hperm hord
  have hall : ∀ x, x ∈ L ↔ ∃ k < sites.length, ((k : Int), t k) = x := by
    intro x
    rw [hperm.mem_iff]
    simp
  obtain _ | ⟨e, es⟩ := L
  · have := hperm.length_eq
    simp at this
    omega
  simp only
  by_cases hc : e.2 < cutoff
  · rw [if_pos hc]
    obtain ⟨k, hk, hke⟩ := (hall e).1 List.mem_cons_self
    obtain ⟨i, hi⟩ := hsome k hk
    refine .inl ⟨_, rfl, ⟨s5, hact5, ?_, hord, ?_, ?_, ?_, ?_⟩, fun h => by rw [← hp5] at hstill; exact hstill h, by rw [← hincd]; exact o5, k, i, hi, ?_⟩
    · have := hperm.map Prod.fst
      rw [List.map_map] at this
      exact this
    · intro x hx
      obtain ⟨j, hj, rfl⟩ := (hall x).1 hx
      obtain ⟨i, hi⟩ := hsome j hj
      rw [hst j i hi, htk j i hi]
      simp
    · intro j
      have : (staysOf j p5.calls).dropLast = [] := by
        by_cases hj : 0 ≤ j ∧ j < sites.length
        · obtain ⟨i, hi⟩ := hsome j.toNat (by omega)
          have := hst j.toNat i hi
          rw [Int.toNat_of_nonneg hj.1] at this
          rw [this]; rfl
        · rw [hout j hj]; rfl
      rw [this]
      simpa using hS.cutoff
    · intro j hj
      obtain ⟨i, hi⟩ := hsome j hj
      rw [hst j i hi]
      simp
    · unfold stayCount
      have : (List.range sites.length).map (fun k : Nat => (staysOf (k : Int) p5.calls).length) = (List.range sites.length).map fun _ => 1 :=
        List.map_congr_left fun k hk => by
          obtain ⟨i, hi⟩ := hsome k (List.mem_range.1 hk)
          rw [hst k i hi]
          rfl
      show ((List.range sites.length).map (fun k : Nat => (staysOf (k : Int) p5.calls).length)).sum = _
      rw [this]
      simp
    · rw [← htk k i hi]
      rw [← hke] at hc
      exact hc
  · rw [if_neg hc]
    refine .inr ⟨rfl, fun k i hi => ?_⟩
    have hk : k < sites.length := (List.getElem?_eq_some_iff.1 hi).1
    have hm := (hall _).2 ⟨k, hk, rfl⟩
    rw [← htk k i hi]
    push Not at hc
    rcases List.mem_cons.1 hm with hm | hm
    · rw [← hm] at hc; exact hc
    · exact hc.trans ((List.pairwise_cons.1 hord).1 _ hm)

/-! ## The loop -/

theorem Inv.mem_ids {n v : Nat} (h : Inv env mem m n0 n cutoff v s) (k : Int) : k ∈ s.times.map Prod.fst ↔ 0 ≤ k ∧ k < n := by
  rw [h.ids.mem_iff, List.mem_map]
  constructor
  · rintro ⟨j, hj, rfl⟩
    have := List.mem_range.1 hj
    omega
  · rintro ⟨h1, h2⟩
    exact ⟨k.toNat, List.mem_range.2 (by omega), by omega⟩

theorem advance_some {n : Nat} (h : advance env mem n cutoff luck s = .ok (some s')) :
    ∃ k t rest p x, s.times = (k, t) :: rest ∧ t < cutoff ∧ (0 ≤ k ∧ k < n) ∧
      s.prog.call env mem (.hop k k (luck.draw s.prog.calls k)) = .ok p ∧ p.world.walkers.get? k = some x ∧
      s' = ⟨p, Crude.sortTimes ((k, t + x.dwell) :: rest)⟩ := by
  unfold advance at h
  split at h
  · cases h
  next k t rest e =>
  split at h
  · next hlt =>
    split at h
    · next hk =>
      obtain ⟨p, hp, h⟩ := bind_eq_ok.1 h
      obtain ⟨x, hx, h⟩ := bind_eq_ok.1 h
      cases h
      refine ⟨k, t, rest, p, x, e, hlt, hk, hp, ?_, rfl⟩
      unfold walkerOf at hx
      split at hx
      · cases hx
      · next y hy => cases hx; exact hy
    · cases h
  · cases h

theorem advance_none {n : Nat} (h : advance env mem n cutoff luck s = .ok none) :
    ∃ k t rest, s.times = (k, t) :: rest ∧ cutoff ≤ t := by
  unfold advance at h
  split at h
  · cases h
  next k t rest e =>
  split at h
  · split at h
    · obtain ⟨p, hp, h⟩ := bind_eq_ok.1 h
      obtain ⟨x, hx, h⟩ := bind_eq_ok.1 h
      cases h
    · cases h
  · next hlt => exact ⟨k, t, rest, e, not_lt.1 hlt⟩

theorem inv_advance (hS : Setting mem m sites cutoff rate luck) {v : Nat} (hI : Inv env mem m n0 sites.length cutoff v s)
    (h : advance env mem sites.length cutoff luck s = .ok (some s')) : Inv env mem m n0 sites.length cutoff (v + 1) s' := by
  obtain ⟨k, t, rest, p, x, he, hlt, hk, hc, hx, rfl⟩ := advance_some h
  have hka : k ∈ active s.prog.calls := by
    rw [hI.act]
    exact List.mem_map.2 ⟨k.toNat, List.mem_range.2 (by omega), by omega⟩
  obtain ⟨l', a', -⟩ := hI.log.hop hS.proper hS.closed hka (hS.draw _ _) hc
  have hst := hop_stays hc hx
  have hperm := Crude.perm_sortTimes ((k, t + x.dwell) :: rest)
  have hmem : (k, t) ∈ s.times := by rw [he]; exact List.mem_cons_self
  have hnd : ∀ f ∈ rest, f.1 ≠ k := by
    have : (s.times.map Prod.fst).Nodup := hI.ids.nodup_iff.2 (List.Nodup.map (fun a b h => by simpa using h) List.nodup_range)
    rw [he, List.map_cons, List.nodup_cons] at this
    intro f hf hfe
    exact this.1 (List.mem_map.2 ⟨f, hf, hfe⟩)
  refine ⟨l', a'.trans hI.act, ?_, Crude.sorted_sortTimes _, ?_, ?_, ?_, ?_⟩
  · refine (hperm.map Prod.fst).trans ?_
    have := hI.ids
    rw [he] at this
    exact this
  · intro f hf
    show f.2 = (staysOf f.1 p.calls).sum
    rw [hst]
    rcases List.mem_cons.1 (hperm.subset hf) with rfl | hf
    · rw [if_pos rfl, List.sum_append, ← hI.clock (k, t) hmem]
      simp
    · rw [if_neg (hnd f hf), List.append_nil]
      exact hI.clock f (by rw [he]; exact List.mem_cons_of_mem _ hf)
  · intro j
    show (staysOf j p.calls).dropLast.sum < _
    rw [hst]
    by_cases hj : j = k
    · rw [if_pos hj, List.dropLast_concat, hj, ← hI.clock (k, t) hmem]
      exact hlt
    · rw [if_neg hj, List.append_nil]
      exact hI.before j
  · intro j hj
    show staysOf j p.calls ≠ []
    rw [hst]
    intro hn
    exact hI.nonempty j hj (List.append_eq_nil_iff.1 hn).1
  · have : stayCount sites.length p = stayCount sites.length s.prog + 1 := by
      unfold stayCount
      refine natsum_change (j := k.toNat) (by omega) (fun j hj => ?_) ?_
      · rw [hst, if_neg (by omega), List.append_nil]
      · rw [Int.toNat_of_nonneg hk.1, hst, if_pos rfl, List.length_append]
        rfl
    show stayCount sites.length p = _
    rw [this, hI.count]
    omega

theorem advance_still (hS : Setting mem m sites cutoff rate luck) {v : Nat} (hI : Inv env mem m n0 sites.length cutoff v s)
    (hq : Still n0 v sites.length s.prog.world) (hb : (v : Int) + sites.length < INT_MAX) :
    ∃ o, advance env mem sites.length cutoff luck s = .ok o ∧ ∀ s', o = some s' → Still n0 ((v + 1 : Nat) : Int) sites.length s'.prog.world := by
  have hlen := hI.ids.length_eq
  obtain ⟨⟨k, t⟩, rest, he⟩ : ∃ e es, s.times = e :: es := List.exists_cons_of_ne_nil fun h0 => by
    have := List.length_pos_of_ne_nil hS.walkers
    rw [h0] at hlen
    simp at hlen
    omega
  have hk : 0 ≤ k ∧ k < sites.length := (hI.mem_ids k).1 (by rw [he]; exact List.mem_cons_self)
  have hka : k ∈ active s.prog.calls := by
    rw [hI.act]
    exact List.mem_map.2 ⟨k.toNat, List.mem_range.2 (by omega), by omega⟩
  by_cases hlt : t < cutoff
  · obtain ⟨x, hx, ⟨-, -, -, h0⟩, ⟨u, hu⟩, ⟨u', hu'⟩, -, h0'⟩ := hI.log.aims hS.proper hS.closed hka
    obtain ⟨w', e', q'⟩ := hop_still (mem := mem) (hI.log.trace.struct hI.log.usage.hopsReturn) hq ⟨by omega, by omega, hb⟩ hx h0 (hS.closed _ h0').1 hu hu'
      (luck.draw s.prog.calls k) k
    obtain ⟨p, hc, hp⟩ : ∃ p, s.prog.call env mem (.hop k k (luck.draw s.prog.calls k)) = .ok p ∧ p.world = w' :=
      ⟨_, call_of (r := 0) (w := w') (by simp only [World.step, e']; rfl), rfl⟩
    obtain ⟨-, -, y, hy⟩ := hI.log.hop hS.proper hS.closed hka (hS.draw _ _) hc
    refine ⟨some ⟨p, Crude.sortTimes ((k, t + y.dwell) :: rest)⟩, ?_, ?_⟩
    · unfold advance
      rw [he]
      simp only
      rw [if_pos hlt, if_pos hk, hc, ok_bind, walkerOf_of hy, ok_bind]
    · intro s' e
      cases e
      show Still n0 _ _ p.world
      rw [hp]
      push_cast
      exact q'
  · refine ⟨none, ?_, fun _ e => nomatch e⟩
    unfold advance
    rw [he]
    simp only
    rw [if_neg hlt]

theorem pause_advance {θ ε : K} {n : Nat} (hε : ∀ evs h, ε ≤ (luck.draw evs h).e) (hs : AllOps (Pause θ ε) s.prog)
    (h : advance env mem n cutoff luck s = .ok (some s')) : AllOps (Pause θ ε) s'.prog := by
  obtain ⟨k, t, rest, p, x, -, -, -, hc, -, rfl⟩ := advance_some h
  exact hs.call hc ⟨fun _ e => (nomatch e), fun wid h a e => (by cases e; exact hε _ _), fun _ e => (nomatch e)⟩

/-- What holds at the start and is kept in a round holds at the end. -/
theorem loops_steps {P : Nat → Sim K → Prop} {n : Nat} (hP : ∀ v s s', P v s → advance env mem n cutoff luck s = .ok (some s') → P (v + 1) s')
    {r k : Nat} {fin : Bool} (h0 : P k s) (h : loops env mem n cutoff luck r s = .ok (s', fin)) :
    ∃ j ≤ r, P (k + j) s' ∧ (fin = false → j = r) ∧ (fin = true → advance env mem n cutoff luck s' = .ok none) := by
  induction r generalizing s k with
  | zero => cases h; exact ⟨0, le_rfl, h0, fun _ => rfl, fun h => nomatch h⟩
  | succ r ih =>
    rw [loops] at h
    cases ha : advance env mem n cutoff luck s with
    | error f => rw [ha] at h; cases h
    | ok o =>
      rw [ha] at h
      cases o with
      | none => cases h; exact ⟨0, by omega, h0, fun h => (nomatch h), fun _ => ha⟩
      | some s2 =>
        obtain ⟨j, hj, h1, h2, h3⟩ := ih (hP _ _ _ h0 ha) h
        exact ⟨j + 1, by omega, by rw [show k + (j + 1) = k + 1 + j by omega]; exact h1, fun hf => by rw [h2 hf], h3⟩

/-- A loop whose rounds do not fail. -/
theorem loops_total {P : Nat → Sim K → Prop} {n : Nat} {r k : Nat}
    (hP : ∀ v s, v < k + r → P v s → ∃ o, advance env mem n cutoff luck s = .ok o ∧ ∀ s', o = some s' → P (v + 1) s') (h0 : P k s) :
    ∃ s' fin j, loops env mem n cutoff luck r s = .ok (s', fin) ∧ P (k + j) s' := by
  induction r generalizing s k with
  | zero => exact ⟨s, false, 0, rfl, h0⟩
  | succ r ih =>
    obtain ⟨o, ho, hs⟩ := hP k s (by omega) h0
    rw [loops, ho]
    cases o with
    | none => exact ⟨s, true, 0, rfl, h0⟩
    | some s2 =>
      obtain ⟨s', fin, j, h1, h2⟩ := ih (s := s2) (k := k + 1) (fun v s hv => hP v s (by omega)) (hs s2 rfl)
      exact ⟨s', fin, j + 1, h1, by rw [show k + (j + 1) = k + 1 + j by omega]; exact h2⟩

end Mythical.Bench
