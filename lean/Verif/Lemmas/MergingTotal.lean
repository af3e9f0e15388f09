import Verif.Lemmas.MergingBooks
import Verif.Lemmas.MergingCluster
import Verif.Lemmas.BenchTotal
import Verif.Lemmas.EscapeRun
import Verif.Lemmas.BenchRun

/-! # The unit test in which two clusters are merged runs through (for C120) -/

set_option linter.unusedSectionVars false
set_option linter.unusedVariables false

namespace Mythical.Merging
open World SystemSpec EscapeSpec MergingSpec
open _root_.Mythical.ToF (Prog call_ok call_of Idle Quiet place layout memOf)
open _root_.Mythical.Bench (Log log_nil idle_nil last_call AtStart)
open _root_.Mythical.ToFSpec (OnlyOverflow)
variable {K : Type} [Field K] [LinearOrder K] [IsStrictOrderedRing K] [FloorRing K]
variable {env : Env K} {mem : Addr → K} {m : IMap (IMap Addr)} {n0 : Nat} {p p' : Prog K} {b b' : Books K} {luck : Luck K}

theorem kinds_twoWay : ∀ ir ∈ kinds, ∀ jc ∈ ir.2, jc.1 ≠ ir.1 ∧ ∃ ir' ∈ kinds, ir'.1 = jc.1 ∧ ∃ jc' ∈ ir'.2, jc'.1 = ir.1 := by decide

theorem Refers.range (hm : Refers mem m) {i : Int} (h : Mentions m i) : 1 ≤ i ∧ i ≤ 16 := by
  obtain ⟨row, hrow⟩ := hm.closed i h
  obtain ⟨row', h1, -⟩ := hm.row i row hrow
  exact (grid_range _ h1).1

theorem Refers.shut (hm : Refers mem m) (i : Int) (h : Mentions m i) : i ≠ unassignedId ∧ ∃ row, (i, row) ∈ m :=
  ⟨by have := (hm.range h).1; simp only [unassignedId, INT_MIN]; omega, hm.closed i h⟩

theorem Refers.twoWay (hm : Refers mem m) : TwoWay m := by
  rintro ⟨i, row⟩ hir ⟨j, a⟩ hna
  obtain ⟨row', h1, h2⟩ := hm.row i row hir
  obtain ⟨r, hr, rfl⟩ := grid_mem.1 h1
  have := h2.subset (List.mem_map_of_mem (f := fun na : Int × Addr => (na.1, mem na.2)) hna)
  obtain ⟨⟨j', c⟩, hj, e⟩ := List.mem_map.1 this
  simp only [Prod.mk.injEq] at e
  obtain ⟨rfl, -⟩ := e
  obtain ⟨h3, ⟨k, r'⟩, hr', rfl, ⟨l, c'⟩, hl, rfl⟩ := kinds_twoWay _ hr _ hj
  refine ⟨h3, ?_⟩
  obtain ⟨row2, h4⟩ := hm.closed k ⟨_, hir, .inr ⟨_, hna, rfl⟩⟩
  obtain ⟨row2', h5, h6⟩ := hm.row k row2 h4
  obtain ⟨r2, hr2, rfl⟩ := grid_mem.1 h5
  have e : r' = r2 := by
    have e1 := IMap.get?_of_mem kinds_wf.1 hr'
    rw [IMap.get?_of_mem kinds_wf.1 hr2] at e1
    exact (Option.some.inj e1).symm
  subst e
  have h7 := h6.symm.subset (List.mem_map_of_mem (f := fun jc : Int × Nat => (jc.1, (val jc.2 : K))) hl)
  obtain ⟨na', h8, e⟩ := List.mem_map.1 h7
  simp only [Prod.mk.injEq] at e
  exact ⟨_, h4, rfl, na', h8, e.1⟩

/-- The calls before the loop. -/
def setup (env : Env K) (mem : Addr → K) (m : IMap (IMap Addr)) (threshold : Int) (luck : Luck K) (p : Prog K) : Except Fault (Prog K) := do
  let p ← p.call env mem (.setRandomSeed 1)
  let p ← p.call env mem (.setTimeResolution (1000 / 10))
  let p ← p.call env mem (.setMinThreshold threshold)
  let p ← p.call env mem (.initializeSystem m)
  let p ← place env mem p 0 [1]
  p.call env mem (.initializeWalkers [⟨1, 0, luck.first.1, luck.first.2⟩])

theorem block_eq {threshold : Int} {r : Nat} :
    block env mem m threshold luck r p = setup env mem m threshold luck p >>= fun p => roam env mem luck r p Books.new := by
  unfold block setup place place
  simp only [bind_assoc]
  rfl

/-- What holds before each round. -/
structure Ready (env : Env K) (mem : Addr → K) (m : IMap (IMap Addr)) (n0 : Nat) (p : Prog K) : Prop where
  log : Log env mem m n0 p
  act : active p.calls = [0]

theorem setup_ready {threshold : Int} (hm : Refers mem m) (hl : SiteSpec.Draw luck.first.2 ∧ 0 < luck.first.1) :
    ∃ p, setup env mem m threshold luck ⟨World.new n0, []⟩ = .ok p ∧ Ready env mem m n0 p := by
  obtain ⟨p1, hp1⟩ : ∃ p1 : Prog K, p1 = ⟨World.new n0, []⟩ := ⟨_, rfl⟩
  have s1 : Log env mem m n0 p1 := by rw [hp1]; exact log_nil
  have i1 : Idle p1 := by rw [hp1]; exact idle_nil
  have w1 : p1.world = World.new n0 := by rw [hp1]
  obtain ⟨p2, c2, w2⟩ : ∃ p2, p1.call env mem (.setRandomSeed 1) = .ok p2 ∧ p2.world = { p1.world with seed := some (1 % 2 ^ 64) } :=
    ⟨_, call_of (r := 0) (w := { p1.world with seed := some (1 % 2 ^ 64) }) (by
      simp only [World.step, World.setRandomSeed]
      rw [if_neg (by rw [w1]; simp [World.new])]
      rfl), rfl⟩
  have s2 := s1.snoc c2 (fun r => trivial) (by intro _ e; cases e) trivial (by intro _ _ e; cases e)
  have i2 := i1.snoc c2 (by intro _ e; cases e) (by intro _ _ _ e; cases e)
  obtain ⟨p3, c3, w3⟩ : ∃ p3, p2.call env mem (.setTimeResolution (1000 / 10)) = .ok p3 ∧ p3.world = { p2.world with timeRes := some (1000 / 10) } :=
    ⟨_, call_of (r := 0) (w := { p2.world with timeRes := some (1000 / 10) }) (by
      simp only [World.step, World.setTimeResolution]
      rw [if_neg (not_le.2 (by norm_num))]
      rfl), rfl⟩
  have s3 := s2.snoc c3 (fun r => trivial) (by intro _ e; cases e) trivial (by intro _ _ e; cases e)
  have i3 := i2.snoc c3 (by intro _ e; cases e) (by intro _ _ _ e; cases e)
  obtain ⟨p4, c4, w4⟩ : ∃ p4, p3.call env mem (.setMinThreshold threshold) = .ok p4 ∧
      p4.world = { p3.world with threshold := threshold, thresholdMin := threshold } :=
    ⟨_, call_of (r := 0) (w := { p3.world with threshold := threshold, thresholdMin := threshold }) rfl, rfl⟩
  have s4 := s3.snoc c4 (fun r => trivial) (by intro _ e; cases e) trivial (by intro _ _ e; cases e)
  have i4 := i3.snoc c4 (by intro _ e; cases e) (by intro _ _ _ e; cases e)
  have hw4 : p4.world.sites = [] := by rw [w4, w3, w2, w1]; rfl
  obtain ⟨w5, hw5⟩ := initializeSystem_total (mem := mem) (w := p4.world) hm.proper.1
    (fun ir hir => hm.proper.2 ir hir) (by rw [w4, w3]; simp) (fun i _ => by rw [hw4]; rfl)
  obtain ⟨p5, c5, hp5⟩ : ∃ p5, p4.call env mem (.initializeSystem m) = .ok p5 ∧ p5.world = w5 :=
    ⟨_, call_of (r := 0) (w := w5) (by simp only [World.step, hw5]; rfl), rfl⟩
  have s5 := s4.snoc c5 (fun r => trivial) (fun m' e => by cases e; rfl) trivial (by intro _ _ e; cases e)
  have i5 := i4.snoc c5 (by intro _ e; cases e) (by intro _ _ _ e; cases e)
  have hadds : Adds mem m p4.world p5.world := by
    have := initializeSystem_adds (mem := mem) (w := p4.world) (m := m)
    rw [hw5] at this
    rw [hp5]
    exact this
  have hquiet : Quiet 0 p5.world := ToF.adds_quiet hadds fun i s hs => by rw [hw4] at hs; cases hs
  obtain ⟨p6, e6, s6, i6, ⟨W, w6⟩, hat, -⟩ := Bench.place_ok s5 i5 [1] 0
  have hwk : p6.world.walkers.get? 0 = some ⟨1, unassignedId, -1⟩ := hat 0 1 rfl
  have hon : On p6.world 0 1 := ⟨_, hwk, rfl, by simp only [unassignedId]; decide⟩
  have hk : Known p6.world 1 := by
    rw [known_iff, w6, hp5]
    exact ((initializeSystem_known hw5 1).1).2 (.inr (mentions_iff.1 (hm.all 1 (by norm_num) (by norm_num))))
  have hq6 : Quiet 0 p6.world := by rw [w6]; exact hquiet
  have hfeats : p6.world.feats.length ≠ 0 := by
    have hk := known_iff.1 hk
    intro h0
    apply hk
    rw [← (s6.trace.struct s6.usage.hopsReturn).known, List.length_eq_zero_iff.1 h0]
    rfl
  obtain ⟨u, w7, hinit⟩ : ∃ u w', p6.world.initWalkers [⟨1, 0, luck.first.1, luck.first.2⟩] = (.ok u, w') :=
    ToF.initWalkers_quiet (s6.trace.struct s6.usage.hopsReturn) (v := 0) ⟨le_rfl, by simp only [List.length_singleton, INT_MAX]; norm_num⟩ hq6 fun a ha => by
      rw [List.mem_singleton.1 ha]; exact ⟨1, hon, hk⟩
  obtain ⟨p7, c7, hp7⟩ : ∃ p7, p6.call env mem (.initializeWalkers [⟨1, 0, luck.first.1, luck.first.2⟩]) = .ok p7 ∧ p7.world = w7 :=
    ⟨_, call_of (r := 0) (w := w7) (by
      simp only [World.step, World.initializeWalkers, if_neg hfeats, hinit]
      rfl), rfl⟩
  have s7 := s6.snoc c7 (fun r => by
      refine ⟨⟨r, rfl⟩, List.nodup_singleton _, fun a _ => by rw [i6.act]; exact List.not_mem_nil, fun a ha c hc hne => ?_,
        fun a _ k hk => (by rw [i6.act] at hk; cases hk), .inl i6.hop⟩
      rw [List.mem_singleton.1 ha, List.mem_singleton.1 hc] at hne
      exact absurd rfl hne)
    (by intro _ e; cases e) (by intro a ha; rw [List.mem_singleton.1 ha]; exact hl) (by intro _ _ e; cases e)
  refine ⟨p7, ?_, s7, ?_⟩
  · unfold setup
    rw [← hp1, c2, ok_bind, c3, ok_bind, c4, ok_bind, c5, ok_bind, e6, ok_bind, c7]
  · obtain ⟨r, -, h2⟩ := call_ok c7
    rw [h2, active_snoc, i6.act]
    rfl

theorem setup_fuel {threshold : Int} {f f' : Nat} : setup { env with fuel := f } mem m threshold luck p =
    setup { env with fuel := f' } mem m threshold luck p := by
  unfold setup
  simp only [ToF.place_fuel (env := env) (f := f) (f' := f')]
  rfl

theorem setup_fair {threshold : Int} (h : setup env mem m threshold luck ⟨World.new n0, []⟩ = .ok p) : Bench.Fair mem p ∧ stays p.calls = [] := by
  unfold setup at h
  obtain ⟨p1, h1, h⟩ := bind_eq_ok.1 h
  obtain ⟨p2, h2, h⟩ := bind_eq_ok.1 h
  obtain ⟨p3, h3, h⟩ := bind_eq_ok.1 h
  obtain ⟨p4, h4, h⟩ := bind_eq_ok.1 h
  obtain ⟨p5, h5, h⟩ := bind_eq_ok.1 h
  have a0 : ToF.AllOps AtStart (⟨World.new n0, []⟩ : Prog K) := fun ev hev => by cases hev
  have a4 := ((((a0.call h1 ⟨(by intro _ e; cases e), (by intro _ _ _ e; cases e)⟩).call h2 ⟨(by intro _ e; cases e), (by intro _ _ _ e; cases e)⟩).call h3
    ⟨(by intro _ e; cases e), (by intro _ _ _ e; cases e)⟩).call h4 ⟨(by intro _ e; cases e), (by intro _ _ _ e; cases e)⟩)
  have a5 : ToF.AllOps AtStart p5 := ToF.AllOps.place (fun k => ⟨(by intro _ e; cases e), (by intro _ _ _ e; cases e)⟩)
    (fun k i => ⟨(by intro _ e; cases e), (by intro _ _ _ e; cases e)⟩) a4 h5
  have a6 := a5.call h ⟨(by intro _ e; cases e), (by intro _ _ _ e; cases e)⟩
  refine ⟨⟨fun ev he r ho => absurd ho ((a6 ev he).1 r), fun ev he wid h a v w1 B ho => absurd ho ((a6 ev he).2 wid h a), last_call h⟩, ?_⟩
  unfold stays
  rw [List.flatMap_eq_nil_iff]
  intro ev he
  split
  · next ho => exact absurd ho ((a6 ev he).2 _ _ _)
  · rfl

theorem bump_fine {V : Type} {l : List V} {i : Int} {f : V → Except Fault V} (h1 : 1 ≤ i) (h2 : i ≤ l.length) (hf : ∀ v, OnlyOverflow (f v)) :
    OnlyOverflow (Escape.bump l i f) := by
  unfold Escape.bump
  refine ToF.fine_bind (ToF.fine_or (chk_or _)) fun j hj => ?_
  have hj : j = i - 1 := by
    unfold chk at hj
    split at hj
    · exact (ok_inj.1 hj).symm
    · cases hj
  rw [if_pos (by omega), List.getElem?_eq_getElem (by omega : j.toNat < l.length)]
  exact ToF.fine_bind (hf _) fun v _ => ToF.fine_ok _

/-- A round returns, with the same result for all sufficiently large limits on the rounds of the library's loop. -/
theorem hopOnce_total (hm : Refers mem m) (hd : ∀ evs, SiteSpec.Draw (luck.draw evs).u ∧ 0 < (luck.draw evs).e) (hc : Covering mem luck) {N : Nat}
    (hI : ∀ f ≥ N, Ready { env with fuel := f } mem m n0 p) (hf : Bench.Fair mem p) (hk : Kept b (stays p.calls)) :
    ∃ N' x, OnlyOverflow x ∧ ∀ f ≥ N', hopOnce { env with fuel := f } mem luck p b = x := by
  have hI0 := hI N le_rfl
  have hka : (0 : Int) ∈ active p.calls := by rw [hI0.act]; exact List.mem_singleton.2 rfl
  have hl := hI0.log
  obtain ⟨N', r, hr, hstep⟩ := C69_hop_returns _ mem n0 _ _ hl.trace hl.usage hl.fixed (hl.pos hm.proper) (hl.sys hm.shut)
    (fun ev he m' ho => by obtain ⟨rfl, -⟩ := hl.only ev he m' ho; exact ⟨hm.proper.1, fun ir hir => (hm.proper.2 ir hir).1⟩)
    (fun ev he m' ho => by obtain ⟨rfl, -⟩ := hl.only ev he m' ho; exact hm.twoWay)
    hl.draws hl.sent hf.ratio hf.times 1 0 hka (luck.draw p.calls) (hd _)
    (fun v w1 e' => hc _ v w1 (by rw [hf.last]; exact e'))
  have e1 : p.world.step { env with fuel := max N' N } mem (.hop 1 0 (luck.draw p.calls)) = r := hstep _ (le_max_left _ _)
  have hcall : ∀ f ≥ N', p.call { env with fuel := f } mem (.hop 1 0 (luck.draw p.calls)) =
      p.call { env with fuel := max N' N } mem (.hop 1 0 (luck.draw p.calls)) := fun f hf' => by
    have e2 : p.world.step { env with fuel := f } mem (.hop 1 0 (luck.draw p.calls)) = r := hstep f hf'
    unfold Prog.call
    rw [e1, e2]
  refine ⟨N', hopOnce { env with fuel := max N' N } mem luck p b, ?_, fun f hf' => by unfold hopOnce; rw [hcall f hf']⟩
  unfold hopOnce
  refine ToF.fine_bind (ToF.fine_call (by rw [e1]; exact hr)) fun q hq => ?_
  have hI' := (hI _ (le_max_right N' N)).log
  obtain ⟨hlog, hact, -⟩ := hI'.hop hm.proper hm.shut hka (hd _) hq
  obtain ⟨y, hy, ⟨y', hy', -, h0⟩, -, -, hmen, -⟩ := hlog.aims hm.proper hm.shut (k := 0) (by rw [hact]; exact hka)
  have hyy : y' = y := by
    rw [hy] at hy'
    exact (Option.some.inj hy').symm
  rw [walkerOf_of hy, ok_bind, walkerSite_ok.2 ⟨h0, rfl⟩, ok_bind]
  obtain ⟨g1, g2⟩ := hm.range hmen
  have len1 : b.times.length = 16 := by rw [hk.last]; simp
  have len2 : b.hops.length = 16 := by rw [hk.counted.hops]; simp
  refine ToF.fine_bind (bump_fine g1 (by rw [len1]; exact g2) fun _ => ToF.fine_ok _) fun times _ => ?_
  refine ToF.fine_bind (bump_fine g1 (by rw [len2]; exact g2) fun _ => ToF.fine_or (chk_or _)) fun hops _ => ?_
  exact ToF.fine_chk fun _ => ToF.fine_ok _

theorem hopOnce_ready (hm : Refers mem m) (hd : ∀ evs, SiteSpec.Draw (luck.draw evs).u ∧ 0 < (luck.draw evs).e) (hI : Ready env mem m n0 p)
    (e : hopOnce env mem luck p b = .ok (p', b')) : Ready env mem m n0 p' := by
  unfold hopOnce at e
  obtain ⟨q, c, e⟩ := bind_eq_ok.1 e
  obtain ⟨x, hx, e⟩ := bind_eq_ok.1 e
  obtain ⟨i, hi, e⟩ := bind_eq_ok.1 e
  obtain ⟨times, h2, e⟩ := bind_eq_ok.1 e
  obtain ⟨hops, h1, e⟩ := bind_eq_ok.1 e
  obtain ⟨count, h3, e⟩ := bind_eq_ok.1 e
  have e := ok_inj.1 e
  simp only [Prod.mk.injEq] at e
  obtain ⟨rfl, rfl⟩ := e
  obtain ⟨hlog, hact, -⟩ := hI.log.hop hm.proper hm.shut (k := 0) (by rw [hI.act]; exact List.mem_singleton.2 rfl) (hd _) c
  exact ⟨hlog, hact.trans hI.act⟩

theorem hopOnce_fair (hc : Covering mem luck) (hf : Bench.Fair mem p) (e : hopOnce env mem luck p b = .ok (p', b')) : Bench.Fair mem p' := by
  unfold hopOnce at e
  obtain ⟨q, c, e⟩ := bind_eq_ok.1 e
  obtain ⟨x, hx, e⟩ := bind_eq_ok.1 e
  obtain ⟨i, hi, e⟩ := bind_eq_ok.1 e
  obtain ⟨times, h2, e⟩ := bind_eq_ok.1 e
  obtain ⟨hops, h1, e⟩ := bind_eq_ok.1 e
  obtain ⟨count, h3, e⟩ := bind_eq_ok.1 e
  have e := ok_inj.1 e
  simp only [Prod.mk.injEq] at e
  obtain ⟨rfl, rfl⟩ := e
  obtain ⟨r, -, h2⟩ := call_ok c
  refine ⟨fun ev he q ho => ?_, fun ev he wid h a v w1 B ho hm => ?_, last_call c⟩
  · rw [h2] at he
    rcases List.mem_append.1 he with he | he
    · exact hf.ratio ev he q ho
    · rw [List.mem_singleton.1 he] at ho; cases ho
  · rw [h2] at he
    rcases List.mem_append.1 he with he | he
    · exact hf.times ev he wid h a v w1 B ho hm
    · have he := List.mem_singleton.1 he
      subst he
      cases ho
      exact hc _ v w1 (by rw [hf.last]; exact hm) B

/-- The draws, the time resolution and the dwell times in the calls. -/
structure Paced (luck : Luck K) (p : Prog K) : Prop where
  ops : ∀ ε, ε ≤ luck.first.1 → (∀ evs, ε ≤ (luck.draw evs).e) → ToF.AllOps (Bench.Pause (1000 / 10) ε) p
  link : ∃ L, L.length ≤ 1 ∧ staysOf 1 p.calls = L ++ (stays p.calls).map Prod.snd

theorem setup_paced {threshold : Int} (h : setup env mem m threshold luck ⟨World.new n0, []⟩ = .ok p) : Paced luck p := by
  have hs := (setup_fair h).2
  unfold setup at h
  obtain ⟨p1, h1, h⟩ := bind_eq_ok.1 h
  obtain ⟨p2, h2, h⟩ := bind_eq_ok.1 h
  obtain ⟨p3, h3, h⟩ := bind_eq_ok.1 h
  obtain ⟨p4, h4, h⟩ := bind_eq_ok.1 h
  obtain ⟨p5, h5, h⟩ := bind_eq_ok.1 h
  have free : ∀ {ε : K} {op : Op K}, (∀ l, op ≠ .initializeWalkers l) → (∀ wid h a, op ≠ .hop wid h a) → (∀ t, op ≠ .setTimeResolution t) →
      Bench.Pause (1000 / 10) ε op := fun a b c => ⟨fun l e => absurd e (a l), fun _ _ _ e => absurd e (b _ _ _), fun _ e => absurd e (c _)⟩
  constructor
  · intro ε hε hd
    have a0 : ToF.AllOps (Bench.Pause (1000 / 10) ε) (⟨World.new n0, []⟩ : Prog K) := fun ev hev => by cases hev
    have a1 := a0.call h1 (free (by intro _ e; cases e) (by intro _ _ _ e; cases e) (by intro _ e; cases e))
    have a2 := a1.call h2 ⟨(by intro _ e; cases e), (by intro _ _ _ e; cases e), (by intro _ e; cases e; exact le_rfl)⟩
    have a3 := a2.call h3 (free (by intro _ e; cases e) (by intro _ _ _ e; cases e) (by intro _ e; cases e))
    have a4 := a3.call h4 (free (by intro _ e; cases e) (by intro _ _ _ e; cases e) (by intro _ e; cases e))
    have a5 : ToF.AllOps (Bench.Pause (1000 / 10) ε) p5 := ToF.AllOps.place
      (fun k => free (by intro _ e; cases e) (by intro _ _ _ e; cases e) (by intro _ e; cases e))
      (fun k i => free (by intro _ e; cases e) (by intro _ _ _ e; cases e) (by intro _ e; cases e)) a4 h5
    exact a5.call h ⟨(by intro l e a ha; cases e; rw [List.mem_singleton.1 ha]; exact hε), (by intro _ _ _ e; cases e), (by intro _ e; cases e)⟩
  · have y0 : ToF.AllOps (fun op => ∀ μ w w' r, staysIn 1 (⟨w, μ, op, r, w'⟩ : Event K) = []) (⟨World.new n0, []⟩ : Prog K) := fun ev hev => by cases hev
    have y4 := (((y0.call h1 fun _ _ _ _ => rfl).call h2 fun _ _ _ _ => rfl).call h3 fun _ _ _ _ => rfl).call h4 fun _ _ _ _ => rfl
    have y5 : ToF.AllOps (fun op => ∀ μ w w' r, staysIn 1 (⟨w, μ, op, r, w'⟩ : Event K) = []) p5 :=
      ToF.AllOps.place (fun k _ _ _ _ => rfl) (fun k i _ _ _ _ => rfl) y4 h5
    have hempty : staysOf 1 p5.calls = [] := by
      unfold staysOf
      rw [List.flatMap_eq_nil_iff]
      intro ev hev
      exact y5 ev hev ev.mem ev.pre ev.post ev.res
    obtain ⟨r, -, e⟩ := call_ok h
    refine ⟨staysOf 1 p.calls, ?_, by rw [hs]; simp⟩
    rw [e, ToF.stays_snoc, hempty, List.nil_append]
    cases hw : p.world.walkers.get? 0 <;> simp [staysIn, dwellOf, hw]

theorem hopOnce_paced (h : Paced luck p) (e : hopOnce env mem luck p b = .ok (p', b')) : Paced luck p' := by
  unfold hopOnce at e
  obtain ⟨q, c, e⟩ := bind_eq_ok.1 e
  obtain ⟨x, hx, e⟩ := bind_eq_ok.1 e
  obtain ⟨i, hi, e⟩ := bind_eq_ok.1 e
  obtain ⟨times, h2, e⟩ := bind_eq_ok.1 e
  obtain ⟨hops, h1, e⟩ := bind_eq_ok.1 e
  obtain ⟨count, h3, e⟩ := bind_eq_ok.1 e
  have e := ok_inj.1 e
  simp only [Prod.mk.injEq] at e
  obtain ⟨rfl, rfl⟩ := e
  constructor
  · intro ε hε hd
    exact (h.ops ε hε hd).call c ⟨(by intro _ e; cases e), (by intro _ _ _ e; cases e; exact hd _), (by intro _ e; cases e)⟩
  · obtain ⟨L, hL, hl⟩ := h.link
    refine ⟨L, hL, ?_⟩
    rw [stays_hop c, List.map_append, ← List.append_assoc, ← hl]
    obtain ⟨r, -, e⟩ := call_ok c
    rw [e, ToF.stays_snoc]
    simp only [staysIn, dwellOf, seen]
    cases q.world.walkers.get? 0 <;> simp

/-- The loop: it is over, a counter overflows, or the time is still below the limit after `r` hops. -/
theorem roam_total (hm : Refers mem m) (hd : ∀ evs, SiteSpec.Draw (luck.draw evs).u ∧ 0 < (luck.draw evs).e) (hc : Covering mem luck)
    (r : Nat) {N : Nat} (hI : ∀ f ≥ N, Ready { env with fuel := f } mem m n0 p) (hf : Bench.Fair mem p) (hk : Kept b (stays p.calls)) (hpc : Paced luck p) :
    ∃ N' x, (∀ f ≥ N', roam { env with fuel := f } mem luck r p b = x) ∧ (OnlyOverflow x ∨ x = .error .outOfFuel ∧
      ∃ q, (∀ f ≥ N', Ready { env with fuel := f } mem m n0 q) ∧ (stays q.calls).length = (stays p.calls).length + r ∧ time (stays q.calls) < 1000 ∧ Paced luck q) := by
  induction r generalizing p b N with
  | zero =>
    by_cases ht : b.time < 1000
    · exact ⟨N, .error .outOfFuel, fun f _ => by unfold roam; rw [if_pos ht], .inr ⟨rfl, p, hI, rfl, by rw [← hk.counted.time]; exact ht, hpc⟩⟩
    · exact ⟨N, .ok (p, b), fun f _ => by unfold roam; rw [if_neg ht], .inl (ToF.fine_ok _)⟩
  | succ r ih =>
    by_cases ht : b.time < 1000
    · obtain ⟨N1, x, h3, h4⟩ := hopOnce_total hm hd hc hI hf hk
      rcases h3 with ⟨⟨p', b'⟩, rfl⟩ | rfl | rfl
      · obtain ⟨hk', i, d, hs⟩ := kept_hop hk (h4 N1 le_rfl)
        obtain ⟨N2, x, h5, h6⟩ := ih (N := max N N1) (p := p') (b := b')
          (fun f hf' => hopOnce_ready hm hd (hI f (le_trans (le_max_left _ _) hf')) (h4 f (le_trans (le_max_right _ _) hf')))
          (hopOnce_fair hc hf (h4 N1 le_rfl)) hk' (hopOnce_paced hpc (h4 N1 le_rfl))
        have hroam : ∀ f ≥ max N1 N2, roam { env with fuel := f } mem luck (r + 1) p b = x := fun f hf' => by
          unfold roam
          rw [if_pos ht]
          simp only
          rw [h4 f (le_trans (le_max_left _ _) hf'), ok_bind]
          exact h5 f (le_trans (le_max_right _ _) hf')
        refine ⟨N1 + N2 + N, x, fun f hf' => hroam f (max_le (by omega) (by omega)), h6.imp id ?_⟩
        rintro ⟨e, q, hq, hl, htq⟩
        exact ⟨e, q, fun f hf' => hq f (by omega), by rw [hl, hs, List.length_append, List.length_singleton]; omega, htq⟩
      · exact ⟨N1, _, fun f hf => by unfold roam; rw [if_pos ht]; simp only; rw [h4 f hf]; rfl, .inl (.inr (.inl rfl))⟩
      · exact ⟨N1, _, fun f hf => by unfold roam; rw [if_pos ht]; simp only; rw [h4 f hf]; rfl, .inl (.inr (.inr rfl))⟩
    · exact ⟨N, .ok (p, b), fun f _ => by unfold roam; rw [if_neg ht], .inl (ToF.fine_ok _)⟩

theorem block_total {threshold : Int} (hm : Refers mem m) (hl : MergingSpec.Lucky luck) (hc : Covering mem luck) (r : Nat) :
    ∃ N x, (∀ f ≥ N, block { env with fuel := f } mem m threshold luck r ⟨World.new n0, []⟩ = x) ∧ (OnlyOverflow x ∨ x = .error .outOfFuel ∧
      ∃ q, Ready { env with fuel := N } mem m n0 q ∧ (stays q.calls).length = r ∧ time (stays q.calls) < 1000 ∧ Paced luck q) := by
  obtain ⟨p, e, -⟩ := setup_ready (env := { env with fuel := 0 }) (n0 := n0) (threshold := threshold) hm hl.1
  have hst : ∀ f, setup { env with fuel := f } mem m threshold luck ⟨World.new n0, []⟩ = .ok p := fun f => by rw [setup_fuel (f' := 0), e]
  have hI : ∀ f ≥ 0, Ready { env with fuel := f } mem m n0 p := fun f _ => by
    obtain ⟨p', e', h⟩ := setup_ready (env := { env with fuel := f }) (n0 := n0) (threshold := threshold) hm hl.1
    rw [hst f] at e'
    cases e'
    exact h
  obtain ⟨hf, hs⟩ := setup_fair e
  obtain ⟨N, x, h1, h2⟩ := roam_total hm hl.2 hc r hI hf (by rw [hs]; exact kept_new) (setup_paced e)
  refine ⟨N, x, fun f hf' => by rw [block_eq, hst f, ok_bind]; exact h1 f hf', h2.imp id ?_⟩
  rintro ⟨e, q, hq, hlen, h⟩
  exact ⟨e, q, hq N le_rfl, by rw [hlen, hs]; simp, h⟩

theorem Refers.within (hm : Refers mem m) : ToFSpec.RowsWithin mem m 1 10102 := by
  rintro ⟨i, row⟩ hir
  obtain ⟨row', h1, h2⟩ := hm.row i row hir
  obtain ⟨r, hr, rfl⟩ := grid_mem.1 h1
  constructor
  · intro na hna
    have := h2.subset (List.mem_map_of_mem (f := fun na : Int × Addr => (na.1, mem na.2)) hna)
    obtain ⟨jc, hj, e⟩ := List.mem_map.1 this
    simp only [Prod.mk.injEq] at e
    rw [← e.2]
    exact val_le (K := K) (Nat.zero_le jc.2)
  · have e := (h2.map Prod.snd).sum_eq
    rw [List.map_map, List.map_map] at e
    refine le_trans (le_of_eq e) ?_
    have key : ∀ ir ∈ kinds, (ir.2.map fun jc => (val jc.2 : K)).sum ≤ 10102 := by
      intro ir h
      simp only [kinds, List.mem_cons, List.not_mem_nil, or_false] at h
      rcases h with rfl | rfl | rfl | rfl | rfl | rfl | rfl | rfl | rfl | rfl | rfl | rfl | rfl | rfl | rfl | rfl <;> simp [val] <;> norm_num
    exact key _ hr

/-- How many hops there can be before the time reaches the limit. -/
theorem hops_bound (hm : Refers mem m) {q : Prog K} (hI : Ready env mem m n0 q) (hp : Paced luck q) {ε δ : K} (hε : 0 < ε) (h1 : ε ≤ luck.first.1)
    (h2 : ∀ evs, ε ≤ (luck.draw evs).e) (hδ : δ = min (ε / 10102) (1 / 10102 / max 2 (10102 / (1 * 1 * (1000 / 10)))))
    (ht : time (stays q.calls) < 1000) : ((stays q.calls).length : K) ≤ 2 * 1000 / δ + 1 := by
  have ho := hp.ops ε h1 h2
  have hda : DrawsAtLeast ε q.calls := fun ev hev => by
    obtain ⟨h1, h2, -⟩ := ho ev hev
    cases ho : ev.op with
    | initializeWalkers l => exact h1 l ho
    | hop wid h a => exact h2 wid h a ho
    | _ => trivial
  obtain ⟨h0, hpos, hlen, -⟩ := C78 env n0 _ _ hI.log.trace hI.log.usage mem hI.log.fixed (hI.log.pos hm.proper) 1 10102 (1000 / 10) ε one_pos (by norm_num)
    (by norm_num) hε (within_iff.2 (hI.log.within hm.proper hm.shut hm.within)) (fun ev hev t n e _ => (ho ev hev).2.2 t e) hda 1 δ hδ
  obtain ⟨L, hL, hl⟩ := hp.link
  rw [hl] at hpos hlen
  unfold time at ht
  rw [← List.length_map (f := Prod.snd)]
  generalize (stays q.calls).map Prod.snd = l at *
  have h3 := World.sum_of_count h0.le (l := l) fun t ht => hpos t (List.mem_append_right _ ht)
  rw [List.countP_append, List.length_append] at hlen
  have h4 : L.countP (fun t => decide (δ ≤ t)) ≤ L.length := List.countP_le_length
  have h6 : ((l.length : ℕ) : K) ≤ 2 * (l.countP (fun t => δ ≤ t) : ℕ) + 1 := by
    have : l.length ≤ 2 * l.countP (fun t => δ ≤ t) + 1 := by omega
    exact_mod_cast this
  have h7 : ((l.countP (fun t => δ ≤ t) : ℕ) : K) ≤ 1000 / δ := by
    rw [le_div_iff₀ h0]
    linarith
  have : 2 * 1000 / δ = 2 * (1000 / δ) := by ring
  rw [this]
  linarith

end Mythical.Merging
