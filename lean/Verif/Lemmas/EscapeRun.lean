import Verif.Lemmas.Escape
import Verif.Lemmas.BenchRun

/-! # Helper lemmas for the program that lets electrons escape: the block without coarse graining -/

set_option linter.unusedSectionVars false
set_option linter.unusedVariables false

namespace Mythical.Escape
open World SystemSpec ProgramSpec EscapeSpec
open _root_.Mythical.ToF (Prog call_ok call_of Quiet Idle)
open _root_.Mythical.Bench (Log Still log_nil feat_of still_put hop_still adds_scalars)
variable {K : Type} [Field K] [LinearOrder K] [IsStrictOrderedRing K] [FloorRing K]
variable {env : Env K} {mem : Addr → K} {m : IMap (IMap Addr)} {n0 : Nat} {p p' : Prog K} {b b' : Books K} {luck : Luck K}

/-- Rates between the sites 1 to 14, of which all have rates out of them. -/
structure Fits (mem : Addr → K) (m : IMap (IMap Addr)) : Prop where
  proper : ProgramSpec.Proper mem m
  closed : ∀ i, Mentions m i → ∃ row, (i, row) ∈ m
  range : ∀ i, Mentions m i → 1 ≤ i ∧ i ≤ 14
  inner : ∀ i, 1 ≤ i → i ≤ 5 → Mentions m i

theorem Fits.shut (h : Fits mem m) (i : Int) (hi : Mentions m i) : i ≠ unassignedId ∧ ∃ row, (i, row) ∈ m :=
  ⟨by have := (h.range i hi).1; unfold unassignedId INT_MIN; omega, h.closed i hi⟩

theorem call_knows (h : Log env mem m n0 p) (h' : Log env mem m n0 p') {op : Op K} (hc : p.call env mem op = .ok p')
    (ho : ∀ m', op ≠ .initializeSystem m') {i : Int} (hk : Known p.world i) : Known p'.world i := by
  obtain ⟨r, h1, h2⟩ := call_ok hc
  rw [known_iff] at hk ⊢
  rcases step_cases (h.trace.struct h.usage.hopsReturn) h1 trivial (fun _ _ _ _ => ⟨r, rfl⟩) with hkp | ⟨m', rfl, -⟩ |
    ⟨wid, k, a, j, w1', w2, w3, basin, -, -, hkp, rfl, hg, hw⟩
  · exact fun hn => hk ((rel_none (hkp.site i)).2 hn)
  · exact absurd rfl (ho m')
  · rw [hw]
    exact fun hn => hk ((rel_none (hkp.site i)).2 (hg.grew.known.1 hn))

theorem still_walkers {c v n : Int} {w : World K} (W : IMap (Walker K)) (h : Still c v n w) : Still c v n { w with walkers := W } :=
  ⟨h.sites, h.clusters, h.min, h.count, h.next⟩

theorem Still.more {c v n v' n' : Int} {w : World K} (h : Still c v n w) (hv : v ≤ v') (hn : n ≤ n') : Still c v' n' w :=
  ⟨fun i t ht => by obtain ⟨a1, a2, a3⟩ := h.sites i t ht; exact ⟨a1, by omega, by omega⟩, h.clusters, h.min, by have := h.count; omega, h.next⟩

/-- A walker is brought into a world without clusters. -/
theorem initOne_still {c v n : Int} {w : World K} (hst : Struct env w) (h : Still c v n w) (hb : 0 ≤ v ∧ 0 ≤ n ∧ v + n < INT_MAX) {a : Entry K} {i : Int}
    (ho : On w a.handle i) (hk : Known w i) : ∃ w', w.initializeWalkers [a] = (.ok (), w') ∧ Still c v (n + 1) w' := by
  obtain ⟨x, hx, rfl, h0⟩ := ho
  rw [known_iff] at hk
  obtain ⟨s, hs⟩ := Option.ne_none_iff_exists'.1 hk
  obtain ⟨q1, q2, q3⟩ := h.sites _ s hs
  have hhas : w.feats.has x.site = true := by
    rw [IMap.has_iff, IMap.mem_keys_iff_get?]
    exact Option.ne_none_iff_exists'.1 fun h => hk ((hst.known _).1 h)
  have hfe : ¬ w.feats.length = 0 := by
    intro h0
    apply hk
    rw [← hst.known, List.length_eq_zero_iff.1 h0]
    rfl
  have hocc : s.occupy = .ok { s with occupied := s.occupied + 1, visits := s.visits + 1 } := by
    unfold Site.occupy
    simp only [INT_MAX] at hb
    rw [chk_ok ⟨by simp only [INT_MIN]; omega, by simp only [INT_MAX]; omega⟩, ok_bind,
      chk_ok ⟨by simp only [INT_MIN]; omega, by simp only [INT_MAX]; omega⟩, ok_bind]
  have hw1 : w.occupyFeat (.site x.site) = .ok { w with
      sites := w.sites.put x.site { s with occupied := s.occupied + 1, visits := s.visits + 1 } } := by
    simp only [occupyFeat, siteOf_of hs, ok_bind, hocc]
  have hs1 : ({ w with sites := w.sites.put x.site { s with occupied := s.occupied + 1, visits := s.visits + 1 } } : World K).siteOf x.site =
      .ok { s with occupied := s.occupied + 1, visits := s.visits + 1 } := siteOf_of (IMap.get?_set_self _ _ _)
  have he : ∃ W, w.initWalker a = .ok { w with
      sites := w.sites.put x.site { s with occupied := s.occupied + 1, visits := s.visits + 1 }, walkers := W } := by
    unfold initWalker
    rw [walkerOf_of hx, ok_bind, walkerSite_ok.2 ⟨h0, rfl⟩, ok_bind, if_pos hhas, feat_of hst hs q1]
    simp only [hw1, dwellAt, pickAt, hs1, ok_bind]
    exact ⟨_, rfl⟩
  obtain ⟨W, he⟩ := he
  refine ⟨{ w with sites := w.sites.put x.site { s with occupied := s.occupied + 1, visits := s.visits + 1 }, walkers := W },
    by unfold World.initializeWalkers; rw [if_neg hfe]; simp only [World.initWalkers, he], ?_⟩
  refine still_walkers (w := { w with sites := w.sites.put x.site { s with occupied := s.occupied + 1, visits := s.visits + 1 } }) W (still_put (Still.more h le_rfl (by omega)) le_rfl ⟨q1, ?_, ?_⟩)
  · constructor <;> (simp only; omega)
  · constructor <;> (simp only; omega)

/-- A walker is taken out of a world without clusters. -/
theorem remove_still {c v n : Int} {w : World K} (hst : Struct env w) (h : Still c v n w) (hb : 0 ≤ v ∧ 0 ≤ n ∧ v + n < INT_MAX) {k wid : Int} {x : Walker K}
    {t : Site K} (hx : w.walkers.get? k = some x) (h0 : x.site ≠ unassignedId) (ht : w.sites.get? x.site = some t) :
    ∃ w', w.removeWalker wid k = .ok w' ∧ Still c (v + 1) n w' := by
  obtain ⟨a1, a2, a3⟩ := h.sites _ _ ht
  have hvac : t.vacate = .ok { t with occupied := t.occupied - 1 } := by
    unfold Site.vacate
    simp only [INT_MAX] at hb
    rw [chk_ok ⟨by simp only [INT_MIN]; omega, by simp only [INT_MAX]; omega⟩, ok_bind]
  unfold World.removeWalker
  rw [walkerOf_of hx, ok_bind, walkerSite_ok.2 ⟨h0, rfl⟩, ok_bind, feat_of hst ht a1]
  refine ⟨{ w with sites := w.sites.put x.site { t with occupied := t.occupied - 1 } }, by simp only [removeAt, siteOf_of ht, ok_bind, hvac], ?_⟩
  exact still_put h (by omega) ⟨a1, by constructor <;> (simp only; omega), by constructor <;> (simp only; omega)⟩

/-- What holds between two calls: `v` hops and removals and `k` calls of `initializeWalkers` have been made at most, and the walkers
`act` are in the system. -/
structure Ready (env : Env K) (mem : Addr → K) (m : IMap (IMap Addr)) (n0 : Nat) (v k : Int) (act : List Int) (p : Prog K) (b : Books K) : Prop where
  log : Log env mem m n0 p
  act : active p.calls = act
  still : Still n0 v k p.world
  known : ∀ i, Mentions m i → Known p.world i
  hops : b.hops.length = 14 ∧ ∀ n ∈ b.hops, 0 ≤ n ∧ n ≤ v
  times : b.times.length = 14
  nonneg : 0 ≤ v ∧ 0 ≤ k

theorem Ready.more {v k v' : Int} {act : List Int} (h : Ready env mem m n0 v k act p b) (hv : v ≤ v') : Ready env mem m n0 v' k act p b :=
  ⟨h.log, h.act, Still.more h.still hv le_rfl, h.known, ⟨h.hops.1, fun n hn => by have := h.hops.2 n hn; omega⟩, h.times, by have := h.nonneg; omega⟩

theorem system_ready (hf : Fits mem m) :
    ∃ p, system env mem m none infIterations ⟨World.new n0, []⟩ = .ok p ∧ Ready env mem m n0 0 0 [] p (Books.new : Books K) := by
  obtain ⟨p1, hp1⟩ : ∃ p1 : Prog K, p1 = ⟨World.new n0, []⟩ := ⟨_, rfl⟩
  have s1 : Log env mem m n0 p1 := by rw [hp1]; exact log_nil
  have i1 : Idle p1 := by rw [hp1]; exact Bench.idle_nil
  have w1 : p1.world = World.new n0 := by rw [hp1]
  obtain ⟨p2, c2, w2⟩ : ∃ p2, p1.call env mem (.setRandomSeed 1) = .ok p2 ∧ p2.world = { p1.world with seed := some (1 % 2 ^ 64) } :=
    ⟨_, call_of (r := 0) (w := { p1.world with seed := some (1 % 2 ^ 64) }) (by
      simp only [World.step, World.setRandomSeed]
      rw [if_neg (by rw [w1]; simp [World.new])]
      rfl), rfl⟩
  have s2 := s1.snoc c2 (fun r => trivial) (fun _ e => nomatch e) trivial (fun _ _ e => nomatch e)
  have i2 := i1.snoc c2 (fun _ e => nomatch e) (fun _ _ _ e => nomatch e)
  obtain ⟨p3, c3, w3⟩ : ∃ p3, p2.call env mem (.setTimeResolution 100) = .ok p3 ∧ p3.world = { p2.world with timeRes := some 100 } :=
    ⟨_, call_of (r := 0) (w := { p2.world with timeRes := some 100 }) (by
      simp only [World.step, World.setTimeResolution]
      rw [if_neg (not_le.2 (by norm_num))]
      rfl), rfl⟩
  have s3 := s2.snoc c3 (fun r => trivial) (fun _ e => nomatch e) trivial (fun _ _ e => nomatch e)
  have i3 := i2.snoc c3 (fun _ e => nomatch e) (fun _ _ _ e => nomatch e)
  obtain ⟨p4, c4, w4⟩ : ∃ p4, p3.call env mem (.setMinThreshold infIterations) = .ok p4 ∧
      p4.world = { p3.world with threshold := infIterations, thresholdMin := infIterations } :=
    ⟨_, call_of (r := 0) (w := { p3.world with threshold := infIterations, thresholdMin := infIterations }) rfl, rfl⟩
  have s4 := s3.snoc c4 (fun r => trivial) (fun _ e => nomatch e) trivial (fun _ _ e => nomatch e)
  have i4 := i3.snoc c4 (fun _ e => nomatch e) (fun _ _ _ e => nomatch e)
  have hw4 : p4.world.sites = [] ∧ p4.world.clusters = [] ∧ p4.world.thresholdMin = infIterations ∧
      p4.world.threshold = infIterations ∧ p4.world.iteration = 0 ∧ p4.world.nextId = n0 := by rw [w4, w3, w2, w1]; exact ⟨rfl, rfl, rfl, rfl, rfl, rfl⟩
  obtain ⟨w5, hw5⟩ := initializeSystem_total (mem := mem) (w := p4.world) hf.proper.1
    (fun ir hir => hf.proper.2 ir hir) (by rw [w4, w3]; simp) (fun i _ => by rw [hw4.1]; rfl)
  obtain ⟨p5, c5, hp5⟩ : ∃ p5, p4.call env mem (.initializeSystem m) = .ok p5 ∧ p5.world = w5 :=
    ⟨_, call_of (r := 0) (w := w5) (by simp only [World.step, hw5]; rfl), rfl⟩
  have s5 := s4.snoc c5 (fun r => trivial) (fun m' e => by cases e; rfl) trivial (fun _ _ e => nomatch e)
  have i5 := i4.snoc c5 (fun _ e => nomatch e) (fun _ _ _ e => nomatch e)
  have hadds : Adds mem m p4.world p5.world := by
    have := initializeSystem_adds (mem := mem) (w := p4.world) (m := m)
    rw [hw5] at this
    rw [hp5]
    exact this
  have hquiet : Quiet 0 p5.world := ToF.adds_quiet hadds fun i s hs => by rw [hw4.1] at hs; cases hs
  obtain ⟨a1, a2, a3, a4, a5⟩ := adds_scalars hadds
  refine ⟨p5, ?_, s5, i5.act, ⟨fun i t ht => ?_, a1.trans hw4.2.1, ⟨a2.trans hw4.2.2.1, a3.trans hw4.2.2.2.1⟩, ?_, a5.trans hw4.2.2.2.2.2⟩, ?_, ?_, ?_, ?_⟩
  · unfold system ratioTo
    rw [← hp1, c2, ok_bind, ok_bind, c3, ok_bind, c4, ok_bind, c5]
  · obtain ⟨q1, q2, q3⟩ := hquiet i t ht
    exact ⟨q1, by omega, by omega⟩
  · rw [a4, hw4.2.2.2.2.1]; exact ⟨le_rfl, le_rfl⟩
  · intro i hi
    rw [known_iff, hp5]
    exact ((initializeSystem_known hw5 i).1).2 (.inr (mentions_iff.1 hi))
  · exact ⟨rfl, fun n hn => by rw [List.eq_of_mem_replicate hn]; exact ⟨le_rfl, le_rfl⟩⟩
  · rfl
  · exact ⟨le_rfl, le_rfl⟩

theorem bump_length {V : Type} {l l' : List V} {i : Int} {f : V → Except Fault V} (h : bump l i f = .ok l') : l'.length = l.length := by
  obtain ⟨j, v, v', -, -, -, rfl⟩ := bump_ok h
  rw [List.length_set]

/-- The loop of an electron. -/
theorem roam_ready (hf : Fits mem m) (hl : Lucky luck) {h : Int} {r : Nat} {v k : Int} {total : K} (hr : Ready env mem m n0 v k [h] p b)
    (hb : v + r + k ≤ INT_MAX) :
    roam env mem luck h r p b total = .error .outOfFuel ∨
      ∃ p' b' total', roam env mem luck h r p b total = .ok (p', b', total') ∧ Ready env mem m n0 (v + r) k [h] p' b' := by
  induction r generalizing p b v total with
  | zero =>
    have hact : h ∈ active p.calls := by rw [hr.act]; exact List.mem_singleton_self _
    obtain ⟨x, hx, ⟨-, -, -, h0⟩, ⟨t, ht⟩, ⟨t', ht'⟩, -, -⟩ := hr.log.aims hf.proper hf.shut hact
    unfold roam
    rw [walkerOf_of hx, ok_bind, walkerSite_ok.2 ⟨h0, rfl⟩, ok_bind]
    split
    · exact .inl rfl
    · exact .inr ⟨p, b, total, rfl, by simpa using hr⟩
  | succ r ih =>
    have hact : h ∈ active p.calls := by rw [hr.act]; exact List.mem_singleton_self _
    obtain ⟨x, hx, ⟨-, -, -, h0⟩, ⟨t, ht⟩, ⟨t', ht'⟩, -, hm'⟩ := hr.log.aims hf.proper hf.shut hact
    obtain ⟨hv, hk⟩ := hr.nonneg
    push_cast at hb ⊢
    unfold roam
    rw [walkerOf_of hx, ok_bind, walkerSite_ok.2 ⟨h0, rfl⟩, ok_bind]
    split
    · obtain ⟨w', e', q'⟩ := hop_still (mem := mem) (hr.log.trace.struct hr.log.usage.hopsReturn) hr.still ⟨hv, hk, by omega⟩ hx h0
        (hf.shut _ hm').1 ht ht' (luck.draw p.calls h) 0
      obtain ⟨p1, hc, hp⟩ : ∃ p1, p.call env mem (.hop 0 h (luck.draw p.calls h)) = .ok p1 ∧ p1.world = w' :=
        ⟨_, call_of (r := 0) (w := w') (by simp only [World.step, e']; rfl), rfl⟩
      obtain ⟨l1, hact1, y, hy⟩ := hr.log.hop hf.proper hf.shut hact (hl.2 _ _) hc
      obtain ⟨y', hy', ⟨-, -, -, g0⟩, -, -, hmy, -⟩ := l1.aims hf.proper hf.shut (k := h) (by rw [hact1]; exact hact)
      obtain rfl : y = y' := by rw [hy] at hy'; exact Option.some.inj hy'
      obtain ⟨g1, g2⟩ := hf.range _ hmy
      have hbig : y.site ≤ INT_MAX := by simp only [INT_MAX]; omega
      obtain ⟨hops, e2⟩ := bump_of (l := b.hops) (f := fun n => chk (n + 1)) g1 (by rw [hr.hops.1]; exact g2) hbig fun n hn => by
        have := hr.hops.2 n hn
        simp only [INT_MAX] at hb
        exact ⟨n + 1, chk_ok ⟨by simp only [INT_MIN]; omega, by simp only [INT_MAX]; omega⟩⟩
      obtain ⟨times, e3⟩ := bump_of (l := b.times) (f := fun s => .ok (s + y.dwell)) g1 (by rw [hr.times]; exact g2) hbig fun n hn => ⟨_, rfl⟩
      have hone : hopOnce env mem luck h p b total = .ok (p1, { b with hops := hops, times := times }, total + y.dwell) := by
        unfold hopOnce
        rw [hc, ok_bind, walkerOf_of hy, ok_bind, walkerSite_ok.2 ⟨g0, rfl⟩, ok_bind, e2, ok_bind, e3, ok_bind]
      have hr1 : Ready env mem m n0 (v + 1) k [h] p1 { b with hops := hops, times := times } := by
        refine ⟨l1, hact1.trans hr.act, by rw [hp]; exact q', fun i hi => call_knows hr.log l1 hc (fun _ e => nomatch e) (hr.known i hi), ⟨?_, ?_⟩, ?_, by omega⟩
        · exact (bump_length e2).trans hr.hops.1
        · obtain ⟨j, u, u', -, hu, hf', rfl⟩ := bump_ok e2
          intro n hn
          have hu' : u' = u + 1 := by
            unfold chk at hf'
            split at hf'
            · exact (ok_inj.1 hf').symm
            · cases hf'
          have := hr.hops.2 u (List.mem_of_getElem? hu)
          rcases List.mem_or_eq_of_mem_set hn with hn | rfl
          · have := hr.hops.2 n hn; omega
          · omega
        · exact (bump_length e3).trans hr.times
      rcases ih hr1 (total := total + y.dwell) (by omega) with e | ⟨p', b', total', e, hr'⟩
      · left
        simp only [hone, ok_bind]
        exact e
      · right
        refine ⟨p', b', total', by simp only [hone, ok_bind]; exact e, ?_⟩
        rw [show v + ((r : Int) + 1) = v + 1 + r by ring]
        exact hr'
    · exact .inr ⟨p, b, total, rfl, hr.more (by omega)⟩

/-- An electron. -/
theorem electron_ready (hf : Fits mem m) (hl : Lucky luck) {i r : Nat} {v k : Int} (hr : Ready env mem m n0 v k [] p b)
    (hb : v + r + 1 + (k + 1) ≤ INT_MAX) :
    electron env mem luck r (p, b) i = .error .outOfFuel ∨
      ∃ p' b', electron env mem luck r (p, b) i = .ok (p', b') ∧ Ready env mem m n0 (v + r + 1) (k + 1) [] p' b' := by
  obtain ⟨hv, hk⟩ := hr.nonneg
  have c1 : p.call env mem (.newWalker i) = .ok ⟨p.world.newWalker i, p.calls ++ [⟨p.world, mem, .newWalker i, .ok 0, p.world.newWalker i⟩]⟩ :=
    call_of rfl
  have s1 := hr.log.snoc c1 (fun r => by show (i : Int) ∉ active p.calls; rw [hr.act]; exact List.not_mem_nil)
    (fun _ e => nomatch e) trivial (fun _ _ e => nomatch e)
  generalize hp1 : (⟨p.world.newWalker i, p.calls ++ [⟨p.world, mem, .newWalker i, .ok 0, p.world.newWalker i⟩]⟩ : Prog K) = p1 at c1 s1
  have w1 : p1.world = p.world.newWalker i := by rw [← hp1]
  have a1 : active p1.calls = [] := by rw [← hp1]; simp only; rw [active_snoc, hr.act]; rfl
  have k1 : ∀ j, Mentions m j → Known p1.world j := fun j hj => call_knows hr.log s1 c1 (fun _ e => nomatch e) (hr.known j hj)
  have ew : p1.world.walkerOccupy i ((i : Int).tmod 5 + 1) =
      .ok { p1.world with walkers := p1.world.walkers.set i ⟨(i : Int).tmod 5 + 1, unassignedId, -1⟩ } := by
    unfold walkerOccupy
    rw [walkerOf_of (x := ⟨unassignedId, unassignedId, -1⟩) (by rw [w1]; exact IMap.get?_set_self _ _ _)]
    rfl
  obtain ⟨p2, c2, w2⟩ : ∃ p2, p1.call env mem (.walkerOccupy i ((i : Int).tmod 5 + 1)) = .ok p2 ∧
      p2.world = { p1.world with walkers := p1.world.walkers.set i ⟨(i : Int).tmod 5 + 1, unassignedId, -1⟩ } :=
    ⟨_, call_of (r := 0) (w := { p1.world with walkers := p1.world.walkers.set i ⟨(i : Int).tmod 5 + 1, unassignedId, -1⟩ })
      (by simp only [World.step, ew, World.simple]), rfl⟩
  have s2 := s1.snoc c2 (fun r => by show (i : Int) ∉ active p1.calls; rw [a1]; exact List.not_mem_nil)
    (fun _ e => nomatch e) trivial (fun _ _ e => nomatch e)
  have a2 : active p2.calls = [] := by
    obtain ⟨r, -, h2⟩ := call_ok c2
    rw [h2, active_snoc, a1]; rfl
  have k2 : ∀ j, Mentions m j → Known p2.world j := fun j hj => call_knows s1 s2 c2 (fun _ e => nomatch e) (k1 j hj)
  have st2 : Still n0 v k p2.world := by
    rw [w2]
    refine still_walkers _ ?_
    rw [w1]
    exact still_walkers _ hr.still
  have hmen : Mentions m ((i : Int) % 5 + 1) := hf.inner _ (by omega) (by omega)
  have on2 : On p2.world i ((i : Int) % 5 + 1) := by
    rw [← site_of]
    exact ⟨_, by rw [w2]; exact IMap.get?_set_self _ _ _, rfl, by rw [site_of]; exact (hf.shut _ hmen).1⟩
  obtain ⟨w3, e3, q3⟩ := initOne_still (env := env) (a := ⟨0, i, (luck.first i).1, (luck.first i).2⟩) (s2.trace.struct s2.usage.hopsReturn) st2
    ⟨hv, hk, by omega⟩ on2 (k2 _ hmen)
  obtain ⟨p3, c3, hp3⟩ : ∃ p3, p2.call env mem (.initializeWalkers [⟨0, i, (luck.first i).1, (luck.first i).2⟩]) = .ok p3 ∧ p3.world = w3 :=
    ⟨_, call_of (r := 0) (w := w3) (by simp only [World.step, e3]; rfl), rfl⟩
  have s3 := s2.snoc c3 (fun r => by
      refine ⟨⟨r, rfl⟩, List.nodup_singleton _, fun a _ => by rw [a2]; exact List.not_mem_nil, fun a ha c hc hne => ?_,
        fun a _ k hk => (by rw [a2] at hk; cases hk), .inr fun a ha j hj => ?_⟩
      · rw [List.mem_singleton.1 ha, List.mem_singleton.1 hc] at hne
        exact absurd rfl hne
      · rw [List.mem_singleton.1 ha] at hj
        obtain ⟨x, hx, rfl, -⟩ := hj
        obtain ⟨x', hx', e, -⟩ := on2
        have : x = x' := by
          have hx : p2.world.walkers.get? (i : Int) = some x := hx
          rw [hx] at hx'
          exact Option.some.inj hx'
        subst this
        have hkn := k2 _ hmen
        rw [← e] at hkn
        obtain ⟨t, ht⟩ := Option.ne_none_iff_exists'.1 (known_iff.1 hkn)
        show p2.world.getClusterIdOfSite x.site = _
        unfold World.getClusterIdOfSite
        rw [getClusterIdOfSite_of ht, (st2.sites _ _ ht).1])
    (fun _ e => nomatch e) (by
      intro a ha
      rw [List.mem_singleton.1 ha]
      exact hl.1 i) (fun _ _ e => nomatch e)
  have a3 : active p3.calls = [(i : Int)] := by
    obtain ⟨r, -, h2⟩ := call_ok c3
    rw [h2, active_snoc, a2]; rfl
  have r3 : Ready env mem m n0 v (k + 1) [(i : Int)] p3 b :=
    ⟨s3, a3, by rw [hp3]; exact q3, fun j hj => call_knows s2 s3 c3 (fun _ e => nomatch e) (k2 j hj), hr.hops, hr.times, by omega⟩
  unfold electron
  simp only [c1, c2, c3, ok_bind]
  rcases roam_ready hf hl (r := r) r3 (total := 0) (by omega) with e | ⟨p4, b4, total, e, r4⟩
  · left
    rw [e]
    rfl
  · right
    rw [e, ok_bind]
    dsimp only
    obtain ⟨x, hx, ⟨-, -, -, h0⟩, ⟨t, ht⟩, -⟩ := r4.log.aims hf.proper hf.shut (k := (i : Int)) (by rw [r4.act]; exact List.mem_singleton_self _)
    obtain ⟨w5, e5, q5⟩ := remove_still (wid := 0) (r4.log.trace.struct r4.log.usage.hopsReturn) r4.still ⟨by omega, by omega, by omega⟩ hx h0 ht
    obtain ⟨p5, c5, hp5⟩ : ∃ p5, p4.call env mem (.removeWalker 0 i) = .ok p5 ∧ p5.world = w5 :=
      ⟨_, call_of (r := 0) (w := w5) (by simp only [World.step, e5, World.simple]), rfl⟩
    have s5 := r4.log.snoc c5 (fun r => by show (i : Int) ∈ active p4.calls; rw [r4.act]; exact List.mem_singleton_self _)
      (fun _ e => nomatch e) trivial (fun _ _ e => nomatch e)
    have a5 : active p5.calls = [] := by
      obtain ⟨r, -, h2⟩ := call_ok c5
      rw [h2, active_snoc, r4.act]
      simp [enter]
    rw [c5, ok_bind]
    refine ⟨p5, _, rfl, s5, a5, by rw [hp5]; exact q5, fun j hj => call_knows r4.log s5 c5 (fun _ e => nomatch e) (r4.known j hj), ⟨r4.hops.1, fun n hn => ?_⟩, r4.times, by omega⟩
    have := r4.hops.2 n hn
    omega

/-- The first `n` electrons. -/
theorem electrons_ready (hf : Fits mem m) (hl : Lucky luck) {n r : Nat} (hr : Ready env mem m n0 0 0 [] p b) (hb : (n : Int) * (r + 2) ≤ INT_MAX) :
    (List.range n).foldlM (electron env mem luck r) (p, b) = .error .outOfFuel ∨
      ∃ p' b', (List.range n).foldlM (electron env mem luck r) (p, b) = .ok (p', b') ∧ Ready env mem m n0 (n * (r + 1)) n [] p' b' := by
  induction n with
  | zero => exact .inr ⟨p, b, rfl, by simpa using hr⟩
  | succ n ih =>
    push_cast at hb
    rw [List.range_succ, List.foldlM_append]
    rcases ih (by nlinarith) with e | ⟨p', b', e, hr'⟩
    · left; rw [e]; rfl
    · rw [e, ok_bind]
      simp only [List.foldlM_cons, List.foldlM_nil]
      rcases electron_ready hf hl (i := n) (r := r) hr' (by nlinarith) with e' | ⟨p'', b'', e', hr''⟩
      · left; rw [e']; rfl
      · right
        rw [e', ok_bind]
        refine ⟨p'', b'', rfl, ?_⟩
        have : ((n + 1 : Nat) : Int) * (r + 1) = (n : Int) * (r + 1) + r + 1 := by push_cast; ring
        rw [this]
        push_cast
        exact hr''

/-! ## What any calls keep -/

variable {P : Prog K → Prop}

theorem roam_closed (hP : ∀ p op p', P p → p.call env mem op = .ok p' → P p') {h : Int} {r : Nat} {total total' : K}
    (e : roam env mem luck h r p b total = .ok (p', b', total')) (h0 : P p) : P p' := by
  induction r generalizing p b total with
  | zero =>
    unfold roam at e
    obtain ⟨x, -, e⟩ := bind_eq_ok.1 e
    obtain ⟨i, -, e⟩ := bind_eq_ok.1 e
    split at e
    · cases e
    · have e := ok_inj.1 e
      simp only [Prod.mk.injEq] at e
      rw [← e.1]; exact h0
  | succ r ih =>
    unfold roam at e
    obtain ⟨x, -, e⟩ := bind_eq_ok.1 e
    obtain ⟨i, -, e⟩ := bind_eq_ok.1 e
    split at e
    · obtain ⟨⟨p1, b1, total1⟩, e1, e⟩ := bind_eq_ok.1 e
      unfold hopOnce at e1
      obtain ⟨p2, c, e1⟩ := bind_eq_ok.1 e1
      obtain ⟨y, -, e1⟩ := bind_eq_ok.1 e1
      obtain ⟨j, -, e1⟩ := bind_eq_ok.1 e1
      obtain ⟨hops, -, e1⟩ := bind_eq_ok.1 e1
      obtain ⟨times, -, e1⟩ := bind_eq_ok.1 e1
      have e1 := ok_inj.1 e1
      simp only [Prod.mk.injEq] at e1
      refine ih e ?_
      rw [← e1.1]
      exact hP _ _ _ h0 c
    · have e := ok_inj.1 e
      simp only [Prod.mk.injEq] at e
      rw [← e.1]; exact h0

theorem electron_closed (hP : ∀ p op p', P p → p.call env mem op = .ok p' → P p') {i r : Nat} {pb pb' : Prog K × Books K}
    (e : electron env mem luck r pb i = .ok pb') (h0 : P pb.1) : P pb'.1 := by
  unfold electron at e
  obtain ⟨p1, c1, e⟩ := bind_eq_ok.1 e
  obtain ⟨p2, c2, e⟩ := bind_eq_ok.1 e
  obtain ⟨p3, c3, e⟩ := bind_eq_ok.1 e
  obtain ⟨⟨p4, b4, total⟩, e4, e⟩ := bind_eq_ok.1 e
  dsimp only at e
  obtain ⟨p5, c5, e⟩ := bind_eq_ok.1 e
  rw [← ok_inj.1 e]
  exact hP _ _ _ (roam_closed hP e4 (hP _ _ _ (hP _ _ _ (hP _ _ _ h0 c1) c2) c3)) c5

theorem block_closed (hP : ∀ p op p', P p → p.call env mem op = .ok p' → P p') {ratio : Option K} {threshold : Int} {n r : Nat}
    {pb : Prog K × Books K} (e : block env mem m ratio threshold luck n r p = .ok pb) (h0 : P p) : P pb.1 := by
  unfold block at e
  obtain ⟨p1, e1, ef⟩ := bind_eq_ok.1 e
  have h1 : P p1 := by
    unfold system at e1
    obtain ⟨q1, c1, e1⟩ := bind_eq_ok.1 e1
    obtain ⟨q2, c2, e1⟩ := bind_eq_ok.1 e1
    obtain ⟨q3, c3, e1⟩ := bind_eq_ok.1 e1
    obtain ⟨q4, c4, c5⟩ := bind_eq_ok.1 e1
    have : P q2 := by
      cases ratio with
      | none => rw [← ok_inj.1 c2]; exact hP _ _ _ h0 c1
      | some q => exact hP _ _ _ (hP _ _ _ h0 c1) (show q1.call env mem (.setPerformanceRatio q) = .ok q2 from c2)
    exact hP _ _ _ (hP _ _ _ (hP _ _ _ this c3) c4) c5
  clear e1 e
  induction n generalizing pb with
  | zero => rw [← ok_inj.1 ef]; exact h1
  | succ n ih =>
    rw [List.range_succ, List.foldlM_append] at ef
    obtain ⟨pb1, e1, e⟩ := bind_eq_ok.1 ef
    simp only [List.foldlM_cons, List.foldlM_nil] at e
    obtain ⟨pb2, e2, e⟩ := bind_eq_ok.1 e
    rw [← ok_inj.1 e]
    exact electron_closed hP e2 (ih e1)

/-- The counter of the clusters is not negative after a block. -/
theorem block_next {ratio : Option K} {threshold : Int} {n r : Nat} {pb : Prog K × Books K}
    (e : block env mem m ratio threshold luck n r ⟨World.new n0, []⟩ = .ok pb) : 0 ≤ pb.1.world.nextId := by
  have := block_closed (P := fun p => Trace env (World.new n0) p.calls p.world ∧ HopsReturn p.calls) (fun p op p' h hc => by
    obtain ⟨r, h1, h2⟩ := call_ok hc
    rw [h2]
    refine ⟨.snoc mem h.1 h1 trivial, fun ev hev wid k a ho => ?_⟩
    rcases List.mem_append.1 hev with hev | hev
    · exact h.2 ev hev wid k a ho
    · rw [List.mem_singleton.1 hev]; exact ⟨r, rfl⟩) e ⟨.nil _, fun ev hev => by cases hev⟩
  exact (this.1.struct this.2).next

end Mythical.Escape
