import Verif.Spec.Bench
import Verif.Lemmas.ToFEnds
import Verif.Lemmas.ToFOverflow
import Verif.Lemmas.CrudeRun
import Verif.Lemmas.Programs
import Verif.Props.SystemStays

/-! # Helper lemmas for the program that simulates with and without clusters -/

set_option linter.unusedSectionVars false
set_option linter.unusedVariables false

namespace Mythical.Bench
open World SystemSpec ProgramSpec BenchSpec ToFSpec
open _root_.Mythical.ToF (Prog call_ok call_of usage_add Idle place entries AllOps stays_snoc hop_stays natsum_change onSite_unique Quiet hopsIn_snoc)
variable {K : Type} [Field K] [LinearOrder K] [IsStrictOrderedRing K] [FloorRing K]
variable {env : Env K} {mem : Addr → K} {m : IMap (IMap Addr)} {n0 : Nat} {p p' : Prog K} {s s' : Sim K}
variable {sites : List Int} {seed threshold rate : Int} {cutoff : K} {luck : Luck K}

/-! ## The calls -/

/-- What holds of the calls of a simulation. -/
structure Log (env : Env K) (mem : Addr → K) (m : IMap (IMap Addr)) (n0 : Nat) (p : Prog K) : Prop where
  trace : Trace env (World.new n0) p.calls p.world
  usage : Usage p.calls
  fixed : RatesFixed mem p.calls
  only : ∀ ev ∈ p.calls, ∀ m', ev.op = .initializeSystem m' → m' = m ∧ ∃ n, ev.res = .ok n
  draws : Draws p.calls
  sent : SentToKnown p.calls

theorem log_nil : Log env mem m n0 (⟨World.new n0, []⟩ : Prog K) :=
  ⟨.nil _, fun b e a h => by simp at h, fun _ h => (nomatch h), fun _ h => (nomatch h), fun _ h => (nomatch h), fun _ h => (nomatch h)⟩

theorem idle_nil : Idle (⟨World.new n0, []⟩ : Prog K) := ⟨rfl, fun ⟨_, h, _⟩ => nomatch h⟩

theorem Log.pos (h : Log env mem m n0 p) (hm : ProgramSpec.Proper mem m) : RatesPositive mem p.calls := by
  intro ev he m' ho
  obtain ⟨rfl, -⟩ := h.only ev he m' ho
  exact fun ir hir => (hm.2 ir hir).2.2

theorem Log.sys (h : Log env mem m n0 p) (hc : ∀ i, Mentions m i → i ≠ unassignedId ∧ ∃ row, (i, row) ∈ m) : SystemsReturn p.calls := by
  intro ev he m' ho
  obtain ⟨rfl, hr⟩ := h.only ev he m' ho
  exact ⟨hr, fun i hi => (hc i hi).1⟩

theorem Log.snoc (h : Log env mem m n0 p) {op : Op K} (hc : p.call env mem op = .ok p')
    (hp : ∀ r, SystemSpec.Proper (active p.calls) (Hopped p.calls) ⟨p.world, mem, op, .ok r, p'.world⟩)
    (hi : ∀ m', op = .initializeSystem m' → m' = m) (hd : DrawsOf op) (hs : ∀ k i, op ≠ .walkerSetPotential k i) : Log env mem m n0 p' := by
  obtain ⟨r, h1, h2⟩ := call_ok hc
  have mem_cases : ∀ ev ∈ p'.calls, ev ∈ p.calls ∨ ev = ⟨p.world, mem, op, .ok r, p'.world⟩ := by
    intro ev he
    rw [h2] at he
    rcases List.mem_append.1 he with he | he
    · exact .inl he
    · exact .inr (List.mem_singleton.1 he)
  refine ⟨?_, ?_, ?_, ?_, ?_, ?_⟩
  · rw [h2]; exact .snoc mem h.trace h1 trivial
  · rw [h2]; exact usage_add h.usage (hp r)
  · intro ev he
    rcases mem_cases ev he with he | rfl
    · exact h.fixed ev he
    · rfl
  · intro ev he m' ho
    rcases mem_cases ev he with he | rfl
    · exact h.only ev he m' ho
    · exact ⟨hi m' ho, r, rfl⟩
  · intro ev he
    rcases mem_cases ev he with he | rfl
    · exact h.draws ev he
    · exact hd
  · intro ev he k i ho
    rcases mem_cases ev he with he | rfl
    · exact h.sent ev he k i ho
    · exact absurd ho (hs k i)

/-- A known site is in the map, and it is not the absent one. -/
theorem Log.mentioned (h : Log env mem m n0 p) {i : Int} {t : Site K} (ht : p.world.sites.get? i = some t) : Mentions m i := by
  obtain ⟨ev, he, m', sd, s0, ho, hn, htw, rfl⟩ := (h.trace.static h.usage.hopsReturn).1 i t ht
  obtain ⟨rfl, -⟩ := h.only ev he m' ho
  refine mentions_iff.2 ?_
  rcases hn with ⟨rates, -, hr, -⟩ | ⟨-, hd⟩
  · exact .inl (IMap.mem_keys_of_mem hr)
  · exact .inr (mem_drains.1 hd).2

/-- The rates out of a site of the world are those in the map. -/
theorem Log.row (h : Log env mem m n0 p) (hm : ProgramSpec.Proper mem m) (hc : ∀ i, Mentions m i → i ≠ unassignedId ∧ ∃ row, (i, row) ∈ m)
    {i : Int} {t : Site K} (ht : p.world.sites.get? i = some t) : ∃ row, (i, row) ∈ m ∧ List.Perm t.neigh row := by
  obtain ⟨-, row, hrow⟩ := hc i (h.mentioned ht)
  obtain ⟨hw, -, -⟩ := h.trace.good h.usage.hopsReturn h.fixed (h.pos hm) i t ht
  obtain ⟨ev, he, m', sd, s0, ho, hn, htw, rfl⟩ := (h.trace.static h.usage.hopsReturn).1 i t ht
  obtain ⟨rfl, -⟩ := h.only ev he m' ho
  have hwr := (hm.2 _ hrow).1
  exact ⟨row, hrow, ToF.perm_of_get? hw hwr (by rw [htw.neigh]; exact hn.rates hm.1 hrow hwr)⟩

theorem Log.within (h : Log env mem m n0 p) (hm : ProgramSpec.Proper mem m)
    (hc : ∀ i, Mentions m i → i ≠ unassignedId ∧ ∃ row, (i, row) ∈ m) {r R : K} (hr : RowsWithin mem m r R) : Within mem r R p.world := by
  intro i t ht
  obtain ⟨row, hrow, hperm⟩ := h.row hm hc ht
  obtain ⟨h1, h2⟩ := hr _ hrow
  refine ⟨fun e => ?_, fun na hna => h1 na (hperm.subset hna), ?_⟩
  · rw [e] at hperm
    exact (hm.2 _ hrow).2.1 hperm.symm.eq_nil
  · rw [Site.sumRates_eq, (hperm.map _).sum_eq]
    exact h2

/-- The sites of a walker of the system. -/
theorem Log.aims (h : Log env mem m n0 p) (hm : ProgramSpec.Proper mem m)
    (hc : ∀ i, Mentions m i → i ≠ unassignedId ∧ ∃ row, (i, row) ∈ m) {k : Int} (hk : k ∈ active p.calls) :
    ∃ x, p.world.walkers.get? k = some x ∧ On p.world k x.site ∧ (∃ t, p.world.sites.get? x.site = some t) ∧
      (∃ t, p.world.sites.get? x.pot = some t) ∧ Mentions m x.site ∧ Mentions m x.pot := by
  obtain ⟨x, hx, ho, h1, h2⟩ := C60_known env mem n0 _ _ h.trace h.usage h.fixed (h.pos hm) (h.sys hc) h.draws h.sent k hk
  obtain ⟨t, ht⟩ := Option.ne_none_iff_exists'.1 (known_iff.1 h1)
  obtain ⟨t', ht'⟩ : ∃ t, p.world.sites.get? x.pot = some t := by
    rcases h2 with h2 | ⟨-, h2⟩
    · exact Option.ne_none_iff_exists'.1 (known_iff.1 h2)
    · obtain ⟨row, hrow, hperm⟩ := h.row hm hc ht
      have : t.neigh = [] := by
        unfold SystemSpec.ratesOf at h2
        rw [ht] at h2
        exact h2
      rw [this] at hperm
      exact absurd hperm.symm.eq_nil (hm.2 _ hrow).2.1
  exact ⟨x, hx, ho, ⟨t, ht⟩, ⟨t', ht'⟩, h.mentioned ht, h.mentioned ht'⟩

theorem Log.hop (h : Log env mem m n0 p) (hm : ProgramSpec.Proper mem m)
    (hcl : ∀ i, Mentions m i → i ≠ unassignedId ∧ ∃ row, (i, row) ∈ m) {k : Int} {a : Choices K} (hk : k ∈ active p.calls)
    (hd : SiteSpec.Draw a.u ∧ 0 < a.e) {wid : Int} (hc : p.call env mem (.hop wid k a) = .ok p') :
    Log env mem m n0 p' ∧ active p'.calls = active p.calls ∧ ∃ y, p'.world.walkers.get? k = some y := by
  have hs : Log env mem m n0 p' := h.snoc hc (fun r => ⟨hk, r, rfl⟩) (fun _ e => nomatch e) hd (fun _ _ e => nomatch e)
  obtain ⟨r, h1, h2⟩ := call_ok hc
  have hact : active p'.calls = active p.calls := by rw [h2, active_snoc]; rfl
  obtain ⟨x, hx, -⟩ := hs.aims hm hcl (k := k) (by rw [hact]; exact hk)
  exact ⟨hs, hact, x, hx⟩

theorem place_ok (hs : Log env mem m n0 p) (hi : Idle p) (sites : List Int) (k : Int) :
    ∃ p', place env mem p k sites = .ok p' ∧ Log env mem m n0 p' ∧ Idle p' ∧ (∃ W, p'.world = { p.world with walkers := W }) ∧
      (∀ (j : Nat) x, sites[j]? = some x → p'.world.walkers.get? (k + j) = some ⟨x, unassignedId, -1⟩) ∧
      ∀ l < k, p'.world.walkers.get? l = p.world.walkers.get? l := by
  induction sites generalizing p k with
  | nil => exact ⟨p, rfl, hs, hi, ⟨_, rfl⟩, fun j x h => by simp at h, fun _ _ => rfl⟩
  | cons site rest ih =>
    have c1 : p.call env mem (.newWalker k) = .ok ⟨p.world.newWalker k, p.calls ++ [⟨p.world, mem, .newWalker k, .ok 0, p.world.newWalker k⟩]⟩ :=
      call_of rfl
    have s1 := hs.snoc c1 (fun r => by show k ∉ active p.calls; rw [hi.act]; exact List.not_mem_nil)
      (fun _ e => nomatch e) trivial (fun _ _ e => nomatch e)
    have i1 := hi.snoc c1 (fun _ e => nomatch e) (fun _ _ _ e => nomatch e)
    generalize hp1 : (⟨p.world.newWalker k, p.calls ++ [⟨p.world, mem, .newWalker k, .ok 0, p.world.newWalker k⟩]⟩ : Prog K) = p1 at c1 s1 i1
    have w1 : p1.world = p.world.newWalker k := by rw [← hp1]
    have ew : p1.world.walkerOccupy k site =
        .ok { p1.world with walkers := p1.world.walkers.set k ⟨site, unassignedId, -1⟩ } := by
      unfold walkerOccupy
      rw [walkerOf_of (x := ⟨unassignedId, unassignedId, -1⟩) (by rw [w1]; exact IMap.get?_set_self _ _ _)]
      rfl
    obtain ⟨p2, c2, w2⟩ : ∃ p2, p1.call env mem (.walkerOccupy k site) = .ok p2 ∧
        p2.world = { p1.world with walkers := p1.world.walkers.set k ⟨site, unassignedId, -1⟩ } :=
      ⟨_, call_of (r := 0) (w := { p1.world with walkers := p1.world.walkers.set k ⟨site, unassignedId, -1⟩ })
        (by simp only [World.step, ew, World.simple]), rfl⟩
    have s2 := s1.snoc c2 (fun r => by show k ∉ active p1.calls; rw [i1.act]; exact List.not_mem_nil)
      (fun _ e => nomatch e) trivial (fun _ _ e => nomatch e)
    have i2 := i1.snoc c2 (fun _ e => nomatch e) (fun _ _ _ e => nomatch e)
    obtain ⟨p', e', s', i', ⟨W, hW⟩, hat, hbelow⟩ := ih s2 i2 (k + 1)
    refine ⟨p', ?_, s', i', ⟨W, ?_⟩, ?_, ?_⟩
    · unfold place
      rw [c1, ok_bind, c2, ok_bind]
      exact e'
    · rw [hW, w2, w1]
      rfl
    · intro j x hj
      cases j with
      | zero =>
        simp only [List.getElem?_cons_zero, Option.some.injEq] at hj
        subst hj
        rw [Nat.cast_zero, add_zero, hbelow k (by omega), w2]
        exact IMap.get?_set_self _ _ _
      | succ j =>
        rw [List.getElem?_cons_succ] at hj
        have := hat j x hj
        rw [← this]
        congr 1
        push_cast
        ring
    · intro l hl
      rw [hbelow l (by omega), w2]
      show IMap.get? (IMap.set _ _ _) l = _
      rw [IMap.get?_set_ne _ _ (by omega), w1]
      exact IMap.get?_set_ne _ _ (by omega)

/-! ## Without coarse graining -/

/-- No site is in a cluster, there are no clusters and none will be made; after `v` hops of `n` walkers no counter is out of bounds. -/
structure Still (c v n : Int) (w : World K) : Prop where
  sites : ∀ i t, w.sites.get? i = some t → t.clusterId = unassignedId ∧ (-v ≤ t.occupied ∧ t.occupied ≤ v + n) ∧ 0 ≤ t.visits ∧ t.visits ≤ v + n
  clusters : w.clusters = []
  min : w.thresholdMin = infIterations ∧ w.threshold = infIterations
  count : 0 ≤ w.iteration ∧ w.iteration ≤ v
  next : w.nextId = c

theorem feat_of (hst : Struct env w) {i : Int} {t : Site K} (h : w.sites.get? i = some t) (ht : t.clusterId = unassignedId) :
    w.feat i = .site i := by
  rcases hst.feat_cases i with ⟨-, a⟩ | ⟨t, a, b, c⟩ | ⟨t', a, b, c, -⟩
  · rw [h] at a; cases a
  · exact a
  · rw [h] at b; cases b; exact absurd ht c

theorem initWalkers_still {w : World K} {env : Env K} (hst : Struct env w) {l : List (Entry K)} {c v : Int} (hv : 0 ≤ v ∧ v + l.length ≤ INT_MAX)
    (hq : Still c 0 v w) (h : ∀ a ∈ l, ∃ i, On w a.handle i ∧ Known w i) : ∃ u w', w.initWalkers l = (.ok u, w') ∧ Still c 0 (v + l.length) w' := by
  induction l generalizing w v with
  | nil => exact ⟨(), w, rfl, by simpa using hq⟩
  | cons a l ih =>
    simp only [List.length_cons] at hv
    push_cast at hv
    obtain ⟨i, h1, h2⟩ := h a List.mem_cons_self
    have hQ : Quiet v w := fun i t ht => by
      obtain ⟨q1, q2, q3⟩ := hq.sites i t ht
      exact ⟨q1, by omega, by omega⟩
    obtain ⟨w1, e1, q1⟩ := ToF.initWalker_quiet hst (v := v) (by omega) hQ h1 h2
    have hk := hst.initWalker_keep e1
    have hS : Still c 0 (v + 1) w1 := by
      have hold : w1.clusters = w.clusters ∧ w1.thresholdMin = w.thresholdMin ∧ w1.threshold = w.threshold ∧ w1.iteration = w.iteration ∧
          w1.nextId = w.nextId := by
        obtain ⟨x, hx, rfl, h0⟩ := h1
        obtain ⟨t, ht⟩ := Option.ne_none_iff_exists'.1 (known_iff.1 h2)
        unfold initWalker at e1
        rw [walkerOf_of hx, ok_bind, walkerSite_ok.2 ⟨h0, rfl⟩, ok_bind, feat_of hst ht (hq.sites _ _ ht).1] at e1
        split at e1
        · simp only [occupyFeat, siteOf_of ht, ok_bind] at e1
          obtain ⟨w2, e2, e1⟩ := bind_eq_ok.1 e1
          obtain ⟨t2, e2', e2⟩ := bind_eq_ok.1 e2
          cases e2
          obtain ⟨⟨tt, w3⟩, e3, e1⟩ := bind_eq_ok.1 e1
          simp only [dwellAt] at e3
          obtain ⟨t4, -, e3⟩ := bind_eq_ok.1 e3
          cases e3
          obtain ⟨⟨nn, w4⟩, e5, e1⟩ := bind_eq_ok.1 e1
          simp only [pickAt] at e5
          obtain ⟨t6, -, e5⟩ := bind_eq_ok.1 e5
          cases e5
          cases e1
          exact ⟨rfl, rfl, rfl, rfl, rfl⟩
        · cases e1
      obtain ⟨o1, o2, o3, o4, o5⟩ := hold
      refine ⟨fun i t ht => ?_, o1.trans hq.clusters, ⟨o2.trans hq.min.1, o3.trans hq.min.2⟩, by rw [o4]; exact hq.count, o5.trans hq.next⟩
      obtain ⟨a1, a2, a3⟩ := q1 i t ht
      exact ⟨a1, by omega, by omega⟩
    obtain ⟨u, w', e, q'⟩ := ih (hst.keep hk) (v := v + 1) (by omega) hS fun b hb => by
      obtain ⟨j, h3, h4⟩ := h b (List.mem_cons_of_mem _ hb)
      refine ⟨j, (initWalker_on e1 _ _).2 h3, known_iff.2 fun hn => known_iff.1 h4 ((rel_none (hk.site j)).2 hn)⟩
    refine ⟨u, w', ?_, by rw [show v + ((a :: l).length : Int) = v + 1 + l.length by simp only [List.length_cons]; push_cast; ring]; exact q'⟩
    unfold World.initWalkers
    rw [e1]
    exact e

theorem still_put {c v n : Int} {w : World K} (h : Still c v n w) {i : Int} {t : Site K} {v' : Int} (hv : v ≤ v') 
    (ht : t.clusterId = unassignedId ∧ (-v' ≤ t.occupied ∧ t.occupied ≤ v' + n) ∧ 0 ≤ t.visits ∧ t.visits ≤ v' + n) :
    Still c v' n { w with sites := w.sites.put i t } := by
  refine ⟨fun j t' ht' => ?_, h.clusters, h.min, by have := h.count; show 0 ≤ w.iteration ∧ w.iteration ≤ v'; omega, h.next⟩
  change IMap.get? (IMap.set _ _ _) j = some t' at ht'
  rw [IMap.get?_set] at ht'
  split at ht'
  · cases ht'; exact ht
  · obtain ⟨a1, a2, a3⟩ := h.sites j t' ht'
    exact ⟨a1, by omega, by omega⟩

/-- A hop in a world without clusters. -/
theorem hopMove_still {c v n : Int} {w : World K} (hst : Struct env w) (h : Still c v n w) (hb : 0 ≤ v ∧ 0 ≤ n ∧ v + n < INT_MAX) {k : Int} {x : Walker K}
    {t t' : Site K} (hx : w.walkers.get? k = some x) (h0 : x.site ≠ unassignedId) (h0' : x.pot ≠ unassignedId)
    (ht : w.sites.get? x.site = some t) (ht' : w.sites.get? x.pot = some t') (a : Choices K) (wid : Int) :
    ∃ j w', w.hopMove wid k a = .ok (j, w') ∧ Still c (v + 1) n w' ∧ w'.iteration = w.iteration := by
  obtain ⟨a1, a2, a3⟩ := h.sites _ _ ht
  have hvac : t.vacate = .ok { t with occupied := t.occupied - 1 } := by
    unfold Site.vacate
    simp only [INT_MAX] at hb
    rw [chk_ok ⟨by simp only [INT_MIN]; omega, by simp only [INT_MAX]; omega⟩, ok_bind]
  have hwv : w.vacateAt (.site x.site) x.site = .ok { w with sites := w.sites.put x.site { t with occupied := t.occupied - 1 } } := by
    simp only [vacateAt, siteOf_of ht, ok_bind, hvac]
  have hs1 : Still c (v + 1) n { w with sites := w.sites.put x.site { t with occupied := t.occupied - 1 } } :=
    still_put h (by omega) ⟨a1, by constructor <;> (simp only; omega), by constructor <;> (simp only; omega)⟩
  have key : ∀ (w0 : World K) (y : Int) (u : Site K), Still c (v + 1) n w0 → w0.iteration = w.iteration → w0.sites.get? y = some u →
      (u.occupied ≤ v + n ∧ u.visits ≤ v + n) →
      ∃ w1, w0.occupyAt (.site y) y = .ok w1 ∧ Still c (v + 1) n w1 ∧ w1.iteration = w.iteration ∧
        w1.siteOf y = .ok { u with occupied := u.occupied + 1, visits := u.visits + 1 } := by
    intro w0 y u hs1 hit hu hle
    obtain ⟨b1, b2, b3⟩ := hs1.sites _ _ hu
    have hocc : u.occupy = .ok { u with occupied := u.occupied + 1, visits := u.visits + 1 } := by
      unfold Site.occupy
      simp only [INT_MAX] at hb
      rw [chk_ok ⟨by simp only [INT_MIN]; omega, by simp only [INT_MAX]; omega⟩, ok_bind,
        chk_ok ⟨by simp only [INT_MIN]; omega, by simp only [INT_MAX]; omega⟩, ok_bind]
    refine ⟨{ w0 with sites := w0.sites.put y { u with occupied := u.occupied + 1, visits := u.visits + 1 } },
      by simp only [occupyAt, siteOf_of hu, ok_bind, hocc], still_put hs1 le_rfl ⟨b1, ?_, ?_⟩, hit, siteOf_of (IMap.get?_set_self _ _ _)⟩
    · constructor <;> (simp only; omega)
    · constructor <;> (simp only; omega)
  have still_walkers : ∀ (w1 : World K) W, Still c (v + 1) n w1 → Still c (v + 1) n { w1 with walkers := W } :=
    fun w1 W h => ⟨h.sites, h.clusters, h.min, h.count, h.next⟩
  unfold hopMove
  rw [walkerOf_of hx, ok_bind, walkerSite_ok.2 ⟨h0, rfl⟩, ok_bind, walkerPot_ok.2 ⟨h0', rfl⟩, ok_bind]
  simp only [feat_of hst ht a1, feat_of hst ht' (h.sites _ _ ht').1]
  have hio : w.isOccupiedAt (.site x.pot) x.pot = .ok t'.isOccupied := by
    simp only [isOccupiedAt, siteOf_of ht', ok_bind]
  rw [hio, ok_bind]
  by_cases hoc : t'.isOccupied = true
  · rw [if_pos hoc, hwv, ok_bind]
    obtain ⟨w1, e1, s1, i1, o1⟩ := key _ x.site { t with occupied := t.occupied - 1 } hs1 rfl (IMap.get?_set_self _ _ _) (by simp only; omega)
    simp only [e1, ok_bind, dwellAt, pickAt, o1]
    exact ⟨_, _, rfl, still_walkers _ _ s1, i1⟩
  · rw [if_neg hoc, hwv, ok_bind]
    obtain ⟨c1, c2, c3⟩ := h.sites _ _ ht'
    have hu : ∃ u, ({ w with sites := w.sites.put x.site { t with occupied := t.occupied - 1 } } : World K).sites.get? x.pot = some u ∧
        (u.occupied ≤ v + n ∧ u.visits ≤ v + n) := by
      show ∃ u, IMap.get? (IMap.set _ _ _) _ = some u ∧ _
      rw [IMap.get?_set]
      split
      · exact ⟨_, rfl, by simp only; omega⟩
      · exact ⟨t', ht', by omega⟩
    obtain ⟨u, hu, hle⟩ := hu
    obtain ⟨w1, e1, s1, i1, o1⟩ := key _ x.pot u hs1 rfl hu hle
    simp only [e1, ok_bind, dwellAt, pickAt, o1]
    exact ⟨_, _, rfl, still_walkers _ _ s1, i1⟩

theorem hop_still {c v n : Int} {w : World K} (hst : Struct env w) (h : Still c v n w) (hb : 0 ≤ v ∧ 0 ≤ n ∧ v + n < INT_MAX) {k : Int} {x : Walker K}
    {t t' : Site K} (hx : w.walkers.get? k = some x) (h0 : x.site ≠ unassignedId) (h0' : x.pot ≠ unassignedId)
    (ht : w.sites.get? x.site = some t) (ht' : w.sites.get? x.pot = some t') (a : Choices K) (wid : Int) :
    ∃ w', w.hop env mem wid k a = (.ok (), w') ∧ Still c (v + 1) n w' := by
  obtain ⟨j, w1, e1, s1, i1⟩ := hopMove_still hst h hb hx h0 h0' ht ht' a wid
  obtain ⟨c1, c2⟩ := h.count
  unfold World.hop
  rw [e1]
  simp only
  unfold hopCount
  simp only [INT_MAX] at hb
  rw [chk_ok ⟨by simp only [INT_MIN]; omega, by simp only [INT_MAX]; omega⟩]
  simp only
  rw [if_neg (by rw [s1.min.2, i1]; simp only [infIterations, INT_MAX]; omega)]
  exact ⟨_, rfl, s1.sites, s1.clusters, s1.min, by show 0 ≤ w1.iteration + 1 ∧ w1.iteration + 1 ≤ v + 1; omega, s1.next⟩

end Mythical.Bench
