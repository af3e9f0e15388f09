import Verif.Lemmas.ToFLoops
import Verif.Props.CuboidIndex

/-! # Helper lemmas for the time-of-flight program: up to the loops -/

set_option linter.unusedSectionVars false
set_option linter.unusedVariables false

namespace Mythical.ToF
open Mythical World SystemSpec ToFSpec CuboidSpec
variable {K : Type} [Field K] [LinearOrder K] [IsStrictOrderedRing K] [FloorRing K]
variable {env : Env K} {mem : Addr → K} {c : Cuboid} {m : IMap (IMap Addr)} {cfg : Config K} {ch : Chances K} {s s' : Sim K} {p p' : Prog K}

/-! ### The sites -/

/-- The site at which a pair of draws puts a charge. -/
def siteOfDraw (c : Cuboid) (d : Int × Int) : Int := 0 + c.length * (d.1 + c.width * d.2)

theorem random_ok (hb : Built c) {d : Int × Int} (hd : (0 ≤ d.1 ∧ d.1 < c.width) ∧ 0 ≤ d.2 ∧ d.2 < c.height) :
    c.getRandomSite .YZ 0 d.1 d.2 = .ok (siteOfDraw c d) ∧ SiteAt c (siteOfDraw c d) ⟨0, d.1, d.2⟩ := by
  have g := Cuboid.good_of_built hb
  have hs := Cuboid.siteAt_of_inBox (c := c) (p := ⟨0, d.1, d.2⟩) ⟨⟨le_rfl, g.l⟩, hd.1, hd.2⟩
  refine ⟨?_, hs⟩
  unfold Cuboid.getRandomSite
  simp only
  rw [if_neg (by omega)]
  exact Cuboid.getIndex_of_siteAt g hs

/-- All are sites of the first plane. -/
def AllFirst (c : Cuboid) (l : List Int) : Prop := ∀ i ∈ l, ∃ a, SiteAt c i a ∧ a.x = 0

theorem pickSites_spec (hb : Built c) {n : Nat} {ds : List (Int × Int)} {occ : List Int}
    (hd : ∀ d ∈ ds, (0 ≤ d.1 ∧ d.1 < c.width) ∧ 0 ≤ d.2 ∧ d.2 < c.height) (ho : occ.Nodup) (hf : AllFirst c occ) (hn : occ.length ≤ n) :
    (∃ l, pickSites c n ds occ = .ok l ∧ l.Nodup ∧ l.length = n ∧ AllFirst c l) ∨
    (pickSites c n ds occ = .error .outOfFuel ∧ ∀ l : List Int, l.Nodup → l ⊆ occ ++ ds.map (siteOfDraw c) → l.length < n) := by
  induction ds generalizing occ with
  | nil =>
    unfold pickSites
    by_cases h : occ.length < n
    · rw [if_pos h]
      refine .inr ⟨rfl, fun l hl hs => ?_⟩
      rw [List.map_nil, List.append_nil] at hs
      exact lt_of_le_of_lt (hl.subperm hs).length_le h
    · rw [if_neg h]
      exact .inl ⟨occ, rfl, ho, by omega, hf⟩
  | cons d ds ih =>
    unfold pickSites
    by_cases h : occ.length < n
    · rw [if_pos h]
      obtain ⟨h1, h2⟩ := random_ok hb (hd d List.mem_cons_self)
      simp only [h1, ok_bind]
      have hd' : ∀ d ∈ ds, (0 ≤ d.1 ∧ d.1 < c.width) ∧ 0 ≤ d.2 ∧ d.2 < c.height := fun d h => hd d (List.mem_cons_of_mem _ h)
      by_cases hin : siteOfDraw c d ∈ occ
      · rw [if_pos hin]
        rcases ih hd' ho hf hn with h3 | ⟨h3, h4⟩
        · exact .inl h3
        · refine .inr ⟨h3, fun l hl hs => h4 l hl fun x hx => ?_⟩
          rcases List.mem_append.1 (hs hx) with h5 | h5
          · exact List.mem_append_left _ h5
          · rcases List.mem_cons.1 h5 with rfl | h5
            · exact List.mem_append_left _ hin
            · exact List.mem_append_right _ h5
      · rw [if_neg hin]
        have ho' : (occ ++ [siteOfDraw c d]).Nodup := by
          rw [List.nodup_append]
          refine ⟨ho, List.nodup_singleton _, fun a ha b hb' e => ?_⟩
          rw [List.mem_singleton.1 hb'] at e
          exact hin (e ▸ ha)
        have hf' : AllFirst c (occ ++ [siteOfDraw c d]) := by
          intro i hi
          rcases List.mem_append.1 hi with hi | hi
          · exact hf i hi
          · cases List.mem_singleton.1 hi
            exact ⟨_, h2, rfl⟩
        rcases ih hd' ho' hf' (by simpa using h) with h3 | ⟨h3, h4⟩
        · exact .inl h3
        · refine .inr ⟨h3, fun l hl hs => h4 l hl fun x hx => ?_⟩
          rw [List.append_assoc]
          exact hs hx
    · rw [if_neg h]
      exact .inl ⟨occ, rfl, ho, by omega, hf⟩

/-- With as many different draws as charges the sites are found. -/
theorem pickSites_enough (hb : Built c) {n : Nat} {ds : List (Int × Int)}
    (hd : ∀ d ∈ ds, (0 ≤ d.1 ∧ d.1 < c.width) ∧ 0 ≤ d.2 ∧ d.2 < c.height) (hn : n ≤ ds.dedup.length) :
    ∃ l, pickSites c n ds [] = .ok l ∧ l.Nodup ∧ l.length = n ∧ AllFirst c l := by
  rcases pickSites_spec hb hd List.nodup_nil (fun _ h => nomatch h) (Nat.zero_le n) with h | ⟨-, h⟩
  · exact h
  · have hnd : (ds.dedup.map (siteOfDraw c)).Nodup := by
      refine List.Nodup.map_on (fun a ha b hb' e => ?_) (List.nodup_dedup ds)
      have h1 := (random_ok hb (hd a (List.mem_dedup.1 ha))).2
      have h2 := (random_ok hb (hd b (List.mem_dedup.1 hb'))).2
      rw [← e] at h2
      have h3 := Cuboid.siteAt_unique (Cuboid.good_of_built hb) h1 h2
      simp only [Cuboid.Pos.mk.injEq, true_and] at h3
      exact Prod.ext h3.1 h3.2
    have := h _ hnd (by
      intro x hx
      obtain ⟨d, hd', rfl⟩ := List.mem_map.1 hx
      exact List.mem_map_of_mem (List.mem_dedup.1 hd'))
    simp at this
    omega

/-! ### The charges are created -/

/-- Nothing has been done with the system so far. -/
structure Idle (p : Prog K) : Prop where
  act : active p.calls = []
  hop : ¬ Hopped p.calls

theorem Idle.snoc {op : World.Op K} (h : Idle p) (hc : p.call env mem op = .ok p') (h1 : ∀ l, op ≠ .initializeWalkers l)
    (h2 : ∀ a b d, op ≠ .hop a b d) : Idle p' := by
  obtain ⟨r, -, e⟩ := call_ok hc
  constructor
  · rw [e, active_snoc, h.act]
    unfold enter
    cases op <;> first | rfl | (exact absurd rfl (h1 _))
  · rw [e]
    rintro ⟨ev, he, a, b, d, ho⟩
    rcases List.mem_append.1 he with he | he
    · exact h.hop ⟨ev, he, a, b, d, ho⟩
    · cases List.mem_singleton.1 he
      exact h2 a b d ho

theorem place_ok (hs : Story env mem m p) (hi : Idle p) (sites : List Int) (k : Int) :
    ∃ p', place env mem p k sites = .ok p' ∧ Story env mem m p' ∧ Idle p' ∧ (∃ W, p'.world = { p.world with walkers := W }) ∧
      (∀ (j : Nat) x, sites[j]? = some x → p'.world.walkers.get? (k + j) = some ⟨x, unassignedId, -1⟩) ∧
      ∀ l < k, p'.world.walkers.get? l = p.world.walkers.get? l := by
  induction sites generalizing p k with
  | nil => exact ⟨p, rfl, hs, hi, ⟨_, rfl⟩, fun j x h => by simp at h, fun _ _ => rfl⟩
  | cons site rest ih =>
    have c1 : p.call env mem (.newWalker k) = .ok ⟨p.world.newWalker k, p.calls ++ [⟨p.world, mem, .newWalker k, .ok 0, p.world.newWalker k⟩]⟩ :=
      call_of rfl
    have s1 := hs.snoc c1 (fun r => by show k ∉ active p.calls; rw [hi.act]; exact List.not_mem_nil)
      (fun _ e => nomatch e) trivial (fun _ _ e => nomatch e) (fun _ e => nomatch e) (fun _ _ _ _ _ e => nomatch e)
    have i1 := hi.snoc c1 (fun _ e => nomatch e) (fun _ _ _ e => nomatch e)
    generalize hp1 : (⟨p.world.newWalker k, p.calls ++ [⟨p.world, mem, .newWalker k, .ok 0, p.world.newWalker k⟩]⟩ : Prog K) = p1 at c1 s1 i1
    have w1 : p1.world = p.world.newWalker k := by rw [← hp1]
    have ew : p1.world.walkerOccupy k site =
        .ok { p1.world with walkers := p1.world.walkers.set k ⟨site, unassignedId, -1⟩ } := by
      unfold walkerOccupy
      rw [walkerOf_of (x := ⟨unassignedId, unassignedId, -1⟩) (by rw [w1]; exact IMap.get?_set_self _ _ _)]
      rfl
    obtain ⟨p2, c2, w2⟩ : ∃ p2, p1.call env mem (.walkerOccupy k site) = .ok p2 ∧
        p2.world = { p1.world with walkers := p1.world.walkers.set k ⟨site, unassignedId, -1⟩ } :=
      ⟨_, call_of (r := 0) (w := { p1.world with walkers := p1.world.walkers.set k ⟨site, unassignedId, -1⟩ })
        (by simp only [World.step, ew, World.simple]), rfl⟩
    have s2 := s1.snoc c2 (fun r => by show k ∉ active p1.calls; rw [i1.act]; exact List.not_mem_nil)
      (fun _ e => nomatch e) trivial (fun _ _ e => nomatch e) (fun _ e => nomatch e) (fun _ _ _ _ _ e => nomatch e)
    have i2 := i1.snoc c2 (fun _ e => nomatch e) (fun _ _ _ e => nomatch e)
    obtain ⟨p', e', s', i', ⟨W, hW⟩, hat, hbelow⟩ := ih s2 i2 (k + 1)
    refine ⟨p', ?_, s', i', ⟨W, ?_⟩, ?_, ?_⟩
    · unfold place
      rw [c1, ok_bind, c2, ok_bind]
      exact e'
    · rw [hW, w2, w1]
      rfl
    · intro j x hj
      cases j with
      | zero =>
        simp only [List.getElem?_cons_zero, Option.some.injEq] at hj
        subst hj
        rw [Nat.cast_zero, add_zero, hbelow k (by omega), w2]
        exact IMap.get?_set_self _ _ _
      | succ j =>
        rw [List.getElem?_cons_succ] at hj
        have := hat j x hj
        rw [← this]
        congr 1
        push_cast
        ring
    · intro l hl
      rw [hbelow l (by omega), w2]
      show IMap.get? (IMap.set _ _ _) l = _
      rw [IMap.get?_set_ne _ _ (by omega), w1]
      exact IMap.get?_set_ne _ _ (by omega)

/-! ### The system is set up -/

/-- No site is in a cluster, and all mean times to leave are as given by the rates. -/
def Calm (mem : Addr → K) (m : IMap (IMap Addr)) (w : World K) : Prop :=
  ∀ i s, w.sites.get? i = some s → s.clusterId = unassignedId ∧ s.tau = 1 / escapeRate mem m i

theorem Calm.keep {w w' : World K} (h : Calm mem m w) (hk : Keep env w w') : Calm mem m w' := by
  intro i s hs
  have := hk.site i
  rw [hs] at this
  generalize hw : w.sites.get? i = o at this
  cases this with
  | some h1 =>
    obtain ⟨a1, a2⟩ := h i _ hw
    unfold Same at h1
    rw [h1]
    exact ⟨a1, a2⟩

/-- No site is in a cluster, and no counter of a site is above `v`. -/
def Quiet (v : Int) (w : World K) : Prop :=
  ∀ i s, w.sites.get? i = some s → s.clusterId = unassignedId ∧ (0 ≤ s.occupied ∧ s.occupied ≤ v) ∧ 0 ≤ s.visits ∧ s.visits ≤ v

theorem adds_quiet {w w' : World K} (h : Adds mem m w w') (h0 : Quiet 0 w) : Quiet 0 w' := by
  induction h with
  | refl => exact h0
  | seed _ ih => exact ih h0
  | add s sd hs hsd hnew h ih =>
    refine ih fun i t ht => ?_
    change IMap.get? (IMap.set _ _ _) i = some t at ht
    rw [IMap.get?_set] at ht
    split at ht
    · cases ht
      obtain ⟨a, b, c⟩ := hs.fresh
      exact ⟨a, by omega, by omega⟩
    · exact h0 i t ht

theorem initWalker_quiet {w : World K} {env : Env K} (hst : Struct env w) {v : Int} (hv : 0 ≤ v ∧ v < INT_MAX) (hq : Quiet v w) {a : Entry K}
    {i : Int} (ho : On w a.handle i) (hk : Known w i) : ∃ w', w.initWalker a = .ok w' ∧ Quiet (v + 1) w' := by
  obtain ⟨x, hx, rfl, h0⟩ := ho
  rw [known_iff] at hk
  obtain ⟨s, hs⟩ := Option.ne_none_iff_exists'.1 hk
  obtain ⟨q1, ⟨q2, q2'⟩, q3, q3'⟩ := hq _ s hs
  have hfeat : w.feat x.site = .site x.site := by
    rcases hst.feat_cases x.site with ⟨-, a⟩ | ⟨t, a, b, c⟩ | ⟨t, a, b, c, -⟩
    · exact absurd a hk
    · exact a
    · rw [hs] at b; cases b; exact absurd q1 c
  have hhas : w.feats.has x.site = true := by
    rw [IMap.has_iff, IMap.mem_keys_iff_get?]
    exact Option.ne_none_iff_exists'.1 fun h => hk ((hst.known _).1 h)
  have hocc : s.occupy = .ok { s with occupied := s.occupied + 1, visits := s.visits + 1 } := by
    unfold Site.occupy
    simp only [INT_MAX] at hv
    rw [chk_ok ⟨by simp only [INT_MIN]; omega, by simp only [INT_MAX]; omega⟩, ok_bind,
      chk_ok ⟨by simp only [INT_MIN]; omega, by simp only [INT_MAX]; omega⟩, ok_bind]
  have hw1 : w.occupyFeat (.site x.site) = .ok { w with
      sites := w.sites.put x.site { s with occupied := s.occupied + 1, visits := s.visits + 1 } } := by
    simp only [occupyFeat, siteOf_of hs, ok_bind, hocc]
  have hs1 : ({ w with sites := w.sites.put x.site { s with occupied := s.occupied + 1, visits := s.visits + 1 } } : World K).siteOf x.site =
      .ok { s with occupied := s.occupied + 1, visits := s.visits + 1 } := siteOf_of (IMap.get?_set_self _ _ _)
  unfold initWalker
  rw [walkerOf_of hx, ok_bind, walkerSite_ok.2 ⟨h0, rfl⟩, ok_bind, if_pos hhas, hfeat]
  simp only [hw1, dwellAt, pickAt, hs1, ok_bind]
  refine ⟨_, rfl, fun j t ht => ?_⟩
  change IMap.get? (IMap.set _ _ _) j = some t at ht
  rw [IMap.get?_set] at ht
  split at ht
  · cases ht
    exact ⟨q1, by constructor <;> (simp only; omega), by constructor <;> (simp only; omega)⟩
  · obtain ⟨r1, r2, r3⟩ := hq j t ht
    exact ⟨r1, by omega, by omega⟩

theorem initWalkers_quiet {w : World K} {env : Env K} (hst : Struct env w) {l : List (Entry K)} {v : Int} (hv : 0 ≤ v ∧ v + l.length ≤ INT_MAX)
    (hq : Quiet v w) (h : ∀ a ∈ l, ∃ i, On w a.handle i ∧ Known w i) : ∃ u w', w.initWalkers l = (.ok u, w') := by
  induction l generalizing w v with
  | nil => exact ⟨(), w, rfl⟩
  | cons a l ih =>
    obtain ⟨i, h1, h2⟩ := h a List.mem_cons_self
    obtain ⟨w1, e1, q1⟩ := initWalker_quiet hst (v := v) (by simp only [List.length_cons] at hv; omega) hq h1 h2
    have hk := hst.initWalker_keep e1
    obtain ⟨u, w', e⟩ := ih (hst.keep hk) (v := v + 1) (by simp only [List.length_cons] at hv; push_cast at hv; omega) q1 fun b hb => by
      obtain ⟨j, h3, h4⟩ := h b (List.mem_cons_of_mem _ hb)
      refine ⟨j, (initWalker_on e1 _ _).2 h3, known_iff.2 fun hn => known_iff.1 h4 ((rel_none (hk.site j)).2 hn)⟩
    refine ⟨u, w', ?_⟩
    unfold World.initWalkers
    rw [e1]
    exact e

theorem perm_of_get? {V : Type} {a b : IMap V} (ha : a.WF) (hb : b.WF) (h : ∀ n, a.get? n = b.get? n) : List.Perm a b := by
  refine (List.perm_ext_iff_of_nodup (List.Nodup.of_map _ ha) (List.Nodup.of_map _ hb)).2 fun x => ?_
  constructor
  · intro hx
    have := IMap.get?_of_mem ha hx
    rw [h] at this
    exact IMap.mem_of_get? this
  · intro hx
    have := IMap.get?_of_mem hb hx
    rw [← h] at this
    exact IMap.mem_of_get? this

theorem calm_of (hs : Story env mem m p) (hm : Suits c mem m)
    (hl : ∀ i s, p.world.sites.get? i = some s → s.clusterId = unassignedId) : Calm mem m p.world := by
  intro i t ht
  refine ⟨hl i t ht, ?_⟩
  have hg := hs.trace.good hs.usage.hopsReturn hs.fixed (hs.pos hm)
  obtain ⟨hw, hpos, hf⟩ := hg i t ht
  obtain ⟨hb, -⟩ := hs.trace.bothWays hs.usage.hopsReturn (hs.sys hm) (hs.maps hm) (hs.two hm)
  obtain ⟨ev, he, m', sd, s0, ho, hn, htw, rfl⟩ := (hs.trace.static hs.usage.hopsReturn).1 i t ht
  obtain ⟨rfl, -⟩ := hs.only ev he m' ho
  rcases hf with hf | hf
  · exact absurd hf (hb _ _ ht).1
  rw [hf.tau, Site.sumRates_eq]
  unfold escapeRate
  obtain ⟨rates, hr⟩ : ∃ rates, (s0.id, rates) ∈ m' := by
    have hn' := hn
    rcases hn' with ⟨rates, -, hr, -⟩ | ⟨e, -⟩
    · exact ⟨rates, hr⟩
    · exact absurd (by rw [htw.neigh, e]; rfl) (hb _ _ ht).1
  have hwr := hm.maps.2 _ hr
  have hget := hn.rates hm.maps.1 hr hwr
  have hperm : List.Perm t.neigh rates := perm_of_get? hw hwr (by rw [htw.neigh]; exact hget)
  rw [IMap.get?_of_mem hm.maps.1 hr, Option.getD_some, (hperm.map _).sum_eq]

theorem initWalker_calm {w w' : World K} {env : Env K} (hst : Struct env w) (hc : Calm mem m w) {a : Entry K} (h : w.initWalker a = .ok w') :
    Keep env w w' ∧ (∃ x n, w.walkers.get? a.handle = some x ∧ w'.walkers.get? a.handle = some ⟨x.site, n, a.e / escapeRate mem m x.site⟩) ∧
      ∀ l, l ≠ a.handle → w'.walkers.get? l = w.walkers.get? l := by
  refine ⟨hst.initWalker_keep h, ?_⟩
  obtain ⟨x, w1, t, w2, n, w3, hx, h0, hk, h1, h2, h3, rfl⟩ := initWalker_ok h
  have k1 := hst.occupyFeat_any h1
  have st1 := hst.keep k1
  have hands := handsOut_of hst k1 (occupyFeat_tables h1) h2 h3
  have s2 := st1.dwellAt h2
  have s3 := (st1.step s2).pickAt h3
  have hwk : w3.walkers = w.walkers := by
    rw [s3.inner.walkers, s2.inner.walkers]
    rcases occupyFeat_ok h1 with ⟨id, -, s, s', -, -, rfl⟩ | ⟨id, -, c, c', -, -, rfl⟩ <;> rfl
  constructor
  · obtain ⟨s, hs, ⟨-, ht, -⟩ | ⟨hne, -⟩⟩ := hands
    · refine ⟨x, n, hx, ?_⟩
      show IMap.get? (IMap.set _ _ _) _ = _
      rw [IMap.get?_set_self, ht]
      unfold Site.getDwellTime
      rw [(hc _ s hs).2, mul_one_div]
    · exact absurd (hc _ s hs).1 hne
  · intro l hl
    show IMap.get? (IMap.set _ _ _) _ = _
    rw [IMap.get?_set_ne _ _ hl.symm, hwk]

theorem initWalkers_calm {w w' : World K} {env : Env K} (hst : Struct env w) (hc : Calm mem m w) {l : List (Entry K)} {u : Unit}
    (hn : (l.map (·.handle)).Nodup) (h : w.initWalkers l = (.ok u, w')) :
    (∀ a ∈ l, ∃ x n, w.walkers.get? a.handle = some x ∧ w'.walkers.get? a.handle = some ⟨x.site, n, a.e / escapeRate mem m x.site⟩) ∧
      ∀ k, k ∉ l.map (·.handle) → w'.walkers.get? k = w.walkers.get? k := by
  induction l generalizing w with
  | nil =>
    simp only [World.initWalkers, Prod.mk.injEq, true_and] at h
    subst h
    exact ⟨fun _ h => (nomatch h), fun _ _ => rfl⟩
  | cons a l ih =>
    unfold World.initWalkers at h
    split at h
    · simp at h
    · next w1 h1 =>
      obtain ⟨hk, ⟨x, n, hx, hx'⟩, hoth⟩ := initWalker_calm hst hc h1
      obtain ⟨hna, hnl⟩ := List.nodup_cons.1 hn
      obtain ⟨i1, i2⟩ := ih (hst.keep hk) (hc.keep hk) hnl h
      constructor
      · intro b hb
        rcases List.mem_cons.1 hb with rfl | hb
        · exact ⟨x, n, hx, by rw [i2 _ hna]; exact hx'⟩
        · obtain ⟨y, n', hy, hy'⟩ := i1 b hb
          refine ⟨y, n', ?_, hy'⟩
          rw [← hoth b.handle fun e => hna (List.mem_map.2 ⟨b, hb, e⟩)]
          exact hy
      · intro k hk'
        rw [List.map_cons, List.mem_cons, not_or] at hk'
        rw [i2 k hk'.2, hoth k hk'.1]

/-! ### The queue is made -/

theorem addAll_ok {w : World K} {ks : List Nat} {q : Queue K} {t : Nat → K} (h : ∀ k ∈ ks, ∃ x, w.walkers.get? k = some x ∧ x.dwell = t k) :
    ∃ q', addAll w ks q = .ok q' ∧ q'.entries = q.entries ++ ks.map (fun k : Nat => ((k : Int), t k)) ∧ (ks ≠ [] → q'.sorted = false) := by
  induction ks generalizing q with
  | nil => exact ⟨q, rfl, by simp, fun h => absurd rfl h⟩
  | cons k ks ih =>
    obtain ⟨x, hx, ht⟩ := h k List.mem_cons_self
    obtain ⟨q', h1, h2, h3⟩ := ih (q := q.add (k, x.dwell)) fun j hj => h j (List.mem_cons_of_mem _ hj)
    refine ⟨q', ?_, ?_, fun _ => ?_⟩
    · unfold addAll
      rw [walkerOf_of hx, ok_bind]
      exact h1
    · rw [h2]
      unfold Queue.add
      rw [ht]
      simp
    · cases ks with
      | nil =>
        unfold addAll at h1
        cases h1
        rfl
      | cons j js => exact h3 (by simp)

theorem createQueue_spec {w : World K} {n : Nat} {srt : SortCall K} {cutoff : K} {t : Nat → K} (hn : 0 < n)
    (h : ∀ k ∈ List.range n, ∃ x, w.walkers.get? k = some x ∧ x.dwell = t k) :
    (∃ q, createQueue w n srt cutoff = .ok q ∧ q.entries.Perm ((List.range n).map fun k : Nat => ((k : Int), t k)) ∧
        Queue.Ordered q.entries ∧ q.sorted = true ∧ ∃ k < n, t k < cutoff) ∨
    (createQueue w n srt cutoff = .error .assertFail ∧ ∀ k < n, cutoff ≤ t k) := by
  obtain ⟨q, h1, h2, h3⟩ := addAll_ok (q := .init) h
  have h2 : q.entries = (List.range n).map fun k : Nat => ((k : Int), t k) := by rw [h2]; rfl
  have hs := h3 (by simp; omega)
  have hsort : q.sort srt = ⟨srt.run q.entries, true⟩ := by unfold Queue.sort; rw [hs]; rfl
  have hperm := srt.perm q.entries
  have hord := srt.ordered q.entries
  have hlen : (srt.run q.entries).length = n := by rw [hperm.length_eq, h2]; simp
  obtain ⟨e, es, he⟩ : ∃ e es, srt.run q.entries = e :: es := List.exists_cons_of_ne_nil fun h0 => by rw [h0] at hlen; simp at hlen; omega
  have hat : (⟨srt.run q.entries, true⟩ : Queue K).at_ 0 = .ok e :=
    (Queue.at_ok_iff _ ⟨by decide, by decide⟩).2 ⟨le_rfl, by simp [he]⟩
  have hall : ∀ x, x ∈ srt.run q.entries ↔ ∃ k < n, ((k : Int), t k) = x := by
    intro x
    rw [hperm.mem_iff, h2]
    simp
  unfold createQueue
  rw [h1, ok_bind]
  simp only [hsort, hat, ok_bind]
  by_cases hc : e.2 < cutoff
  · rw [if_pos hc]
    refine .inl ⟨_, rfl, by rw [← h2]; exact hperm, hord, rfl, ?_⟩
    obtain ⟨k, hk, hke⟩ := (hall e).1 (by rw [he]; exact List.mem_cons_self)
    exact ⟨k, hk, by rw [← hke] at hc; exact hc⟩
  · rw [if_neg hc]
    refine .inr ⟨rfl, fun k hk => ?_⟩
    have hm := (hall _).2 ⟨k, hk, rfl⟩
    rw [he] at hm hord
    push Not at hc
    rcases List.mem_cons.1 hm with hm | hm
    · rw [← hm] at hc; exact hc
    · exact hc.trans ((List.pairwise_cons.1 hord).1 _ hm)

/-! ### All of it -/

theorem call_fuel {op : World.Op K} {f f' : Nat} (h : ∀ a b d, op ≠ .hop a b d) :
    p.call { env with fuel := f } mem op = p.call { env with fuel := f' } mem op := by
  unfold Prog.call
  cases op <;> first | (exact absurd rfl (h _ _ _)) | simp only [World.step]

theorem place_fuel {f f' : Nat} {k : Int} {l : List Int} : place { env with fuel := f } mem p k l = place { env with fuel := f' } mem p k l := by
  induction l generalizing p k with
  | nil => unfold place; simp only
  | cons x l ih =>
    unfold place
    rw [call_fuel (env := env) (f := f) (f' := f') (op := .newWalker k) fun _ _ _ e => nomatch e]
    congr 1
    funext p1
    rw [call_fuel (env := env) (f := f) (f' := f') (op := .walkerOccupy k x) fun _ _ _ e => nomatch e]
    congr 1
    funext p2
    exact ih

theorem start_fuel {f f' : Nat} : start { env with fuel := f } mem c m cfg ch = start { env with fuel := f' } mem c m cfg ch := by
  unfold start
  congr 1; funext sites
  rw [place_fuel (f := f) (f' := f')]
  congr 1

theorem story_nil : Story env mem m (⟨World.new 0, []⟩ : Prog K) :=
  ⟨.nil _, fun b e a h => by simp at h, fun _ h => (nomatch h), fun _ h => (nomatch h), fun _ h => (nomatch h),
    fun _ h => (nomatch h), fun _ h => (nomatch h), fun _ h => (nomatch h), rfl⟩

theorem idle_nil : Idle (⟨World.new 0, []⟩ : Prog K) := ⟨rfl, fun ⟨_, h, _⟩ => nomatch h⟩

theorem escapeRate_nonneg (hm : Suits c mem m) (i : Int) : 0 ≤ escapeRate mem m i := by
  unfold escapeRate
  cases h : m.get? i with
  | none => simp
  | some row =>
    rw [Option.getD_some]
    refine List.sum_nonneg fun x hx => ?_
    obtain ⟨na, hna, rfl⟩ := List.mem_map.1 hx
    exact ((hm.rows _ (IMap.mem_of_get? h)).2 na hna).le

theorem start_spec (hb : Built c) (hm : Suits c mem m) (hch : Possible c mem ch) (hcfg : Sensible cfg) (hlen : 2 ≤ c.length)
    (hen : cfg.charges ≤ ch.picks.dedup.length) :
    ∃ sites : List Int, sites.Nodup ∧ sites.length = cfg.charges ∧ AllFirst c sites ∧
      ((∃ s, start env mem c m cfg ch = .ok s ∧ Inv env mem c m cfg s ∧ Moved (planeX c) cfg s ∧
          s.inside = false ∧ s.samples = [] ∧
          (∀ (k : Nat) i, sites[k]? = some i → On s.prog.world k i ∧ ((k : Int), (ch.first k).1 / escapeRate mem m i) ∈ s.queue.entries) ∧
          ∃ (k : Nat) (i : Int), sites[k]? = some i ∧ (ch.first k).1 / escapeRate mem m i < cfg.cutoffTime) ∨
       (start env mem c m cfg ch = .error .assertFail ∧
          ∀ (k : Nat) i, sites[k]? = some i → cfg.cutoffTime ≤ (ch.first k).1 / escapeRate mem m i)) := by
  obtain ⟨l, hpick, hlnd, hllen, hlf⟩ := pickSites_enough hb hch.picks hen
  have hperm := ch.order_perm l
  obtain ⟨sites, hsites⟩ : ∃ sites, sites = ch.order l := ⟨_, rfl⟩
  rw [← hsites] at hperm
  have hnd : sites.Nodup := hperm.nodup_iff.2 hlnd
  have hslen : sites.length = cfg.charges := hperm.length_eq.trans hllen
  have hf : AllFirst c sites := fun i hi => hlf i (hperm.subset hi)
  refine ⟨sites, hnd, hslen, hf, ?_⟩
  -- the charges are created
  obtain ⟨p1, e1, s1, i1, ⟨W, w1⟩, hat, -⟩ := place_ok (env := env) (mem := mem) (m := m) story_nil idle_nil sites 0
  have w1 : p1.world = { (World.new 0 : World K) with walkers := W } := w1
  -- the parameters are set
  obtain ⟨p2, c2, w2⟩ : ∃ p2, p1.call env mem (.setRandomSeed cfg.seed) = .ok p2 ∧
      p2.world = { p1.world with seed := some (cfg.seed % 2 ^ 64) } :=
    ⟨_, call_of (r := 0) (w := { p1.world with seed := some (cfg.seed % 2 ^ 64) }) (by
      simp only [World.step, World.setRandomSeed]
      rw [if_neg (by rw [w1]; simp [World.new])]
      rfl), rfl⟩
  have s2 := s1.snoc c2 (fun r => trivial)
    (fun _ e => nomatch e) trivial (fun _ _ e => nomatch e) (fun _ e => nomatch e) (fun _ _ _ _ _ e => nomatch e)
  have i2 := i1.snoc c2 (fun _ e => nomatch e) (fun _ _ _ e => nomatch e)
  obtain ⟨p3, c3, w3⟩ : ∃ p3, p2.call env mem (.setTimeResolution cfg.dt) = .ok p3 ∧
      p3.world = { p2.world with timeRes := some cfg.dt } :=
    ⟨_, call_of (r := 0) (w := { p2.world with timeRes := some cfg.dt }) (by
      simp only [World.step, World.setTimeResolution]
      rw [if_neg (not_le.2 hcfg.dt)]
      rfl), rfl⟩
  have s3 := s2.snoc c3 (fun r => trivial)
    (fun _ e => nomatch e) trivial (fun _ _ e => nomatch e) (fun _ e => nomatch e) (fun _ _ _ _ _ e => nomatch e)
  have i3 := i2.snoc c3 (fun _ e => nomatch e) (fun _ _ _ e => nomatch e)
  have hw3 : p3.world.sites = [] ∧ p3.world.walkers = W := by rw [w3, w2, w1]; exact ⟨rfl, rfl⟩
  -- the system is set up
  obtain ⟨w4, hw4⟩ := initializeSystem_total (mem := mem) (w := p3.world) hm.maps.1
    (fun ir hir => ⟨hm.maps.2 ir hir, hm.rows ir hir⟩) (by rw [w3]; simp) (fun i _ => by rw [hw3.1]; rfl)
  obtain ⟨p4, c4, hp4⟩ : ∃ p4, p3.call env mem (.initializeSystem m) = .ok p4 ∧ p4.world = w4 :=
    ⟨_, call_of (r := 0) (w := w4) (by simp only [World.step, hw4]; rfl), rfl⟩
  have s4 := s3.snoc c4 (fun r => trivial)
    (fun m' e => by cases e; rfl) trivial (fun _ _ e => nomatch e) (fun _ e => nomatch e) (fun _ _ _ _ _ e => nomatch e)
  have i4 := i3.snoc c4 (fun _ e => nomatch e) (fun _ _ _ e => nomatch e)
  have hadds : Adds mem m p3.world p4.world := by
    have := initializeSystem_adds (mem := mem) (w := p3.world) (m := m)
    rw [hw4] at this
    rw [hp4]
    exact this
  have hquiet : Quiet 0 p4.world := adds_quiet hadds fun i s hs => by rw [hw3.1] at hs; cases hs
  have hcalm : Calm mem m p4.world := calm_of s4 hm fun i s hs => (hquiet i s hs).1
  have hwk4 : p4.world.walkers = p1.world.walkers := by rw [hadds.walkers, hw3.2, w1]
  have hsite : ∀ (k : Nat) i, sites[k]? = some i → p4.world.walkers.get? k = some ⟨i, unassignedId, -1⟩ ∧ ValidIndex c i ∧ Known p4.world i := by
    intro k i hk
    have hi : i ∈ sites := List.mem_of_getElem? hk
    obtain ⟨a, ha, hx⟩ := hf i hi
    refine ⟨by rw [hwk4, ← zero_add (k : Int)]; exact hat k i hk, Cuboid.siteAt_bounds (Cuboid.good_of_built hb) ha, ?_⟩
    rw [known_iff, hp4]
    refine ((initializeSystem_known hw4 i).1).2 (.inr ?_)
    exact mentions_iff.1 (hm.plane i a ha hx)
  have hsome : ∀ k < cfg.charges, ∃ i, sites[k]? = some i := fun k hk => ⟨_, List.getElem?_eq_getElem (by rw [hslen]; exact hk)⟩
  have hon4 : ∀ (k : Nat) i, sites[k]? = some i → On p4.world k i := by
    intro k i hk
    obtain ⟨h1, h2, -⟩ := hsite k i hk
    refine ⟨_, h1, rfl, fun e => ?_⟩
    rw [e] at h2
    exact absurd h2.1 (by decide)
  have hent : ∀ a ∈ entries cfg.charges ch.first, ∃ (k : Nat) (i : Int), k < cfg.charges ∧ sites[k]? = some i ∧ a = ⟨(k : Int), (k : Int), (ch.first k).1, (ch.first k).2⟩ := by
    intro a ha
    unfold entries at ha
    obtain ⟨k, hk, rfl⟩ := List.mem_map.1 ha
    obtain ⟨i, hi⟩ := hsome k (List.mem_range.1 hk)
    exact ⟨k, i, List.mem_range.1 hk, hi, rfl⟩
  have hhandles : (entries cfg.charges ch.first).map (·.handle) = (List.range cfg.charges).map fun k : Nat => (k : Int) := by
    unfold entries
    rw [List.map_map]
    rfl
  have hhnd : ((entries cfg.charges ch.first).map (·.handle)).Nodup := by
    rw [hhandles]
    exact List.Nodup.map (fun a b h => by simpa using h) List.nodup_range
  have hdraws : DrawsOf (.initializeWalkers (entries cfg.charges ch.first)) := by
    intro a ha
    obtain ⟨k, i, -, -, rfl⟩ := hent a ha
    exact hch.first k
  -- the walkers are set up
  have hprefix : ∀ r, start env mem c m cfg ch = r ↔ (do
      let p ← p4.call env mem (.initializeWalkers (entries cfg.charges ch.first))
      let q ← createQueue p.world cfg.charges ch.sort cfg.cutoffTime
      .ok ⟨p, q, cfg.charges, cfg.dt, 0, false, [], 0⟩) = r := by
    intro r
    unfold start
    rw [hpick, ok_bind, ← hsites, e1, ok_bind, c2, ok_bind, c3, ok_bind, c4, ok_bind]
  have hfeats : p4.world.feats.length ≠ 0 := by
    obtain ⟨i, hi⟩ := hsome 0 hcfg.charges
    have hk := known_iff.1 (hsite 0 i hi).2.2
    intro h0
    apply hk
    rw [← (s4.trace.struct s4.usage.hopsReturn).known, List.length_eq_zero_iff.1 h0]
    rfl
  obtain ⟨r, hr⟩ : ∃ r, (p4.world.step env mem (.initializeWalkers (entries cfg.charges ch.first))).1 = .ok r := by
    obtain ⟨u, w', e⟩ := initWalkers_quiet (s4.trace.struct s4.usage.hopsReturn) (l := entries cfg.charges ch.first) (v := 0)
      ⟨le_rfl, by unfold entries; have := hcfg.fits.2; simpa using this⟩ hquiet (fun a ha => by
        obtain ⟨k, i, -, hi, rfl⟩ := hent a ha
        exact ⟨i, hon4 k i hi, (hsite k i hi).2.2⟩)
    refine ⟨0, ?_⟩
    simp only [World.step, World.initializeWalkers, if_neg hfeats, e]
    rfl
  have c5 := call_of (p := p4) (env := env) (mem := mem) (op := .initializeWalkers (entries cfg.charges ch.first)) (r := r) (by rw [← hr])
  generalize hp5 : (⟨_, _⟩ : Prog K) = p5 at c5
  have s5 := s4.snoc c5 (fun r => by
      refine ⟨⟨r, rfl⟩, hhnd, fun a _ => by rw [i4.act]; exact List.not_mem_nil, ?_, fun a _ h hh => (by rw [i4.act] at hh; cases hh), .inl i4.hop⟩
      intro a ha b hb' hne i hia hib
      obtain ⟨k, j, -, hj, rfl⟩ := hent a ha
      obtain ⟨k', j', -, hj', rfl⟩ := hent b hb'
      have e1 := onSite_unique hia (hon4 k j hj)
      have e2 := onSite_unique hib (hon4 k' j' hj')
      apply hne
      have hk : k < sites.length := (List.getElem?_eq_some_iff.1 hj).1
      have := (List.getElem?_inj hk hnd).1 (hj.trans (by rw [hj', ← e1, ← e2]))
      show (k : Int) = k'
      rw [this])
    (fun _ e => nomatch e) hdraws (fun _ _ e => nomatch e) (fun _ e => nomatch e) (fun _ _ _ _ _ e => nomatch e)
  obtain ⟨r', hstep5, hcalls5⟩ := call_ok c5
  have hinit : ∃ u, p4.world.initWalkers (entries cfg.charges ch.first) = (.ok u, p5.world) := by
    simp only [World.step] at hstep5
    unfold World.initializeWalkers at hstep5
    split at hstep5
    · simp [Except.map] at hstep5
    · cases hw : p4.world.initWalkers (entries cfg.charges ch.first) with
      | mk res w' =>
        rw [hw] at hstep5
        cases res with
        | error e => simp [Except.map] at hstep5
        | ok u =>
          simp only [Prod.mk.injEq] at hstep5
          exact ⟨u, by rw [hstep5.2]⟩
  obtain ⟨u, hinit⟩ := hinit
  have hact5 : active p5.calls = (List.range cfg.charges).map fun k : Nat => (k : Int) := by
    rw [hcalls5, active_snoc, i4.act]
    show [] ++ _ = _
    rw [List.nil_append]
    exact hhandles
  obtain ⟨hgot, -⟩ := initWalkers_calm (s4.trace.struct s4.usage.hopsReturn) hcalm hhnd hinit
  have hwalk : ∀ (k : Nat) i, sites[k]? = some i → ∃ n, p5.world.walkers.get? k = some ⟨i, n, (ch.first k).1 / escapeRate mem m i⟩ := by
    intro k i hi
    have hk : k < cfg.charges := by rw [← hslen]; exact (List.getElem?_eq_some_iff.1 hi).1
    obtain ⟨x, n, hx, hx'⟩ := hgot ⟨(k : Int), (k : Int), (ch.first k).1, (ch.first k).2⟩ (by
      unfold entries
      exact List.mem_map.2 ⟨k, List.mem_range.2 hk, rfl⟩)
    have hx : p4.world.walkers.get? k = some x := hx
    rw [(hsite k i hi).1] at hx
    cases hx
    exact ⟨n, hx'⟩
  have hon5 : ∀ (k : Nat) i, sites[k]? = some i → On p5.world k i := by
    intro k i hi
    obtain ⟨n, hx⟩ := hwalk k i hi
    refine ⟨_, hx, rfl, fun e => ?_⟩
    have h2 := (hsite k i hi).2.1
    rw [e] at h2
    exact absurd h2.1 (by decide)
  -- the queue is made
  have ht : ∀ k ∈ List.range cfg.charges, ∃ x, p5.world.walkers.get? k = some x ∧
      x.dwell = (ch.first k).1 / escapeRate mem m ((sites[k]?).getD 0) := by
    intro k hk
    obtain ⟨i, hi⟩ := hsome k (List.mem_range.1 hk)
    obtain ⟨n, hx⟩ := hwalk k i hi
    exact ⟨_, hx, by rw [hi]; rfl⟩
  have hstart := hprefix
  simp only [c5, ok_bind] at hstart
  rcases createQueue_spec (srt := ch.sort) (cutoff := cfg.cutoffTime) hcfg.charges ht with ⟨q, hq, hqp, hqo, hqs, k0, hk0, hk0'⟩ | ⟨hq, hall⟩
  swap
  · refine .inr ⟨(hstart _).2 (by rw [hq]; rfl), fun k i hi => ?_⟩
    have hk : k < cfg.charges := by rw [← hslen]; exact (List.getElem?_eq_some_iff.1 hi).1
    have := hall k hk
    rw [hi] at this
    exact this
  have hids : (q.entries.map Prod.fst).Perm ((List.range cfg.charges).map fun k : Nat => (k : Int)) := by
    have := hqp.map Prod.fst
    rw [List.map_map] at this
    exact this
  have hmem : ∀ k : Int, k ∈ q.entries.map Prod.fst ↔ 0 ≤ k ∧ k < cfg.charges := by
    intro k
    rw [hids.mem_iff, List.mem_map]
    constructor
    · rintro ⟨j, hj, rfl⟩
      have := List.mem_range.1 hj
      omega
    · rintro ⟨h1, h2⟩
      exact ⟨k.toNat, List.mem_range.2 (by omega), by omega⟩
  have hplane : ∀ k : Int, 0 ≤ k → k < cfg.charges → AtPlane c p5.world k 0 := by
    intro k h1 h2
    obtain ⟨j, rfl⟩ : ∃ j : Nat, k = j := ⟨k.toNat, by omega⟩
    obtain ⟨i, hi⟩ := hsome j (by omega)
    obtain ⟨a, ha, hx⟩ := hf i (List.mem_of_getElem? hi)
    exact ⟨i, a, hon5 j i hi, ha, hx⟩
  refine .inl ⟨_, (hstart _).2 (by rw [hq]; rfl), ?_, ?_, rfl, rfl, ?_, ?_⟩
  · refine ⟨s5, by show List.Perm (q.entries.map Prod.fst) _; rw [hact5]; exact hids, ?_, fun k hk => (hmem k).1 hk, ?_, hqs, hqo, ?_, ?_, ?_, rfl, ?_, ?_⟩
    · show (q.entries.map Prod.fst).Nodup
      rw [hids.nodup_iff, ← hhandles]
      exact hhnd
    · show (cfg.charges : Int) = (q.entries.length : Int)
      rw [hqp.length_eq]
      simp
    · intro e he
      show cfg.dt - cfg.dt ≤ e.2
      rw [sub_self]
      obtain ⟨k, hk, rfl⟩ := List.mem_map.1 (hqp.subset he)
      exact div_nonneg (hch.first k).2.le (escapeRate_nonneg hm _)
    · intro k hk
      obtain ⟨h1, h2⟩ := (hmem k).1 hk
      exact ⟨0, hplane k h1 h2, by omega⟩
    · intro k h1 h2 hk
      exact absurd ((hmem k).2 ⟨h1, h2⟩) hk
    · show cfg.dt = cfg.dt * (((([] : List (Option K × Int)).length : Nat) : K) + 1)
      simp
    · exact ⟨List.Pairwise.nil, fun _ h => nomatch h⟩
  · intro _
    have hz : sumPlanes (planeX c) cfg p5.world = 0 := by
      unfold sumPlanes
      refine List.sum_eq_zero fun x hx => ?_
      obtain ⟨k, hk, rfl⟩ := List.mem_map.1 hx
      obtain ⟨i, hi⟩ := hsome k (List.mem_range.1 hk)
      obtain ⟨n, hx⟩ := hwalk k i hi
      obtain ⟨a, ha, hax⟩ := hf i (List.mem_of_getElem? hi)
      unfold planeOf planeX
      rw [hx]
      simp only
      rw [getX_ok hb ha]
      exact hax
    show (([] : List K).sum) * cfg.dt * cfg.volume + _ = cfg.q * cfg.nm * (sumPlanes (planeX c) cfg p5.world : K)
    rw [hz]
    simp
  · intro k i hi
    have hk : k < cfg.charges := by rw [← hslen]; exact (List.getElem?_eq_some_iff.1 hi).1
    refine ⟨hon5 k i hi, ?_⟩
    show _ ∈ q.entries
    rw [hqp.mem_iff]
    exact List.mem_map.2 ⟨k, List.mem_range.2 hk, by rw [hi]; rfl⟩
  · obtain ⟨i, hi⟩ := hsome k0 hk0
    rw [hi] at hk0'
    exact ⟨k0, i, hi, hk0'⟩

end Mythical.ToF
