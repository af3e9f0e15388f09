import Verif.Lemmas.SystemCounts
import Verif.Lemmas.SystemHands
import Verif.Props.SystemHopSafe
import Verif.Spec.SystemWalk

/-! # Hops in a system without clusters -/

set_option linter.unusedSectionVars false
set_option linter.unusedVariables false

namespace Mythical.World
open Mythical SystemSpec
variable {K : Type} [Field K] [LinearOrder K] [IsStrictOrderedRing K] [FloorRing K]
variable {w w' w1 w2 : World K} {env : Env K} {mem : Addr → K} {act : List Int}

theorem pace_since (evs : List (Event K)) : 0 ≤ (pace evs).since ∧ (pace evs).since ≤ hopsIn evs := by
  induction evs using List.reverseRecOn with
  | nil => simp [pace, hopsIn]
  | append_singleton evs ev ih =>
    obtain ⟨h1, h2⟩ := ih
    rw [pace_snoc]
    have hc : (hopsIn (evs ++ [ev]) : Int) = hopsIn evs + if isHop ev.op then 1 else 0 := by
      unfold hopsIn
      rw [List.countP_append]
      simp [List.countP_cons]
    rw [hc]
    unfold Pace.after
    cases hop : ev.op with
    | hop wid k a =>
      simp only [isHop, if_true]
      split
      · exact ⟨by simp only; omega, by simp only; omega⟩
      · split
        · exact ⟨by simp only; omega, by simp only; omega⟩
        · split
          · exact ⟨by simp only; omega, by simp only; omega⟩
          · exact ⟨by simp only; omega, by simp only; omega⟩
    | setMinThreshold n => simp [isHop, h1, h2]
    | _ => simp [isHop, h1, h2]

theorem visits_le_total {S : IMap (Site K)} (h : ∀ p ∈ S, 0 ≤ p.2.visits) {p : Int × Site K} (hp : p ∈ S) :
    p.2.visits ≤ (S.map fun p => p.2.visits).sum :=
  List.single_le_sum (by
    intro x hx
    obtain ⟨q, hq, rfl⟩ := List.mem_map.1 hx
    exact h q hq) _ (List.mem_map.2 ⟨p, hp, rfl⟩)

/-- A history after which `N` hops can be made, on sites that are in no cluster, before an attempt at coarse graining is due. -/
structure Ready (env : Env K) (mem : Addr → K) (n : Nat) (evs : List (Event K)) (w : World K) (N : Nat) : Prop where
  trace : Trace env (World.new n) evs w
  usage : Usage evs
  fixed : RatesFixed mem evs
  positive : RatesPositive mem evs
  systems : SystemsReturn evs
  draws : Draws evs
  sent : SentToKnown evs
  alone : ∀ c, ¬ SystemSpec.Exists w c
  drain : ∀ i, ¬ Drain w i
  count : walkersIn evs + hopsIn evs + N < 2 ^ 31
  due : (pace evs).since + N ≤ (pace evs).thr

theorem Usage.initsReturn {evs : List (Event K)} (hu : Usage evs) : InitsReturn evs := by
  intro ev he l hop
  obtain ⟨s, t, rfl⟩ := List.append_of_mem he
  have := hu s ev t rfl
  unfold Proper at this
  rw [hop] at this
  exact this.1

theorem Ready.noClusters {n : Nat} {evs : List (Event K)} {N : Nat} (h : Ready env mem n evs w N) : NoClusters w := fun c => by
  have := h.alone c
  rw [exists_iff] at this
  rw [Option.eq_none_iff_forall_ne_some]
  exact fun x hx => this ⟨x, hx⟩

/-- What is known of a site. -/
theorem Ready.site {n : Nat} {evs : List (Event K)} {N : Nat} (h : Ready env mem n evs w N) {i : Int} (hi : w.sites.get? i ≠ none) :
    ∃ s, w.sites.get? i = some s ∧ s.clusterId = unassignedId ∧ w.feat i = .site i ∧ i ≠ unassignedId ∧
      Flag (Taken w (active evs) i) s.occupied ∧ 0 ≤ s.visits ∧ s.visits ≤ (walkersIn evs + hopsIn evs : Nat) ∧
      s.neigh.WF ∧ (∀ na ∈ s.neigh, 0 < mem na.2) ∧ s.Fresh mem ∧ ∀ j ∈ s.neigh.keys, w.sites.get? j ≠ none := by
  obtain ⟨s, hs⟩ := Option.ne_none_iff_exists'.1 hi
  have hr := h.usage.hopsReturn
  have hst := h.trace.struct hr
  obtain ⟨v1, v2⟩ := h.trace.visits hr (Usage.initsReturn h.usage) h.noClusters
  have hc := v1 i s hs
  obtain ⟨g1, g2, g3⟩ := h.trace.good hr h.fixed h.positive i s hs
  have hl := h.trace.live h.usage h.fixed h.positive h.systems h.draws h.sent
  obtain ⟨c1, c2⟩ := hl.closed i s hs
  have hfit := h.trace.fit hr
  have hne : s.neigh ≠ [] := fun e => h.drain i ⟨known_iff.2 hi, by unfold ratesOf; rw [hs]; exact e⟩
  refine ⟨s, hs, hc, ?_, c1, (h.trace.inv h.usage).occup.lone i s hs hc, (hfit i s hs).2, ?_, g1, g2, g3.resolve_left hne, c2⟩
  · unfold feat
    rw [hst.lone i s hs hc]; rfl
  · have hm := IMap.mem_of_get? hs
    have := visits_le_total (S := w.sites) (fun p hp => (hfit p.1 p.2 ((IMap.get?_eq_some_iff hst.sitesWF).2 hp)).2) hm
    unfold totalVisits at v2
    rw [v2] at this
    push_cast
    exact this

theorem siteOf_put {i j : Int} {s : Site K} (h : w.sites.get? j = some s) (s' : Site K) :
    ∃ t, ({ w with sites := w.sites.put i s' } : World K).sites.get? j = some t ∧ t = if i = j then s' else s := by
  show ∃ t, IMap.get? (IMap.set w.sites i s') j = some t ∧ _
  rw [IMap.get?_set]
  split
  · exact ⟨_, rfl, rfl⟩
  · exact ⟨_, h, rfl⟩

/-- The move of a walker on sites that are in no cluster. -/
theorem hopMove_plain {wid h : Int} {a : Choices K} {x : Walker K} {s t : Site K} (hx : w.walkers.get? h = some x)
    (h0 : x.site ≠ unassignedId) (h1 : x.pot ≠ unassignedId) (hs : w.sites.get? x.site = some s)
    (ht : w.sites.get? x.pot = some t) (fs : w.feat x.site = .site x.site) (ft : w.feat x.pot = .site x.pot)
    (os : s.occupied = 1) (ot : t.occupied = 0 ∨ t.occupied = 1) (vs : FitsInt (s.visits + 1)) (vt : FitsInt (t.visits + 1)) :
    ∃ w1, w.hopMove wid h a = .ok (x.pot, w1) := by
  have ex : w.walkerOf h = .ok x := by unfold walkerOf; rw [hx]
  have e1 : walkerSite x = .ok x.site := walkerSite_ok.2 ⟨h0, rfl⟩
  have e2 : walkerPot x = .ok x.pot := walkerPot_ok.2 ⟨h1, rfl⟩
  have hv : s.vacate = .ok { s with occupied := 0 } := by
    unfold Site.vacate
    rw [os, chk_ok (by decide)]; rfl
  have key : ∀ k u, w.sites.get? k = some u → (u.occupied = 0 ∨ u.occupied = 1) → FitsInt (u.visits + 1) →
      ∀ W : World K → K → Int → World K, ∃ w1, (do
        let w1 ← w.vacateAt (.site x.site) x.site
        let w2 ← w1.occupyAt (.site k) k
        let (t, w3) ← w2.dwellAt (.site k) wid a.e
        let (n, w4) ← w3.pickAt (.site k) wid a.u
        (Except.ok (x.pot, W w4 t n) : Except Fault (Int × World K))) = .ok (x.pot, w1) := by
    intro k u hk ho hvis W
    have e3 : w.vacateAt (.site x.site) x.site = .ok { w with sites := w.sites.put x.site { s with occupied := 0 } } := by
      unfold vacateAt
      simp only [siteOf_of hs, ok_bind, hv]
    obtain ⟨u', hu', hue⟩ := siteOf_put (i := x.site) hk { s with occupied := 0 }
    have huo : (u'.occupied = 0 ∨ u'.occupied = 1) ∧ FitsInt (u'.visits + 1) := by
      rw [hue]
      split
      · next e =>
        rw [← e] at hk
        rw [hs] at hk
        cases hk
        exact ⟨.inl rfl, hvis⟩
      · exact ⟨ho, hvis⟩
    have hoc : ∃ u2, u'.occupy = .ok u2 := by
      unfold Site.occupy
      rw [chk_ok (n := u'.occupied + 1) (by rcases huo.1 with e | e <;> rw [e] <;> decide), chk_ok huo.2]
      exact ⟨_, rfl⟩
    obtain ⟨u2, hu2⟩ := hoc
    rw [e3]
    simp only [ok_bind]
    unfold occupyAt
    simp only [siteOf_of hu', ok_bind, hu2]
    have hk2 : ∀ v : World K, v.siteOf k = .ok u2 → ∃ w1, (do
        let (t, w3) ← v.dwellAt (.site k) wid a.e
        let (n, w4) ← w3.pickAt (.site k) wid a.u
        (Except.ok (x.pot, W w4 t n) : Except Fault (Int × World K))) = .ok (x.pot, w1) := by
      intro v hv
      unfold dwellAt
      simp only [hv, ok_bind]
      unfold pickAt
      simp only [hv, ok_bind]
      exact ⟨_, rfl⟩
    exact hk2 _ (siteOf_of (IMap.get?_set_self _ _ _))
  unfold hopMove
  simp only [ex, e1, e2, ok_bind, fs, ft]
  have eo : w.isOccupiedAt (.site x.pot) x.pot = .ok t.isOccupied := by
    unfold isOccupiedAt
    simp only [siteOf_of ht, ok_bind]
  rw [eo]
  simp only [ok_bind]
  split
  · exact key x.site s hs (.inr os) vs fun w t n => { w with walkers := w.walkers.set h { x with dwell := t, pot := n } }
  · exact key x.pot t ht ot vt fun w t n => { w with walkers := w.walkers.set h ⟨x.pot, n, t⟩ }

/-- A hop in such a system. -/
theorem Ready.hop {n : Nat} {evs : List (Event K)} {N : Nat} (hr : Ready env mem n evs w (N + 1)) (wid : Int) {h : Int}
    (hh : h ∈ active evs) (a : Choices K) (hu : SiteSpec.Draw a.u) (he : 0 < a.e) :
    ∃ s w', w.sites.get? (landing (active evs) (placesIn w) h) = some s ∧ s.neigh.WF ∧ (∀ na ∈ s.neigh, 0 < mem na.2) ∧ s.Fresh mem ∧
      w.step env mem (.hop wid h a) = (.ok 0, w') ∧
      w'.walkers = w.walkers.set h ⟨landing (active evs) (placesIn w) h, s.pickNewSiteId a.u, s.getDwellTime a.e⟩ ∧
      (∀ i, Option.Rel Same (w.sites.get? i) (w'.sites.get? i)) ∧
      Ready env mem n (evs ++ [⟨w, mem, .hop wid h a, .ok 0, w'⟩]) w' N := by
  have hst := hr.trace.struct hr.usage.hopsReturn
  obtain ⟨x, hx, hon, hk1, hk2⟩ := C60_known env mem n evs w hr.trace hr.usage hr.fixed hr.positive hr.systems hr.draws hr.sent h hh
  have hk2 := hk2.resolve_right (hr.drain _)
  rw [known_iff] at hk1 hk2
  obtain ⟨s, hs, c1, f1, n1, o1, v1, v1', -⟩ := hr.site hk1
  obtain ⟨t, ht, c2, f2, n2, o2, v2, v2', -⟩ := hr.site hk2
  have hcount := hr.count
  have hcast : ((walkersIn evs + hopsIn evs : Nat) : Int) + N + 1 < 2 ^ 31 := by exact_mod_cast (by omega)
  have ot : t.occupied = 0 ∨ t.occupied = 1 := by
    by_cases c : Taken w (active evs) x.pot
    · exact .inr (o2.1 c)
    · exact .inl (o2.2 c)
  obtain ⟨w1, hm⟩ := hopMove_plain (wid := wid) (a := a) hx n1 n2 hs ht f1 f2 (o1.1 ⟨h, hh, hon⟩) ot
    (fitsInt_of (by omega) (by omega)) (fitsInt_of (by omega) (by omega))
  obtain ⟨x', b, m, d, hx', -, -, -, hb, hho, hwalk⟩ := hopMove_hands hst hm
  rw [hx] at hx'
  cases hx'
  have hk := hst.hopMove_keep hm
  obtain ⟨p1, p2, p3⟩ := hr.trace.pace hr.usage.hopsReturn
  obtain ⟨q1, q2, q3, -⟩ := hopMove_scalars hm
  obtain ⟨r1, r2⟩ := pace_since evs
  have hdue := hr.due
  push_cast at hdue
  have hopsle : (hopsIn evs : Int) ≤ ((walkersIn evs + hopsIn evs : Nat) : Int) := by push_cast; omega
  have hcnt : hopCount env mem w1 a x.pot = (.ok (), { w1 with iteration := w.iteration + 1 }) := by
    unfold hopCount
    rw [q1, chk_ok (fitsInt_of (by omega) (by omega))]
    simp only
    rw [if_neg (by omega)]
  -- where the walker lands
  have hflag : b = true ↔ Taken w (active evs) x.pot := (hr.trace.inv hr.usage).occup.flag hst hb
  have hpl : placesIn w h = (x.site, x.pot) := by unfold placesIn; rw [hx]
  have htk : Taken w (active evs) x.pot ↔ ∃ h' ∈ active evs, (placesIn w h').1 = (placesIn w h).2 := by
    rw [hpl]
    constructor
    · rintro ⟨h', hh', y, hy, e, -⟩
      exact ⟨h', hh', by unfold placesIn; rw [hy]; exact e⟩
    · rintro ⟨h', hh', e⟩
      refine ⟨h', hh', ?_⟩
      unfold placesIn at e
      cases hy : w.walkers.get? h' with
      | none => rw [hy] at e; exact absurd e.symm n2
      | some y => rw [hy] at e; exact ⟨y, hy, e, n2⟩
  have hland : (if b then x.site else x.pot) = landing (active evs) (placesIn w) h := by
    unfold landing
    cases b with
    | true => rw [if_pos (htk.1 (hflag.1 rfl)), hpl]; rfl
    | false =>
      have hno : ¬ ∃ h' ∈ active evs, (placesIn w h').1 = (placesIn w h).2 := fun e => by
        have := hflag.2 (htk.2 e)
        cases this
      rw [if_neg hno, hpl]; rfl
  rw [hland] at hho hwalk
  have hkl : w.sites.get? (landing (active evs) (placesIn w) h) ≠ none := by
    rw [← hland]; split
    · exact hk1
    · exact hk2
  obtain ⟨u, hu', c3, -, -, -, -, -, g1, g2, g3, -⟩ := hr.site hkl
  obtain ⟨u'', hu'', hho⟩ := hho
  rw [hu'] at hu''
  cases hu''
  rcases hho with ⟨-, rfl, rfl⟩ | ⟨c, -⟩
  swap
  · exact absurd c3 c
  have hstep : w.step env mem (.hop wid h a) = (.ok 0, { w1 with iteration := w.iteration + 1 }) := by
    show ((w.hop env mem wid h a).1.map fun _ => 0, (w.hop env mem wid h a).2) = _
    unfold World.hop
    rw [hm]
    simp only [hcnt]
    rfl
  refine ⟨u, _, hu', g1, g2, g3, hstep, hwalk, fun i => hk.site i, ?_⟩
  · have hcl : w1.clusters.keys = w.clusters.keys := hk.clusterKeys
    have hmem : ∀ (P : Event K → Prop), (∀ ev ∈ evs, P ev) → P ⟨w, mem, .hop wid h a, .ok 0, { w1 with iteration := w.iteration + 1 }⟩ →
        ∀ ev ∈ evs ++ [⟨w, mem, .hop wid h a, .ok 0, { w1 with iteration := w.iteration + 1 }⟩], P ev := by
      intro P h1 h2 ev hev
      rcases List.mem_append.1 hev with hev | hev
      · exact h1 ev hev
      · rw [List.mem_singleton.1 hev]; exact h2
    refine ⟨.snoc mem hr.trace hstep trivial, ?_, hmem _ hr.fixed rfl, hmem _ hr.positive fun m hm => (nomatch hm),
      hmem _ hr.systems fun m hm => (nomatch hm), hmem _ hr.draws ⟨hu, he⟩, hmem _ hr.sent fun _ _ hm => (nomatch hm), ?_, ?_, ?_, ?_⟩
    · intro before ev after e
      rcases List.eq_nil_or_concat after with rfl | ⟨after', last, rfl⟩
      · obtain ⟨rfl, e2⟩ := List.append_inj' (s₁ := evs) e (by simp)
        cases e2
        exact ⟨hh, 0, rfl⟩
      · have : evs ++ [⟨w, mem, .hop wid h a, .ok 0, { w1 with iteration := w.iteration + 1 }⟩] = (before ++ ev :: after') ++ [last] := by
          rw [e]; simp
        obtain ⟨rfl, -⟩ := List.append_inj' this (by simp)
        exact hr.usage before ev after' rfl
    · intro c hc
      apply hr.alone c
      rw [exists_iff, ← IMap.mem_keys_iff_get?] at hc ⊢
      rw [← hcl]
      exact hc
    · rintro i ⟨hi, hi2⟩
      apply hr.drain i
      rw [known_iff] at hi
      change w1.sites.get? i ≠ none at hi
      obtain ⟨s', hs'⟩ := Option.ne_none_iff_exists'.1 hi
      obtain ⟨t', ht', hsm⟩ := rel_some (hs' ▸ hk.site i)
      refine ⟨known_iff.2 (by rw [ht']; exact fun e => (nomatch e)), ?_⟩
      change (match w1.sites.get? i with | none => [] | some s => s.neigh) = [] at hi2
      rw [hs'] at hi2
      unfold ratesOf
      rw [ht']
      show t'.neigh = []
      rw [← hsm.neigh]
      exact hi2
    · have hw : walkersIn (evs ++ [⟨w, mem, .hop wid h a, .ok 0, { w1 with iteration := w.iteration + 1 }⟩]) = walkersIn evs := by
        simp [walkersIn, newWalkers]
      have hh : hopsIn (evs ++ [⟨w, mem, .hop wid h a, .ok 0, { w1 with iteration := w.iteration + 1 }⟩]) = hopsIn evs + 1 := by
        simp [hopsIn, isHop]
      rw [hw, hh]
      omega
    · rw [pace_snoc]
      unfold Pace.after
      simp only
      rw [if_pos (by omega)]
      simp only
      omega

end Mythical.World
