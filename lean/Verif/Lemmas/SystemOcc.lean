import Verif.Lemmas.SystemInit

/-! # Occupation of the sites -/

set_option linter.unusedSectionVars false
set_option linter.unusedVariables false

namespace Mythical.World
open Mythical SystemSpec
variable {K : Type} [Field K] [LinearOrder K] [IsStrictOrderedRing K] [FloorRing K]
variable {w w' w1 w2 : World K} {env : Env K} {mem : Addr → K} {act act' : List Int}

/-- Some walker in the system is on the site. -/
def Taken (w : World K) (act : List Int) (i : Int) : Prop := ∃ h ∈ act, On w h i

/-- The count that goes with a proposition. -/
def Flag (P : Prop) (o : Int) : Prop := (P → o = 1) ∧ (¬ P → o = 0)

/-- The occupation counts are right, and the walkers in the system are on different known sites. -/
structure Occup (w : World K) (act : List Int) : Prop where
  lone : ∀ i s, w.sites.get? i = some s → s.clusterId = unassignedId → Flag (Taken w act i) s.occupied
  joined : ∀ c x i s, w.clusters.get? c = some x → x.sites.get? i = some s → Flag (Taken w act i) s.occupied
  placed : ∀ h ∈ act, ∃ i, On w h i ∧ w.sites.get? i ≠ none
  apart : ∀ h ∈ act, ∀ h' ∈ act, ∀ i, On w h i → On w h' i → h = h'

theorem Occup.new (n : Nat) : Occup (World.new n : World K) [] where
  lone i s h := by cases h
  joined c x i s h := by cases h
  placed h hh := by cases hh
  apart h hh := by cases hh

theorem on_congr (h : w'.walkers = w.walkers) (k i : Int) : On w' k i ↔ On w k i := by unfold On; rw [h]

theorem taken_congr (h : w'.walkers = w.walkers) (i : Int) : Taken w' act i ↔ Taken w act i := by
  unfold Taken; simp only [on_congr h]

theorem on_unique {h i j : Int} (h1 : On w h i) (h2 : On w h j) : i = j := by
  obtain ⟨x, hx, hi, -⟩ := h1
  obtain ⟨y, hy, hj, -⟩ := h2
  rw [hx] at hy; cases hy; exact hi.symm.trans hj

theorem flag_congr {P Q : Prop} {o : Int} (h : P ↔ Q) : Flag P o ↔ Flag Q o := by rw [propext h]

theorem on_set {h k i : Int} {x : Walker K} :
    On { w with walkers := w.walkers.set h x } k i ↔ if h = k then x.site = i ∧ i ≠ unassignedId else On w k i := by
  unfold On
  simp only
  by_cases e : h = k
  · subst e; rw [IMap.get?_set_self]; simp
  · rw [IMap.get?_set_ne _ _ e]; simp [e]

/-- The flag that `hop` consults is right. -/
theorem Occup.flag (hst : Struct env w) (ho : Occup w act) {i : Int} {b : Bool} (h : w.isOccupiedAt (w.feat i) i = .ok b) :
    (b = true ↔ Taken w act i) := by
  have key : ∀ o : Int, Flag (Taken w act i) o → (decide (o > 0) = true ↔ Taken w act i) := by
    intro o hf
    rw [decide_eq_true_iff]
    by_cases ht : Taken w act i
    · rw [hf.1 ht]; simp [ht]
    · rw [hf.2 ht]; simp [ht]
  rcases hst.feat_cases i with ⟨a, -⟩ | ⟨s, a, hs, hc⟩ | ⟨s, a, hs, hc, hd⟩
  · rw [a] at h; cases h
  · rw [a] at h
    unfold isOccupiedAt at h
    obtain ⟨t, ht, h⟩ := bind_eq_ok.1 h
    have ht := siteOf_ok ht
    rw [hs] at ht; cases ht
    cases h
    exact key _ (ho.lone i s hs hc)
  · rw [a] at h
    unfold isOccupiedAt at h
    obtain ⟨x, hx, h⟩ := bind_eq_ok.1 h
    have hx := clusterOf_ok hx
    obtain ⟨t, ht⟩ := hd x hx
    unfold Cluster.isOccupiedSite at h
    rw [ht] at h
    cases h
    exact key _ (ho.joined _ x i t hx ht)

/-- The counts after a change. -/
theorem Occup.counts {R : Int → Int → Int → Prop} {W : IMap (Walker K)} (ho : Occup w act) (hs : Step env R w w1)
    (hR : ∀ j a b, R j a b → Flag (Taken w act j) a → Flag (Taken { w1 with walkers := W } act' j) b)
    (hp : ∀ h ∈ act', ∃ i, On { w1 with walkers := W } h i ∧ w.sites.get? i ≠ none)
    (ha : ∀ h ∈ act', ∀ h' ∈ act', ∀ i, On { w1 with walkers := W } h i → On { w1 with walkers := W } h' i → h = h') :
    Occup { w1 with walkers := W } act' where
  lone i s e hc := by
    obtain ⟨t, ht, hk, hr⟩ := rel_some (e ▸ hs.site i)
    have hcu : t.clusterId = unassignedId := by rw [← hk.clusterId]; exact hc
    exact hR i _ _ (hr hcu) (ho.lone i t ht hcu)
  joined c x i s e e' := by
    obtain ⟨y, hy, hk⟩ := rel_some (e ▸ hs.cluster c)
    obtain ⟨t, ht, -, hr⟩ := rel_some (e' ▸ hk.site i)
    exact hR i _ _ hr (ho.joined c y i t hy ht)
  placed h hh := by
    obtain ⟨i, h1, h2⟩ := hp h hh
    exact ⟨i, h1, by rw [Ne]; show ¬ w1.sites.get? i = none; rw [← rel_none (hs.site i)]; exact h2⟩
  apart := ha

/-- Walkers other than those in the system may be changed. -/
theorem Occup.others {W : IMap (Walker K)} (ho : Occup w act) (hW : ∀ h ∈ act, ∀ i, On { w with walkers := W } h i ↔ On w h i) :
    Occup { w with walkers := W } act := by
  refine ho.counts (env := ⟨⟨fun l => (l.mergeSort fun x y => decide (y.2 ≤ x.2)), fun l => List.mergeSort_perm .., ?_⟩, 0⟩)
    (R := Equal) (Step.refl equal_self w) ?_ ?_ ?_
  · intro l
    have := List.pairwise_mergeSort (le := fun x y : Int × K => decide (y.2 ≤ x.2))
      (fun a b c h1 h2 => by simp only [decide_eq_true_eq] at *; exact h2.trans h1)
      (fun a b => by simp only [Bool.or_eq_true, decide_eq_true_eq]; exact le_total _ _) l
    simpa using this
  · intro j a b hab hf
    cases hab
    refine (flag_congr ?_).1 hf
    unfold Taken
    constructor
    · rintro ⟨h, hh, ho⟩; exact ⟨h, hh, (hW h hh j).2 ho⟩
    · rintro ⟨h, hh, ho⟩; exact ⟨h, hh, (hW h hh j).1 ho⟩
  · intro h hh
    obtain ⟨i, h1, h2⟩ := ho.placed h hh
    exact ⟨i, (hW h hh i).2 h1, h2⟩
  · intro h hh h' hh' i h1 h2
    exact ho.apart h hh h' hh' i ((hW h hh i).1 h1) ((hW h' hh' i).1 h2)

/-- The change of the counts in a hop from `i` to `k`. -/
def Moved (i k j a b : Int) : Prop := ∃ m, Less i j a m ∧ More k j m b

/-- The move of a walker. -/
theorem Struct.hopMove (hst : Struct env w) {wid h j : Int} {a : Choices K} (e : w.hopMove wid h a = .ok (j, w')) :
    ∃ x b n t w4, w.walkers.get? h = some x ∧ x.site ≠ unassignedId ∧ x.pot ≠ unassignedId ∧ j = x.pot ∧
      w.isOccupiedAt (w.feat x.pot) x.pot = .ok b ∧ w.sites.get? (if b then x.site else x.pot) ≠ none ∧
      Step env (Moved x.site (if b then x.site else x.pot)) w w4 ∧
      w' = { w4 with walkers := w.walkers.set h ⟨if b then x.site else x.pot, n, t⟩ } := by
  obtain ⟨x, b, w1, w2, t, w3, n, w4, hx, h0, h0', hj, hb, h1, h2, h3, h4, rfl⟩ := hopMove_ok e
  have s1 := hst.vacateAt h1
  have st1 := hst.step s1
  rw [← s1.inner.feat] at h2
  have s2 := st1.occupyAt h2
  have st2 := st1.step s2
  have s3 := st2.dwellAt h3
  have st3 := st2.step s3
  have s4 := st3.pickAt h4
  have s12 : Step env (Moved x.site (if b then x.site else x.pot)) w w2 :=
    s1.trans (fun j a m c r1 r2 => ⟨m, r1, r2⟩) s2
  have s34 : Step env Equal w2 w4 := s3.trans (fun j a m c r1 r2 => r2.trans r1) s4
  have s := s12.trans (T := Moved x.site (if b then x.site else x.pot)) (fun j a m c r1 r2 => by cases r2; exact r1) s34
  refine ⟨x, b, n, t, w4, hx, h0, h0', hj, hb, ?_, s, by rw [s.inner.walkers]⟩
  intro hn
  rw [s1.inner.feat, feat_null ((hst.known _).2 hn)] at h2
  cases h2

theorem Occup.hopMove (hst : Struct env w) (ho : Occup w act) {wid h j : Int} {a : Choices K} (hh : h ∈ act)
    (e : w.hopMove wid h a = .ok (j, w')) : Struct env w' ∧ Occup w' act := by
  obtain ⟨x, b, n, t, w4, hx, h0, h0', hj, hb, hk, hs, rfl⟩ := hst.hopMove e
  have st4 := hst.step hs
  refine ⟨⟨st4.sitesWF, st4.featsWF, st4.clustersWF, st4.next, st4.siteId, st4.known, st4.cid, st4.trace, st4.member,
    st4.disjoint, st4.lone, st4.joined⟩, ?_⟩
  have hon : On w h x.site := ⟨x, hx, rfl, h0⟩
  have hbk := ho.flag hst hb
  generalize hk' : (if b = true then x.site else x.pot) = k at *
  have hkn : k ≠ unassignedId := by rw [← hk']; split <;> assumption
  have hfree : k = x.site ∨ ¬ Taken w act k := by
    cases b with
    | true => left; rw [← hk']; simp
    | false =>
      right
      rw [← hk']
      simp only [Bool.false_eq_true, if_false]
      exact fun ht => by simpa using hbk.2 ht
  have hWon : ∀ k' i, On { w4 with walkers := w.walkers.set h ⟨k, n, t⟩ } k' i ↔
      if h = k' then k = i else On w k' i := by
    intro k' i
    have := on_set (w := w) (h := h) (k := k') (i := i) (x := (⟨k, n, t⟩ : Walker K))
    rw [← on_congr (w := { w with walkers := w.walkers.set h ⟨k, n, t⟩ })
      (w' := { w4 with walkers := w.walkers.set h ⟨k, n, t⟩ }) rfl] at this
    rw [this]
    by_cases e : h = k'
    · simp only [e, if_true]
      exact ⟨fun h => h.1, fun e => ⟨e, e ▸ hkn⟩⟩
    · simp only [e, if_false]
  -- the walkers stay apart
  have hap : ∀ h1 ∈ act, ∀ i, On { w4 with walkers := w.walkers.set h ⟨k, n, t⟩ } h i →
      On { w4 with walkers := w.walkers.set h ⟨k, n, t⟩ } h1 i → h = h1 := by
    intro h1 hh1 i o1 o2
    by_contra hne
    rw [hWon, if_pos rfl] at o1
    rw [hWon, if_neg hne] at o2
    subst o1
    rcases hfree with e | e
    · exact hne (ho.apart h hh h1 hh1 _ (e ▸ hon) o2)
    · exact e ⟨h1, hh1, o2⟩
  refine ho.counts hs ?_ ?_ ?_
  · rintro l o1 o3 ⟨o2, r1, r2⟩ hf
    unfold Less at r1
    unfold More at r2
    by_cases hlk : l = k
    · -- the site of the walker afterwards
      subst hlk
      have ht' : Taken { w4 with walkers := w.walkers.set h ⟨l, n, t⟩ } act l :=
        ⟨h, hh, by rw [hWon, if_pos rfl]⟩
      refine ⟨fun _ => ?_, fun hn => absurd ht' hn⟩
      rw [if_pos rfl] at r2
      apply r2
      by_cases hli : l = x.site
      · rw [if_pos hli] at r1
        rw [r1, hf.1 ⟨h, hh, hli ▸ hon⟩]; rfl
      · rw [if_neg hli] at r1
        rw [r1]
        exact hf.2 (hfree.resolve_left hli)
    · rw [if_neg hlk] at r2
      subst r2
      by_cases hli : l = x.site
      · rw [if_pos hli] at r1
        subst hli
        have hnt : ¬ Taken { w4 with walkers := w.walkers.set h ⟨k, n, t⟩ } act x.site := by
          rintro ⟨h1, hh1, o⟩
          rw [hWon] at o
          split at o
          · exact hlk o.symm
          · next hne => exact hne (ho.apart h hh h1 hh1 _ hon o)
        refine ⟨fun ht => absurd ht hnt, fun _ => ?_⟩
        rw [r1, hf.1 ⟨h, hh, hon⟩]; rfl
      · rw [if_neg hli] at r1
        subst r1
        refine (flag_congr ?_).1 hf
        unfold Taken
        constructor
        · rintro ⟨h1, hh1, o⟩
          refine ⟨h1, hh1, ?_⟩
          rw [hWon, if_neg]
          · exact o
          · rintro rfl; exact hli (on_unique o hon)
        · rintro ⟨h1, hh1, o⟩
          rw [hWon] at o
          split at o
          · exact absurd o.symm hlk
          · exact ⟨h1, hh1, o⟩
  · intro h1 hh1
    by_cases e : h = h1
    · subst e
      exact ⟨k, by rw [hWon, if_pos rfl], hk⟩
    · obtain ⟨i, a1, a2⟩ := ho.placed h1 hh1
      exact ⟨i, by rw [hWon, if_neg e]; exact a1, a2⟩
  · intro h1 hh1 h2 hh2 i o1 o2
    by_cases e1 : h = h1
    · subst e1; exact hap h2 hh2 i o1 o2
    · by_cases e2 : h = h2
      · subst e2; exact (hap h1 hh1 i o2 o1).symm
      · rw [hWon, if_neg e1] at o1
        rw [hWon, if_neg e2] at o2
        exact ho.apart h1 hh1 h2 hh2 i o1 o2

/-- Removal of a walker. -/
theorem Occup.removeWalker (hst : Struct env w) (ho : Occup w act) {wid h : Int} (hh : h ∈ act)
    (e : w.removeWalker wid h = .ok w') : Struct env w' ∧ Occup w' (act.filter fun k => k ≠ h) := by
  obtain ⟨x, hx, h0, hr⟩ := removeWalker_ok e
  have hs := hst.removeAt hr
  refine ⟨hst.step hs, ?_⟩
  have hon : On w h x.site := ⟨x, hx, rfl, h0⟩
  have hmem : ∀ k, (k ∈ act.filter fun k => k ≠ h) ↔ k ∈ act ∧ k ≠ h := by intro k; simp
  have hw : w' = { w' with walkers := w.walkers } := by rw [← hs.inner.walkers]
  have hOn : ∀ k i, On { w' with walkers := w.walkers } k i ↔ On w k i := fun k i => on_congr rfl k i
  rw [hw]
  refine ho.counts hs ?_ ?_ ?_
  · intro l a b r hf
    unfold Less at r
    by_cases hl : l = x.site
    · rw [if_pos hl] at r
      subst hl
      have hnt : ¬ Taken { w' with walkers := w.walkers } (act.filter fun k => k ≠ h) x.site := by
        rintro ⟨k, hk, o⟩
        rw [hmem] at hk
        exact hk.2 (ho.apart k hk.1 h hh _ ((hOn _ _).1 o) hon)
      refine ⟨fun ht => absurd ht hnt, fun _ => ?_⟩
      rw [r, hf.1 ⟨h, hh, hon⟩]; rfl
    · rw [if_neg hl] at r
      subst r
      refine (flag_congr ?_).1 hf
      unfold Taken
      constructor
      · rintro ⟨k, hk, o⟩
        refine ⟨k, (hmem k).2 ⟨hk, ?_⟩, (hOn _ _).2 o⟩
        rintro rfl
        exact hl (on_unique o hon)
      · rintro ⟨k, hk, o⟩
        exact ⟨k, ((hmem k).1 hk).1, (hOn _ _).1 o⟩
  · intro k hk
    obtain ⟨i, a1, a2⟩ := ho.placed k ((hmem k).1 hk).1
    exact ⟨i, (hOn _ _).2 a1, a2⟩
  · intro k hk k' hk' i o1 o2
    exact ho.apart k ((hmem k).1 hk).1 k' ((hmem k').1 hk').1 i ((hOn _ _).1 o1) ((hOn _ _).1 o2)

/-- A walker on a lone site enters the system. -/
theorem Occup.initWalker (hst : Struct env w) (ho : Occup w act) {a : Entry K} (ha : a.handle ∉ act)
    (hfree : ∀ i, On w a.handle i → ¬ Taken w act i)
    (hl : ∀ i s, On w a.handle i → w.sites.get? i = some s → s.clusterId = unassignedId)
    (e : w.initWalker a = .ok w') :
    Struct env w' ∧ Occup w' (act ++ [a.handle]) ∧ (∀ k i, On w' k i ↔ On w k i) ∧
    ∃ w3, Step env (More ((w.walkers.get? a.handle).elim 0 (·.site))) w w3 ∧ ∃ W, w' = { w3 with walkers := W } := by
  obtain ⟨x, w1, t, w2, n, w3, hx, h0, hk, h1, h2, h3, rfl⟩ := initWalker_ok e
  have hon : On w a.handle x.site := ⟨x, hx, rfl, h0⟩
  have hfe : w.feat x.site = .site x.site := by
    rcases hst.feat_cases x.site with ⟨a, b⟩ | ⟨s, a, b, c⟩ | ⟨s, a, b, c, d⟩
    · rw [a] at h1; cases h1
    · exact a
    · exact absurd (hl _ s hon b) c
  obtain ⟨s0, hs0⟩ : ∃ s, w.sites.get? x.site = some s := by
    rw [hfe] at h1
    rcases occupyFeat_ok h1 with ⟨id, hp, s, s', hs, -⟩ | ⟨id, hp, -⟩
    · cases hp; exact ⟨s, hs⟩
    · cases hp
  have s1 := hst.occupyFeat hfe h1
  have st1 := hst.step s1
  have s2 := st1.dwellAt h2
  have st2 := st1.step s2
  have s3 := st2.pickAt h3
  have s23 : Step env Equal w1 w3 := s2.trans (fun j a m c r1 r2 => r2.trans r1) s3
  have s := s1.trans (T := More x.site) (fun j a m c r1 r2 => by cases r2; exact r1) s23
  have st3 := hst.step s
  have hWon : ∀ k i, On { w3 with walkers := w3.walkers.set a.handle { x with dwell := t, pot := n } } k i ↔ On w k i := by
    intro k i
    rw [on_set]
    split
    · next e =>
      subst e
      constructor
      · rintro ⟨e, h⟩; exact ⟨x, hx, e, h⟩
      · intro o; exact ⟨on_unique hon o, by obtain ⟨_, _, _, h⟩ := o; exact h⟩
    · exact on_congr s.inner.walkers k i
  refine ⟨⟨st3.sitesWF, st3.featsWF, st3.clustersWF, st3.next, st3.siteId, st3.known, st3.cid, st3.trace, st3.member,
    st3.disjoint, st3.lone, st3.joined⟩, ?_, hWon, w3, by rw [hx]; exact s, _, rfl⟩
  have hmem : ∀ k, k ∈ act ++ [a.handle] ↔ k ∈ act ∨ k = a.handle := by intro k; simp
  refine ho.counts s ?_ ?_ ?_
  · intro l c d r hf
    unfold More at r
    by_cases hli : l = x.site
    · rw [if_pos hli] at r
      subst hli
      have ht : Taken { w3 with walkers := w3.walkers.set a.handle { x with dwell := t, pot := n } } (act ++ [a.handle]) x.site :=
        ⟨a.handle, by simp, (hWon _ _).2 hon⟩
      exact ⟨fun _ => r (hf.2 (hfree _ hon)), fun hn => absurd ht hn⟩
    · rw [if_neg hli] at r
      subst r
      refine (flag_congr ?_).1 hf
      unfold Taken
      constructor
      · rintro ⟨k, hk, o⟩; exact ⟨k, (hmem k).2 (.inl hk), (hWon _ _).2 o⟩
      · rintro ⟨k, hk, o⟩
        have o := (hWon _ _).1 o
        rcases (hmem k).1 hk with hk | rfl
        · exact ⟨k, hk, o⟩
        · exact absurd (on_unique o hon) hli
  · intro k hk
    rcases (hmem k).1 hk with hk | rfl
    · obtain ⟨i, a1, a2⟩ := ho.placed k hk
      exact ⟨i, (hWon _ _).2 a1, a2⟩
    · exact ⟨x.site, (hWon _ _).2 hon, by rw [hs0]; simp⟩
  · intro k hk k' hk' i o1 o2
    have o1 := (hWon _ _).1 o1
    have o2 := (hWon _ _).1 o2
    rcases (hmem k).1 hk with hk | rfl <;> rcases (hmem k').1 hk' with hk' | rfl
    · exact ho.apart k hk k' hk' i o1 o2
    · exact absurd ⟨k, hk, o1⟩ (hfree i o2)
    · exact absurd ⟨k', hk', o2⟩ (hfree i o1)
    · rfl

theorem Occup.initWalkers (hst : Struct env w) (ho : Occup w act) {l : List (Entry K)}
    (hn : (l.map (·.handle)).Nodup) (ha : ∀ a ∈ l, a.handle ∉ act)
    (hd : ∀ a ∈ l, ∀ b ∈ l, a.handle ≠ b.handle → ∀ i, On w a.handle i → ¬ On w b.handle i)
    (hfree : ∀ a ∈ l, ∀ i, On w a.handle i → ¬ Taken w act i)
    (hl : ∀ a ∈ l, ∀ i s, On w a.handle i → w.sites.get? i = some s → s.clusterId = unassignedId)
    (e : w.initWalkers l = (.ok (), w')) :
    Struct env w' ∧ Occup w' (act ++ l.map (·.handle)) ∧ (∀ k i, On w' k i ↔ On w k i) ∧
    ∀ i, (w'.sites.get? i).map (·.clusterId) = (w.sites.get? i).map (·.clusterId) := by
  induction l generalizing w act with
  | nil =>
    unfold World.initWalkers at e
    simp only [Prod.mk.injEq, true_and] at e
    subst e
    exact ⟨hst, by simpa using ho, fun _ _ => Iff.rfl, fun _ => rfl⟩
  | cons a l ih =>
    unfold World.initWalkers at e
    split at e
    · simp at e
    · next w1 h1 =>
      rw [List.map_cons, List.nodup_cons] at hn
      obtain ⟨st1, o1, on1, w3, s3, W, hw3⟩ := ho.initWalker hst (ha a (List.mem_cons_self ..)) (hfree a (List.mem_cons_self ..))
        (hl a (List.mem_cons_self ..)) h1
      have hsite : ∀ i, (w1.sites.get? i).map (·.clusterId) = (w.sites.get? i).map (·.clusterId) := by
        intro i
        have := s3.site i
        rw [hw3]
        show (w3.sites.get? i).map _ = _
        cases e0 : w.sites.get? i with
        | none => rw [(rel_none this).1 e0]
        | some s =>
          obtain ⟨s', hs', hk, -⟩ := rel_some' (e0 ▸ this)
          rw [hs']; simp [hk.clusterId]
      have hne : ∀ b ∈ l, b.handle ≠ a.handle := by
        intro b hb e
        exact hn.1 (e ▸ List.mem_map_of_mem hb)
      obtain ⟨r1, r2, r3, r4⟩ := ih st1 o1 hn.2
        (by
          intro b hb
          rw [List.mem_append, List.mem_singleton, not_or]
          exact ⟨ha b (List.mem_cons_of_mem _ hb), hne b hb⟩)
        (by
          intro b hb c hc hne i
          rw [on1, on1]
          exact hd b (List.mem_cons_of_mem _ hb) c (List.mem_cons_of_mem _ hc) hne i)
        (by
          rintro b hb i o ⟨k, hk, o'⟩
          rw [on1] at o o'
          rw [List.mem_append, List.mem_singleton] at hk
          rcases hk with hk | rfl
          · exact hfree b (List.mem_cons_of_mem _ hb) i o ⟨k, hk, o'⟩
          · exact hd b (List.mem_cons_of_mem _ hb) a (List.mem_cons_self ..) (hne b hb) i o o')
        (by
          intro b hb i s o hs
          rw [on1] at o
          have := hsite i
          rw [hs] at this
          obtain ⟨s', hs', e⟩ := Option.map_eq_some_iff.1 this.symm
          have e : s'.clusterId = s.clusterId := e
          rw [← e]
          exact hl b (List.mem_cons_of_mem _ hb) i s' o hs') e
      refine ⟨r1, by simpa using r2, fun k i => (r3 k i).trans (on1 k i), fun i => (r4 i).trans (hsite i)⟩

theorem Occup.created {basin : List Int} {c : Cluster K} (ho : Occup w act) (hst : Struct env w)
    (hc : Created env w w' basin c) : Occup w' act := by
  have hw : w'.walkers = w.walkers := by rw [hc.eq]
  have hu := unassigned_neg
  have hn := hst.next
  refine ⟨?_, ?_, ?_, ?_⟩
  · intro i s hs hcs
    rw [hc.site] at hs
    rw [flag_congr (taken_congr hw i)]
    split at hs
    · obtain ⟨t, ht, rfl⟩ := Option.map_eq_some_iff.1 hs
      change w.nextId = _ at hcs
      omega
    · exact ho.lone i s hs hcs
  · intro k x i s hx hs
    rw [hc.cluster] at hx
    rw [flag_congr (taken_congr hw i)]
    split at hx
    · cases hx
      rw [hc.sites] at hs
      split at hs
      · next hi =>
        obtain ⟨t, ht, rfl⟩ := Option.map_eq_some_iff.1 hs
        obtain ⟨t', ht', hu'⟩ := hc.lone i hi
        rw [ht] at ht'; cases ht'
        exact ho.lone i t ht hu'
      · cases hs
    · exact ho.joined k x i s hx hs
  · intro h hh
    obtain ⟨i, h1, h2⟩ := ho.placed h hh
    refine ⟨i, (on_congr hw h i).2 h1, ?_⟩
    rw [hc.site]
    split
    · rw [Ne, Option.map_eq_none_iff]; exact h2
    · exact h2
  · intro h hh h' hh' i o o'
    exact ho.apart h hh h' hh' i ((on_congr hw h i).1 o) ((on_congr hw h' i).1 o')

theorem Occup.merged {basin : List Int} {fav : Int} {c d : Cluster K} {erased : List Int} (ho : Occup w act)
    (hst : Struct env w) (hm : Merged env w w' basin fav c d erased) : Occup w' act := by
  have hw : w'.walkers = w.walkers := by rw [hm.eq]
  have hu := unassigned_neg
  obtain ⟨-, hf0, -⟩ := hst.cid fav c hm.target
  refine ⟨?_, ?_, ?_, ?_⟩
  · intro i s hs hcs
    rw [hm.site] at hs
    rw [flag_congr (taken_congr hw i)]
    split at hs
    · obtain ⟨t, ht, rfl⟩ := Option.map_eq_some_iff.1 hs
      change fav = _ at hcs
      omega
    · exact ho.lone i s hs hcs
  · intro k x i s hx hs
    rw [hm.cluster] at hx
    rw [flag_congr (taken_congr hw i)]
    split at hx
    · cases hx
      rcases (hm.sites i s).1 hs with hs | ⟨hi, t, ht, htu, rfl⟩ | ⟨k', hk', x', t, hx', ht, rfl⟩
      · exact ho.joined fav c i s hm.target hs
      · exact ho.lone i t ht htu
      · exact ho.joined k' x' i t hx' ht
    · split at hx
      · cases hx
      · exact ho.joined k x i s hx hs
  · intro h hh
    obtain ⟨i, h1, h2⟩ := ho.placed h hh
    refine ⟨i, (on_congr hw h i).2 h1, ?_⟩
    rw [hm.site]
    split
    · rw [Ne, Option.map_eq_none_iff]; exact h2
    · exact h2
  · intro h hh h' hh' i o o'
    exact ho.apart h hh h' hh' i ((on_congr hw h i).1 o) ((on_congr hw h' i).1 o')

theorem coarseGrain_inv (hst : Struct env w) (ho : Occup w act) {a : Choices K} {v : Int} {b : Bool}
    (h : coarseGrain env mem w a v = (.ok b, w')) : Struct env w' ∧ Occup w' act := by
  obtain ⟨basin, sat, -, -, h⟩ := coarseGrain_ok hst h
  rcases h with ⟨-, rfl⟩ | ⟨-, -, hne, hl, hc⟩ | ⟨-, -, sc, hsc, -, hm⟩
  · exact ⟨hst, ho⟩
  · obtain ⟨c, -, hc⟩ := created_of hst hne hl hc
    exact ⟨hst.created hc, ho.created hst hc⟩
  · obtain ⟨c, d, erased, hm⟩ := merge_ok hst a.order_perm hsc hm
    exact ⟨hst.merged hm, ho.merged hst hm⟩

end Mythical.World
