import Verif.Lemmas.SystemHands
import Verif.Lemmas.SystemWitness

/-! # System properties C53, C54, C62: walkers and the occupation of sites -/

set_option linter.unusedSectionVars false
set_option linter.unusedVariables false

namespace Mythical
open World SystemSpec
variable {K : Type} [Field K] [LinearOrder K] [IsStrictOrderedRing K] [FloorRing K]

/-- **C53**: In every history with proper calls, whatever the rates, draws and coarse-graining decisions, no two walkers in
the system are ever on the same site. (Each of them is on a known site.) -/
theorem C53 (env : Env K) (n : Nat) (evs : List (Event K)) (w : World K) (ht : Trace env (World.new n) evs w)
    (hu : Usage evs) :
    (∀ h ∈ active evs, ∃ i, On w h i ∧ ∃ s, w.sites.get? i = some s) ∧
    ∀ h ∈ active evs, ∀ h' ∈ active evs, ∀ i, On w h i → On w h' i → h = h' := by
  have ho := (ht.inv hu).occup
  refine ⟨?_, ho.apart⟩
  intro h hh
  obtain ⟨i, h1, h2⟩ := ho.placed h hh
  exact ⟨i, h1, Option.ne_none_iff_exists'.1 h2⟩

/-- Two walkers are in the system at the end of the witness history without its last two calls, one at its end. -/
example : (active sysEvs = [10] ∧ On sysWorld 10 2) ∧ active (sysEvs.take 14) = [10, 11] :=
  ⟨⟨by decide +kernel, on_of (by decide +kernel) (by decide)⟩, by decide +kernel⟩

example : ∀ h ∈ active sysEvs, ∃ i, On sysWorld h i ∧ ∃ s, sysWorld.sites.get? i = some s :=
  (C53 _ 0 _ _ sysTrace sysUsage).1

/-- **C54**: In every history with proper calls, the occupation flag that `hop` consults for a site is set exactly when some
walker in the system is on the site. The flag can be consulted for every known site that is in no cluster or in an existing
one. -/
theorem C54 (env : Env K) (n : Nat) (evs : List (Event K)) (w : World K) (ht : Trace env (World.new n) evs w)
    (hu : Usage evs) (i : Int) :
    (∀ b, w.isOccupiedAt (w.feat i) i = .ok b → (b = true ↔ ∃ h ∈ active evs, On w h i)) ∧
    ∀ s, w.sites.get? i = some s → (s.clusterId = unassignedId ∨ w.clusters.get? s.clusterId ≠ none) →
      ∃ b, w.isOccupiedAt (w.feat i) i = .ok b := by
  have hi := ht.inv hu
  refine ⟨fun b hb => hi.occup.flag hi.struct hb, ?_⟩
  intro s hs hc
  rcases hi.struct.feat_cases i with ⟨-, a⟩ | ⟨t, a, b, c⟩ | ⟨t, a, b, c, d⟩
  · rw [a] at hs; cases hs
  · rw [a]
    simp only [isOccupiedAt]
    rw [siteOf_of b]
    exact ⟨_, rfl⟩
  · rw [hs] at b; cases b
    rcases hc with hc | hc
    · exact absurd hc c
    · obtain ⟨x, hx⟩ := Option.ne_none_iff_exists'.1 hc
      obtain ⟨u, hu⟩ := d x hx
      rw [a]
      simp only [isOccupiedAt]
      rw [clusterOf_of hx]
      simp only [ok_bind]
      unfold Cluster.isOccupiedSite
      rw [hu]
      exact ⟨_, rfl⟩

/-- C54, the second half: after a walker has been removed, the flag of its site is not set. -/
theorem C54_removed (env : Env K) (n : Nat) (evs : List (Event K)) (w : World K) (ht : Trace env (World.new n) evs w)
    (hu : Usage evs) (before : List (Event K)) (ev : Event K) (he : evs = before ++ [ev]) (wid h r : Int)
    (hop : ev.op = .removeWalker wid h) (hr : ev.res = .ok r) (i : Int) (ho : On ev.pre h i) (b : Bool)
    (hb : w.isOccupiedAt (w.feat i) i = .ok b) : b = false := by
  subst he
  have h1 := (C54 env n _ w ht hu i).1 b hb
  obtain ⟨hpre, hstep, -, -⟩ := ht.prefix (before := before) (ev := ev) (after := []) rfl
  obtain ⟨hu1, hp⟩ := usage_snoc hu
  have hw : w = ev.post := ht.last rfl
  have hinv := hpre.inv hu1
  have hh : h ∈ active before := by
    unfold Proper at hp
    rw [hop] at hp
    exact hp
  cases b with
  | false => rfl
  | true =>
    obtain ⟨k, hk, ok⟩ := h1.1 rfl
    rw [active_snoc] at hk
    unfold enter at hk
    rw [hop, hr] at hk
    rw [List.mem_filter] at hk
    have hwalk : w.walkers = ev.pre.walkers := by
      rw [hw]
      rw [hop, hr] at hstep
      simp only [World.step, World.simple] at hstep
      split at hstep
      · next w1 e1 =>
        simp only [Prod.mk.injEq] at hstep
        rw [← hstep.2]
        exact (removeWalker_inner e1).walkers
      · cases hstep
    have := hinv.occup.apart k hk.1 h hh i ((on_congr hwalk k i).1 ok) ho
    simp [this] at hk

/-- In the witness history the flag of site 2 is set at the end, that of site 4 (whose walker has been removed) is not. -/
example : sysWorld.isOccupiedAt (sysWorld.feat 2) 2 = .ok true ∧ sysWorld.isOccupiedAt (sysWorld.feat 4) 4 = .ok false ∧
    sysWorld.isOccupiedAt (sysWorld.feat 1) 1 = .ok false := by decide +kernel

example : ∃ h ∈ active sysEvs, On sysWorld h 2 :=
  ((C54 _ 0 _ _ sysTrace sysUsage 2).1 true (by decide +kernel)).1 rfl

/-- **C62**: A hop of a walker in the system, in a history with proper calls. Before it the walker is on a site `i` with
potential site `j`. If no walker in the system is on `j`, then it is on `j` afterwards, otherwise on `i`. In both cases its
dwell time and its next site are those that the site on which it is now, or its cluster, hands out. All other walkers are as
before, and so is the occupation flag of every other site. -/
theorem C62 (env : Env K) (n : Nat) (evs : List (Event K)) (w : World K) (ht : Trace env (World.new n) evs w)
    (hu : Usage evs) (before after : List (Event K)) (ev : Event K) (he : evs = before ++ ev :: after) (wid h : Int)
    (a : Choices K) (hop : ev.op = .hop wid h a) :
    ∃ x, ev.pre.walkers.get? h = some x ∧ On ev.pre h x.site ∧
      ∃ k t m, ((¬ ∃ h' ∈ active before, On ev.pre h' x.pot) → k = x.pot) ∧
        ((∃ h' ∈ active before, On ev.pre h' x.pot) → k = x.site) ∧
        ev.post.walkers.get? h = some ⟨k, m, t⟩ ∧ HandsOut ev.pre k wid a.e a.u t m ∧
        (∀ h', h' ≠ h → ev.post.walkers.get? h' = ev.pre.walkers.get? h') ∧
        ∀ l, l ≠ x.site → l ≠ k → ∀ b b', ev.pre.isOccupiedAt (ev.pre.feat l) l = .ok b →
          ev.post.isOccupiedAt (ev.post.feat l) l = .ok b' → b = b' := by
  obtain ⟨hpre, hstep, hgo, hpost⟩ := ht.prefix he
  have hu1 : Usage (before ++ [ev]) := by
    intro b e a' h1
    exact hu b e (a' ++ after) (by rw [he, ← List.singleton_append, ← List.append_assoc, h1]; simp)
  obtain ⟨hu0, hp⟩ := usage_snoc hu1
  have hinv := hpre.inv hu0
  have hinv' := hpost.inv hu1
  unfold Proper at hp
  rw [hop] at hp
  obtain ⟨hh, r, hr⟩ := hp
  rw [hop, hr] at hstep
  simp only [World.step, Prod.mk.injEq] at hstep
  obtain ⟨h1, h2⟩ := hstep
  obtain ⟨u, hu⟩ : ∃ u, (ev.pre.hop env ev.mem wid h a).1 = .ok u := by
    cases hx : (ev.pre.hop env ev.mem wid h a).1 with
    | error e => rw [hx] at h1; cases h1
    | ok u => exact ⟨u, rfl⟩
  have hhop : ev.pre.hop env ev.mem wid h a = (.ok u, ev.post) := by rw [← hu, ← h2]
  obtain ⟨j, w1, hm, hc⟩ := hop_ok hhop
  obtain ⟨x, b, m, t, hx, h0, h0', hj, hb, hands, hwalk⟩ := hopMove_hands hinv.struct hm
  obtain ⟨st1, -⟩ := hinv.occup.hopMove hinv.struct hh hm
  have hw1 : ev.post.walkers = w1.walkers := by
    obtain ⟨-, hc⟩ := hopCount_ok st1 hc
    rcases hc with ⟨-, e⟩ | ⟨-, -, e⟩ | ⟨-, -, -, -, e⟩ | ⟨-, -, w3, basin, -, hg, e⟩
    · rw [e]
    · rw [e]
    · rw [e]
    · rw [e]
      show w3.walkers = _
      cases hg.grew with
      | created c0 hb h => rw [h.eq]
      | merged sc fav c d erased _ _ _ _ h => rw [h.eq]
  have hflag := hinv.occup.flag hinv.struct hb
  refine ⟨x, hx, ⟨x, hx, rfl, h0⟩, if b then x.site else x.pot, t, m, ?_, ?_, ?_, hands, ?_, ?_⟩
  · intro hn
    cases b with
    | true => exact absurd (hflag.1 rfl) hn
    | false => simp
  · intro hy
    rw [hflag.2 hy]; simp
  · rw [hw1, hwalk, IMap.get?_set_self]
  · intro h' hne
    rw [hw1, hwalk, IMap.get?_set_ne _ _ (Ne.symm hne)]
  · intro l hl hlk b1 b2 e1 e2
    have f1 := hinv.occup.flag hinv.struct e1
    have f2 := hinv'.occup.flag hinv'.struct e2
    have hact : active (before ++ [ev]) = active before := by
      rw [active_snoc]; unfold enter; rw [hop]
    have : Taken ev.pre (active before) l ↔ Taken ev.post (active (before ++ [ev])) l := by
      rw [hact]
      unfold Taken On
      rw [hw1, hwalk]
      constructor
      · rintro ⟨k, hk, y, hy, hyl, hyu⟩
        refine ⟨k, hk, y, ?_, hyl, hyu⟩
        rw [IMap.get?_set_ne, hy]
        rintro rfl
        rw [hx] at hy; cases hy
        exact hl hyl.symm
      · rintro ⟨k, hk, y, hy, hyl, hyu⟩
        rw [IMap.get?_set] at hy
        split at hy
        · cases hy
          exact absurd hyl.symm hlk
        · exact ⟨k, hk, y, hy, hyl, hyu⟩
    have := f1.trans (this.trans f2.symm)
    cases b1 <;> cases b2 <;> simp_all

/-- The second hop of the witness history is blocked (walker 11 stays on site 3 because walker 10 is on site 2), the third one
is free and takes place inside a cluster. -/
example : (sysEvs[10]?.map fun ev => (whereIs ev.pre 11, whereIs ev.post 11, whereIs ev.pre 10)) = some (some 3, some 3, some 2) ∧
    (sysEvs[11]?.map fun ev => (whereIs ev.pre 10, whereIs ev.post 10)) = some (some 2, some 1) := by decide +kernel

/-- The theorem applies to the blocked hop. -/
example (ev : Event ℚ) (before after : List (Event ℚ)) (he : sysEvs = before ++ ev :: after) (hl : before.length = 10) :
    ∃ x, ev.pre.walkers.get? 11 = some x ∧ On ev.pre 11 x.site := by
  have hev : ev.op = .hop 1 11 (witChoice (3 / 4) [1 / 100]) := by
    have h1 : sysEvs[10]? = some ev := by rw [he, List.getElem?_append_right (by omega)]; simp [hl]
    have h2 : (sysEvs[10]?).map (·.op) = some (.hop 1 11 (witChoice (3 / 4) [1 / 100])) := rfl
    rw [h1] at h2
    simpa using h2
  obtain ⟨x, h1, h2, -⟩ := C62 _ 0 _ _ sysTrace sysUsage before after ev he 1 11 _ hev
  exact ⟨x, h1, h2⟩

end Mythical
