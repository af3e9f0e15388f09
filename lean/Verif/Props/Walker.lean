import Verif.Lemmas.Walker
import Verif.Lemmas.SystemWitness

/-! # C102: a walker says what it was told last -/

set_option linter.unusedSectionVars false

namespace Mythical.World
open Mythical WalkerSpec
variable {K : Type} [Field K] [LinearOrder K] [IsStrictOrderedRing K] [FloorRing K]
variable {env : Env K} {w w' : World K}

/-- What each call leaves as it is stays as it is until the end of the history. -/
theorem Trace.since {evs : List (Event K)} (ht : Trace env w evs w') {α : Type} (f : World K → α) :
    ∀ {before : List (Event K)} {ev : Event K} {after : List (Event K)}, evs = before ++ ev :: after →
    (∀ (w1 w2 : World K) (mem : Addr → K) (res : Except Fault Int) (op : Op K), (∃ e ∈ after, e.op = op) →
      w1.step env mem op = (res, w2) → f w2 = f w1) → f w' = f ev.post := by
  induction ht with
  | nil => intro before ev after h; simp at h
  | @snoc w1 w2 evs op res mem ht h hr ih =>
    intro before ev after heq hk
    rcases List.eq_nil_or_concat after with rfl | ⟨after', last, rfl⟩
    · obtain ⟨-, rfl⟩ := List.append_inj' (t₁ := [_]) heq rfl |>.imp id List.singleton_inj.1
      rfl
    · have e : evs ++ [⟨w1, mem, op, res, w2⟩] = (before ++ ev :: after') ++ [last] := by rw [heq]; simp
      obtain ⟨e1, rfl⟩ := List.append_inj' e rfl |>.imp id List.singleton_inj.1
      rw [hk w1 w2 mem res op ⟨⟨w1, mem, op, res, w2⟩, by simp, rfl⟩ h]
      exact ih e1 fun w1 w2 mem res op ⟨e, he, ho⟩ => hk w1 w2 mem res op ⟨e, by simp [he], ho⟩

theorem Trace.event {evs : List (Event K)} (ht : Trace env w evs w') {ev : Event K} (h : ev ∈ evs) :
    ev.pre.step env ev.mem ev.op = (ev.res, ev.post) := by
  induction ht with
  | nil => simp at h
  | snoc mem ht hs hr ih =>
    rcases List.mem_append.1 h with h | h
    · exact ih h
    · rw [List.mem_singleton.1 h]; exact hs

/-- **C102, the site.** After `occupySite(i)` on a walker, and until the walker is created anew, told another site or hops,
`getIdOfSiteCurrentlyOccupying` returns `i`; if `i` is the number kept for "unassigned" it throws. `initializeWalkers` and
`removeWalkerFromSystem` do not change this, and neither does any call for another walker. -/
theorem C102_site {evs before after : List (Event K)} {ev : Event K} {h i n : Int} (ht : Trace env w evs w')
    (hev : evs = before ++ ev :: after) (hop : ev.op = .walkerOccupy h i) (hres : ev.res = .ok n)
    (hafter : ∀ e ∈ after, ¬ MovesSite e.op h) :
    ∃ x, w'.walkers.get? h = some x ∧ walkerSite x = if i = unassignedId then .error .runtimeError else .ok i := by
  have hs := ht.event (ev := ev) (by simp [hev])
  rw [hop, hres] at hs
  have hpost : (ev.post.walkers.get? h).map Walker.site = some i := by
    simp only [step, simple] at hs
    cases q : ev.pre.walkerOccupy h i with
    | error f => rw [q] at hs; cases hs
    | ok w2 =>
      rw [q] at hs
      simp only [Prod.mk.injEq] at hs
      unfold walkerOccupy at q
      obtain ⟨x, hx, q⟩ := bind_eq_ok.1 q
      rw [← hs.2, ← ok_inj.1 q]
      simp
  have := ht.since (fun w => (w.walkers.get? h).map Walker.site) hev
    fun w1 w2 mem res op ⟨e, he, ho⟩ hst => (step_walkers hst h).1 (ho ▸ hafter e he)
  rw [hpost] at this
  obtain ⟨x, hx, rfl⟩ := Option.map_eq_some_iff.1 this
  exact ⟨x, hx, rfl⟩

/-- **C102, the aim.** The same for `setPotentialSite(i)` and `getPotentialSite`, until the walker is created anew, told another
aim, initialised or hops. -/
theorem C102_aim {evs before after : List (Event K)} {ev : Event K} {h i n : Int} (ht : Trace env w evs w')
    (hev : evs = before ++ ev :: after) (hop : ev.op = .walkerSetPotential h i) (hres : ev.res = .ok n)
    (hafter : ∀ e ∈ after, ¬ MovesAim e.op h) :
    ∃ x, w'.walkers.get? h = some x ∧ walkerPot x = if i = unassignedId then .error .runtimeError else .ok i := by
  have hs := ht.event (ev := ev) (by simp [hev])
  rw [hop, hres] at hs
  have hpost : (ev.post.walkers.get? h).map Walker.pot = some i := by
    simp only [step, simple] at hs
    cases q : ev.pre.walkerSetPotential h i with
    | error f => rw [q] at hs; cases hs
    | ok w2 =>
      rw [q] at hs
      simp only [Prod.mk.injEq] at hs
      unfold walkerSetPotential at q
      obtain ⟨x, hx, q⟩ := bind_eq_ok.1 q
      rw [← hs.2, ← ok_inj.1 q]
      simp
  have := ht.since (fun w => (w.walkers.get? h).map Walker.pot) hev
    fun w1 w2 mem res op ⟨e, he, ho⟩ hst => (step_walkers hst h).2.1 (ho ▸ hafter e he)
  rw [hpost] at this
  obtain ⟨x, hx, rfl⟩ := Option.map_eq_some_iff.1 this
  exact ⟨x, hx, rfl⟩

/-- **C102, the dwell time.** The same for `setDwellTime(t)` and `getDwellTime`, which never throws. -/
theorem C102_dwell {evs before after : List (Event K)} {ev : Event K} {h n : Int} {t : K} (ht : Trace env w evs w')
    (hev : evs = before ++ ev :: after) (hop : ev.op = .walkerSetDwell h t) (hres : ev.res = .ok n)
    (hafter : ∀ e ∈ after, ¬ MovesDwell e.op h) : ∃ x, w'.walkers.get? h = some x ∧ x.dwell = t := by
  have hs := ht.event (ev := ev) (by simp [hev])
  rw [hop, hres] at hs
  have hpost : (ev.post.walkers.get? h).map Walker.dwell = some t := by
    simp only [step, simple] at hs
    cases q : ev.pre.walkerSetDwell h t with
    | error f => rw [q] at hs; cases hs
    | ok w2 =>
      rw [q] at hs
      simp only [Prod.mk.injEq] at hs
      unfold walkerSetDwell at q
      obtain ⟨x, hx, q⟩ := bind_eq_ok.1 q
      rw [← hs.2, ← ok_inj.1 q]
      simp
  have := ht.since (fun w => (w.walkers.get? h).map Walker.dwell) hev
    fun w1 w2 mem res op ⟨e, he, ho⟩ hst => (step_walkers hst h).2.2 (ho ▸ hafter e he)
  rw [hpost] at this
  exact Option.map_eq_some_iff.1 this

/-- **C102, the new walker.** A walker that has been created and told nothing since throws when asked for its site, throws when
asked for its aim, and has the dwell time -1, each until a call that may change it. -/
theorem C102_new {evs before after : List (Event K)} {ev : Event K} {h : Int} (ht : Trace env w evs w')
    (hev : evs = before ++ ev :: after) (hop : ev.op = .newWalker h) :
    ((∀ e ∈ after, ¬ MovesSite e.op h) → ∃ x, w'.walkers.get? h = some x ∧ walkerSite x = .error .runtimeError) ∧
    ((∀ e ∈ after, ¬ MovesAim e.op h) → ∃ x, w'.walkers.get? h = some x ∧ walkerPot x = .error .runtimeError) ∧
    ((∀ e ∈ after, ¬ MovesDwell e.op h) → ∃ x, w'.walkers.get? h = some x ∧ x.dwell = -1) := by
  have hs := ht.event (ev := ev) (by simp [hev])
  rw [hop] at hs
  have hpost : ev.post.walkers.get? h = some ⟨unassignedId, unassignedId, -1⟩ := by
    rw [← show _ = ev.post from congrArg Prod.snd hs]; exact IMap.get?_set_self _ _ _
  refine ⟨fun ha => ?_, fun ha => ?_, fun ha => ?_⟩
  · have := ht.since (fun w => (w.walkers.get? h).map Walker.site) hev
      fun w1 w2 mem res op ⟨e, he, ho⟩ hst => (step_walkers hst h).1 (ho ▸ ha e he)
    rw [hpost] at this
    obtain ⟨x, hx, e⟩ := Option.map_eq_some_iff.1 this
    exact ⟨x, hx, if_pos e⟩
  · have := ht.since (fun w => (w.walkers.get? h).map Walker.pot) hev
      fun w1 w2 mem res op ⟨e, he, ho⟩ hst => (step_walkers hst h).2.1 (ho ▸ ha e he)
    rw [hpost] at this
    obtain ⟨x, hx, e⟩ := Option.map_eq_some_iff.1 this
    exact ⟨x, hx, if_pos e⟩
  · have := ht.since (fun w => (w.walkers.get? h).map Walker.dwell) hev
      fun w1 w2 mem res op ⟨e, he, ho⟩ hst => (step_walkers hst h).2.2 (ho ▸ ha e he)
    rw [hpost] at this
    exact Option.map_eq_some_iff.1 this

/-! ## Concrete cases -/

/-- Walker 10 is created, told a site, initialised, told another aim and another dwell time; walker 11 hops meanwhile. -/
def toldOps : List (Op ℚ) := [
  .setTimeResolution 1, .setMinThreshold 0, .initializeSystem sysMap, .newWalker 12,
  .newWalker 10, .newWalker 11, .walkerOccupy 10 1, .walkerOccupy 11 3,
  .initializeWalkers [⟨0, 10, 1, 1 / 2⟩, ⟨1, 11, 1, 1 / 4⟩],
  .walkerSetPotential 10 4, .walkerSetDwell 10 (3 / 2),
  .hop 1 11 (witChoice (1 / 2) [1 / 100]), .removeWalker 0 10]

/-- The history of these calls. -/
def toldEvs : List (Event ℚ) := (runOps Cluster.witEnv sysRates (World.new 0) toldOps).1

/-- The world it leads to. -/
def toldWorld : World ℚ := (runOps Cluster.witEnv sysRates (World.new 0) toldOps).2

theorem toldTrace : Trace Cluster.witEnv (World.new 0) toldEvs toldWorld := runOps_trace (by decide +kernel)

/-- The history of some calls, split at one of them. -/
theorem runOps_split {env : Env ℚ} {mem : Addr → ℚ} (op : Op ℚ) (post : List (Op ℚ)) : ∀ (pre : List (Op ℚ)) (w : World ℚ),
    ∃ before ev after, (runOps env mem w (pre ++ op :: post)).1 = before ++ ev :: after ∧ ev.op = op ∧ after.map (·.op) = post
  | [], w => by
    have hops : ∀ (l : List (Op ℚ)) (w : World ℚ), (runOps env mem w l).1.map (·.op) = l := by
      intro l
      induction l with
      | nil => intro w; rfl
      | cons o l ih => intro w; simp [runOps, ih]
    exact ⟨[], _, _, rfl, rfl, hops _ _⟩
  | o :: pre, w => by
    obtain ⟨b, ev, a, h1, h2, h3⟩ := runOps_split (env := env) (mem := mem) op post pre (w.step env mem o).2
    exact ⟨_ :: b, ev, a, by rw [List.cons_append, runOps, h1]; rfl, h2, h3⟩

/-- Walker 10 still says site 1, aim 4 and dwell time 3/2 at the end; walker 12, which was only created, throws. -/
example : (∃ x, toldWorld.walkers.get? 10 = some x ∧ walkerSite x = .ok 1) ∧
    (∃ x, toldWorld.walkers.get? 10 = some x ∧ walkerPot x = .ok 4) ∧
    (∃ x, toldWorld.walkers.get? 10 = some x ∧ x.dwell = 3 / 2) ∧
    ∃ x, toldWorld.walkers.get? 12 = some x ∧ walkerSite x = .error .runtimeError := by
  have hok : ∀ ev ∈ toldEvs, ∃ n, ev.res = .ok n := by
    have : (toldEvs.all fun ev => ev.res.isOk) = true := by decide +kernel
    intro ev hev
    have := List.all_eq_true.1 this ev hev
    cases h : ev.res with
    | ok n => exact ⟨n, rfl⟩
    | error e => rw [h] at this; cases this
  refine ⟨?_, ?_, ?_, ?_⟩
  · obtain ⟨b, ev, a, h1, h2, h3⟩ := runOps_split (env := Cluster.witEnv) (mem := sysRates) (.walkerOccupy 10 1) (toldOps.drop 7)
      (toldOps.take 6) (World.new 0)
    obtain ⟨n, hn⟩ := hok ev (by rw [show toldEvs = _ from h1]; simp)
    refine C102_site toldTrace h1 h2 hn fun e he => ?_
    have : e.op ∈ toldOps.drop 7 := h3 ▸ List.mem_map_of_mem he
    simp only [toldOps, List.drop_succ_cons, List.drop_zero, List.mem_cons, List.not_mem_nil, or_false] at this
    rcases this with h | h | h | h | h | h <;> rw [h] <;> simp [MovesSite]
  · obtain ⟨b, ev, a, h1, h2, h3⟩ := runOps_split (env := Cluster.witEnv) (mem := sysRates) (.walkerSetPotential 10 4) (toldOps.drop 10)
      (toldOps.take 9) (World.new 0)
    obtain ⟨n, hn⟩ := hok ev (by rw [show toldEvs = _ from h1]; simp)
    refine C102_aim toldTrace h1 h2 hn fun e he => ?_
    have : e.op ∈ toldOps.drop 10 := h3 ▸ List.mem_map_of_mem he
    simp only [toldOps, List.drop_succ_cons, List.drop_zero, List.mem_cons, List.not_mem_nil, or_false] at this
    rcases this with h | h | h <;> rw [h] <;> simp [MovesAim]
  · obtain ⟨b, ev, a, h1, h2, h3⟩ := runOps_split (env := Cluster.witEnv) (mem := sysRates) (.walkerSetDwell 10 (3 / 2))
      (toldOps.drop 11) (toldOps.take 10) (World.new 0)
    obtain ⟨n, hn⟩ := hok ev (by rw [show toldEvs = _ from h1]; simp)
    refine C102_dwell toldTrace h1 h2 hn fun e he => ?_
    have : e.op ∈ toldOps.drop 11 := h3 ▸ List.mem_map_of_mem he
    simp only [toldOps, List.drop_succ_cons, List.drop_zero, List.mem_cons, List.not_mem_nil, or_false] at this
    rcases this with h | h <;> rw [h] <;> simp [MovesDwell]
  · obtain ⟨b, ev, a, h1, h2, h3⟩ := runOps_split (env := Cluster.witEnv) (mem := sysRates) (.newWalker 12)
      (toldOps.drop 4) (toldOps.take 3) (World.new 0)
    refine (C102_new toldTrace h1 h2).1 fun e he => ?_
    have : e.op ∈ toldOps.drop 4 := h3 ▸ List.mem_map_of_mem he
    simp only [toldOps, List.drop_succ_cons, List.drop_zero, List.mem_cons, List.not_mem_nil, or_false] at this
    rcases this with h | h | h | h | h | h | h | h | h <;> rw [h] <;> simp [MovesSite]

end Mythical.World
