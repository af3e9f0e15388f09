import Verif.Spec.ToFMain
import Verif.Props.SystemCalls
import Verif.Props.SystemWalkers

/-! # Helper lemmas for the time-of-flight program: the calls on the system -/

set_option linter.unusedSectionVars false
set_option linter.unusedVariables false

namespace Mythical.ToF
open Mythical World SystemSpec ToFSpec CuboidSpec
variable {K : Type} [Field K] [LinearOrder K] [IsStrictOrderedRing K] [FloorRing K]
variable {env : Env K} {mem : Addr → K} {c : Cuboid} {m : IMap (IMap Addr)} {p p' : Prog K}

theorem usage_add {evs : List (Event K)} {ev : Event K} (h : Usage evs) (hp : Proper (active evs) (Hopped evs) ev) :
    Usage (evs ++ [ev]) := by
  intro b e a he
  rcases List.eq_nil_or_concat a with rfl | ⟨a', x, rfl⟩
  · obtain ⟨rfl, e⟩ := List.append_inj' he rfl
    cases e
    exact hp
  · rw [List.concat_eq_append, ← List.cons_append, ← List.append_assoc] at he
    obtain ⟨e, -⟩ := List.append_inj' he rfl
    exact h b _ a' e

theorem call_ok {op : Op K} (h : p.call env mem op = .ok p') :
    ∃ r, p.world.step env mem op = (.ok r, p'.world) ∧ p'.calls = p.calls ++ [⟨p.world, mem, op, .ok r, p'.world⟩] := by
  unfold Prog.call at h
  split at h
  · cases h
  · next r w e =>
    cases h
    exact ⟨r, e, rfl⟩

theorem call_of {op : Op K} {r : Int} {w : World K} (h : p.world.step env mem op = (.ok r, w)) :
    p.call env mem op = .ok ⟨w, p.calls ++ [⟨p.world, mem, op, .ok r, w⟩]⟩ := by
  unfold Prog.call
  rw [h]

theorem call_error {op : Op K} {f : Fault} (h : (p.world.step env mem op).1 = .error f) : p.call env mem op = .error f := by
  unfold Prog.call
  split
  · next f' w e => rw [e] at h; cases h; rfl
  · next r w e => rw [e] at h; cases h

/-- What holds of the calls of the program. -/
structure Story (env : Env K) (mem : Addr → K) (m : IMap (IMap Addr)) (p : Prog K) : Prop where
  trace : Trace env (World.new 0) p.calls p.world
  usage : Usage p.calls
  fixed : RatesFixed mem p.calls
  only : ∀ ev ∈ p.calls, ∀ m', ev.op = .initializeSystem m' → m' = m ∧ ∃ n, ev.res = .ok n
  draws : Draws p.calls
  sent : SentToKnown p.calls
  ratio : RatioHalf p.calls
  times : TimesCover p.calls
  last : worldAfter p.calls = p.world

theorem Story.pos (h : Story env mem m p) (hm : Suits c mem m) : RatesPositive mem p.calls := by
  intro ev he m' ho
  obtain ⟨rfl, -⟩ := h.only ev he m' ho
  exact fun ir hir => (hm.rows ir hir).2

theorem Story.sys (h : Story env mem m p) (hm : Suits c mem m) : SystemsReturn p.calls := by
  intro ev he m' ho
  obtain ⟨rfl, hr⟩ := h.only ev he m' ho
  refine ⟨hr, fun i hi e => ?_⟩
  have := (hm.sites i hi).1
  rw [e] at this
  exact absurd this (by decide)

theorem Story.maps (h : Story env mem m p) (hm : Suits c mem m) : Maps p.calls := by
  intro ev he m' ho
  obtain ⟨rfl, -⟩ := h.only ev he m' ho
  exact hm.maps

theorem Story.two (h : Story env mem m p) (hm : Suits c mem m) : TwoWayRates p.calls := by
  intro ev he m' ho
  obtain ⟨rfl, -⟩ := h.only ev he m' ho
  exact hm.twoWay

/-- One more call. -/
theorem Story.snoc (h : Story env mem m p) {op : Op K} (hc : p.call env mem op = .ok p')
    (hp : ∀ r, Proper (active p.calls) (Hopped p.calls) ⟨p.world, mem, op, .ok r, p'.world⟩)
    (hi : ∀ m', op = .initializeSystem m' → m' = m) (hd : DrawsOf op) (hs : ∀ k i, op ≠ .walkerSetPotential k i)
    (hr : ∀ r, op ≠ .setPerformanceRatio r)
    (ht : ∀ wid k a v w1, op = .hop wid k a → p.world.hopMove wid k a = .ok (v, w1) → CoversTimes mem w1 v a) :
    Story env mem m p' := by
  obtain ⟨r, h1, h2⟩ := call_ok hc
  have mem_cases : ∀ ev ∈ p'.calls, ev ∈ p.calls ∨ ev = ⟨p.world, mem, op, .ok r, p'.world⟩ := by
    intro ev he
    rw [h2] at he
    rcases List.mem_append.1 he with he | he
    · exact .inl he
    · exact .inr (List.mem_singleton.1 he)
  refine ⟨?_, ?_, ?_, ?_, ?_, ?_, ?_, ?_, ?_⟩
  · rw [h2]; exact .snoc mem h.trace h1 trivial
  · rw [h2]; exact usage_add h.usage (hp r)
  · intro ev he
    rcases mem_cases ev he with he | rfl
    · exact h.fixed ev he
    · rfl
  · intro ev he m' ho
    rcases mem_cases ev he with he | rfl
    · exact h.only ev he m' ho
    · exact ⟨hi m' ho, r, rfl⟩
  · intro ev he
    rcases mem_cases ev he with he | rfl
    · exact h.draws ev he
    · exact hd
  · intro ev he k i ho
    rcases mem_cases ev he with he | rfl
    · exact h.sent ev he k i ho
    · exact absurd ho (hs k i)
  · intro ev he q ho
    rcases mem_cases ev he with he | rfl
    · exact h.ratio ev he q ho
    · exact absurd ho (hr q)
  · intro ev he wid k a v w1 B ho hm
    rcases mem_cases ev he with he | rfl
    · exact h.times ev he wid k a v w1 B ho hm
    · exact ht wid k a v w1 ho hm B
  · unfold worldAfter
    rw [h2, List.getLast?_append]
    rfl

/-- Known sites are sites of the lattice. -/
theorem Story.valid (h : Story env mem m p) (hm : Suits c mem m) {i : Int} (hi : Known p.world i) : ValidIndex c i := by
  rw [known_iff] at hi
  obtain ⟨s, hs⟩ := Option.ne_none_iff_exists'.1 hi
  obtain ⟨ev, he, m', sd, s0, ho, hn, htw, rfl⟩ := (h.trace.static h.usage.hopsReturn).1 i s hs
  obtain ⟨rfl, -⟩ := h.only ev he m' ho
  refine hm.sites _ (mentions_iff.2 ?_)
  rcases hn with ⟨rates, -, hr, -⟩ | ⟨-, hd⟩
  · exact .inl (IMap.mem_keys_of_mem hr)
  · exact .inr (mem_drains.1 hd).2

/-- What a walker gets on a site of the system is a positive time. -/
theorem handsOut_pos {w : World K} (hg : Good mem w) (hall : AllSettled mem w) (hb : BothWays w) (hl : Left w) {k wid n : Int} {e u t : K}
    (h : HandsOut w k wid e u t n) (he : 0 < e) : 0 < t := by
  obtain ⟨s, hs, ⟨-, rfl, -⟩ | ⟨-, x, x1, x2, hx, hd, -⟩⟩ := h
  · obtain ⟨-, hp, hf⟩ := hg k s hs
    rcases hf with hf | hf
    · exact absurd hf (hb k s hs).1
    · unfold Site.getDwellTime
      rw [hf.tau]
      exact mul_pos he (one_div_pos.2 (Site.sumRates_pos hp (hb k s hs).1))
  · obtain ⟨tau, ht, htp, hdt⟩ := (hall _ x hx).tau
    obtain ⟨tau', dt', e1, e2, -, -, rfl⟩ := Cluster.getDwellTime_ok hd
    rw [ht] at e1; cases e1
    rw [hdt] at e2; cases e2
    have hres := (hall _ x hx).res
    refine lt_min ?_ (div_pos htp (by linarith))
    cases hr : x.remaining.get? wid with
    | none => exact mul_pos he htp
    | some r => exact hl _ x wid r hx hr

/-- A hop of the program that returns. -/
theorem Story.hop (h : Story env mem m p) (hm : Suits c mem m) {k : Int} {a : Choices K} (hk : k ∈ active p.calls)
    (hd : SiteSpec.Draw a.u ∧ 0 < a.e) (ht : ∀ v w1, p.world.hopMove k k a = .ok (v, w1) → CoversTimes mem w1 v a)
    (hc : p.call env mem (.hop k k a) = .ok p') :
    Story env mem m p' ∧ active p'.calls = active p.calls ∧ (∃ x, p.world.walkers.get? k = some x ∧ On p.world k x.site) ∧
    (∃ y, p'.world.walkers.get? k = some y ∧ On p'.world k y.site ∧ ValidIndex c y.site ∧ 0 < y.dwell) ∧
    ∀ l, l ≠ k → p'.world.walkers.get? l = p.world.walkers.get? l := by
  have hs : Story env mem m p' := by
    refine h.snoc hc (fun r => ⟨hk, r, rfl⟩) (fun _ e => nomatch e) hd (fun _ _ e => nomatch e) (fun _ e => nomatch e) ?_
    intro wid k' a' v w1 e
    cases e
    exact ht v w1
  obtain ⟨r, h1, h2⟩ := call_ok hc
  have hact : active p'.calls = active p.calls := by rw [h2, active_snoc]; rfl
  obtain ⟨x, hx, hon, k', t, n, -, -, hy, hh, hoth, -⟩ := C62 env 0 _ _ hs.trace hs.usage p.calls [] _ h2 k k a rfl
  refine ⟨hs, hact, ⟨x, hx, hon⟩, ?_, hoth⟩
  obtain ⟨y, hy', ho, hkn, -⟩ := C60_known env mem 0 _ _ hs.trace hs.usage hs.fixed (hs.pos hm) (hs.sys hm) hs.draws hs.sent k
    (by rw [hact]; exact hk)
  refine ⟨y, hy', ho, hs.valid hm hkn, ?_⟩
  have : y = ⟨k', n, t⟩ := by
    have hy : p'.world.walkers.get? k = some ⟨k', n, t⟩ := hy
    rw [hy'] at hy
    exact Option.some.inj hy
  rw [this]
  have hu := h.usage.hopsReturn
  exact handsOut_pos (h.trace.good hu h.fixed (h.pos hm)) (h.trace.settled hu h.fixed (h.pos hm))
    (h.trace.bothWays hu (h.sys hm) (h.maps hm) (h.two hm)).1
    (h.trace.live h.usage h.fixed (h.pos hm) (h.sys hm) h.draws h.sent).left hh hd.2

/-- A removal. -/
theorem Story.remove (h : Story env mem m p) {k : Int} (hk : k ∈ active p.calls) (hc : p.call env mem (.removeWalker k k) = .ok p') :
    Story env mem m p' ∧ active p'.calls = (active p.calls).filter (fun l => l ≠ k) ∧ p'.world.walkers = p.world.walkers := by
  have hs : Story env mem m p' :=
    h.snoc hc (fun r => hk) (fun _ e => nomatch e) trivial (fun _ _ e => nomatch e) (fun _ e => nomatch e) (fun _ _ _ _ _ e => nomatch e)
  obtain ⟨r, h1, h2⟩ := call_ok hc
  refine ⟨hs, by rw [h2, active_snoc]; rfl, ?_⟩
  simp only [step, simple] at h1
  split at h1
  · next w1 e =>
    simp only [Prod.mk.injEq] at h1
    rw [← h1.2]
    obtain ⟨x, -, -, hr⟩ := removeWalker_ok e
    exact (removeAt_inner hr).walkers
  · simp at h1

end Mythical.ToF
