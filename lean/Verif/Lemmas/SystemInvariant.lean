import Verif.Lemmas.SystemRun

/-! # The invariant of a history with proper calls -/

set_option linter.unusedSectionVars false
set_option linter.unusedVariables false

namespace Mythical.World
open Mythical SystemSpec
variable {K : Type} [Field K] [LinearOrder K] [IsStrictOrderedRing K] [FloorRing K]
variable {w w' w1 w2 : World K} {env : Env K} {mem : Addr → K} {act act' : List Int}

/-- The structure is right, the counts are right, and there are no clusters before the first hop. -/
structure Inv (env : Env K) (w : World K) (act : List Int) (hopped : Prop) : Prop where
  struct : Struct env w
  occup : Occup w act
  early : ¬ hopped → ∀ i s, w.sites.get? i = some s → s.clusterId = unassignedId

theorem Inv.new (n : Nat) : Inv env (World.new n : World K) [] False :=
  ⟨.new n, .new n, fun _ i s h => by cases h⟩

theorem Keep.clusterId (h : Keep env w w') (i : Int) :
    (w'.sites.get? i).map (·.clusterId) = (w.sites.get? i).map (·.clusterId) := by
  have := h.site i
  cases e : w.sites.get? i with
  | none => rw [(rel_none this).1 e]
  | some s =>
    obtain ⟨s', hs', hk⟩ := rel_some' (e ▸ this)
    rw [hs']
    simp [Same.clusterId hk]

theorem Keep.early (h : Keep env w w') (he : ∀ i s, w.sites.get? i = some s → s.clusterId = unassignedId) (i : Int)
    (s : Site K) (hs : w'.sites.get? i = some s) : s.clusterId = unassignedId := by
  obtain ⟨t, ht, hk⟩ := rel_some (hs ▸ h.site i)
  rw [hk.clusterId]
  exact he i t ht

theorem Adds.early {m : IMap (IMap Addr)} (h : Adds mem m w w')
    (he : ∀ i s, w.sites.get? i = some s → s.clusterId = unassignedId) (i : Int)
    (s : Site K) (hs : w'.sites.get? i = some s) : s.clusterId = unassignedId := by
  induction h with
  | refl => exact he i s hs
  | seed _ ih => exact ih he hs
  | add t sd ht _ hnew _ ih =>
    refine ih ?_ hs
    intro j u hu
    change IMap.get? (IMap.set _ _ _) _ = _ at hu
    rw [IMap.get?_set] at hu
    split at hu
    · cases hu; exact ht.fresh.1
    · exact he j u hu

theorem Adds.walkers {m : IMap (IMap Addr)} (h : Adds mem m w w') : w'.walkers = w.walkers := by
  induction h with
  | refl => rfl
  | seed _ ih => exact ih
  | add _ _ _ _ _ _ ih => exact ih

theorem Occup.scalars {p : K} {sd : Option Nat} {tr : Option K} {it th tm nx : Int} {fs : IMap FPtr} (h : Occup w act) :
    Occup { w with
      perfRatio := p, seed := sd, timeRes := tr, iteration := it, threshold := th, thresholdMin := tm, nextId := nx,
      feats := fs } act :=
  ⟨h.lone, h.joined, h.placed, h.apart⟩

theorem Occup.adds {m : IMap (IMap Addr)} (ho : Occup w act) (hst : Struct env w) (h : Adds mem m w w') :
    Occup w' act := by
  induction h with
  | refl => exact ho
  | seed _ ih => exact ih ho.scalars (hst.seed _)
  | @add w w' s sd hs hsd hnew _ ih =>
    refine ih ?_ (hst.addSite hs.fresh.1 hnew)
    obtain ⟨f1, f2, -⟩ := hs.fresh
    have hfree : ¬ Taken w act s.id := by
      rintro ⟨h, hh, o⟩
      obtain ⟨i, o', hi⟩ := ho.placed h hh
      rw [on_unique o' o] at hi
      exact hi hnew
    refine ⟨?_, ho.joined, ?_, ho.apart⟩
    · intro i t ht htc
      change IMap.get? (IMap.set _ _ _) _ = _ at ht
      rw [IMap.get?_set] at ht
      split at ht
      · next e =>
        cases ht
        subst e
        exact ⟨fun a => absurd a hfree, fun _ => f2⟩
      · exact ho.lone i t ht htc
    · intro h hh
      obtain ⟨i, o, hi⟩ := ho.placed h hh
      refine ⟨i, o, ?_⟩
      change IMap.get? (IMap.set _ _ _) _ ≠ none
      rw [IMap.get?_set]
      split
      · simp
      · exact hi

theorem Occup.equal (ho : Occup w act) (hs : Step env Equal w w') : Occup w' act := by
  have hw : w' = { w' with walkers := w'.walkers } := rfl
  rw [hw]
  refine ho.counts hs ?_ ?_ ?_
  · intro j a b e hf
    cases e
    exact (flag_congr (taken_congr hs.inner.walkers j).symm).1 hf
  · intro h hh
    obtain ⟨i, o, hi⟩ := ho.placed h hh
    exact ⟨i, (on_congr hs.inner.walkers h i).2 o, hi⟩
  · intro h hh h' hh' i o o'
    exact ho.apart h hh h' hh' i ((on_congr hs.inner.walkers h i).1 o) ((on_congr hs.inner.walkers h' i).1 o')

/-- A change of one walker that is not in the system, or that leaves its site as it is. -/
theorem Occup.setWalker (ho : Occup w act) {h : Int} {x : Walker K}
    (hx : h ∉ act ∨ ∃ y, w.walkers.get? h = some y ∧ x.site = y.site) :
    Occup { w with walkers := w.walkers.set h x } act := by
  refine ho.others ?_
  intro k hk i
  rw [on_set]
  split
  · next e =>
    subst e
    rcases hx with hx | ⟨y, hy, he⟩
    · exact absurd hk hx
    · unfold On
      rw [hy]
      simp [he]
  · rfl

theorem Inv.call {hopped : Prop} (hi : Inv env w act hopped) {op : Op K} {res : Except Fault Int}
    (h : w.step env mem op = (res, w')) (hr : Cluster.GoesOn res) (hp : Proper act hopped ⟨w, mem, op, res, w'⟩) :
    Inv env w' (enter act ⟨w, mem, op, res, w'⟩) (hopped ∨ ∃ wid h a, op = .hop wid h a) := by
  have hhop : ∀ wid h a, op = .hop wid h a → ∃ n, res = .ok n := by
    rintro wid k a rfl
    exact hp.2
  obtain ⟨hst, ho, he⟩ := hi
  refine ⟨hst.call h hr hhop, ?_, ?_⟩
  · cases op with
    | setTimeResolution t =>
      simp only [step, Prod.mk.injEq] at h
      show Occup w' act
      rw [← h.2]
      unfold World.setTimeResolution
      split
      · exact ho
      · exact ho.scalars
    | setMinThreshold n =>
      simp only [step, Prod.mk.injEq] at h
      show Occup w' act
      rw [← h.2]; exact ho.scalars
    | setRandomSeed n =>
      simp only [step, Prod.mk.injEq] at h
      show Occup w' act
      rw [← h.2]
      unfold World.setRandomSeed
      split
      · exact ho
      · exact ho.scalars
    | setPerformanceRatio r =>
      simp only [step, Prod.mk.injEq] at h
      show Occup w' act
      rw [← h.2]; exact ho.scalars
    | initializeSystem m =>
      simp only [step, Prod.mk.injEq] at h
      show Occup w' act
      rw [← h.2]
      exact ho.adds hst initializeSystem_adds
    | newWalker k =>
      simp only [step, Prod.mk.injEq] at h
      show Occup w' act
      rw [← h.2]
      exact ho.setWalker (.inl hp)
    | walkerOccupy k i =>
      show Occup w' act
      simp only [step, simple] at h
      split at h
      · next w1 h1 =>
        simp only [Prod.mk.injEq] at h
        obtain ⟨x, -, h1⟩ := bind_eq_ok.1 h1
        cases h1
        rw [← h.2]; exact ho.setWalker (.inl hp)
      · simp only [Prod.mk.injEq] at h; rw [← h.2]; exact ho
    | walkerSetPotential k i =>
      show Occup w' act
      simp only [step, simple] at h
      split at h
      · next w1 h1 =>
        simp only [Prod.mk.injEq] at h
        obtain ⟨x, hx, h1⟩ := bind_eq_ok.1 h1
        cases h1
        rw [← h.2]; exact ho.setWalker (.inr ⟨x, walkerOf_ok hx, rfl⟩)
      · simp only [Prod.mk.injEq] at h; rw [← h.2]; exact ho
    | walkerSetDwell k t =>
      show Occup w' act
      simp only [step, simple] at h
      split at h
      · next w1 h1 =>
        simp only [Prod.mk.injEq] at h
        obtain ⟨x, hx, h1⟩ := bind_eq_ok.1 h1
        cases h1
        rw [← h.2]; exact ho.setWalker (.inr ⟨x, walkerOf_ok hx, rfl⟩)
      · simp only [Prod.mk.injEq] at h; rw [← h.2]; exact ho
    | initializeWalkers l =>
      obtain ⟨⟨n, hn⟩, p1, p2, p3, p4, p5⟩ := hp
      simp only at hn p3 p4 p5
      subst hn
      simp only [step, Prod.mk.injEq] at h
      show Occup w' (act ++ l.map (·.handle))
      obtain ⟨h1, h2⟩ := h
      unfold World.initializeWalkers at h1 h2
      split at h1
      · cases h1
      · next hne =>
        rw [if_neg hne] at h2
        cases hw : w.initWalkers l with
        | mk r w1 =>
          rw [hw] at h1 h2
          cases r with
          | error e => cases h1
          | ok u =>
            subst h2
            refine (ho.initWalkers hst p1 p2 p3 ?_ ?_ hw).2.1
            · rintro a ha i o ⟨k, hk, o'⟩
              exact p4 a ha k hk i o o'
            · intro a ha i s o hs
              rcases p5 with p5 | p5
              · exact he p5 i s hs
              · have := p5 a ha i o
                exact ok_inj.1 ((getClusterIdOfSite_of hs).symm.trans this)
    | hop wid k a =>
      obtain ⟨hk, n, hn⟩ := hp
      simp only at hn
      subst hn
      show Occup w' act
      simp only [step, Prod.mk.injEq] at h
      obtain ⟨h1, h2⟩ := h
      obtain ⟨u, hu⟩ : ∃ u, (w.hop env mem wid k a).1 = .ok u := by
        cases hh : (w.hop env mem wid k a).1 with
        | error e => rw [hh] at h1; cases h1
        | ok u => exact ⟨u, rfl⟩
      have hhop : w.hop env mem wid k a = (.ok u, w') := by rw [← hu, ← h2]
      obtain ⟨j, w1, hm, hc⟩ := hop_ok hhop
      obtain ⟨st1, o1⟩ := ho.hopMove hst hk hm
      obtain ⟨-, hc⟩ := hopCount_ok st1 hc
      rcases hc with ⟨-, rfl⟩ | ⟨-, -, rfl⟩ | ⟨-, -, -, -, rfl⟩ | ⟨-, -, w3, basin, -, hg, rfl⟩
      · exact o1.scalars
      · exact o1.scalars
      · exact o1.scalars
      · have st2 : Struct env { w1 with iteration := w1.iteration + 1 } := st1.keep (.of_eq rfl rfl rfl le_rfl)
        have o2 : Occup { w1 with iteration := w1.iteration + 1 } act := o1.scalars
        exact (o2.grew st2 hg.grew).scalars
    | removeWalker wid k =>
      simp only [step, simple] at h
      split at h
      · next w1 h1 =>
        simp only [Prod.mk.injEq] at h
        obtain ⟨rfl, rfl⟩ := h
        exact (ho.removeWalker hst hp h1).2
      · simp only [Prod.mk.injEq] at h
        obtain ⟨rfl, rfl⟩ := h
        exact ho
    | getVisitFrequencyOfSite i =>
      show Occup w' act
      exact ho.equal (hst.getVisitFrequencyOfSite_step h hr)
    | elsewhere n =>
      show Occup w' act
      simp only [step] at h
      split at h
      · simp only [Prod.mk.injEq] at h; rw [← h.2]; exact ho
      · simp only [Prod.mk.injEq] at h; rw [← h.2]; exact ho.scalars
  · intro hn i s hs
    rw [not_or] at hn
    rcases step_cases hst h hr hhop with hk | ⟨m, -, ha⟩ | ⟨wid, k, a, j, w1, w2, w3, basin, e, -⟩
    · exact hk.early (he hn.1) i s hs
    · exact ha.early (he hn.1) i s hs
    · exact absurd ⟨wid, k, a, e⟩ hn.2

theorem usage_snoc {evs : List (Event K)} {ev : Event K} (h : Usage (evs ++ [ev])) :
    Usage evs ∧ Proper (active evs) (Hopped evs) ev := by
  refine ⟨?_, h evs ev [] rfl⟩
  intro before e after he
  exact h before e (after ++ [ev]) (by rw [he]; simp)

theorem _root_.Mythical.SystemSpec.Usage.hopsReturn {evs : List (Event K)} (h : Usage evs) : HopsReturn evs := by
  intro ev hev wid k a hop
  obtain ⟨b, a', e⟩ := List.append_of_mem hev
  have := h b ev a' e
  unfold Proper at this
  rw [hop] at this
  exact this.2

theorem active_snoc {evs : List (Event K)} {ev : Event K} : active (evs ++ [ev]) = enter (active evs) ev := by
  unfold active; rw [List.foldl_append]; rfl

theorem hopped_snoc {evs : List (Event K)} {ev : Event K} :
    Hopped (evs ++ [ev]) ↔ Hopped evs ∨ ∃ wid h a, ev.op = .hop wid h a := by
  unfold Hopped
  simp only [List.mem_append, List.mem_singleton]
  constructor
  · rintro ⟨e, he | rfl, h⟩
    · exact .inl ⟨e, he, h⟩
    · exact .inr h
  · rintro (⟨e, he, h⟩ | h)
    · exact ⟨e, .inl he, h⟩
    · exact ⟨ev, .inr rfl, h⟩

theorem Trace.inv {n : Nat} {evs : List (Event K)} (ht : Trace env (World.new n) evs w) (hu : Usage evs) :
    Inv env w (active evs) (Hopped evs) := by
  generalize hw0 : (World.new n : World K) = w0 at ht
  induction ht with
  | nil => subst hw0; exact ⟨.new n, .new n, fun _ i s h => by cases h⟩
  | snoc mem ht h hr ih =>
    obtain ⟨hu1, hp⟩ := usage_snoc hu
    have := (ih hu1).call h hr hp
    rw [active_snoc]
    exact ⟨this.struct, this.occup, fun hn => this.early (fun hh => hn (hopped_snoc.2 hh))⟩

/-- Every prefix of a history is one. -/
theorem Trace.prefix {w0 : World K} {evs before after : List (Event K)} {ev : Event K} (ht : Trace env w0 evs w)
    (he : evs = before ++ ev :: after) :
    Trace env w0 before ev.pre ∧ ev.pre.step env ev.mem ev.op = (ev.res, ev.post) ∧ Cluster.GoesOn ev.res ∧
      Trace env w0 (before ++ [ev]) ev.post := by
  induction ht generalizing after with
  | nil => simp at he
  | @snoc w1 w' evs op res mem ht h hr ih =>
    rcases List.eq_nil_or_concat after with rfl | ⟨after', x, rfl⟩
    · obtain ⟨rfl, e⟩ := List.append_inj' he rfl
      cases e
      exact ⟨ht, h, hr, .snoc mem ht h hr⟩
    · rw [List.concat_eq_append, ← List.cons_append, ← List.append_assoc] at he
      obtain ⟨e, -⟩ := List.append_inj' he rfl
      exact ih e

theorem Trace.last {w0 : World K} {evs before : List (Event K)} {ev : Event K} (ht : Trace env w0 evs w)
    (he : evs = before ++ [ev]) : w = ev.post := by
  cases ht with
  | nil => simp at he
  | snoc => obtain ⟨-, e⟩ := List.append_inj' he rfl; cases e; rfl

theorem Trace.struct {n : Nat} {evs : List (Event K)} (ht : Trace env (World.new n) evs w) (hu : HopsReturn evs) :
    Struct env w := by
  generalize hw0 : (World.new n : World K) = w0 at ht
  induction ht with
  | nil => subst hw0; exact .new n
  | snoc mem ht h hr ih =>
    refine (ih fun ev he => hu ev (List.mem_append_left _ he)).call h hr ?_
    intro wid k a e
    exact hu _ (List.mem_append_right _ (List.mem_singleton_self _)) wid k a e

end Mythical.World
