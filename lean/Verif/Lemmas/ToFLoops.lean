import Verif.Lemmas.ToFStory
import Verif.Lemmas.Queue
import Verif.Lemmas.ToF

/-! # Helper lemmas for the time-of-flight program: the loops -/

set_option linter.unusedSectionVars false
set_option linter.unusedVariables false

namespace Mythical.ToF
open Mythical World SystemSpec ToFSpec CuboidSpec Queue
variable {K : Type} [Field K] [LinearOrder K] [IsStrictOrderedRing K] [FloorRing K]
variable {env : Env K} {mem : Addr → K} {c : Cuboid} {m : IMap (IMap Addr)} {cfg : Config K} {ch : Chances K} {s s' : Sim K}

/-- The ids in the queue. -/
def ids (s : Sim K) : List Int := s.queue.entries.map Prod.fst

/-- The plane in which charge `k` is. -/
def planeOf (x : Int → Int) (w : World K) (k : Int) : Int :=
  match w.walkers.get? k with
  | some y => x y.site
  | none => 0

/-- The sum of the planes of all charges. -/
def sumPlanes (x : Int → Int) (cfg : Config K) (w : World K) : Int := ((List.range cfg.charges).map fun k : Nat => planeOf x w k).sum

/-- What holds whenever the loops go on. -/
structure Inv (env : Env K) (mem : Addr → K) (c : Cuboid) (m : IMap (IMap Addr)) (cfg : Config K) (s : Sim K) : Prop where
  story : Story env mem m s.prog
  act : (ids s).Perm (active s.prog.calls)
  nodup : (ids s).Nodup
  range : ∀ k ∈ ids s, 0 ≤ k ∧ k < cfg.charges
  remain : s.remain = s.queue.size
  sorted : s.queue.sorted = true
  ordered : Ordered s.queue.entries
  lower : ∀ e ∈ s.queue.entries, s.sampleTime - cfg.dt ≤ e.2
  ahead : ∀ k ∈ ids s, ∃ x, AtPlane c s.prog.world k x ∧ x < c.length - 1
  gone : ∀ k : Int, 0 ≤ k → k < cfg.charges → k ∉ ids s → AtPlane c s.prog.world k (c.length - 1)
  index : s.index = s.samples.length
  time : s.sampleTime = cfg.dt * (s.samples.length + 1)
  left : (s.samples.map Prod.snd).Pairwise (fun a b => b ≤ a) ∧ ∀ p ∈ s.samples, s.remain ≤ p.2 ∧ p.2 ≤ cfg.charges

/-- The samples account for the displacement of the charges. -/
def Moved (x : Int → Int) (cfg : Config K) (s : Sim K) : Prop :=
  (∀ p ∈ s.samples, p.1 ≠ none) →
    (s.samples.map fun p => p.1.getD 0).sum * cfg.dt * cfg.volume + (if s.inside then cfg.q * cfg.nm * s.deltaX else 0) =
      cfg.q * cfg.nm * (sumPlanes x cfg s.prog.world : K)

theorem due_nil {q : Queue K} (h : q.entries = []) (t : K) : due q t = .ok false := by
  unfold due Queue.size
  rw [h]; rfl

theorem due_cons {q : Queue K} {e : Int × K} {es : List (Int × K)} (h : q.entries = e :: es) (t : K) :
    due q t = .ok (decide (e.2 < t)) := by
  unfold due Queue.size
  have : q.at_ 0 = .ok e := (at_ok_iff q ⟨by decide, by decide⟩).2 ⟨le_rfl, by rw [h]; rfl⟩
  rw [h, this]
  rfl

theorem holeAt_ok {n : Nat} {i k : Int} : holeAt n i = .ok k ↔ (0 ≤ i ∧ i < n) ∧ k = i := by
  unfold holeAt
  split
  · next h => simp [h, eq_comm]
  · next h => simp [h]

theorem getX_valid (hb : Built c) {i : Int} (hi : ValidIndex c i) : ∃ a, SiteAt c i a ∧ c.getX i = .ok a.x := by
  obtain ⟨a, ha⟩ := Cuboid.siteAt_exists (Cuboid.good_of_built hb) hi
  exact ⟨a, ha, getX_ok hb ha⟩

/-- The steps of one round of the inner loop. -/
theorem iterate_ok (h : iterate env mem c cfg ch s = .ok s') :
    ∃ e es x i old p y j new d, s.queue.entries = e :: es ∧ (0 ≤ e.1 ∧ e.1 < cfg.charges) ∧
      s.prog.world.walkers.get? e.1 = some x ∧ i = x.site ∧ x.site ≠ unassignedId ∧ c.getX i = .ok old ∧
      s.prog.call env mem (.hop e.1 e.1 (ch.draw s.prog.calls e.1)) = .ok p ∧
      p.world.walkers.get? e.1 = some y ∧ j = y.site ∧ y.site ≠ unassignedId ∧ c.getX j = .ok new ∧ d = new - old ∧
      ((new < c.length - 1 ∧ s' = { s with
          prog := p, queue := ⟨insertBefore (e.1, e.2 + y.dwell) es, s.queue.sorted⟩, deltaX := s.deltaX + (d : K) }) ∨
       (c.length - 1 ≤ new ∧ ∃ p', p.call env mem (.removeWalker e.1 e.1) = .ok p' ∧
         s' = { s with prog := p', queue := ⟨es, s.queue.sorted⟩, deltaX := s.deltaX + (d : K), remain := s.remain - 1 })) := by
  unfold iterate at h
  obtain ⟨⟨e, q⟩, hq, h⟩ := bind_eq_ok.1 h
  obtain ⟨es, he, hqe⟩ : ∃ es, s.queue.entries = e :: es ∧ q = ⟨es, s.queue.sorted⟩ := by
    unfold popCurrent at hq
    split at hq
    · cases hq
    · next e' es he => cases hq; exact ⟨es, he, rfl⟩
  subst hqe
  simp only at h
  obtain ⟨k, hk, h⟩ := bind_eq_ok.1 h
  obtain ⟨hr, rfl⟩ := holeAt_ok.1 hk
  obtain ⟨x, hx, h⟩ := bind_eq_ok.1 h
  obtain ⟨i, hi, h⟩ := bind_eq_ok.1 h
  obtain ⟨hi0, hi⟩ := walkerSite_ok.1 hi
  obtain ⟨old, hold, h⟩ := bind_eq_ok.1 h
  obtain ⟨p, hp, h⟩ := bind_eq_ok.1 h
  obtain ⟨y, hy, h⟩ := bind_eq_ok.1 h
  obtain ⟨j, hj, h⟩ := bind_eq_ok.1 h
  obtain ⟨hj0, hj⟩ := walkerSite_ok.1 hj
  obtain ⟨new, hnew, h⟩ := bind_eq_ok.1 h
  obtain ⟨d, hd, h⟩ := bind_eq_ok.1 h
  obtain ⟨last, hl, h⟩ := bind_eq_ok.1 h
  have hd := (chk_eq_ok.1 hd).1
  have hl := (chk_eq_ok.1 hl).1
  subst hl
  refine ⟨e, es, x, i, old, p, y, j, new, d, he, hr, walkerOf_ok hx, hi.symm, hi0, hold, hp, walkerOf_ok hy, hj.symm, hj0, hnew, hd, ?_⟩
  split at h
  · next hlt => cases h; exact .inl ⟨hlt, rfl⟩
  · next hge =>
    obtain ⟨p', hp', h⟩ := bind_eq_ok.1 h
    obtain ⟨r, hr', h⟩ := bind_eq_ok.1 h
    have hr' := (chk_eq_ok.1 hr').1
    cases h
    subst hr'
    exact .inr ⟨not_lt.1 hge, p', hp', rfl⟩

theorem onSite_unique {w : World K} {k i j : Int} (h : On w k i) (h' : On w k j) : i = j := by
  unfold On at h h'
  obtain ⟨x, hx, e⟩ := h
  obtain ⟨y, hy, e'⟩ := h'
  rw [hx] at hy
  cases hy
  rw [← e.1, ← e'.1]

theorem atPlane_congr {w w' : World K} {k x : Int} (h : w'.walkers.get? k = w.walkers.get? k) (ha : AtPlane c w k x) : AtPlane c w' k x := by
  obtain ⟨i, a, ho, hs, e⟩ := ha
  refine ⟨i, a, ?_, hs, e⟩
  unfold On at ho ⊢
  rw [h]
  exact ho

theorem iterate_inv (hb : Built c) (hm : Suits c mem m) (hch : Possible c mem ch) (hI : Inv env mem c m cfg s)
    (h : iterate env mem c cfg ch s = .ok s') : Inv env mem c m cfg s' := by
  obtain ⟨e, es, x, i, old, p, y, j, new, d, he, hr, hx, rfl, -, hold, hp, hy, rfl, -, hnew, rfl, hcase⟩ := iterate_ok h
  have hids : ids s = e.1 :: es.map Prod.fst := by unfold ids; rw [he]; rfl
  have hact : e.1 ∈ active s.prog.calls := hI.act.subset (by rw [hids]; exact List.mem_cons_self)
  obtain ⟨hs, hsame, ⟨x', hx', hon⟩, ⟨y', hy', hon', hv, hdw⟩, hoth⟩ :=
    hI.story.hop hm hact (hch.draw _ _) (fun v w1 e' => hch.times _ _ v w1 (by rw [hI.story.last]; exact e')) hp
  rw [hx] at hx'; cases hx'
  rw [hy] at hy'; cases hy'
  obtain ⟨a, ha, hax⟩ := getX_valid hb hv
  rw [hnew] at hax
  cases hax
  have hnd := hI.nodup
  rw [hids] at hnd
  have hne : ∀ k ∈ es.map Prod.fst, k ≠ e.1 := fun k hk e' => (List.nodup_cons.1 hnd).1 (e' ▸ hk)
  have hord := hI.ordered
  rw [he] at hord
  have hlow := hI.lower
  rw [he] at hlow
  have hlow0 := hlow e List.mem_cons_self
  have hsize : s.queue.size = es.length + 1 := by unfold Queue.size; rw [he]; rfl
  rcases hcase with ⟨hlt, rfl⟩ | ⟨hge, p', hp', rfl⟩
  · have hperm := insertBefore_perm (e.1, e.2 + y.dwell) es
    have hids' : ((insertBefore (e.1, e.2 + y.dwell) es).map Prod.fst).Perm (ids s) := by
      rw [hids]; exact hperm.map Prod.fst
    refine ⟨hs, ?_, ?_, ?_, ?_, hI.sorted, ?_, ?_, ?_, ?_, hI.index, hI.time, hI.left⟩
    · show List.Perm _ (active p.calls)
      rw [hsame]
      exact hids'.trans hI.act
    · exact hids'.nodup_iff.2 hI.nodup
    · intro k hk
      exact hI.range k (hids'.subset hk)
    · show s.remain = ((insertBefore (e.1, e.2 + y.dwell) es).length : Int)
      rw [hperm.length_eq, hI.remain, hsize]
      rfl
    · exact insertBefore_ordered _ (List.pairwise_cons.1 hord).2
    · intro e' he'
      rcases List.mem_cons.1 (hperm.subset he') with rfl | he'
      · show s.sampleTime - cfg.dt ≤ e.2 + y.dwell
        linarith
      · exact hlow _ (List.mem_cons_of_mem _ he')
    · intro k hk
      have hk' : k ∈ ids s := hids'.subset hk
      rw [hids] at hk'
      rcases List.mem_cons.1 hk' with rfl | hk'
      · exact ⟨a.x, ⟨_, a, hon', ha, rfl⟩, hlt⟩
      · obtain ⟨z, hz, hzl⟩ := hI.ahead k (by rw [hids]; exact List.mem_cons_of_mem _ hk')
        exact ⟨z, atPlane_congr (hoth k (hne k hk')) hz, hzl⟩
    · intro k h1 h2 hk
      have hk' : k ∉ ids s := fun hk' => hk (hids'.symm.subset hk')
      refine atPlane_congr (hoth k ?_) (hI.gone k h1 h2 hk')
      rintro rfl
      exact hk' (by rw [hids]; exact List.mem_cons_self)
  · obtain ⟨hs', hact', hw⟩ := hs.remove (by rw [hsame]; exact hact) hp'
    refine ⟨hs', ?_, ?_, ?_, ?_, hI.sorted, ?_, ?_, ?_, ?_, hI.index, hI.time, ?_⟩
    · show List.Perm (es.map Prod.fst) (active p'.calls)
      rw [hact', hsame]
      have := hI.act.filter (fun l => l ≠ e.1)
      rw [hids, List.filter_cons_of_neg (by simp), List.filter_eq_self.2 (fun k hk => by simpa using hne k hk)] at this
      exact this
    · exact (List.nodup_cons.1 hnd).2
    · intro k hk
      exact hI.range k (by rw [hids]; exact List.mem_cons_of_mem _ hk)
    · show s.remain - 1 = (es.length : Int)
      rw [hI.remain, hsize]
      push_cast
      ring
    · exact (List.pairwise_cons.1 hord).2
    · intro e' he'
      exact hlow _ (List.mem_cons_of_mem _ he')
    · intro k hk
      obtain ⟨z, hz, hzl⟩ := hI.ahead k (by rw [hids]; exact List.mem_cons_of_mem _ hk)
      refine ⟨z, atPlane_congr ?_ hz, hzl⟩
      show p'.world.walkers.get? k = _
      rw [hw, hoth k (hne k hk)]
    · intro k h1 h2 hk
      by_cases hke : k = e.1
      · subst hke
        have hxl : a.x = c.length - 1 := by have := ha.1.1; omega
        refine ⟨y.site, a, ?_, ha, hxl⟩
        unfold On at hon' ⊢
        show ∃ z, p'.world.walkers.get? e.1 = some z ∧ _
        rw [hw]
        exact hon'
      · have hk' : k ∉ ids s := by
          rw [hids]
          intro hk'
          rcases List.mem_cons.1 hk' with e' | hk'
          · exact hke e'
          · exact hk hk'
        refine atPlane_congr ?_ (hI.gone k h1 h2 hk')
        show p'.world.walkers.get? k = _
        rw [hw, hoth k hke]
    · refine ⟨hI.left.1, fun q hq => ⟨?_, (hI.left.2 q hq).2⟩⟩
      show s.remain - 1 ≤ _
      have := (hI.left.2 q hq).1
      omega

theorem sample_ok (h : sample cfg s = .ok s') : s' = { s with
    samples := s.samples ++ [(current cfg s.queue.size s.deltaX, s.remain)], index := s.index + 1,
    sampleTime := s.sampleTime + cfg.dt, inside := false } := by
  unfold sample at h
  dsimp only at h
  split at h
  · obtain ⟨r, hr, h⟩ := bind_eq_ok.1 h
    cases (chk_eq_ok.1 hr).1
    cases h
    rfl
  · cases h

theorem ids_length (hI : Inv env mem c m cfg s) : s.queue.size ≤ cfg.charges := by
  have h1 : (ids s).length = s.queue.size := by unfold ids Queue.size; simp
  have h2 : (ids s) ⊆ (List.range cfg.charges).map (fun k : Nat => (k : Int)) := by
    intro k hk
    obtain ⟨h, h'⟩ := hI.range k hk
    exact List.mem_map.2 ⟨k.toNat, List.mem_range.2 (by omega), by omega⟩
  have := (hI.nodup.subperm h2).length_le
  simp at this
  omega

theorem sample_inv (hI : Inv env mem c m cfg s) (hd : due s.queue s.sampleTime = .ok false)
    (h : sample cfg s = .ok s') : Inv env mem c m cfg s' := by
  have := sample_ok h
  subst this
  refine ⟨hI.story, hI.act, hI.nodup, hI.range, hI.remain, hI.sorted, hI.ordered, ?_, hI.ahead, hI.gone, ?_, ?_, ?_, ?_⟩
  · intro e he
    show s.sampleTime + cfg.dt - cfg.dt ≤ e.2
    have hq : e ∈ s.queue.entries := he
    cases hes : s.queue.entries with
    | nil => rw [hes] at hq; cases hq
    | cons e0 es =>
      rw [due_cons hes] at hd
      have h0 : ¬ e0.2 < s.sampleTime := by simpa using hd
      have hord := hI.ordered
      rw [hes] at hq hord
      rcases List.mem_cons.1 hq with rfl | hq
      · simpa using h0
      · have := (List.pairwise_cons.1 hord).1 e hq
        push Not at h0
        simpa using h0.trans this
  · show s.index + 1 = ((s.samples ++ [_]).length : Int)
    rw [hI.index]
    simp
  · show s.sampleTime + cfg.dt = cfg.dt * (((s.samples ++ [_]).length : K) + 1)
    rw [hI.time]
    simp
    ring
  · show List.Pairwise _ ((s.samples ++ [_]).map Prod.snd)
    rw [List.map_append, List.pairwise_append]
    refine ⟨hI.left.1, List.pairwise_singleton _ _, ?_⟩
    intro a ha b hb
    obtain ⟨q, hq, rfl⟩ := List.mem_map.1 ha
    cases List.mem_singleton.1 hb
    exact (hI.left.2 q hq).1
  · intro q hq
    rcases List.mem_append.1 hq with hq | hq
    · exact hI.left.2 q hq
    · cases List.mem_singleton.1 hq
      refine ⟨le_rfl, ?_⟩
      show s.remain ≤ _
      rw [hI.remain]
      exact_mod_cast ids_length hI

/-- What is done next, by cases. -/
theorem advance_ok {o : Option (Sim K)} (h : advance env mem c cfg ch s = .ok o) :
    (s.inside = true ∧ due s.queue s.sampleTime = .ok true ∧ ∃ s', iterate env mem c cfg ch s = .ok s' ∧ o = some s') ∨
    (s.inside = true ∧ due s.queue s.sampleTime = .ok false ∧ ∃ s', sample cfg s = .ok s' ∧ o = some s') ∨
    (s.inside = false ∧ due s.queue cfg.cutoffTime = .ok true ∧ o = some { s with deltaX := 0, inside := true }) ∨
    (s.inside = false ∧ due s.queue cfg.cutoffTime = .ok false ∧ o = none) := by
  unfold advance at h
  split at h
  · next hi =>
    obtain ⟨b, hb, h⟩ := bind_eq_ok.1 h
    cases b
    · simp only [Bool.false_eq_true, if_false] at h
      obtain ⟨s', hs', h⟩ := bind_eq_ok.1 h
      cases h
      exact .inr (.inl ⟨hi, hb, s', hs', rfl⟩)
    · simp only [if_true] at h
      obtain ⟨s', hs', h⟩ := bind_eq_ok.1 h
      cases h
      exact .inl ⟨hi, hb, s', hs', rfl⟩
  · next hi =>
    have hi : s.inside = false := by simpa using hi
    obtain ⟨b, hb, h⟩ := bind_eq_ok.1 h
    cases b
    · simp only [Bool.false_eq_true, if_false] at h
      cases h
      exact .inr (.inr (.inr ⟨hi, hb, rfl⟩))
    · simp only [if_true] at h
      cases h
      exact .inr (.inr (.inl ⟨hi, hb, rfl⟩))

theorem advance_inv (hb : Built c) (hm : Suits c mem m) (hch : Possible c mem ch) (hI : Inv env mem c m cfg s)
    (h : advance env mem c cfg ch s = .ok (some s')) : Inv env mem c m cfg s' := by
  rcases advance_ok h with ⟨-, -, s1, h1, e⟩ | ⟨-, hd, s1, h1, e⟩ | ⟨-, -, e⟩ | ⟨-, -, e⟩
  · cases e; exact iterate_inv hb hm hch hI h1
  · cases e; exact sample_inv hI hd h1
  · cases e
    exact ⟨hI.story, hI.act, hI.nodup, hI.range, hI.remain, hI.sorted, hI.ordered, hI.lower, hI.ahead, hI.gone, hI.index, hI.time, hI.left⟩
  · cases e

/-! ### Displacements and currents -/

/-- `getX`, as a function. -/
def planeX (c : Cuboid) (i : Int) : Int :=
  match c.getX i with
  | .ok v => v
  | .error _ => 0

theorem sum_range_change {f g : Nat → Int} {n j : Nat} (hj : j < n) (h : ∀ k, k ≠ j → g k = f k) :
    ((List.range n).map g).sum = ((List.range n).map f).sum + (g j - f j) := by
  induction n with
  | zero => omega
  | succ n ih =>
    simp only [List.range_succ, List.map_append, List.sum_append, List.map_cons, List.map_nil, List.sum_cons, List.sum_nil]
    by_cases hn : j = n
    · subst hn
      have : (List.range j).map g = (List.range j).map f := List.map_congr_left fun k hk => h k (by have := List.mem_range.1 hk; omega)
      rw [this]
      ring
    · rw [ih (by omega), h n (by omega)]
      ring

theorem sumPlanes_change {x : Int → Int} {w w' : World K} {k : Int} (hk : 0 ≤ k ∧ k < cfg.charges)
    (h : ∀ l, l ≠ k → w'.walkers.get? l = w.walkers.get? l) :
    sumPlanes x cfg w' = sumPlanes x cfg w + (planeOf x w' k - planeOf x w k) := by
  obtain ⟨j, rfl⟩ : ∃ j : Nat, k = j := ⟨k.toNat, by omega⟩
  exact sum_range_change (f := fun k : Nat => planeOf x w k) (g := fun k : Nat => planeOf x w' k) (by omega) fun l hl => by
    show planeOf x w' l = planeOf x w l
    unfold planeOf
    rw [h l (by omega)]

theorem iterate_moved (hm : Suits c mem m) (hch : Possible c mem ch) (hI : Inv env mem c m cfg s) (hin : s.inside = true)
    (h : iterate env mem c cfg ch s = .ok s') (hM : Moved (planeX c) cfg s) : Moved (planeX c) cfg s' := by
  obtain ⟨e, es, x, i, old, p, y, j, new, d, he, hr, hx, rfl, -, hold, hp, hy, rfl, -, hnew, rfl, hcase⟩ := iterate_ok h
  have hids : ids s = e.1 :: es.map Prod.fst := by unfold ids; rw [he]; rfl
  have hact : e.1 ∈ active s.prog.calls := hI.act.subset (by rw [hids]; exact List.mem_cons_self)
  obtain ⟨hs, hsame, -, -, hoth⟩ :=
    hI.story.hop hm hact (hch.draw _ _) (fun v w1 e' => hch.times _ _ v w1 (by rw [hI.story.last]; exact e')) hp
  have hsum := sumPlanes_change (x := planeX c) hr hoth
  have h1 : planeOf (planeX c) p.world e.1 = new := by unfold planeOf planeX; rw [hy]; simp only; rw [hnew]
  have h2 : planeOf (planeX c) s.prog.world e.1 = old := by unfold planeOf planeX; rw [hx]; simp only; rw [hold]
  rw [h1, h2] at hsum
  have key : (∀ q ∈ s.samples, q.1 ≠ none) →
      (s.samples.map fun q => q.1.getD 0).sum * cfg.dt * cfg.volume + cfg.q * cfg.nm * (s.deltaX + ((new - old : Int) : K)) =
      cfg.q * cfg.nm * (sumPlanes (planeX c) cfg p.world : K) := by
    intro hall
    have := hM hall
    rw [if_pos hin] at this
    rw [hsum]
    push_cast at this ⊢
    linear_combination this
  rcases hcase with ⟨-, rfl⟩ | ⟨-, p', hp', rfl⟩
  · intro hall
    show _ + (if s.inside = true then _ else _) = _
    rw [if_pos hin]
    exact key hall
  · intro hall
    show _ + (if s.inside = true then _ else _) = cfg.q * cfg.nm * (sumPlanes (planeX c) cfg p'.world : K)
    rw [if_pos hin]
    obtain ⟨-, -, hw⟩ := hs.remove (by rw [hsame]; exact hact) hp'
    have : sumPlanes (planeX c) cfg p'.world = sumPlanes (planeX c) cfg p.world := by
      unfold sumPlanes planeOf
      rw [hw]
    rw [this]
    exact key hall

theorem sample_moved (hin : s.inside = true) (h : sample cfg s = .ok s') (hM : Moved (planeX c) cfg s) : Moved (planeX c) cfg s' := by
  have := sample_ok h
  subst this
  intro hall
  simp only [Bool.false_eq_true, if_false, add_zero, List.map_append, List.sum_append, List.map_cons, List.map_nil, List.sum_cons,
    List.sum_nil]
  have h0 := hM fun q hq => hall q (List.mem_append_left _ hq)
  have h1 := hall _ (List.mem_append_right _ (List.mem_singleton.2 rfl))
  rw [if_pos hin] at h0
  simp only at h1
  unfold current at h1 ⊢
  split at h1
  · exact absurd rfl h1
  · next hc =>
    rw [if_neg hc]
    push Not at hc
    obtain ⟨hnd, hv⟩ := hc
    have hn : (s.queue.size : K) ≠ 0 := left_ne_zero_of_mul hnd
    have hd : cfg.dt ≠ 0 := right_ne_zero_of_mul hnd
    rw [← h0, Option.getD_some]
    field_simp

theorem advance_moved (hm : Suits c mem m) (hch : Possible c mem ch) (hI : Inv env mem c m cfg s)
    (h : advance env mem c cfg ch s = .ok (some s')) (hM : Moved (planeX c) cfg s) : Moved (planeX c) cfg s' := by
  rcases advance_ok h with ⟨hi, -, s1, h1, e⟩ | ⟨hi, hd, s1, h1, e⟩ | ⟨hi, -, e⟩ | ⟨-, -, e⟩
  · cases e; exact iterate_moved hm hch hI hi h1 hM
  · cases e; exact sample_moved hi h1 hM
  · cases e
    intro hall
    have := hM hall
    rw [hi] at this
    simpa using this
  · cases e

/-! ### The steps end -/

theorem fine_ok {α : Type} (x : α) : OnlyOverflow (.ok x : Except Fault α) := .inl ⟨x, rfl⟩

theorem fine_bind {α β : Type} {r : Except Fault α} {f : α → Except Fault β} (h : OnlyOverflow r)
    (hf : ∀ x, r = .ok x → OnlyOverflow (f x)) : OnlyOverflow (r >>= f) := by
  rcases h with ⟨x, hx⟩ | h | h
  · rw [hx]; exact hf x hx
  · rw [h]; exact .inr (.inl rfl)
  · rw [h]; exact .inr (.inr rfl)

theorem fine_or {α : Type} {r : Except Fault α} (h : OkOrOverflow r) : OnlyOverflow r := h.elim .inl fun h => .inr (.inl h)

theorem fine_chk {α : Type} {n : Int} {f : Int → Except Fault α} (hf : ∀ x, OnlyOverflow (f x)) : OnlyOverflow (chk n >>= f) :=
  fine_bind (fine_or (chk_or n)) fun x _ => hf x

theorem fine_call {p : Prog K} {op : World.Op K} (h : OnlyOverflow (p.world.step env mem op).1) : OnlyOverflow (p.call env mem op) := by
  rcases h with ⟨x, hx⟩ | h | h
  · have : p.world.step env mem op = (.ok x, (p.world.step env mem op).2) := by rw [← hx]
    rw [call_of this]
    exact fine_ok _
  · rw [call_error h]; exact .inr (.inl rfl)
  · rw [call_error h]; exact .inr (.inr rfl)

/-- One round of the inner loop returns if the hop in it does. -/
theorem iterate_fine (hb : Built c) (hm : Suits c mem m) (hch : Possible c mem ch) (hI : Inv env mem c m cfg s) (hne : s.queue.entries ≠ [])
    (hhop : ∀ e ∈ s.queue.entries, OnlyOverflow (s.prog.call env mem (.hop e.1 e.1 (ch.draw s.prog.calls e.1)))) :
    OnlyOverflow (iterate env mem c cfg ch s) := by
  obtain ⟨e, es, he⟩ := List.exists_cons_of_ne_nil hne
  have hmem : e ∈ s.queue.entries := by rw [he]; exact List.mem_cons_self
  have hid : e.1 ∈ ids s := List.mem_map_of_mem hmem
  have hact := hI.act.subset hid
  have hr := hI.range _ hid
  have ho := hhop e hmem
  obtain ⟨i, ⟨x, hx, rfl, h0⟩, hi⟩ := (hI.story.trace.inv hI.story.usage).occup.placed _ hact
  obtain ⟨a, -, ha⟩ := getX_valid hb (hI.story.valid hm (known_iff.2 hi))
  have hpop : s.queue.popCurrent = .ok (e, ⟨es, s.queue.sorted⟩) := by unfold popCurrent; rw [he]
  have hwx : s.prog.world.walkerOf e.1 = .ok x := by unfold walkerOf; rw [hx]
  unfold iterate
  rw [hpop, ok_bind]
  simp only [holeAt_ok.2 ⟨hr, rfl⟩, ok_bind, hwx, walkerSite_ok.2 ⟨h0, rfl⟩, ha]
  refine fine_bind ho fun p hp => ?_
  obtain ⟨hs, hsame, -, ⟨y, hy, ⟨y', hy', -, hy0⟩, hv, -⟩, -⟩ :=
    hI.story.hop hm hact (hch.draw _ _) (fun v w1 e' => hch.times _ _ v w1 (by rw [hI.story.last]; exact e')) hp
  have hwy : p.world.walkerOf e.1 = .ok y := by unfold walkerOf; rw [hy]
  obtain ⟨b, -, hb'⟩ := getX_valid hb hv
  simp only [hwy, ok_bind, walkerSite_ok.2 ⟨hy0, rfl⟩, hb']
  refine fine_chk fun d => fine_chk fun l => ?_
  split
  · exact fine_ok _
  · refine fine_bind (fine_call ?_) fun p' _ => fine_chk fun _ => fine_ok _
    rcases C72_removeWalker env mem 0 _ _ hs.trace hs.usage hs.fixed (hs.pos hm) hs.ratio hs.times e.1 e.1 (by rw [hsame]; exact hact) with h | h
    · exact .inl h
    · exact .inr (.inl h)

theorem call_remove {p : Prog K} {f f' : Nat} {a b : Int} :
    p.call { env with fuel := f } mem (.removeWalker a b) = p.call { env with fuel := f' } mem (.removeWalker a b) := by
  unfold Prog.call
  simp only [World.step]

/-- The limit on the number of rounds matters for hops only. -/
theorem iterate_congr {f f' : Nat}
    (h : ∀ e ∈ s.queue.entries, s.prog.call { env with fuel := f } mem (.hop e.1 e.1 (ch.draw s.prog.calls e.1)) =
      s.prog.call { env with fuel := f' } mem (.hop e.1 e.1 (ch.draw s.prog.calls e.1))) :
    iterate { env with fuel := f } mem c cfg ch s = iterate { env with fuel := f' } mem c cfg ch s := by
  unfold iterate popCurrent
  cases hes : s.queue.entries with
  | nil => simp only [error_bind]
  | cons e es =>
    simp only [ok_bind]
    unfold holeAt
    split
    · simp only [ok_bind]
      have := h e (by rw [hes]; exact List.mem_cons_self)
      have h2 : ∀ p : Prog K, p.call { env with fuel := f } mem (.removeWalker e.1 e.1) =
        p.call { env with fuel := f' } mem (.removeWalker e.1 e.1) := fun p => call_remove
      simp only [this, h2]
    · simp only [error_bind]

/-- A number of steps beyond which the result does not change. -/
theorem iterate_total (hb : Built c) (hm : Suits c mem m) (hch : Possible c mem ch) {N : Nat}
    (hI : ∀ f ≥ N, Inv { env with fuel := f } mem c m cfg s) (hne : s.queue.entries ≠ []) :
    ∃ N' r, OnlyOverflow r ∧ ∀ f ≥ N', iterate { env with fuel := f } mem c cfg ch s = r := by
  obtain ⟨e, es, he⟩ := List.exists_cons_of_ne_nil hne
  have key : ∀ e ∈ s.queue.entries, ∃ N' r, OnlyOverflow r ∧
      ∀ f ≥ N', s.prog.call { env with fuel := f } mem (.hop e.1 e.1 (ch.draw s.prog.calls e.1)) = r := by
    intro e hmem
    have hI' := hI N le_rfl
    have hs := hI'.story
    have hact : e.1 ∈ active s.prog.calls := hI'.act.subset (List.mem_map_of_mem hmem)
    obtain ⟨N', r, hr, hstep⟩ := C69_hop_returns _ mem 0 _ _ hs.trace hs.usage hs.fixed (hs.pos hm) (hs.sys hm) (hs.maps hm) (hs.two hm)
      hs.draws hs.sent hs.ratio hs.times e.1 e.1 hact (ch.draw s.prog.calls e.1) (hch.draw _ _)
      (fun v w1 e' => hch.times _ _ v w1 (by rw [hs.last]; exact e'))
    refine ⟨N', s.prog.call { env with fuel := N' } mem (.hop e.1 e.1 (ch.draw s.prog.calls e.1)), fine_call ?_, fun f hf => ?_⟩
    · have h : s.prog.world.step { env with fuel := N' } mem _ = r := hstep N' le_rfl
      rw [h]
      exact hr
    · have h1 : s.prog.world.step { env with fuel := N' } mem (.hop e.1 e.1 (ch.draw s.prog.calls e.1)) = r := hstep N' le_rfl
      have h2 : s.prog.world.step { env with fuel := f } mem (.hop e.1 e.1 (ch.draw s.prog.calls e.1)) = r := hstep f hf
      unfold Prog.call
      rw [h1, h2]
  have bound : ∃ M, ∀ e ∈ s.queue.entries, ∃ r, OnlyOverflow r ∧
      ∀ f ≥ M, s.prog.call { env with fuel := f } mem (.hop e.1 e.1 (ch.draw s.prog.calls e.1)) = r := by
    clear hne he
    generalize s.queue.entries = l at key
    induction l with
    | nil => exact ⟨0, fun _ h => nomatch h⟩
    | cons a l ih =>
      obtain ⟨M, hM⟩ := ih fun e he => key e (List.mem_cons_of_mem _ he)
      obtain ⟨N', r, h1, h2⟩ := key a List.mem_cons_self
      refine ⟨max M N', fun e he => ?_⟩
      rcases List.mem_cons.1 he with rfl | he
      · exact ⟨r, h1, fun f hf => h2 f (le_trans (le_max_right _ _) hf)⟩
      · obtain ⟨r, h1, h2⟩ := hM e he
        exact ⟨r, h1, fun f hf => h2 f (le_trans (le_max_left _ _) hf)⟩
  obtain ⟨M, hM⟩ := bound
  refine ⟨max M N, iterate { env with fuel := max M N } mem c cfg ch s, ?_, fun f hf => iterate_congr fun e he => ?_⟩
  · refine iterate_fine hb hm hch (hI _ (le_max_right _ _)) hne fun e he => ?_
    obtain ⟨r, h1, h2⟩ := hM e he
    rw [h2 _ (le_max_left _ _)]
    exact h1
  · obtain ⟨r, h1, h2⟩ := hM e he
    rw [h2 _ (le_max_left _ _), h2 f (le_trans (le_max_left _ _) hf)]

theorem due_true {q : Queue K} {t : K} (h : due q t = .ok true) : q.entries ≠ [] := by
  intro he
  rw [due_nil he] at h
  cases h

theorem due_total (q : Queue K) (t : K) : ∃ b, due q t = .ok b := by
  cases h : q.entries with
  | nil => exact ⟨_, due_nil h t⟩
  | cons e es => exact ⟨_, due_cons h t⟩

theorem sample_fine (hI : Inv env mem c m cfg s) : OnlyOverflow (sample cfg s) := by
  unfold sample
  dsimp only
  rw [if_pos ⟨by rw [hI.index]; exact Int.natCast_nonneg _, by rw [hI.index]; simp⟩]
  exact fine_chk fun _ => fine_ok _

theorem advance_total (hb : Built c) (hm : Suits c mem m) (hch : Possible c mem ch) {N : Nat}
    (hI : ∀ f ≥ N, Inv { env with fuel := f } mem c m cfg s) :
    ∃ N' r, OnlyOverflow r ∧ ∀ f ≥ N', advance { env with fuel := f } mem c cfg ch s = r := by
  unfold advance
  split
  · obtain ⟨b, hb'⟩ := due_total s.queue s.sampleTime
    rw [hb']
    simp only [ok_bind]
    cases b with
    | false =>
      simp only [Bool.false_eq_true, if_false]
      exact ⟨0, _, fine_bind (sample_fine (hI N le_rfl)) fun _ _ => fine_ok _, fun _ _ => rfl⟩
    | true =>
      simp only [if_true]
      obtain ⟨N', r, h1, h2⟩ := iterate_total hb hm hch hI (due_true hb')
      refine ⟨N', r >>= fun s => .ok (some s), fine_bind h1 fun _ _ => fine_ok _, fun f hf => by rw [h2 f hf]⟩
  · obtain ⟨b, hb'⟩ := due_total s.queue cfg.cutoffTime
    rw [hb']
    simp only [ok_bind]
    exact ⟨0, _, by split <;> exact fine_ok _, fun _ _ => rfl⟩

/-- The loops, for any number of steps. -/
theorem loops_total (hb : Built c) (hm : Suits c mem m) (hch : Possible c mem ch) (n : Nat) {N : Nat}
    (hI : ∀ f ≥ N, Inv { env with fuel := f } mem c m cfg s) :
    ∃ N' r, OnlyOverflow r ∧ ∀ f ≥ N', loops { env with fuel := f } mem c cfg ch n s = r := by
  induction n generalizing s N with
  | zero => exact ⟨0, _, fine_ok _, fun _ _ => rfl⟩
  | succ n ih =>
    obtain ⟨N1, r, h1, h2⟩ := advance_total hb hm hch hI
    rcases h1 with ⟨o, rfl⟩ | rfl | rfl
    · cases o with
      | none => exact ⟨N1, .ok (s, true), fine_ok _, fun f hf => by unfold loops; rw [h2 f hf]⟩
      | some s' =>
        have hI' : ∀ f ≥ max N N1, Inv { env with fuel := f } mem c m cfg s' := fun f hf =>
          advance_inv hb hm hch (hI f (le_trans (le_max_left _ _) hf)) (h2 f (le_trans (le_max_right _ _) hf))
        obtain ⟨N2, r, h3, h4⟩ := ih hI'
        refine ⟨max N1 N2, r, h3, fun f hf => ?_⟩
        unfold loops
        rw [h2 f (le_trans (le_max_left _ _) hf)]
        exact h4 f (le_trans (le_max_right _ _) hf)
    · exact ⟨N1, _, .inr (.inl rfl), fun f hf => by unfold loops; rw [h2 f hf]⟩
    · exact ⟨N1, _, .inr (.inr rfl), fun f hf => by unfold loops; rw [h2 f hf]⟩

/-- What holds in the loops holds after them. -/
theorem loops_ind {P : Sim K → Prop} (hP : ∀ s s', P s → advance env mem c cfg ch s = .ok (some s') → P s') {n : Nat} {fin : Bool}
    (h0 : P s) (h : loops env mem c cfg ch n s = .ok (s', fin)) : P s' ∧ (fin = true → advance env mem c cfg ch s' = .ok none) := by
  induction n generalizing s with
  | zero => cases h; exact ⟨h0, fun h => nomatch h⟩
  | succ n ih =>
    unfold loops at h
    split at h
    · cases h
    · next ha => cases h; exact ⟨h0, fun _ => ha⟩
    · next s1 ha => exact ih (hP _ _ h0 ha) h

end Mythical.ToF
