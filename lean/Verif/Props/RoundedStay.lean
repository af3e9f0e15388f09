import Verif.Lemmas.RoundedStay
import Verif.Props.RoundedIter

/-! # Property C93: the stay of a walker in a cluster in rounded arithmetic -/

set_option linter.unusedSectionVars false

namespace Mythical
open RoundSpec ClusterSpec
variable {K : Type} [Field K] [LinearOrder K] [IsStrictOrderedRing K] [FloorRing K]
variable {fl : K → K} {ε τ dt : K}

/-- **C93, no rounding.** Without rounding, the functions of this property are those of the exact model. -/
theorem C93_exact (c : Cluster K) (w : Int) (e r : K) :
    Rounded.clusterDwell (fun x => x) c w e = c.getDwellTime w e ∧ Rounded.setResolution (fun x => x) c r = c.setResolution r :=
  ⟨rfl, rfl⟩

/-- **C93, conservation.** Take a cluster with a positive time constant and time increment that knows no walkers, and any
history of calls of `getDwellTime` and `pickNewSiteId` about any walkers, in rounded arithmetic. Every time handed out is
positive and at most the time increment. A pick keeps the walker in the cluster (and uses the table of its sites) only if
the `n` times handed out to it so far are all the time increment and together at most the time drawn up to the part `n ε`;
it releases the walker (and uses the table of the exits) only if they add up to the time drawn up to that part. -/
theorem C93_conserved (R : Rounding fl ε) (h0 : 0 ≤ ε) (h1 : ε < 1) (hτ : 0 < τ) (hdt : 0 < dt) {c c' : Cluster K}
    {evs : List (CallEvent K)} {ev : CallEvent K} (h : Calls fl c (evs ++ [ev]) c') (hr : c.remaining = []) (ht : c.tau = some τ)
    (hi : c.timeInc = some dt) (hp : PosDraws (evs ++ [ev])) (w : Int) :
    (∀ e, ev.call = .dwell w e → ∃ t, ev.reply = .time t ∧ 0 < t ∧ t ≤ dt) ∧
    (∀ u, ev.call = .pick w u → ∃ a n, notes fl w evs = some a ∧ ev.reply = .num n ∧ 0 < a.calls ∧
      if w ∈ ev.post.remaining.keys then
        n = Cluster.pickCum u c.cumInternal ∧ a.given = a.calls * dt ∧ a.given < a.drawn + a.calls * ε * a.drawn
      else n = Cluster.pickCum u c.cumNeigh ∧ |a.given - a.drawn| ≤ a.calls * ε * a.drawn) := by
  obtain ⟨c1, o, r, c2, hev, hpre, hcall⟩ : ∃ c1 o r c2, ev = ⟨c1, o, r, c2⟩ ∧ Calls fl c evs c1 ∧ Rounded.call fl c1 o = .ok (r, c2) := by
    generalize hl : evs ++ [ev] = l at h
    cases h with
    | nil => simp at hl
    | @snoc evs' c1 o r c2 hc hcall =>
      obtain ⟨rfl, h3⟩ := List.append_inj' hl rfl
      cases h3
      exact ⟨c1, o, r, c', rfl, hc, hcall⟩
  have L := Rounded.ledger R h0 h1 hτ hdt hpre hr ht hi (fun ev hev => hp ev (List.mem_append_left _ hev))
  subst hev
  constructor
  · rintro e rfl
    obtain ⟨t, rfl, hd⟩ := Rounded.call_dwell_ok hcall
    obtain ⟨d, -, htt, hdp, -⟩ := Rounded.clusterDwell_ok hd L.tau L.inc
    refine ⟨t, rfl, ?_⟩
    rw [htt]
    split
    · exact ⟨hdt, le_refl _⟩
    · next q => exact ⟨hdp.elim (fun q' => absurd q' q) id, not_lt.1 q⟩
  · rintro u rfl
    obtain ⟨n, rfl, hd⟩ := Rounded.call_pick_ok hcall
    obtain ⟨r, hr', hcase⟩ := Rounded.pick_ok hd
    have hb := L.book w
    rw [hr'] at hb
    cases hs : notes fl w evs with
    | none => rw [hs] at hb; exact hb.elim
    | some a =>
      rw [hs] at hb
      obtain ⟨b1, b2, b3⟩ := hb
      refine ⟨a, n, rfl, rfl, b1, ?_⟩
      rcases hcase with ⟨hr0, hn, rfl⟩ | ⟨hr0, hn, rfl⟩
      · rw [if_pos (IMap.mem_keys_iff_get?.2 ⟨r, hr'⟩)]
        obtain ⟨k1, k2, -⟩ := b3.inside hr0
        refine ⟨by rw [hn, L.tabI], k1, ?_⟩
        have := (abs_le.1 k2).2
        linarith
      · rw [if_neg]
        · obtain ⟨-, k2, -⟩ := b3.closed hr0
          refine ⟨by rw [hn, L.tabN], k2.trans ?_⟩
          have : 0 ≤ ε * a.drawn := mul_nonneg h0 b3.drawn.le
          nlinarith
        · intro q
          obtain ⟨x, hx⟩ := IMap.mem_keys_iff_get?.1 q
          rw [IMap.get?_erase L.wf, if_pos rfl] at hx
          cases hx

/-- **C93, the stay ends.** If the time drawn times `2 ε` is at most the time increment, the number of times handed out
during a stay is at most `2 drawn / dt + 1`. -/
theorem C93_ends_partial (R : Rounding fl ε) (h0 : 0 ≤ ε) (h1 : ε < 1) (hτ : 0 < τ) (hdt : 0 < dt) {c c' : Cluster K}
    {evs : List (CallEvent K)} (h : Calls fl c evs c') (hr : c.remaining = []) (ht : c.tau = some τ)
    (hi : c.timeInc = some dt) (hp : PosDraws evs) {w : Int} {a : Stay K} (ha : notes fl w evs = some a) (hb : 2 * (ε * a.drawn) ≤ dt) :
    (a.calls : K) ≤ 2 * (a.drawn / dt) + 1 := by
  have L := Rounded.ledger R h0 h1 hτ hdt h hr ht hi hp
  have hk := L.book w
  rw [ha] at hk
  cases hg : c'.remaining.get? w with
  | none => rw [hg] at hk; exact hk.elim
  | some r =>
    rw [hg] at hk
    obtain ⟨b1, b2, b3⟩ := hk
    have key : ((a.calls : K) - 1) * dt ≤ 2 * a.drawn := by
      rcases lt_or_ge 0 r with q | q
      · have := (b3.inside q).2.2 hb
        linarith
      · exact (b3.closed q).2.2 hb
    have : (a.calls : K) - 1 ≤ 2 * a.drawn / dt := by rw [le_div_iff₀ hdt]; exact key
    rw [mul_div_assoc] at this
    linarith

/-- **C93, the stay ends, in terms of the resolution.** A time increment computed from the time constant and the resolution,
and draws `e` with `4 ε e resolution ≤ 1` (in doubles: `e resolution ≤ 2^51`): the condition of `C93_ends_partial` holds, and a
stay has at most `3 e resolution + 1` handouts. -/
theorem C93_resolution (R : Rounding fl ε) (h0 : 0 ≤ ε) (h8 : 8 * ε ≤ 1) (hτ : 0 < τ) {res e : K} (hres : 0 < res) (he : 0 < e)
    (hb : 4 * ε * (e * res) ≤ 1) :
    2 * (ε * fl (e * τ)) ≤ fl (τ / res) ∧ 2 * (fl (e * τ) / fl (τ / res)) + 1 ≤ 3 * (e * res) + 1 := by
  have h1 : ε < 1 := by linarith
  have a1 := (R.bounds (mul_pos he hτ).le).2
  have a2 := (R.bounds (div_pos hτ hres).le).1
  have hd : 0 < fl (τ / res) := R.pos h1 (div_pos hτ hres)
  have hx : 0 < τ / res := div_pos hτ hres
  have e1 : e * τ = (e * res) * (τ / res) := by field_simp
  rw [e1] at a1
  rw [e1]
  generalize τ / res = x at *
  generalize hy : e * res = y at *
  have hy0 : 0 < y := by rw [← hy]; exact mul_pos he hres
  constructor
  · have s1 : 2 * (ε * fl (y * x)) ≤ 2 * (ε * ((1 + ε) * (y * x))) := by
      have := mul_le_mul_of_nonneg_left a1 h0
      linarith
    have s2 : 2 * (ε * ((1 + ε) * (y * x))) = (4 * ε * y) * ((1 + ε) / 2 * x) := by ring
    have s3 : (4 * ε * y) * ((1 + ε) / 2 * x) ≤ 1 * ((1 + ε) / 2 * x) := mul_le_mul_of_nonneg_right hb (by positivity)
    have s4 : (1 + ε) / 2 * x ≤ (1 - ε) * x := mul_le_mul_of_nonneg_right (by linarith) hx.le
    linarith
  · have : 2 * (fl (y * x) / fl x) ≤ 3 * y := by
      rw [← mul_div_assoc, div_le_iff₀ hd]
      have s1 : 3 * y * ((1 - ε) * x) ≤ 3 * y * fl x := mul_le_mul_of_nonneg_left a2 (by positivity)
      have s2 : 2 * ((1 + ε) * (y * x)) ≤ 3 * y * ((1 - ε) * x) := by
        have s3 : 2 * (1 + ε) ≤ 3 * (1 - ε) := by linarith
        have := mul_le_mul_of_nonneg_right s3 (mul_pos hy0 hx).le
        linarith
      linarith
    linarith

/-- **C93, availability.** Whatever walkers come in whatever order, no assertion fails: with positive draws, every sequence of
rounds (a walker is handed a time and then picks a site) is carried out. -/
theorem C93_accepts (R : Rounding fl ε) (h1 : ε < 1) (hτ : 0 < τ) {c : Cluster K} (hr : c.remaining = [])
    (ht : c.tau = some τ) (hi : c.timeInc = some dt) {l : List (Int × K × K)} (hl : ∀ x ∈ l, 0 < x.2.1) :
    ∃ c', hopRounds fl c l = .ok c' := by
  have key : ∀ (l : List (Int × K × K)) (c : Cluster K), (∀ x ∈ l, 0 < x.2.1) → c.remaining.WF → (∀ w r, c.remaining.get? w = some r → 0 < r) →
      c.tau = some τ → c.timeInc = some dt → ∃ c', hopRounds fl c l = .ok c' := by
    intro l
    induction l with
    | nil => intro c _ _ _ _ _; exact ⟨c, rfl⟩
    | cons x l ih =>
      obtain ⟨w, e, u⟩ := x
      intro c hl hw hpos ht hi
      have he : 0 < e := hl _ (List.mem_cons_self ..)
      set d := (c.remaining.get? w).getD (fl (e * τ)) with hd
      have hd0 : 0 < d := by
        cases hg : c.remaining.get? w with
        | none => rw [hd, hg]; exact R.pos h1 (mul_pos he hτ)
        | some r => rw [hd, hg]; exact hpos w r hg
      obtain ⟨t, h2⟩ : ∃ t, Rounded.clusterDwell fl c w e = .ok (t, { c with remaining := c.remaining.set w (fl (d - dt)) }) := by
        unfold Rounded.clusterDwell
        rw [ht, hi]
        simp only
        by_cases q : d > dt
        · exact ⟨dt, by rw [if_pos q]⟩
        · exact ⟨d, by rw [if_neg q, if_pos hd0]⟩
      have h3 : Rounded.call fl c (.dwell w e) = .ok (.time t, { c with remaining := c.remaining.set w (fl (d - dt)) }) := by
        unfold Rounded.call
        simp only
        rw [h2]; rfl
      have hget : (c.remaining.set w (fl (d - dt))).get? w = some (fl (d - dt)) := IMap.get?_set_self _ _ _
      have hl' : ∀ x ∈ l, 0 < x.2.1 := fun x hx => hl x (List.mem_cons_of_mem _ hx)
      unfold hopRounds
      rw [h3, ok_bind]
      simp only
      by_cases q : 0 < fl (d - dt)
      · have h4 : Rounded.call fl { c with remaining := c.remaining.set w (fl (d - dt)) } (.pick w u) =
            .ok (.num (Cluster.pickCum u c.cumInternal), { c with remaining := c.remaining.set w (fl (d - dt)) }) := by
          unfold Rounded.call Cluster.pickNewSiteId
          simp only
          rw [hget]
          simp only
          rw [if_pos q]; rfl
        rw [h4, ok_bind]
        refine ih _ hl' (hw.set _ _) (fun v r hv => ?_) ht hi
        have hv : (c.remaining.set w (fl (d - dt))).get? v = some r := hv
        rw [IMap.get?_set] at hv
        split at hv
        · cases hv; exact q
        · exact hpos v r hv
      · have h4 : Rounded.call fl { c with remaining := c.remaining.set w (fl (d - dt)) } (.pick w u) =
            .ok (.num (Cluster.pickCum u c.cumNeigh), { c with remaining := (c.remaining.set w (fl (d - dt))).erase w }) := by
          unfold Rounded.call Cluster.pickNewSiteId
          simp only
          rw [hget]
          simp only
          rw [if_neg q]; rfl
        rw [h4, ok_bind]
        refine ih _ hl' ((hw.set _ _).erase _) (fun v r hv => ?_) ht hi
        have hv : ((c.remaining.set w (fl (d - dt))).erase w).get? v = some r := hv
        rw [IMap.get?_erase (hw.set _ _)] at hv
        split at hv
        · cases hv
        · next q2 =>
          rw [IMap.get?_set, if_neg q2] at hv
          exact hpos v r hv
  exact key l c hl (by rw [hr]; exact List.nodup_nil) (by rw [hr]; intro w r h; cases h) ht hi

/-! ## A stay that does not end -/

/-- The pair of C91 with resolution 2^60, in doubles. -/
def fineCluster : Cluster ℚ :=
  match Rounded.setResolution Rounded.binary64 pairUpdated (2 ^ 60) with
  | .ok c => c
  | .error _ => Cluster.new 0

theorem fineCluster_eq : Rounded.setResolution Rounded.binary64 pairUpdated (2 ^ 60) = .ok fineCluster := by decide +kernel

/-- Its time constant. -/
def fineTau : ℚ := fineCluster.tau.getD 0

/-- Its time increment. -/
def fineInc : ℚ := fineCluster.timeInc.getD 0

/-- The cluster with walker 7 inside, which has drawn the time constant. -/
def fineInside : Cluster ℚ := { fineCluster with remaining := [(7, fineTau)] }

/-- A walker whose remaining time is not changed by a handout stays. -/
theorem stays_forever {c : Cluster K} {w : Int} {r e : K} (hr : c.remaining = [(w, r)]) (ht : c.tau = some τ) (hi : c.timeInc = some dt)
    (h0 : 0 < dt) (h : fl (r - dt) = r) (hlt : dt < r) (us : List K) : hopRounds fl c (us.map fun u => (w, e, u)) = .ok c := by
  induction us with
  | nil => rfl
  | cons u us ih =>
    have hset : ({ c with remaining := c.remaining.set w (fl (r - dt)) } : Cluster K) = c := by
      have : c.remaining.set w (fl (r - dt)) = c.remaining := by rw [hr, h]; simp [IMap.set]
      rw [this]
    have hget : c.remaining.get? w = some r := by rw [hr]; simp [IMap.get?]
    have h3 : Rounded.call fl c (.dwell w e) = .ok (.time dt, c) := by
      unfold Rounded.call Rounded.clusterDwell
      simp only
      rw [ht, hi]
      simp only
      rw [hget]
      simp only [Option.getD_some]
      rw [if_pos hlt]
      have : ∀ x : Cluster K, x = c → (do let (t, c) ← (Except.ok (dt, x) : Except Fault (K × Cluster K)); pure (Rounded.Reply.time t, c)) =
          (.ok (.time dt, c) : Except Fault (Rounded.Reply K × Cluster K)) := by rintro x rfl; rfl
      refine this _ ?_
      rw [← ht, ← hi]
      exact hset
    have h4 : Rounded.call fl c (.pick w u) = .ok (.num (Cluster.pickCum u c.cumInternal), c) := by
      unfold Rounded.call Cluster.pickNewSiteId
      simp only
      rw [hget]
      simp only
      rw [if_pos (h0.trans hlt)]; rfl
    rw [List.map_cons]
    unfold hopRounds
    rw [h3, ok_bind]
    simp only
    rw [h4, ok_bind]
    exact ih

/-- **C93, a stay that does not end.** The pair of C91, updated in doubles, with resolution 2^60 (`setResolution` takes
every number from 2 on): the time increment is lost in the subtraction from the remaining time, and a walker that has drawn
`e = 1` never leaves, for all later draws. Without rounding it has left after 2^60 handouts. -/
theorem C93_counterexample : ∃ c : Cluster ℚ,
    (roundedCluster pairRates pairLinks >>= Rounded.solve Rounded.binary64 Cluster.witEnv pairRates 6 >>=
      fun c => Rounded.setResolution Rounded.binary64 c (2 ^ 60)) = .ok c ∧ c.remaining = [] ∧
    ∀ us : List ℚ, ∃ c', hopRounds Rounded.binary64 c (us.map fun u => (7, 1, u)) = .ok c' ∧ (us ≠ [] → (7 : Int) ∈ c'.remaining.keys) := by
  refine ⟨fineCluster, by decide +kernel, by decide +kernel, fun us => ?_⟩
  cases us with
  | nil => exact ⟨fineCluster, rfl, fun q => absurd rfl q⟩
  | cons u us =>
    have h1 : Rounded.clusterDwell Rounded.binary64 fineCluster 7 1 = .ok (fineInc, fineInside) := by decide +kernel
    have hr : fineInside.remaining = [(7, fineTau)] := by decide +kernel
    have hp : (0 : ℚ) < fineTau := by decide +kernel
    have h2 : Rounded.call Rounded.binary64 fineCluster (.dwell 7 1) = .ok (.time fineInc, fineInside) := by
      unfold Rounded.call
      simp only
      rw [h1]; rfl
    have h3 : Rounded.call Rounded.binary64 fineInside (.pick 7 u) = .ok (.num (Cluster.pickCum u fineInside.cumInternal), fineInside) := by
      unfold Rounded.call Cluster.pickNewSiteId
      simp only
      rw [show fineInside.remaining.get? 7 = some fineTau by rw [hr]; simp [IMap.get?]]
      simp only
      rw [if_pos hp]; rfl
    refine ⟨fineInside, ?_, fun _ => by rw [hr]; simp [IMap.keys]⟩
    rw [List.map_cons]
    unfold hopRounds
    rw [h2, ok_bind]
    simp only
    rw [h3, ok_bind]
    exact stays_forever hr (τ := fineTau) (dt := fineInc) (by decide +kernel) (by decide +kernel) (by decide +kernel) (by decide +kernel)
      (by decide +kernel) us

/-- What the call `o` returns. -/
def replyOf (c : Cluster ℚ) (o : Rounded.Call ℚ) : Rounded.Reply ℚ :=
  match Rounded.call Rounded.binary64 c o with
  | .ok (r, _) => r
  | .error _ => .num 0

/-- The cluster after the call `o`. -/
def afterCall (c : Cluster ℚ) (o : Rounded.Call ℚ) : Cluster ℚ :=
  match Rounded.call Rounded.binary64 c o with
  | .ok (_, c) => c
  | .error _ => c

/-- A walker is handed a time, picks a site and is handed another time. -/
def pairEvents : List (CallEvent ℚ) :=
  let c := afterCall pairUpdated (.dwell 7 1)
  (([] ++ [⟨pairUpdated, .dwell 7 1, replyOf pairUpdated (.dwell 7 1), c⟩]) ++ [⟨c, .pick 7 (1 / 2), replyOf c (.pick 7 (1 / 2)), c⟩]) ++
    [⟨c, .dwell 7 3, replyOf c (.dwell 7 3), afterCall c (.dwell 7 3)⟩]

/-- The hypotheses of the theorems of this property, for the pair of C91 with its default resolution. -/
example : ∃ (τ dt : ℚ) (c' : Cluster ℚ) (a : Stay ℚ), 0 < τ ∧ 0 < dt ∧ pairUpdated.remaining = [] ∧
    pairUpdated.tau = some τ ∧ pairUpdated.timeInc = some dt ∧ Calls Rounded.binary64 pairUpdated pairEvents c' ∧ PosDraws pairEvents ∧
    notes Rounded.binary64 7 pairEvents = some a ∧ a.calls = 2 ∧ 2 * ((1 / 2 ^ 53) * a.drawn) ≤ dt := by
  have h1 : Rounded.call Rounded.binary64 pairUpdated (.dwell 7 1) =
      .ok (replyOf pairUpdated (.dwell 7 1), afterCall pairUpdated (.dwell 7 1)) := by decide +kernel
  have h2 : Rounded.call Rounded.binary64 (afterCall pairUpdated (.dwell 7 1)) (.pick 7 (1 / 2)) =
      .ok (replyOf (afterCall pairUpdated (.dwell 7 1)) (.pick 7 (1 / 2)), afterCall pairUpdated (.dwell 7 1)) := by decide +kernel
  have h3 : Rounded.call Rounded.binary64 (afterCall pairUpdated (.dwell 7 1)) (.dwell 7 3) =
      .ok (replyOf (afterCall pairUpdated (.dwell 7 1)) (.dwell 7 3), afterCall (afterCall pairUpdated (.dwell 7 1)) (.dwell 7 3)) := by
    decide +kernel
  have h4 : (notes Rounded.binary64 7 pairEvents).isSome = true := by decide +kernel
  refine ⟨pairUpdated.tau.getD 0, pairUpdated.timeInc.getD 0, _, (notes Rounded.binary64 7 pairEvents).getD ⟨0, 0, 0⟩, by decide +kernel,
    by decide +kernel, by decide +kernel, by decide +kernel, by decide +kernel, ((Calls.nil.snoc h1).snoc h2).snoc h3, ?_,
    by
      obtain ⟨x, hx⟩ := Option.isSome_iff_exists.1 h4
      rw [hx]; rfl, by decide +kernel, by decide +kernel⟩
  intro ev hev w e he
  simp only [pairEvents, List.nil_append, List.cons_append, List.mem_cons, List.not_mem_nil, or_false] at hev
  rcases hev with rfl | rfl | rfl <;> cases he <;> norm_num

end Mythical
