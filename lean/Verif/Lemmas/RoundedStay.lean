import Verif.Spec.RoundedStay
import Verif.Lemmas.RoundedRounds

/-! # The stay of a walker in a cluster in rounded arithmetic -/

set_option linter.unusedSectionVars false
set_option linter.unusedVariables false

namespace Mythical.Rounded
open Mythical RoundSpec ClusterSpec
variable {K : Type} [Field K] [LinearOrder K] [IsStrictOrderedRing K] [FloorRing K]
variable {fl : K → K} {ε τ dt : K}

/-- Book `a` of a walker whose remaining time is `r`. -/
structure Kept (fl : K → K) (ε dt : K) (a : Stay K) (r : K) : Prop where
  drawn : 0 < a.drawn
  fixed : fl r = r
  le : r ≤ a.drawn
  given : 0 ≤ a.given
  inside : 0 < r → a.given = a.calls * dt ∧ |r - (a.drawn - a.calls * dt)| ≤ a.calls * ε * a.drawn ∧
    (2 * (ε * a.drawn) ≤ dt → a.calls * dt ≤ 2 * (a.drawn - r))
  closed : r ≤ 0 → 0 < a.calls ∧ |a.given - a.drawn| ≤ (a.calls - 1) * ε * a.drawn ∧
    (2 * (ε * a.drawn) ≤ dt → (a.calls - 1) * dt ≤ 2 * a.drawn)

theorem kept_step (R : Rounding fl ε) (h0 : 0 ≤ ε) (h1 : ε < 1) (hdt : 0 < dt) {a : Stay K} {d : K} (h : Kept fl ε dt a d) (hd : 0 < d) :
    Kept fl ε dt ⟨a.drawn, a.given + (if dt < d then dt else d), a.calls + 1⟩ (fl (d - dt)) := by
  obtain ⟨g1, g2, g3⟩ := h.inside hd
  refine ⟨h.drawn, R.idem _, ?_, ?_, ?_, ?_⟩
  · show fl (d - dt) ≤ a.drawn
    calc fl (d - dt) ≤ fl d := R.mono (by linarith)
      _ = d := h.fixed
      _ ≤ _ := h.le
  · show 0 ≤ a.given + _
    have := h.given
    split <;> linarith
  · intro hr
    have hlt : dt < d := by
      by_contra hle
      have : fl (d - dt) ≤ fl 0 := R.mono (by linarith)
      rw [R.zero] at this
      linarith
    have he := R.err (d - dt)
    rw [abs_of_pos (by linarith : 0 < d - dt)] at he
    have he2 : ε * (d - dt) ≤ ε * a.drawn := mul_le_mul_of_nonneg_left (by linarith [h.le]) h0
    rw [if_pos hlt]
    simp only
    push_cast
    refine ⟨by rw [g1]; ring, ?_, ?_⟩
    · have e : fl (d - dt) - (a.drawn - (a.calls + 1) * dt) = (fl (d - dt) - (d - dt)) + (d - (a.drawn - a.calls * dt)) := by ring
      rw [e]
      refine (abs_add_le _ _).trans ?_
      have e2 : ((a.calls : K) + 1) * ε * a.drawn = ε * a.drawn + a.calls * ε * a.drawn := by ring
      rw [e2]
      linarith
    · intro hb
      have g3 := g3 hb
      have := (abs_le.1 he).2
      linarith
  · intro hr
    have hle : d ≤ dt := by
      by_contra hlt
      have := R.pos h1 (show 0 < d - dt by linarith)
      linarith
    rw [if_neg (not_lt.2 hle)]
    simp only
    push_cast
    refine ⟨Nat.succ_pos _, ?_, ?_⟩
    · rw [add_sub_cancel_right]
      have e : a.given + d - a.drawn = d - (a.drawn - a.calls * dt) := by rw [g1]; ring
      rw [e]
      exact g2
    · intro hb
      have g3 := g3 hb
      rw [add_sub_cancel_right]
      linarith

/-- The book of a walker, and what the cluster remembers about it. -/
def KeptO (fl : K → K) (ε dt : K) : Option (Stay K) → Option K → Prop
  | none, none => True
  | some a, some r => 0 < a.calls ∧ 0 < a.given ∧ Kept fl ε dt a r
  | _, _ => False

theorem clusterDwell_ok {c c' : Cluster K} {w : Int} {e t : K} (h : clusterDwell fl c w e = .ok (t, c')) (ht : c.tau = some τ)
    (hd : c.timeInc = some dt) : ∃ d, d = (c.remaining.get? w).getD (fl (e * τ)) ∧ t = (if dt < d then dt else d) ∧ (dt < d ∨ 0 < d) ∧
      c' = { c with remaining := c.remaining.set w (fl (d - dt)) } := by
  unfold clusterDwell at h
  rw [ht, hd] at h
  simp only at h
  refine ⟨_, rfl, ?_⟩
  split at h
  · next q => cases h; rw [if_pos q]; exact ⟨rfl, .inl q, by rw [ht, hd]⟩
  · next q =>
    split at h
    · next q2 => cases h; rw [if_neg q]; exact ⟨rfl, .inr q2, by rw [ht, hd]⟩
    · cases h

theorem pick_ok {c c' : Cluster K} {w n : Int} {u : K} (h : c.pickNewSiteId w u = .ok (n, c')) :
    ∃ r, c.remaining.get? w = some r ∧ ((0 < r ∧ n = Cluster.pickCum u c.cumInternal ∧ c' = c) ∨
      (r ≤ 0 ∧ n = Cluster.pickCum u c.cumNeigh ∧ c' = { c with remaining := c.remaining.erase w })) := by
  unfold Cluster.pickNewSiteId at h
  split at h
  · cases h
  · next r hr =>
    refine ⟨r, hr, ?_⟩
    split at h
    · next q => cases h; exact .inl ⟨q, rfl, rfl⟩
    · next q => cases h; exact .inr ⟨not_lt.1 q, rfl, rfl⟩

theorem call_dwell_ok {c c' : Cluster K} {w : Int} {e : K} {r : Reply K} (h : call fl c (.dwell w e) = .ok (r, c')) :
    ∃ t, r = .time t ∧ clusterDwell fl c w e = .ok (t, c') := by
  unfold call at h
  simp only [bind_eq_ok] at h
  obtain ⟨⟨t, c1⟩, h1, h2⟩ := h
  cases h2
  exact ⟨t, rfl, h1⟩

theorem call_pick_ok {c c' : Cluster K} {w : Int} {u : K} {r : Reply K} (h : call fl c (.pick w u) = .ok (r, c')) :
    ∃ n, r = .num n ∧ c.pickNewSiteId w u = .ok (n, c') := by
  unfold call at h
  simp only [bind_eq_ok] at h
  obtain ⟨⟨t, c1⟩, h1, h2⟩ := h
  cases h2
  exact ⟨t, rfl, h1⟩

/-- What holds after every history. -/
structure Ledger (fl : K → K) (ε τ dt : K) (c0 c : Cluster K) (evs : List (CallEvent K)) : Prop where
  wf : c.remaining.WF
  tau : c.tau = some τ
  inc : c.timeInc = some dt
  tabI : c.cumInternal = c0.cumInternal
  tabN : c.cumNeigh = c0.cumNeigh
  book : ∀ w, KeptO fl ε dt (notes fl w evs) (c.remaining.get? w)

theorem notes_snoc (w : Int) (evs : List (CallEvent K)) (ev : CallEvent K) :
    notes fl w (evs ++ [ev]) = note fl w (notes fl w evs) ev := by
  unfold notes; rw [List.foldl_append]; rfl

/-- A new stay. -/
theorem kept_new (R : Rounding fl ε) (h1 : ε < 1) {e : K} (he : 0 < e) (hτ : 0 < τ) : Kept fl ε dt ⟨fl (e * τ), 0, 0⟩ (fl (e * τ)) := by
  have hp := R.pos h1 (mul_pos he hτ)
  refine ⟨hp, R.idem _, le_refl _, le_refl _, fun _ => ⟨by simp, by simp, fun _ => by simp⟩, fun q => absurd hp (not_lt.2 q)⟩

theorem ledger (R : Rounding fl ε) (h0 : 0 ≤ ε) (h1 : ε < 1) (hτ : 0 < τ) (hdt : 0 < dt) {c c' : Cluster K} {evs : List (CallEvent K)}
    (h : Calls fl c evs c') (hr : c.remaining = []) (ht : c.tau = some τ) (hi : c.timeInc = some dt) (hp : PosDraws evs) :
    Ledger fl ε τ dt c c' evs := by
  induction h with
  | nil =>
    refine ⟨by rw [hr]; exact List.nodup_nil, ht, hi, rfl, rfl, fun w => ?_⟩
    rw [hr]
    exact trivial
  | @snoc evs c1 o r c2 _ hc ih =>
    have L := ih (fun ev hev => hp ev (List.mem_append_left _ hev))
    have hpos := hp _ (List.mem_append_right _ (List.mem_singleton_self _))
    cases o with
    | dwell w e =>
      obtain ⟨t, rfl, hd⟩ := call_dwell_ok hc
      obtain ⟨d, hdd, htt, hdp, rfl⟩ := clusterDwell_ok hd L.tau L.inc
      have hd0 : 0 < d := hdp.elim (fun q => hdt.trans q) id
      refine ⟨L.wf.set _ _, L.tau, L.inc, L.tabI, L.tabN, fun v => ?_⟩
      have hb := L.book v
      rw [notes_snoc]
      show KeptO fl ε dt (note fl v (notes fl v evs) _) (IMap.get? (IMap.set c1.remaining w (fl (d - dt))) v)
      rw [IMap.get?_set]
      unfold note
      simp only
      by_cases hwv : w = v
      · subst hwv
        rw [if_pos rfl, if_pos rfl, L.tau]
        have ht0 : 0 < t := by rw [htt]; split <;> assumption
        cases hs : notes fl w evs with
        | none =>
          rw [hs] at hb
          cases hg : c1.remaining.get? w with
          | some r => rw [hg] at hb; exact hb.elim
          | none =>
            rw [hg] at hdd
            simp only [Option.getD_none] at hdd
            have k := kept_step R h0 h1 hdt (kept_new (dt := dt) R h1 (hpos w e rfl) hτ) (by rw [← hdd]; exact hd0)
            rw [← hdd] at k
            simp only [zero_add, ← htt] at k
            exact ⟨Nat.one_pos, ht0, by simpa [hdd] using k⟩
        | some a =>
          rw [hs] at hb
          cases hg : c1.remaining.get? w with
          | none => rw [hg] at hb; exact hb.elim
          | some r =>
            rw [hg] at hb hdd
            simp only [Option.getD_some] at hdd
            subst hdd
            obtain ⟨b1, b2, b3⟩ := hb
            have k := kept_step R h0 h1 hdt b3 hd0
            rw [← htt] at k
            exact ⟨Nat.succ_pos _, add_pos b2 ht0, k⟩
      · rw [if_neg hwv, if_neg hwv]
        exact hb
    | pick w u =>
      obtain ⟨n, rfl, hd⟩ := call_pick_ok hc
      obtain ⟨r, hr', ⟨hr0, -, rfl⟩ | ⟨hr0, -, rfl⟩⟩ := pick_ok hd
      · refine ⟨L.wf, L.tau, L.inc, L.tabI, L.tabN, fun v => ?_⟩
        rw [notes_snoc]
        unfold note
        simp only
        rw [if_neg]
        · exact L.book v
        · rintro ⟨rfl, q⟩
          exact q (IMap.mem_keys_iff_get?.2 ⟨r, hr'⟩)
      · refine ⟨L.wf.erase _, L.tau, L.inc, L.tabI, L.tabN, fun v => ?_⟩
        have hb := L.book v
        rw [notes_snoc]
        unfold note
        simp only
        show KeptO fl ε dt _ (IMap.get? (IMap.erase c1.remaining w) v)
        rw [IMap.get?_erase L.wf]
        by_cases hwv : w = v
        · subst hwv
          rw [if_pos rfl, if_pos]
          · exact trivial
          · refine ⟨rfl, fun q => ?_⟩
            obtain ⟨x, hx⟩ := IMap.mem_keys_iff_get?.1 q
            rw [IMap.get?_erase L.wf, if_pos rfl] at hx
            cases hx
        · rw [if_neg hwv, if_neg (fun q => hwv q.1)]
          exact hb

end Mythical.Rounded
