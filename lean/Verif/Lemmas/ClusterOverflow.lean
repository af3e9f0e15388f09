import Verif.Lemmas.ClusterReady

/-! # The counters of a cluster stay small -/

set_option linter.unusedSectionVars false
set_option linter.unusedVariables false

namespace Mythical
variable {K : Type} [Field K] [LinearOrder K] [IsStrictOrderedRing K] [FloorRing K]

/-- Not a counter that runs over. -/
def Soft (e : Fault) : Prop := e ≠ .ub .intOverflow ∧ e ≠ .ub .floatToInt

/-- The call does not end with a counter that runs over. -/
def Calm {α : Type} (r : Except Fault α) : Prop := ∀ e, r = .error e → Soft e

namespace Calm
variable {α β : Type}

theorem ok (x : α) : Calm (.ok x : Except Fault α) := fun _ h => by cases h

theorem err {e : Fault} (h : Soft e) : Calm (.error e : Except Fault α) := fun _ h' => by cases h'; exact h

theorem error {e : Fault} (h : Calm (.error e : Except Fault α)) : Calm (.error e : Except Fault β) := err (h e rfl)

theorem of_eq {e : Fault} {r : Except Fault α} (h : Calm r) (hr : r = .error e) : Calm (.error e : Except Fault β) := err (h e hr)

theorem bind {r : Except Fault α} {f : α → Except Fault β} (h : Calm r) (hf : ∀ x, r = .ok x → Calm (f x)) : Calm (r >>= f) := by
  cases r with
  | error e => exact h.error
  | ok x => exact hf x rfl

theorem chk {n : Int} (h : FitsInt n) : Calm (Mythical.chk n) := by rw [chk_ok h]; exact ok _

theorem mapM {f : α → Except Fault β} {l : List α} (h : ∀ x ∈ l, Calm (f x)) : Calm (l.mapM f) := by
  induction l with
  | nil => exact ok _
  | cons x l ih =>
    rw [List.mapM_cons]
    exact bind (h x (List.mem_cons_self ..)) fun y _ =>
      bind (ih fun z hz => h z (List.mem_cons_of_mem _ hz)) fun ys _ => ok _

theorem foldlM {f : β → α → Except Fault β} {l : List α} (h : ∀ b, ∀ x ∈ l, Calm (f b x)) (b : β) : Calm (l.foldlM f b) := by
  induction l generalizing b with
  | nil => exact ok _
  | cons x l ih =>
    rw [List.foldlM_cons]
    exact bind (h b x (List.mem_cons_self ..)) fun y _ => ih (fun b z hz => h b z (List.mem_cons_of_mem _ hz)) y

/-- A success, as the only other outcome is one that does not occur. -/
theorem fair {r : Except Fault α} (h : Calm r) (hf : Fair r) : ∃ x, r = .ok x := by
  rcases hf with hf | hf | hf
  · exact hf
  · exact absurd rfl (h _ hf).1
  · exact absurd rfl (h _ hf).2

end Calm

theorem soft_assert : Soft .assertFail := by unfold Soft; decide
theorem soft_finite : Soft .nonFinite := by unfold Soft; decide
theorem soft_fuel : Soft .outOfFuel := by unfold Soft; decide
theorem soft_range : Soft .outOfRange := by unfold Soft; decide
theorem soft_end : Soft (.ub .endIterator) := by unfold Soft; decide
theorem soft_invalid : Soft .invalidArgument := by unfold Soft; decide
theorem soft_runtime : Soft .runtimeError := by unfold Soft; decide
theorem soft_null : Soft (.ub .nullDeref) := by unfold Soft; decide
theorem soft_dangling : Soft (.ub .danglingDeref) := by unfold Soft; decide
theorem soft_uninit : Soft (.ub .uninitRead) := by unfold Soft; decide

theorem Site.probabilityTo_calm (s : Site K) (n : Int) : Calm (s.probabilityTo n) := by
  unfold Site.probabilityTo
  split
  · split
    · exact .ok _
    · exact .err soft_end
  · exact .err soft_assert

namespace Cluster
open ClusterSpec
variable {env : Env K} {mem : Addr → K} {c c' src : Cluster K}

/-! ## Calls without counters -/

theorem iterNeigh_calm (id : Int) (s : Site K) (t : K) (n : Int) : Calm (c.iterNeigh id s t n) := by
  unfold iterNeigh
  have h : ∀ t : K, Calm (s.probabilityTo n >>= fun p => (pure (t - p * c.probOn.at0 id) : Except Fault K)) :=
    fun t => .bind (s.probabilityTo_calm n) fun p _ => .ok _
  simp only
  split
  · next sn _ => exact .bind (sn.probabilityTo_calm id) fun p _ => h _
  · exact h _

theorem iterate_calm (c : Cluster K) : Calm c.iterate := by
  unfold iterate
  refine .bind ?_ fun temp _ => ?_
  · unfold iterTemp
    refine .mapM fun is _ => .bind ?_ fun t _ => .ok _
    exact .foldlM (fun b x _ => iterNeigh_calm _ _ _ _) _
  · simp only
    split
    · exact .err soft_finite
    · split
      · exact .err soft_finite
      · exact .ok _

theorem iterateN_calm (n : Nat) (c : Cluster K) : Calm (iterateN n c) := by
  induction n generalizing c with
  | zero => exact .ok _
  | succ n ih => exact .bind (iterate_calm c) fun d _ => ih d

theorem toleranceLoop_calm (n : Nat) (c : Cluster K) : Calm (toleranceLoop n c) := by
  induction n generalizing c with
  | zero => exact .err soft_fuel
  | succ n ih =>
    unfold toleranceLoop
    refine .bind (iterate_calm c) fun d _ => ?_
    split
    · exact ih d
    · exact .ok _

theorem solveProb_calm (c : Cluster K) : Calm (c.solveProb env) := by
  unfold solveProb
  simp only
  split
  · exact iterateN_calm _ _
  · exact iterateN_calm _ _
  · split
    · exact toleranceLoop_calm _ _
    · exact .ok _

theorem calcHopToInternal_calm (c : Cluster K) : Calm (c.calcHopToInternal env) := by
  unfold calcHopToInternal
  simp only
  split
  · exact .err soft_finite
  · exact .ok _

theorem calcHopToNeighbors_calm (c : Cluster K) : Calm (c.calcHopToNeighbors env) := by
  unfold calcHopToNeighbors
  refine .bind ?_ fun temp _ => ?_
  · unfold hopNeighTemp
    refine .foldlM (fun acc is _ => .foldlM (fun b n _ => ?_) _) _
    unfold hopNeighStep
    split
    · exact .ok _
    · exact .bind (is.2.probabilityTo_calm n) fun p _ => .ok _
  · simp only
    split
    · exact .err soft_finite
    · exact .ok _

theorem calcInternalDwell_calm (c : Cluster K) : Calm (c.calcInternalDwell mem) := by
  unfold calcInternalDwell
  simp only
  split
  · exact .err soft_finite
  · exact .ok _

theorem calcHopOff_calm (c : Cluster K) : Calm (c.calcHopOff mem) := by
  unfold calcHopOff
  simp only
  split
  · exact .err soft_assert
  · split
    · split
      · exact .err soft_finite
      · exact .ok _
    · split
      · exact .err soft_finite
      · split
        · exact .err soft_finite
        · exact .ok _

theorem calcHopBetween_calm (c : Cluster K) : Calm (c.calcHopBetween mem) := by
  unfold calcHopBetween
  simp only
  split
  · exact .err soft_assert
  · split
    · exact .err soft_finite
    · exact .ok _

theorem calcEscape_calm (c : Cluster K) : Calm (c.calcEscape mem) := by
  unfold calcEscape
  simp only
  split
  · exact .err soft_finite
  · split <;> exact .ok _

theorem setVisitFrequency_calm (c : Cluster K) (n i : Int) : Calm (c.setVisitFrequency n i) := by
  unfold setVisitFrequency
  split
  · exact .ok _
  · exact .err soft_assert

theorem restoreVisits_calm (freqs : IMap Int) (c : Cluster K) (l : List Int) : Calm (restoreVisits freqs c l) := by
  induction l generalizing c with
  | nil => exact .ok _
  | cons i l ih =>
    unfold restoreVisits
    simp only
    split
    · exact .bind (setVisitFrequency_calm _ _ _) fun d _ => ih d
    · exact ih _

theorem addBackVisits_calm (c : Cluster K) (l : List (Int × Int)) : Calm (c.addBackVisits l) := by
  induction l generalizing c with
  | nil => exact .ok _
  | cons x l ih =>
    obtain ⟨i, n⟩ := x
    unfold addBackVisits
    exact .bind (setVisitFrequency_calm _ _ _) fun d _ => ih d

theorem rebuild_calm (freqs : IMap Int) (c : Cluster K) : Calm (rebuild env mem freqs c) := by
  unfold rebuild solveMasterEquation
  refine .bind ?_ fun d _ => .bind (calcHopOff_calm _) fun d _ => .bind (calcHopBetween_calm _) fun d _ =>
    .bind (calcEscape_calm _) fun d _ => .bind (restoreVisits_calm _ _ _) fun d _ => calcInternalDwell_calm _
  exact .bind (solveProb_calm _) fun d _ => .bind (calcHopToInternal_calm _) fun d _ =>
    .bind (calcHopToNeighbors_calm _) fun d _ => calcInternalDwell_calm _

theorem addSites_calm (c : Cluster K) (l : List (Site K)) : Calm (c.addSites l) := by
  induction l generalizing c with
  | nil => exact .ok _
  | cons s l ih =>
    refine .bind ?_ fun d _ => ih d
    unfold addSite
    split
    · exact .err soft_assert
    · exact .ok _

theorem getDwellTime_calm (c : Cluster K) (wid : Int) (e : K) : Calm (c.getDwellTime wid e) := by
  unfold getDwellTime
  split
  · exact .err soft_assert
  · exact .err soft_uninit
  · simp only
    split
    · exact .ok _
    · split
      · exact .ok _
      · exact .err soft_assert

theorem pickNewSiteId_calm (c : Cluster K) (wid : Int) (u : K) : Calm (c.pickNewSiteId wid u) := by
  unfold pickNewSiteId
  split
  · exact .err soft_assert
  · split <;> exact .ok _

theorem setResolution_calm (c : Cluster K) (r : K) : Calm (c.setResolution r) := by
  unfold setResolution
  split
  · exact .ok _
  · exact .err soft_assert

theorem setConvergenceTolerance_calm (c : Cluster K) (r : K) : Calm (c.setConvergenceTolerance r) := by
  unfold setConvergenceTolerance
  split
  · exact .ok _
  · exact .err soft_assert

/-! ## Counters -/

/-- The counters of a cluster: at most `lo` calls to vacate and `up` calls to occupy have been made, and each site gets at
most `κ` visits for each visit of the cluster. -/
structure Low (lo up : Int) (κ : K) (c : Cluster K) : Prop where
  occ : -lo ≤ c.occupied ∧ c.occupied ≤ up
  vis : 0 ≤ c.prevVisits ∧ c.prevVisits ≤ c.visits ∧ c.visits ≤ up
  site : ∀ i s, c.sites.get? i = some s → -lo ≤ s.occupied ∧ s.occupied ≤ up
  count : ∀ i, ∃ z : Int, c.siteVisits.at0 i = z ∧ 0 ≤ z ∧ (z : K) + (c.visits - c.prevVisits : Int) * κ ≤ up * κ

/-- A site gets at most `κ` visits for each visit of the cluster. -/
def Shares (κ : K) (c : Cluster K) : Prop :=
  ∀ t (d : Int) i v, c.tau = some t → 1 ≤ d → i ∈ c.siteVisits.keys → c.visitShare t (d : K) i = .ok v →
    ∃ z : Int, v = z ∧ 0 ≤ z ∧ (z : K) ≤ d * κ

variable {lo up : Int} {κ : K}

theorem Low.mono (h : Low lo up κ c) (hκ : 0 ≤ κ) {lo' up' : Int} (h1 : lo ≤ lo') (h2 : up ≤ up') : Low lo' up' κ c where
  occ := ⟨by have := h.occ.1; omega, by have := h.occ.2; omega⟩
  vis := ⟨h.vis.1, h.vis.2.1, h.vis.2.2.trans h2⟩
  site i s hs := by have := h.site i s hs; omega
  count i := by
    obtain ⟨z, a, b, e⟩ := h.count i
    refine ⟨z, a, b, e.trans (mul_le_mul_of_nonneg_right ?_ hκ)⟩
    exact_mod_cast h2

theorem Low.new (hlo : 0 ≤ lo) (hup : 0 ≤ up) (hκ : 0 ≤ κ) (id : Int) : Low lo up κ (Cluster.new id : Cluster K) where
  occ := ⟨by show -lo ≤ 0; omega, hup⟩
  vis := ⟨le_refl 0, le_refl 0, hup⟩
  site i s hs := by cases hs
  count i := ⟨0, by simp [Cluster.new], le_rfl, by
    show ((0 : Int) : K) + ((0 - 0 : Int) : K) * κ ≤ up * κ
    simp only [sub_self, Int.cast_zero, zero_mul, add_zero]
    exact mul_nonneg (by exact_mod_cast hup) hκ⟩

theorem share_le {x : K} {d : Int} {T : K} (hd : 1 ≤ d) (h0 : 0 ≤ x) (h1 : x ≤ d * (T / 2)) :
    0 ≤ roundHalf x ∧ (roundHalf x : K) ≤ d * ((T + 1) / 2) := by
  unfold roundHalf
  rw [if_pos h0]
  refine ⟨Int.floor_nonneg.2 (by linarith [show (0 : K) ≤ 1 / 2 by norm_num]), ?_⟩
  have hd' : (1 : K) ≤ d := by exact_mod_cast hd
  have := Int.floor_le (x + 1 / 2)
  linarith

theorem flushLoop_low {t : K} {d : Int} (hd : 1 ≤ d) (ht : c.tau = some t) (hs : Shares κ c) {l : List Int} (hl : l.Nodup)
    (hk : ∀ i ∈ l, i ∈ c.siteVisits.keys) {u : Unit} (h : c.flushLoop t (d : K) l = (.ok u, c')) {M : K}
    (h0 : ∀ i, ∃ z : Int, c.siteVisits.at0 i = z ∧ 0 ≤ z ∧ (i ∈ l → (z : K) + d * κ ≤ M) ∧ (i ∉ l → (z : K) ≤ M)) :
    ∀ i, ∃ z : Int, c'.siteVisits.at0 i = z ∧ 0 ≤ z ∧ (z : K) ≤ M := by
  induction l generalizing c with
  | nil =>
    cases h
    intro i
    obtain ⟨z, a, b, -, e⟩ := h0 i
    exact ⟨z, a, b, e (by simp)⟩
  | cons j l ih =>
    unfold flushLoop at h
    split at h
    · cases h
    · next v hv =>
      obtain ⟨hj, hl⟩ := List.nodup_cons.1 hl
      have hjk := hk j (List.mem_cons_self ..)
      have hkeys : (c.siteVisits.set j (c.siteVisits.at0 j + v)).keys = c.siteVisits.keys := IMap.keys_set_of_mem hjk
      refine ih (c := { c with siteVisits := c.siteVisits.set j (c.siteVisits.at0 j + v) }) ht ?_ hl ?_ h ?_
      · intro t' d' i v' e1 e2 e3 e4
        exact hs t' d' i v' e1 e2 (hkeys ▸ e3) e4
      · intro i hi; rw [hkeys]; exact hk i (List.mem_cons_of_mem _ hi)
      · intro i
        show ∃ z : Int, (c.siteVisits.set j (c.siteVisits.at0 j + v)).at0 i = z ∧ _
        rw [IMap.at0_set]
        obtain ⟨z, a, b, e, f⟩ := h0 i
        by_cases hij : j = i
        · subst hij
          obtain ⟨y, y1, y2, y3⟩ := hs t d j v ht hd hjk hv
          rw [if_pos rfl]
          refine ⟨z + y, by rw [a, y1]; push_cast; rfl, by omega, fun hh => absurd hh hj, fun _ => ?_⟩
          have := e (List.mem_cons_self ..)
          push_cast
          linarith
        · rw [if_neg hij]
          refine ⟨z, a, b, fun hi => e (List.mem_cons_of_mem _ hi), fun hi => f ?_⟩
          rw [List.mem_cons, not_or]
          exact ⟨Ne.symm hij, hi⟩

theorem flush_low {t : K} (hr : Reads c) (hw : c.siteVisits.WF) (hl : Low lo up κ c) (hs : c.visits = c.prevVisits ∨ Shares κ c) (hκ : 0 ≤ κ)
    (ht : c.tau = some t) (hup : up ≤ 2147483647) : ∃ c', c.flush t = (.ok (), c') ∧ Low lo up κ c' := by
  obtain ⟨v1, v2, v3⟩ := hl.vis
  have hcalm : Calm (c.flush t).1 := by
    unfold flush
    split
    · exact .ok _
    · next hne =>
      rw [chk_ok (fitsInt_of (by omega) (by omega))]
      obtain ⟨c', hc'⟩ := flushLoop_reads (t := t) (d := ((c.visits - c.prevVisits : Int) : K)) (l := c.siteVisits.keys) hr.res
        (hr.dwell.resolve_left hne)
      simp only
      rw [hc']
      exact .ok _
  obtain ⟨u, hu⟩ := hcalm.fair (flush_fair hr t)
  obtain ⟨⟨r, c'⟩, hf⟩ : ∃ p, c.flush t = p := ⟨_, rfl⟩
  rw [hf] at hu ⊢
  simp only at hu
  subst hu
  refine ⟨c', rfl, ?_⟩
  unfold flush at hf
  split at hf
  · cases hf; exact hl
  · next hne =>
    rw [chk_ok (fitsInt_of (by omega) (by omega))] at hf
    simp only at hf
    split at hf
    · next x d hd =>
      cases hf
      have hv := (flushLoop_visitsOnly (c := c) (t := t) (diff := ((c.visits - c.prevVisits : Int) : K)) (l := c.siteVisits.keys) fun _ h => h).1
      rw [hd] at hv
      have hcount := flushLoop_low (M := up * κ) (by omega) ht (hs.resolve_left hne) hw (fun _ h => h) hd fun i => by
        obtain ⟨z, a, b, e⟩ := hl.count i
        refine ⟨z, a, b, fun _ => e, fun _ => le_trans ?_ e⟩
        have : (0 : K) ≤ (c.visits - c.prevVisits : Int) * κ := mul_nonneg (by exact_mod_cast (by omega)) hκ
        linarith
      obtain ⟨⟨v, p, rfl⟩, -⟩ := hv
      refine ⟨hl.occ, ⟨?_, le_refl _, v3⟩, hl.site, fun i => ?_⟩
      · show 0 ≤ c.visits; omega
      · obtain ⟨z, a, b, e⟩ := hcount i
        refine ⟨z, a, b, ?_⟩
        show (z : K) + ((c.visits - c.visits : Int) : K) * κ ≤ _
        rw [sub_self, Int.cast_zero, zero_mul, add_zero]
        exact e
    · next hne' => exact absurd hf (hne' _ _)

theorem Shares.visitsOnly (hs : Shares κ c) (hv : VisitsOnly c c') : Shares κ c' := by
  obtain ⟨⟨v, p, rfl⟩, hk⟩ := hv
  intro t d i x e1 e2 e3 e4
  exact hs t d i x e1 e2 (hk ▸ e3) e4

/-- Reading a visit count. -/
theorem getVisitFrequency_low (hr : Reads c) (hw : c.siteVisits.WF) (hl : Low lo up κ c) (hs : c.visits = c.prevVisits ∨ Shares κ c) (hκ : 0 ≤ κ)
    (hup : up ≤ 2147483647) (hfit : up * κ ≤ 2147483647) {i : Int} (hi : i ∈ c.siteVisits.keys) :
    ∃ n c', c.getVisitFrequency i = (.ok n, c') ∧ Low lo up κ c' ∧ c'.visits = c'.prevVisits ∧ Reads c' ∧ c'.siteVisits.WF ∧
      c'.siteVisits.keys = c.siteVisits.keys ∧ 0 ≤ n ∧ (n : K) ≤ up * κ := by
  obtain ⟨t, ht⟩ := Option.isSome_iff_exists.1 (hr.tau (List.ne_nil_of_mem hi))
  obtain ⟨c', hc', hl'⟩ := flush_low hr hw hl hs hκ ht hup
  have hfl := flush_ok hc'
  obtain ⟨z, a, b, e⟩ := hl'.count i
  rw [hfl, sub_self, Int.cast_zero, zero_mul, add_zero] at e
  have hz : z ≤ 2147483647 := by
    have : (z : K) ≤ ((2147483647 : Int) : K) := by push_cast; exact e.trans hfit
    exact_mod_cast this
  have hg : c.getVisitFrequency i = (.ok z, c') := by
    unfold getVisitFrequency
    rw [if_pos (IMap.has_iff.2 hi), ht]
    simp only
    rw [hc']
    simp only
    rw [a, roundHalf_intCast, if_pos (fitsInt_of (by omega) hz)]
  obtain ⟨hr', hv⟩ := getVisitFrequency_reads hr hg
  refine ⟨z, c', hg, hl', hfl, hr', ?_, hv.2, b, e⟩
  have : c.siteVisits.keys.Nodup := hw
  rw [← hv.2] at this; exact this

theorem visitFreqsLoop_low (hr : Reads c) (hw : c.siteVisits.WF) (hl : Low lo up κ c) (hs : c.visits = c.prevVisits ∨ Shares κ c) (hκ : 0 ≤ κ)
    (hup : up ≤ 2147483647) (hfit : up * κ ≤ 2147483647) {l : List Int} (hk : ∀ i ∈ l, i ∈ c.siteVisits.keys) {acc : IMap Int}
    (hacc : ∀ i n, acc.get? i = some n → 0 ≤ n ∧ (n : K) ≤ up * κ) :
    ∃ r c', c.visitFreqsLoop acc l = (.ok r, c') ∧ Low lo up κ c' ∧ ∀ i n, r.get? i = some n → 0 ≤ n ∧ (n : K) ≤ up * κ := by
  induction l generalizing c acc with
  | nil => exact ⟨acc, c, rfl, hl, hacc⟩
  | cons i l ih =>
    obtain ⟨n, c1, h1, h2, h3, h4, h5, h6, h7, h8⟩ := getVisitFrequency_low hr hw hl hs hκ hup hfit (hk i (List.mem_cons_self ..))
    unfold visitFreqsLoop
    rw [h1]
    refine ih h4 h5 h2 (.inl h3) (fun j hj => by rw [h6]; exact hk j (List.mem_cons_of_mem _ hj)) fun j m hm => ?_
    rw [IMap.get?_set] at hm
    split at hm
    · cases hm; exact ⟨h7, h8⟩
    · exact hacc j m hm

theorem update_low (hr : Reads c) (hw : c.siteVisits.WF) (hl : Low lo up κ c) (hs : c.visits = c.prevVisits ∨ Shares κ c) (hκ : 0 ≤ κ) (hup0 : 0 ≤ up)
    (hup : up ≤ 2147483647) (hfit : up * κ ≤ 2147483647) (hne : c.siteVisits.keys ≠ [] ∨ c.visits = c.prevVisits) :
    Calm (c.update env mem).1 ∧ ∀ u c', c.update env mem = (.ok u, c') → Low lo up κ c' ∧ c'.visits = c'.prevVisits := by
  obtain ⟨freqs, c1, h1, h2, h3⟩ := visitFreqsLoop_low hr hw hl hs hκ hup hfit (l := c.siteVisits.keys) (fun _ h => h)
    (acc := []) (fun i n h => by cases h)
  have hflat : c1.visits = c1.prevVisits := by
    obtain ⟨hr1, hfl⟩ := visitFreqsLoop_reads hr h1
    by_cases hk : c.siteVisits.keys = []
    · rw [hk] at h1
      cases h1
      exact hne.resolve_left (fun h => h hk)
    · exact hfl hk
  unfold update
  rw [h1]
  simp only
  cases hb : rebuild env mem freqs c1 with
  | error e => exact ⟨(rebuild_calm freqs c1).of_eq hb, fun u c' h => by cases h⟩
  | ok c2 =>
    refine ⟨.ok _, fun u c' h => ?_⟩
    cases h
    have hreb := rebuild_ok hb
    have hflat' : c2.visits = c2.prevVisits := by rw [hreb.visits, hreb.prevVisits, hflat]
    refine ⟨⟨by rw [hreb.occupied]; exact h2.occ, by rw [hreb.visits, hreb.prevVisits]; exact h2.vis,
      by rw [hreb.sites]; exact h2.site, fun i => ?_⟩, hflat'⟩
    have hU : (0 : K) ≤ up * κ := mul_nonneg (by exact_mod_cast hup0) hκ
    rw [hflat', sub_self, Int.cast_zero, zero_mul]
    unfold IMap.at0
    rw [hreb.siteVisits, get?_foldl_set_list]
    split
    · show ∃ z : Int, restored freqs i = (z : K) ∧ _
      unfold restored
      cases hf : freqs.get? i with
      | none => exact ⟨0, by simp, le_rfl, by simpa using hU⟩
      | some n =>
        obtain ⟨a, b⟩ := h3 i n hf
        exact ⟨n, rfl, a, by rw [add_zero]; exact b⟩
    · exact ⟨0, by simp, le_rfl, by simpa using hU⟩

theorem migrateLoop_low {tid : Int} (hr : Reads src) (hw : src.siteVisits.WF) (hl : Low lo up κ src)
    (hs : src.visits = src.prevVisits ∨ Shares κ src) (hκ : 0 ≤ κ) (hup : up ≤ 2147483647) (hfit : up * κ ≤ 2147483647) {l : List Int} (hk : ∀ i ∈ l, i ∈ src.siteVisits.keys)
    (hsi : ∀ i ∈ src.siteVisits.keys, i ∈ src.sites.keys) {acc : IMap Int}
    (hacc : ∀ i n, acc.get? i = some n → 0 ≤ n ∧ (n : K) ≤ up * κ) :
    ∃ r src', migrateLoop tid src acc l = (.ok r, src') ∧ ∀ i n, r.get? i = some n → 0 ≤ n ∧ (n : K) ≤ up * κ := by
  induction l generalizing src acc with
  | nil => exact ⟨acc, src, rfl, hacc⟩
  | cons i l ih =>
    have hik := hk i (List.mem_cons_self ..)
    obtain ⟨s, hs0⟩ := IMap.mem_keys_iff_get?.1 (hsi i hik)
    have hsa : src.siteAt i = s := by unfold siteAt; rw [hs0]; rfl
    unfold migrateLoop
    simp only
    have hr1 : Reads { src with sites := src.sites.set i { src.siteAt i with clusterId := tid } } :=
      ⟨hr.tau, hr.res, hr.dwell.imp_right fun hd j hj => ⟨IMap.mem_keys_set.2 (.inr (hd j hj).1), (hd j hj).2⟩⟩
    have hl1 : Low lo up κ { src with sites := src.sites.set i { src.siteAt i with clusterId := tid } } := by
      refine ⟨hl.occ, hl.vis, fun j t hj => ?_, hl.count⟩
      have hj : (src.sites.set i { src.siteAt i with clusterId := tid }).get? j = some t := hj
      rw [IMap.get?_set] at hj
      split at hj
      · cases hj; rw [hsa]; exact hl.site i s hs0
      · exact hl.site j t hj
    have hs1 : src.visits = src.prevVisits ∨ Shares κ { src with sites := src.sites.set i { src.siteAt i with clusterId := tid } } := by
      refine hs.imp_right fun hs => ?_
      intro t d j v e1 e2 e3 e4
      refine hs t d j v e1 e2 e3 ?_
      unfold visitShare at e4 ⊢
      have e4 : (match (src.sites.set i { src.siteAt i with clusterId := tid }).get? j, src.internalDwell.get? j with
        | some s, some d' =>
          if d' = 0 ∨ src.resolution = 0 then .error .nonFinite
          else .ok ((roundHalf (t * ((d : K) * src.probOn.at0 j * s.tau / d') / src.resolution) : Int) : K)
        | _, _ => .error .outOfRange : Except Fault K) = .ok v := e4
      rw [IMap.get?_set] at e4
      by_cases hij : i = j
      · subst hij
        rw [if_pos rfl, hsa] at e4
        rw [hs0]
        cases hd : src.internalDwell.get? i with
        | none => rw [hd] at e4; cases e4
        | some q => rw [hd] at e4; exact e4
      · rw [if_neg hij] at e4
        exact e4
    obtain ⟨n, c1, h1, h2, h3, h4, h5, h6, h7, h8⟩ := getVisitFrequency_low hr1 hw hl1 hs1 hκ hup hfit hik
    rw [h1]
    obtain ⟨-, hv⟩ := getVisitFrequency_reads hr1 h1
    refine ih h4 h5 h2 (.inl h3) (fun j hj => by rw [h6]; exact hk j (List.mem_cons_of_mem _ hj)) (fun j hj => ?_) fun j m hm => ?_
    · rw [hv.sites]
      exact IMap.mem_keys_set.2 (.inr (hsi j (h6 ▸ hj)))
    · rw [IMap.get?_set] at hm
      split at hm
      · cases hm; exact ⟨h7, h8⟩
      · exact hacc j m hm

theorem Low.addBack (h : Low lo up κ c) (hfl : c.visits = c.prevVisits) {l : List (Int × Int)}
    (hl : ∀ x ∈ l, 0 ≤ x.2 ∧ (x.2 : K) ≤ up * κ) (hb : c.addBackVisits l = .ok c') : Low lo up κ c' := by
  induction l generalizing c with
  | nil => cases hb; exact h
  | cons x l ih =>
    obtain ⟨i, n⟩ := x
    unfold addBackVisits at hb
    obtain ⟨d, h1, h2⟩ := bind_eq_ok.1 hb
    obtain ⟨rfl, hk, -⟩ := setVisitFrequency_ok h1
    refine ih (c := { c with siteVisits := c.siteVisits.set i (n : K) }) ⟨h.occ, h.vis, h.site, fun j => ?_⟩ hfl
      (fun y hy => hl y (List.mem_cons_of_mem _ hy)) h2
    show ∃ z : Int, (c.siteVisits.set i (n : K)).at0 j = z ∧ _
    rw [IMap.at0_set]
    split
    · obtain ⟨a, b⟩ := hl (i, n) (List.mem_cons_self ..)
      refine ⟨n, rfl, a, ?_⟩
      show (n : K) + ((c.visits - c.prevVisits : Int) : K) * κ ≤ _
      rw [hfl, sub_self, Int.cast_zero, zero_mul, add_zero]
      exact b
    · exact h.count j

/-- Taking over the sites of another cluster. -/
theorem migrate_low (hr : Reads src) (hw : src.siteVisits.WF) (hsw : src.sites.WF) (hl : Low lo up κ src)
    (hs : src.visits = src.prevVisits ∨ Shares κ src) (hκ : 0 ≤ κ) (hup0 : 0 ≤ up)
    (hup : up ≤ 2147483647) (hfit : up * κ ≤ 2147483647) (hk : ∀ i, i ∈ src.siteVisits.keys ↔ i ∈ src.sites.keys)
    (htau : c.tau.isSome) (hres : c.resolution ≠ 0) (hcl : Low lo up κ c) (hcw : c.siteVisits.WF) (hcf : c.visits = c.prevVisits) :
    Calm (c.migrateSitesFrom env mem src).1 ∧ ∀ u c' s', c.migrateSitesFrom env mem src = (.ok u, c', s') →
      Low lo up κ c' ∧ c'.visits = c'.prevVisits := by
  obtain ⟨r, src1, h1, h2⟩ := migrateLoop_low (tid := c.id) hr hw hl hs hκ hup hfit (l := src.sites.keys) (fun i hi => (hk i).2 hi)
    (fun i hi => (hk i).1 hi) (acc := []) (fun i n h => by cases h)
  obtain ⟨hk1, -, hsg⟩ := migrateLoop_sites c.id src.sites.keys [] src fun _ h => h
  rw [h1] at hk1 hsg
  simp only at hk1 hsg
  have hsg := hsg r rfl
  have hsw1 : src1.sites.WF := by
    have : src.sites.keys.Nodup := hsw
    rw [← hk1] at this; exact this
  have hc1 : Low lo up κ { c with sites := src1.sites.foldl insertIfNew c.sites } := by
    refine ⟨hcl.occ, hcl.vis, fun i s hs => ?_, hcl.count⟩
    have hs : (src1.sites.foldl insertIfNew c.sites).get? i = some s := hs
    rw [get?_insertAll hsw1, hsg i] at hs
    cases hc : c.sites.get? i with
    | some t => rw [hc] at hs; cases hs; exact hcl.site i _ hc
    | none =>
      rw [hc] at hs
      simp only at hs
      split at hs
      · rw [Option.map_eq_some_iff] at hs
        obtain ⟨t, ht, rfl⟩ := hs
        exact hl.site i t ht
      · exact hl.site i s hs
  have hrl : ∀ x ∈ r, 0 ≤ x.2 ∧ (x.2 : K) ≤ up * κ := by
    intro x hx
    have hrw := (migrateLoop_visits c.id src.sites.keys [] r src hsw (fun _ h => h) List.nodup_nil h1).1
    exact h2 x.1 x.2 (IMap.get?_of_mem hrw hx)
  have hreads : Reads { c with sites := src1.sites.foldl insertIfNew c.sites } := ⟨fun _ => htau, hres, .inl hcf⟩
  unfold migrateSitesFrom
  rw [h1]
  simp only
  have key := update_low (env := env) (mem := mem) hreads hcw hc1 (κ := κ) (.inl hcf) hκ hup0 hup hfit (.inr hcf)
  cases hu : ({ c with sites := src1.sites.foldl insertIfNew c.sites } : Cluster K).update env mem with
  | mk res c2 =>
    rw [hu] at key
    obtain ⟨k1, k2⟩ := key
    cases res with
    | error e => exact ⟨k1.error, fun u c' s' h => by cases h⟩
    | ok u =>
      obtain ⟨g1, g2⟩ := k2 u c2 rfl
      simp only
      cases hb : c2.addBackVisits r with
      | error e => exact ⟨(addBackVisits_calm c2 r).of_eq hb, fun u c' s' h => by cases h⟩
      | ok c3 =>
        refine ⟨.ok _, fun u c' s' h => ?_⟩
        simp only [Prod.mk.injEq, true_and] at h
        obtain ⟨rfl, -⟩ := h
        obtain ⟨a1, a2, -, -⟩ := addBack_reads hb
        exact ⟨g1.addBack g2 hrl hb, by rw [a1, a2, g2]⟩

/-- After an update with bounded time constant. -/
theorem Rebuilt.shares {freqs : IMap Int} (hr : Rebuilt env mem freqs c c') (hi : CInv c) (hs : Sound mem c') (hm : Mutual mem c')
    (hl : Linked mem c') {x : Cluster K} (e1 : x.sites = c'.sites) (e2 : x.internalDwell = c'.internalDwell)
    (e3 : x.probOn = c'.probOn) (e4 : 2 ≤ x.resolution) {T t : K} (ht : x.tau = some t) (ht0 : 0 ≤ t) (htT : t ≤ T) :
    Shares ((T + 1) / 2) x := by
  intro t' d i v h1 h2 h3 h4
  rw [ht] at h1
  cases h1
  unfold visitShare at h4
  split at h4
  · next s q hsi hq =>
    split at h4
    · cases h4
    · cases h4
      rw [e1] at hsi
      rw [e2] at hq
      have hii : i ∈ ids c' := List.mem_toFinset.2 (IMap.mem_keys_iff_get?.2 ⟨s, hsi⟩)
      have hd := hr.dist (hs.congr hr.sites.symm) (Mutual.congr hr.sites.symm hm) hi.prob
      obtain ⟨j, hj, hrt⟩ := hl i hii
      have hin : 0 < inRate mem c' i := Finset.sum_pos' (fun k _ => hs.rate_nonneg i k) ⟨j, hj, hrt⟩
      have h0 := sumInternal_at0 (i := i) hs
      rw [if_pos ⟨hii, hin.ne'⟩, IMap.get?_map, Option.map_eq_some_iff] at h0
      obtain ⟨r, hr1, hr2⟩ := h0
      have hq' : q = 1 / inRate mem c' i := by
        rw [hr.dwell, IMap.get?_foldl_set (wf_ratesInternal hs.wf) (fun ir => 1 / IMap.sumVals ir.2), hr1] at hq
        simp only [Option.map_some, Option.some_or, Option.some.injEq] at hq
        rw [← hq, ← hr2]
      have htau : s.tau = siteTime mem c' i := hs.tau hsi
      have hq0 : 0 < q := by rw [hq']; exact one_div_pos.2 hin
      have hle : s.tau ≤ q := by
        rw [hq', htau]
        unfold siteTime
        refine one_div_le_one_div_of_le hin ?_
        have := hs.inRate_add_exitRate hii
        have := hs.exitRate_nonneg i
        linarith
      have htau0 : 0 < s.tau := by rw [htau]; exact hs.siteTime_pos hii
      have hp0 : 0 < x.probOn.at0 i := by rw [e3]; exact hd.pos i hii
      have hp1 : x.probOn.at0 i ≤ 1 := by
        rw [e3, ← hd.one]
        exact Finset.single_le_sum (f := fun i => c'.probOn.at0 i) (fun k hk => (hd.pos k hk).le) hii
      have hd0 : (0 : K) < d := by exact_mod_cast (by omega : 0 < d)
      have hres : 0 < x.resolution := by linarith [show (0 : K) < 2 by norm_num]
      obtain ⟨a, b⟩ := share_le (x := t * ((d : K) * x.probOn.at0 i * s.tau / q) / x.resolution) (T := T) h2 (by positivity) (by
        rw [div_le_iff₀ hres]
        have k1 : s.tau / q ≤ 1 := (div_le_one hq0).2 hle
        have k2 : (d : K) * x.probOn.at0 i * s.tau / q ≤ d := by
          rw [mul_div_assoc]
          calc (d : K) * x.probOn.at0 i * (s.tau / q) ≤ d * 1 * 1 :=
                mul_le_mul (mul_le_mul_of_nonneg_left hp1 hd0.le) k1 (by positivity) (by positivity)
            _ = d := by ring
        calc t * ((d : K) * x.probOn.at0 i * s.tau / q) ≤ T * d := mul_le_mul htT k2 (by positivity) (ht0.trans htT)
          _ = d * (T / 2) * 2 := by ring
          _ ≤ d * (T / 2) * x.resolution :=
            mul_le_mul_of_nonneg_left e4 (mul_nonneg hd0.le (div_nonneg (ht0.trans htT) (by norm_num))))
      exact ⟨_, rfl, a, b⟩
  · cases h4

end Cluster
end Mythical
