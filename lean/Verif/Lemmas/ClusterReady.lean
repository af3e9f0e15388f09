import Verif.Lemmas.ClusterDust
import Verif.Lemmas.ClusterSolved
import Verif.Lemmas.ClusterMerge

/-! # Updates and merges end, unless a counter runs over -/

set_option linter.unusedSectionVars false
set_option linter.unusedVariables false

namespace Mythical
variable {K : Type} [Field K] [LinearOrder K] [IsStrictOrderedRing K] [FloorRing K]

/-- The call succeeds, or a counter runs over. -/
def Fair {α : Type} (r : Except Fault α) : Prop :=
  (∃ x, r = .ok x) ∨ r = .error (.ub .intOverflow) ∨ r = .error (.ub .floatToInt)

theorem Fair.ok {α : Type} (x : α) : Fair (.ok x : Except Fault α) := .inl ⟨x, rfl⟩

theorem Fair.error {α β : Type} {e : Fault} (h : Fair (.error e : Except Fault α)) : Fair (.error e : Except Fault β) := by
  rcases h with ⟨x, h⟩ | h | h
  · cases h
  · cases h; exact .inr (.inl rfl)
  · cases h; exact .inr (.inr rfl)

theorem Fair.chk (n : Int) : Fair (Mythical.chk n) := by
  unfold Mythical.chk Fair
  split
  · exact .inl ⟨_, rfl⟩
  · exact .inr (.inl rfl)

/-- The same, with another limit on the number of rounds. -/
def Env.rounds (env : Env K) (n : Nat) : Env K := { env with fuel := n }

/-- With enough rounds the result no longer depends on their number, and it is a success or an overflow. -/
def Settles {α β : Type} (F : Nat → Except Fault α × β) : Prop := ∃ N r, Fair r.1 ∧ ∀ f ≥ N, F f = r

theorem Settles.const {α β : Type} {r : Except Fault α × β} (h : Fair r.1) : Settles fun _ => r := ⟨0, r, h, fun _ _ => rfl⟩

theorem Settles.of_eq {α β : Type} {F G : Nat → Except Fault α × β} (h : Settles F) (e : ∀ f, G f = F f) : Settles G := by
  obtain ⟨N, r, h1, h2⟩ := h
  exact ⟨N, r, h1, fun f hf => (e f).trans (h2 f hf)⟩

/-- Going on after a call. -/
theorem Settles.bind {α β γ δ : Type} {F : Nat → Except Fault α × β} (h : Settles F)
    {G : Nat → Except Fault α × β → Except Fault γ × δ}
    (he : ∀ e b, Fair (.error e : Except Fault α) → Settles fun f => G f (.error e, b))
    (ho : ∀ x b N, (∀ f ≥ N, F f = (.ok x, b)) → Settles fun f => G f (.ok x, b)) : Settles fun f => G f (F f) := by
  obtain ⟨N, ⟨r, b⟩, h1, h2⟩ := h
  have key : Settles (fun f => G f (r, b)) → Settles fun f => G f (F f) := by
    rintro ⟨M, q, h3, h4⟩
    refine ⟨max N M, q, h3, fun f hf => ?_⟩
    simp only
    rw [h2 f ((le_max_left _ _).trans hf)]
    exact h4 f ((le_max_right _ _).trans hf)
  cases r with
  | error e => exact key (he e b h1)
  | ok x => exact key (ho x b N h2)

namespace Cluster
open ClusterSpec
variable {env : Env K} {mem : Addr → K} {c c' src : Cluster K}

/-- What reading the visit counts needs. -/
structure Reads (c : Cluster K) : Prop where
  tau : c.siteVisits.keys ≠ [] → c.tau.isSome
  res : c.resolution ≠ 0
  dwell : c.visits = c.prevVisits ∨
    ∀ i ∈ c.siteVisits.keys, i ∈ c.sites.keys ∧ ∃ d, d ≠ 0 ∧ c.internalDwell.get? i = some d

theorem flushLoop_reads {t d : K} {l : List Int} (hr : c.resolution ≠ 0)
    (hl : ∀ i ∈ l, i ∈ c.sites.keys ∧ ∃ d, d ≠ 0 ∧ c.internalDwell.get? i = some d) :
    ∃ c', c.flushLoop t d l = (.ok (), c') := by
  induction l generalizing c with
  | nil => exact ⟨c, rfl⟩
  | cons i l ih =>
    obtain ⟨h1, e, h2, h3⟩ := hl i (List.mem_cons_self ..)
    obtain ⟨s, hs⟩ := IMap.mem_keys_iff_get?.1 h1
    have hv : ∃ v : K, c.visitShare t d i = .ok v := by
      unfold visitShare
      rw [hs, h3]
      simp only
      rw [if_neg (by push Not; exact ⟨h2, hr⟩)]
      exact ⟨_, rfl⟩
    obtain ⟨v, hv⟩ := hv
    unfold flushLoop
    rw [hv]
    exact ih (c := { c with siteVisits := c.siteVisits.set i (c.siteVisits.at0 i + v) }) hr
      fun j hj => hl j (List.mem_cons_of_mem _ hj)

theorem flush_fair (h : Reads c) (t : K) : Fair (c.flush t).1 := by
  unfold flush
  split
  · exact Fair.ok _
  · next hne =>
    have hf := Fair.chk (c.visits - c.prevVisits)
    split
    · next e he => rw [he] at hf; exact hf.error
    · next d hd =>
      obtain ⟨c', hc'⟩ := flushLoop_reads (t := t) (d := (d : K)) (l := c.siteVisits.keys) h.res
        (h.dwell.resolve_left hne)
      rw [hc']
      exact Fair.ok _

theorem getVisitFrequency_fair (h : Reads c) {i : Int} (hi : i ∈ c.siteVisits.keys) : Fair (c.getVisitFrequency i).1 := by
  unfold getVisitFrequency
  rw [if_pos (IMap.has_iff.2 hi)]
  obtain ⟨t, ht⟩ := Option.isSome_iff_exists.1 (h.tau (List.ne_nil_of_mem hi))
  rw [ht]
  simp only
  have hf := flush_fair h t
  split
  · next e c' he => rw [he] at hf; exact hf.error
  · split
    · exact Fair.ok _
    · exact .inr (.inr rfl)

theorem getVisitFrequency_reads (h : Reads c) {i n : Int} (hg : c.getVisitFrequency i = (.ok n, c')) :
    Reads c' ∧ VisitsOnly c c' := by
  obtain ⟨-, ⟨t, ht, hf⟩, -⟩ := getVisitFrequency_ok hg
  have hv := getVisitFrequency_visitsOnly (c := c) i
  rw [hg] at hv
  refine ⟨⟨fun hk => ?_, ?_, .inl (flush_ok hf)⟩, hv⟩
  · obtain ⟨⟨v, p, rfl⟩, -⟩ := hv
    show c.tau.isSome = true
    rw [ht]; rfl
  · obtain ⟨⟨v, p, rfl⟩, -⟩ := hv
    exact h.res

theorem visitFreqsLoop_fair (h : Reads c) {l : List Int} (hl : ∀ i ∈ l, i ∈ c.siteVisits.keys) (acc : IMap Int) :
    Fair (c.visitFreqsLoop acc l).1 := by
  induction l generalizing c acc with
  | nil => exact Fair.ok _
  | cons i l ih =>
    unfold visitFreqsLoop
    have hf := getVisitFrequency_fair h (hl i (List.mem_cons_self ..))
    split
    · next e c' he => rw [he] at hf; exact hf.error
    · next n c' he =>
      obtain ⟨h1, h2⟩ := getVisitFrequency_reads h he
      exact ih h1 (fun j hj => by rw [h2.2]; exact hl j (List.mem_cons_of_mem _ hj)) _

theorem visitFreqsLoop_reads (h : Reads c) {l : List Int} {acc r : IMap Int} (hl : c.visitFreqsLoop acc l = (.ok r, c')) :
    Reads c' ∧ (l ≠ [] → c'.visits = c'.prevVisits) := by
  induction l generalizing c acc with
  | nil => cases hl; exact ⟨h, fun h => absurd rfl h⟩
  | cons i l ih =>
    unfold visitFreqsLoop at hl
    split at hl
    · cases hl
    · next n c1 he =>
      obtain ⟨h1, h2⟩ := getVisitFrequency_reads h he
      obtain ⟨h3, h4⟩ := ih h1 hl
      refine ⟨h3, fun _ => ?_⟩
      by_cases hn : l = []
      · subst hn
        cases hl
        obtain ⟨-, ⟨t, -, hf⟩, -⟩ := getVisitFrequency_ok he
        exact flush_ok hf
      · exact h4 hn

/-- What an update needs. -/
structure Fit (mem : Addr → K) (c : Cluster K) : Prop where
  sound : Sound mem c
  mutual_ : Mutual mem c
  parts : ∃ L : Finset Int, L.Nonempty ∧ Dusty mem c L ∧ (∀ i ∈ L, ∃ j ∈ L, 0 < rate mem c i j) ∧
    ∀ i ∈ L, ∀ j ∈ L, Path mem c i j
  exit : HasExit mem c
  prob : ProbSub c
  size : 1 < c.sites.length
  method : c.method = .tolerance
  tol : 0 < c.tol
  reads : Reads c

theorem path_congr (h : c'.sites = c.sites) {i j : Int} (hp : Path mem c i j) : Path mem c' i j := by
  induction hp with
  | refl => exact .refl _
  | step _ hk hr ih => exact .step ih (by rw [ids_congr h]; exact hk) (by rw [rate_congr h]; exact hr)

theorem Fit.link (h : Fit mem c) : SomeLink mem c := by
  obtain ⟨L, ⟨i, hi⟩, hD, hl, -⟩ := h.parts
  obtain ⟨j, hj, hr⟩ := hl i hi
  exact ⟨i, hD.sub hi, j, hD.sub hj, hr⟩

/-- The occupation probabilities are computed. -/
theorem Fit.solves (h : Fit mem c) : ∃ N d, ∀ f ≥ N, c.solveProb (env.rounds f) = .ok d := by
  have hne : c.sites ≠ [] := fun e => by have := h.size; rw [e] at this; simp at this
  have hd := initProb_dist h.sound.wf h.prob hne
  have e : c.initProb.sites = c.sites := rfl
  obtain ⟨L, hL, hD, hl, hp⟩ := h.parts
  obtain ⟨N, hN⟩ := toleranceLoop_dusty (h.sound.congr e) (Mutual.congr e h.mutual_) hd (hD.congr e) hL
    (fun i hi => by rw [rate_congr e]; exact hl i hi) (fun i hi j hj => path_congr e (hp i hi j hj)) h.tol
  obtain ⟨d, hd⟩ := hN N le_rfl
  refine ⟨N, d, fun f hf => ?_⟩
  obtain ⟨k, rfl⟩ := Nat.exists_eq_add_of_le hf
  unfold solveProb
  have e1 : c.initProb.method = c.method := rfl
  have e2 : c.initProb.tol = c.tol := rfl
  simp only [e1, h.method, e2]
  rw [if_pos (by have := h.tol; linarith)]
  exact toleranceLoop_mono hd

theorem rebuild_rounds {freqs : IMap Int} {f g : Nat} (h : c.solveProb (env.rounds f) = c.solveProb (env.rounds g)) :
    rebuild (env.rounds f) mem freqs c = rebuild (env.rounds g) mem freqs c := by
  unfold rebuild solveMasterEquation
  rw [h]
  rfl

/-- An update ends. -/
theorem update_settles (h : Fit mem c) : Settles fun f => c.update (env.rounds f) mem := by
  unfold update
  have hf := visitFreqsLoop_fair h.reads (l := c.siteVisits.keys) (fun _ h => h) []
  have hv := visitFreqsLoop_visitsOnly (c := c) [] c.siteVisits.keys
  cases hl : c.visitFreqsLoop [] c.siteVisits.keys with
  | mk r c1 =>
    rw [hl] at hf hv
    cases r with
    | error e => exact Settles.const hf.error
    | ok freqs =>
      simp only at hv ⊢
      have e1 : c1.sites = c.sites := hv.sites
      have hfit : Fit mem c1 := by
        obtain ⟨⟨v, p, rfl⟩, hk⟩ := hv
        obtain ⟨h1, h2, ⟨L, h3, h4, h5, h6⟩, h7, h8, h9, h10, h11, h12⟩ := h
        refine ⟨h1.congr e1, Mutual.congr e1 h2, ⟨L, h3, h4.congr e1, ?_, fun i hi j hj => path_congr e1 (h6 i hi j hj)⟩,
          h7.congr e1, h8, h9, h10, h11, ?_⟩
        · intro i hi; rw [rate_congr e1]; exact h5 i hi
        · exact (visitFreqsLoop_reads h12 hl).1
      obtain ⟨N, d, hN⟩ := hfit.solves (env := env)
      obtain ⟨c2, hc2⟩ := rebuild_total' (freqs := freqs) hfit.sound hfit.mutual_ hfit.link hfit.exit hfit.prob hfit.size
        hfit.reads.res (hN N le_rfl)
      refine ⟨N, (.ok (), c2), Fair.ok _, fun f hf => ?_⟩
      simp only
      rw [rebuild_rounds (g := N) ((hN f hf).trans (hN N le_rfl).symm), hc2]

/-- After an update. -/
theorem Fit.after (h : Fit mem c) {u : Unit} (hu : c.update env mem = (.ok u, c')) :
    c'.sites = c.sites ∧ c'.resolution = c.resolution ∧ c'.method = c.method ∧ c'.tol = c.tol ∧ c'.id = c.id ∧
      c'.tau.isSome ∧ (∀ i, i ∈ c'.siteVisits.keys ↔ i ∈ c.sites.keys) ∧
      (c.siteVisits.keys ≠ [] → Reads c') := by
  obtain ⟨freqs, c1, hl, hv, hr⟩ := update_ok hu
  have e1 := hr.sites.trans hv.sites
  have f := (update_frame (env := env) (mem := mem) c)
  rw [hu] at f
  have htau : c'.tau.isSome := by
    rcases hr.tau with ⟨h0, -⟩ | ⟨-, h0, -⟩
    · exact absurd h0 (ratesToNeighbors_ne_nil (h.sound.congr e1) (h.exit.congr e1))
    · rw [h0]; rfl
  refine ⟨e1, f.resolution, f.method, f.tol, f.id, htau, fun i => by rw [hr.siteVisits_keys, hv.sites], fun hne => ?_⟩
  refine ⟨fun _ => htau, by rw [f.resolution]; exact h.reads.res, .inl ?_⟩
  rw [hr.visits, hr.prevVisits]
  exact (visitFreqsLoop_reads h.reads hl).2 hne

theorem migrateLoop_fair {tid : Int} {l : List Int} (h : Reads src) (hl : ∀ i ∈ l, i ∈ src.siteVisits.keys) (acc : IMap Int) :
    Fair (migrateLoop tid src acc l).1 := by
  induction l generalizing src acc with
  | nil => exact Fair.ok _
  | cons i l ih =>
    unfold migrateLoop
    simp only
    have h1 : Reads { src with sites := src.sites.set i { src.siteAt i with clusterId := tid } } :=
      ⟨h.tau, h.res, h.dwell.imp_right fun hd j hj => ⟨IMap.mem_keys_set.2 (.inr (hd j hj).1), (hd j hj).2⟩⟩
    have hf := getVisitFrequency_fair h1 (hl i (List.mem_cons_self ..))
    split
    · next e c' he => rw [he] at hf; exact hf.error
    · next n c' he =>
      obtain ⟨h2, h3⟩ := getVisitFrequency_reads h1 he
      exact ih h2 (fun j hj => by rw [h3.2]; exact hl j (List.mem_cons_of_mem _ hj)) _

theorem migrateLoop_keys {tid : Int} {l : List Int} {acc r : IMap Int} {src' : Cluster K}
    (h : migrateLoop tid src acc l = (.ok r, src')) : ∀ k ∈ r.keys, k ∈ l ∨ k ∈ acc.keys := by
  induction l generalizing src acc with
  | nil => cases h; exact fun k hk => .inr hk
  | cons i l ih =>
    unfold migrateLoop at h
    simp only at h
    split at h
    · cases h
    · next n c' he =>
      intro k hk
      rcases ih h k hk with h' | h'
      · exact .inl (List.mem_cons_of_mem _ h')
      · rcases IMap.mem_keys_set.1 h' with rfl | h'
        · exact .inl (List.mem_cons_self ..)
        · exact .inr h'

theorem addBackVisits_total (ht : c.tau.isSome) {l : List (Int × Int)} (hl : ∀ x ∈ l, x.1 ∈ c.siteVisits.keys) :
    ∃ c', c.addBackVisits l = .ok c' := by
  induction l generalizing c with
  | nil => exact ⟨c, rfl⟩
  | cons x l ih =>
    obtain ⟨i, n⟩ := x
    have h1 : c.setVisitFrequency n i = .ok { c with siteVisits := c.siteVisits.set i (n : K) } := by
      unfold setVisitFrequency
      rw [if_pos]
      rw [Bool.and_eq_true]
      exact ⟨IMap.has_iff.2 (hl (i, n) (List.mem_cons_self ..)), ht⟩
    unfold addBackVisits
    rw [h1, ok_bind]
    exact ih (c := { c with siteVisits := c.siteVisits.set i (n : K) }) ht
      fun y hy => IMap.mem_keys_set.2 (.inr (hl y (List.mem_cons_of_mem _ hy)))

/-- A merge ends. -/
theorem migrate_settles (hr : Reads src) (hv : ∀ i ∈ src.sites.keys, i ∈ src.siteVisits.keys) (hsw : src.sites.WF)
    (hfit : ∀ sites : IMap (Site K), sites.WF → (∀ k, sites.get? k = match c.sites.get? k with
        | some s => some s
        | none => (src.sites.get? k).map (mark c.id)) → Fit mem { c with sites := sites }) (hw : c.sites.WF) :
    Settles fun f => c.migrateSitesFrom (env.rounds f) mem src := by
  unfold migrateSitesFrom
  have hf := migrateLoop_fair (tid := c.id) hr hv []
  obtain ⟨hk, -, hs⟩ := migrateLoop_sites c.id src.sites.keys [] src fun _ h => h
  cases hm : migrateLoop c.id src [] src.sites.keys with
  | mk r src1 =>
    rw [hm] at hf hk hs
    cases r with
    | error e => exact Settles.const hf.error
    | ok visits =>
      simp only at hk hs ⊢
      have hs := hs visits rfl
      have hsw1 : src1.sites.WF := by
        have : src.sites.keys.Nodup := hsw
        rw [← hk] at this
        exact this
      have hget : ∀ k, (src1.sites.foldl insertIfNew c.sites).get? k = match c.sites.get? k with
          | some s => some s
          | none => (src.sites.get? k).map (mark c.id) := by
        intro k
        rw [get?_insertAll hsw1, hs k]
        cases c.sites.get? k with
        | some s => rfl
        | none =>
          simp only
          by_cases hk : k ∈ src.sites.keys
          · rw [if_pos hk]
          · rw [if_neg hk, IMap.get?_eq_none_iff.2 hk]; rfl
      have hF := hfit _ (insertAll_wf hw) hget
      refine (update_settles hF).bind (G := fun _ p => match p with
        | (.error e, c) => (.error e, c, src1.emptied)
        | (.ok _, c) =>
          match c.addBackVisits visits with
          | .error e => (.error e, c, src1.emptied)
          | .ok c => (.ok (), c, src1.emptied)) ?_ ?_
      · intro e b he
        exact Settles.const he.error
      · intro u b N hN
        obtain ⟨-, -, -, -, -, ht, hkeys, -⟩ := hF.after (hN N le_rfl)
        obtain ⟨d, hd⟩ := addBackVisits_total ht (l := visits) fun x hx => by
          rw [hkeys]
          rcases migrateLoop_keys hm x.1 (List.mem_map.2 ⟨x, hx, rfl⟩) with h | h
          · exact (insertAll_keys _ _ _).2 (.inr (by rw [hk]; exact h))
          · cases h
        simp only [hd]
        exact Settles.const (Fair.ok _)

end Cluster
end Mythical
