import Verif.Lemmas.RoundedDerive

/-! # The tables and the time constants of a cluster, with and without rounding -/

set_option linter.unusedSectionVars false
set_option linter.unusedVariables false

namespace Mythical.Rounded
open Mythical RoundSpec
variable {K : Type} [Field K] [LinearOrder K] [IsStrictOrderedRing K] [FloorRing K]
variable {fl : K → K} {ε : K} {mem : Addr → K} {c c' c1 : Cluster K} {env : Env K}

theorem within_of_rel (h0 : 0 ≤ ε) (h1 : ε ≤ 1) {m M : Nat} (hm : m ≤ M) {x y : Option K} (h : Option.Rel (Rel ε m) x y)
    (hM : 2 * (M * ε) ≤ 1) : Within (2 * (M * ε)) x y := by
  cases h with
  | none => trivial
  | @some a b h =>
    obtain ⟨b1, b2⟩ := (h.mono h0 h1 hm).bounds h1 h0 hM
    have hx := h.left
    have h3 : 0 ≤ (M : K) * ε * a := by positivity
    show |b - a| ≤ _
    rw [abs_le]
    constructor <;> nlinarith

/-- From matching tables to the law of the picks. -/
theorem picks_of_mrel (R : Rounding fl ε) (h0 : 0 ≤ ε) {M : Nat} {a b l s : List (Int × K)} (h : MRel ε M a b) (hw : IMap.WF a)
    (hs : s.Perm a) (hl : l.Perm b) (hone : (a.map Prod.snd).sum = 1) (hM : 8 * (M * ε) ≤ 1) (h1 : ε < 1) (hlen : a.length ≤ M)
    (hm : (-1 : Int) ∉ IMap.keys a) :
    PicksLike s (6 * M * ε) (2 * (M + 1) * ε) fun u => Cluster.pickCum u (cumulate fl 0 l) := by
  have hk := h.keys h0 h1
  have hkl : (l.map Prod.fst).Perm (IMap.keys a) := by rw [hk]; exact hl.map Prod.fst
  have hks : (IMap.keys s).Perm (IMap.keys a) := hs.map Prod.fst
  have hwl : IMap.WF l := by
    have : (IMap.keys a).Nodup := hw
    exact (hkl.nodup_iff).2 this
  have hws : IMap.WF s := (hks.nodup_iff).2 hw
  have hr : ∀ np ∈ l, Rel ε M (IMap.at0 a np.1) np.2 := by
    intro np hnp
    have hb : np ∈ b := hl.mem_iff.1 hnp
    have hwb : IMap.WF b := by unfold IMap.WF; show (IMap.keys b).Nodup; rw [← hk]; exact hw
    have := h.at0 h0 h1 np.1
    rwa [IMap.at0_of_mem hwb hb] at this
  have hsum : (l.map fun np => IMap.at0 a np.1).sum = 1 := by
    have e1 : (l.map fun np => IMap.at0 a np.1) = (l.map Prod.fst).map (IMap.at0 a) := by rw [List.map_map]; rfl
    have e2 : (a.map Prod.snd) = (IMap.keys a).map (IMap.at0 a) := by
      unfold IMap.keys
      rw [List.map_map]
      refine List.map_congr_left fun x hx => ?_
      exact (IMap.at0_of_mem hw (k := x.1) (v := x.2) hx).symm
    rw [e1, (hkl.map _).sum_eq, ← e2, hone]
  obtain ⟨last, hlast, hthr, hint⟩ := table_law R h0 hwl hr hsum hM
    (by rw [hl.length_eq, ← h.length_eq]; exact hlen) (fun q => hm (hkl.mem_iff.1 q))
  refine ⟨last, hlast, fun u hu => ⟨?_, (hthr u hu).2⟩, ?_⟩
  · rw [← (hthr u hu).1]
    exact hks.mem_iff.trans hkl.mem_iff.symm
  · intro n p hp
    have hpa : IMap.get? a n = some p := by rw [← IMap.get?_of_perm hws hs]; exact hp
    have := hint n (hkl.mem_iff.2 (IMap.mem_keys_iff_get?.2 ⟨p, hpa⟩))
    rwa [IMap.at0_of_get? hpa] at this

/-! ## The keys of the table of the exits -/

theorem hopNeighTemp_keys {r : IMap K} (h : hopNeighTemp fl c = .ok r) :
    r.WF ∧ ∀ k ∈ r.keys, ∃ is ∈ c.sites, k ∈ is.2.neigh.keys := by
  unfold hopNeighTemp at h
  have inner : ∀ (i : Int) (s : Site K) (P : Int → Prop) (ids : List Int), (∀ n ∈ ids, P n) → ∀ {acc r : IMap K},
      acc.WF → (∀ k ∈ acc.keys, P k) → ids.foldlM (hopNeighStep fl c i s) acc = .ok r → r.WF ∧ ∀ k ∈ r.keys, P k := by
    intro i s P ids
    induction ids with
    | nil => intro _ acc r hw hk h; cases h; exact ⟨hw, hk⟩
    | cons n ids ih =>
      intro hP acc r hw hk h
      rw [List.foldlM_cons, bind_eq_ok] at h
      obtain ⟨b, hb, h⟩ := h
      have hset : ∀ v, (acc.set n v).WF ∧ ∀ k ∈ (acc.set n v).keys, P k := by
        intro v
        refine ⟨hw.set n v, fun k hk' => ?_⟩
        rw [IMap.mem_keys_iff_get?] at hk'
        obtain ⟨x, hx⟩ := hk'
        rw [IMap.get?_set] at hx
        split at hx
        · next e => rw [← e]; exact hP n (List.mem_cons_self ..)
        · exact hk k (IMap.mem_keys_iff_get?.2 ⟨x, hx⟩)
      have hb' : b.WF ∧ ∀ k ∈ b.keys, P k := by
        unfold hopNeighStep at hb
        split at hb
        · cases hb; exact ⟨hw, hk⟩
        · rw [bind_eq_ok] at hb
          obtain ⟨p, -, hb⟩ := hb
          split at hb
          · cases hb; exact hset _
          · cases hb; exact hset _
      exact ih (fun n hn => hP n (List.mem_cons_of_mem _ hn)) hb'.1 hb'.2 h
  have outer : ∀ (l : List (Int × Site K)), (∀ is ∈ l, is ∈ c.sites) → ∀ {acc r : IMap K}, acc.WF →
      (∀ k ∈ acc.keys, ∃ is ∈ c.sites, k ∈ is.2.neigh.keys) →
      l.foldlM (fun acc is => is.2.getNeighborSiteIds.foldlM (hopNeighStep fl c is.1 is.2) acc) acc = .ok r →
      r.WF ∧ ∀ k ∈ r.keys, ∃ is ∈ c.sites, k ∈ is.2.neigh.keys := by
    intro l
    induction l with
    | nil => intro _ acc r hw hk h; cases h; exact ⟨hw, hk⟩
    | cons x l ih =>
      intro hl acc r hw hk h
      rw [List.foldlM_cons, bind_eq_ok] at h
      obtain ⟨b, hb, h⟩ := h
      obtain ⟨b1, b2⟩ := inner x.1 x.2 _ _ (fun n hn => ⟨x, hl x (List.mem_cons_self ..), hn⟩) hw hk hb
      exact ih (fun is h => hl is (List.mem_cons_of_mem _ h)) b1 b2 h
  exact outer c.sites (fun _ h => h) (by simp [IMap.WF]) (by simp [IMap.keys]) h

theorem probNeigh_keys (h : calcHopToNeighbors fl env c = .ok c1) :
    IMap.WF c1.probNeigh ∧ ∀ k ∈ IMap.keys c1.probNeigh, ∃ is ∈ c.sites, k ∈ is.2.neigh.keys := by
  unfold calcHopToNeighbors at h
  rw [bind_eq_ok] at h
  obtain ⟨A, hA, h⟩ := h
  obtain ⟨w, hk⟩ := hopNeighTemp_keys hA
  simp only at h
  split at h
  · cases h
  · cases h
    have hp := (env.sort.perm (A.map fun np => (np.1, fl (np.2 * fl (1 / sumVals fl A))))).map Prod.fst
    rw [List.map_map] at hp
    refine ⟨(hp.nodup_iff).2 w, fun k hk' => hk k (hp.mem_iff.1 hk')⟩

/-! ## All together -/

/-- What `derive` computes with rounding, compared with what it computes without. -/
theorem derive_rel (R : Rounding fl ε) (h0 : 0 ≤ ε) (h1 : ε < 1) (hc : Nonneg mem c) (hw : c.sites.WF)
    (h : derive noRound env mem c = .ok c1) :
    ∃ c2, derive fl env mem c = .ok c2 ∧
      (∃ a b, MRel ε (c.probOn.length + 3) a b ∧ c1.probInternal.Perm a ∧ c2.probInternal.Perm b ∧
        IMap.keys a = c.probOn.keys ∧ (a ≠ [] → (a.map Prod.snd).sum = 1)) ∧
      c2.cumInternal = c.cumInternal ++ cumulate fl 0 c2.probInternal ∧
      (∃ a b, MRel ε (2 * (links c + 1) + a.length + 2) a b ∧ c1.probNeigh.Perm a ∧ c2.probNeigh.Perm b ∧
        (a ≠ [] → (a.map Prod.snd).sum = 1)) ∧
      c2.cumNeigh = c.cumNeigh ++ cumulate fl 0 c2.probNeigh ∧
      (IMap.WF c1.probNeigh ∧ ∀ k ∈ IMap.keys c1.probNeigh, ∃ is ∈ c.sites, k ∈ is.2.neigh.keys) ∧
      Option.Rel (Rel ε (6 * links c + 4 * c.probOn.length + 2 * c.sites.length + 14)) c1.tau c2.tau ∧
      Option.Rel (Rel ε (6 * links c + 4 * c.probOn.length + 2 * c.sites.length + 15)) c1.timeInc c2.timeInc ∧
      Option.Rel (Rel ε (2 * links c + c.sites.length + 5)) c1.internalTau c2.internalTau := by
  unfold derive at h
  simp only [bind_eq_ok] at h
  obtain ⟨a1, ha1, a2, ha2, a3, ha3, a4, ha4, a5, ha5, a6, ha6, hfin⟩ := h
  cases hfin
  have L0 : Lock c c := ⟨rfl, rfl, rfl⟩
  obtain ⟨l1, -, b1, hb1, m1, cb1, A, B, hAB, pA, pB, kA, oA, cn, cn'⟩ := step_internal h0 h1 R hc L0 ha1
  have hc1 := l1.nonneg hc
  have K2 := probNeigh_keys ha2
  obtain ⟨l2, -, b2, hb2, m2, cb2, A', B', hAB', pA', pB', oA', e1, e2, e3, e4⟩ := step_neigh h0 h1 R hc1 m1 ha2
  have hc2 := l2.nonneg hc1
  obtain ⟨b3, hb3, f3, f3'⟩ := step_dwell h0 h1 R hc2 m2 ha3
  have l3 : Lock a2 a3 := by rw [f3]; exact ⟨rfl, rfl, rfl⟩
  have l3' : Lock b2 b3 := by rw [f3']; exact ⟨rfl, rfl, rfl⟩
  have m3 : Lock a3 b3 := ⟨by rw [l3'.sites, m2.sites, l3.sites], by rw [l3'.on, m2.on, l3.on], by rw [l3'.res, m2.res, l3.res]⟩
  have hc3 := l3.nonneg hc2
  have he := step_escape h0 h1 R hc3 m3
  have m3a : Lock (calcSumEscape noRound mem a3) (calcSumEscape fl mem b3) := ⟨m3.sites, m3.on, m3.res⟩
  have l3a : Lock a3 (calcSumEscape noRound mem a3) := ⟨rfl, rfl, rfl⟩
  have hi := step_sumInternal h0 h1 R (l3a.nonneg hc3) m3a
  have m3b : Lock (calcSumInternal noRound mem (calcSumEscape noRound mem a3)) (calcSumInternal fl mem (calcSumEscape fl mem b3)) :=
    ⟨m3.sites, m3.on, m3.res⟩
  have l3b : Lock a3 (calcSumInternal noRound mem (calcSumEscape noRound mem a3)) := ⟨rfl, rfl, rfl⟩
  have hc3b := l3b.nonneg hc3
  obtain ⟨b4, hb4, f4, f4', ho, hol⟩ := step_hopOff h0 h1 R hc3b m3b (by rw [l3b.links]; exact he) ha4
  have l4 : Lock a3 a4 := by rw [f4]; exact ⟨rfl, rfl, rfl⟩
  have m4 : Lock a4 b4 := by rw [f4, f4']; exact ⟨m3.sites, m3.on, m3.res⟩
  have hc4 := l4.nonneg hc3
  have L3 : Lock c a3 := (l1.trans l2).trans l3
  have L4 : Lock c a4 := L3.trans l4
  obtain ⟨b5, hb5, f5, f5', hbt, ho5, hbl, hol5⟩ := step_between h0 h1 R hc4 m4 (by rw [L4.sites]; exact hw) ho ha5
  have l5 : Lock a4 a5 := by rw [f5]; exact ⟨rfl, rfl, rfl⟩
  have m5 : Lock a5 b5 := by rw [f5, f5']; exact ⟨m4.sites, m4.on, m4.res⟩
  have hc5 := l5.nonneg hc4
  have s5 : MRel ε (links c) a5.sumEscape b5.sumEscape := by
    rw [f5, f4, f5', f4']
    rw [L3.links] at he
    exact he
  obtain ⟨b6, hb6, f6, f6', ht, hti⟩ := step_tau h0 h1 R hc5 m5 ho5 s5 ha6
  have m6 : Lock a6 b6 := by rw [f6, f6']; exact ⟨m5.sites, m5.on, m5.res⟩
  have l6 : Lock a5 a6 := by rw [f6]; exact ⟨rfl, rfl, rfl⟩
  have hc6 := l6.nonneg hc5
  have hbt6 : MRel ε (links c + 2) a6.hopBetween b6.hopBetween := by
    rw [f6, f6']; rw [L4.links] at hbt; exact hbt
  have si6 : MRel ε (links c + 1) a6.sumInternal b6.sumInternal := by
    rw [f6, f5, f4, f6', f5', f4']
    rw [l3a.links, L3.links] at hi
    exact hi
  have hit := step_internalTau h0 h1 R hc6 m6 hbt6 si6
  have relmono : ∀ {j k : Nat}, j ≤ k → ∀ {x y : Option K}, Option.Rel (Rel ε j) x y → Option.Rel (Rel ε k) x y := by
    intro j k hjk x y h
    cases h with
    | none => exact .none
    | some h => exact .some (h.mono h0 h1.le hjk)
  have keepI : ∀ (f : K → K) (x : Cluster K), (calcInternalTau f mem x).probInternal = x.probInternal ∧
      (calcInternalTau f mem x).cumInternal = x.cumInternal ∧ (calcInternalTau f mem x).probNeigh = x.probNeigh ∧
      (calcInternalTau f mem x).cumNeigh = x.cumNeigh ∧ (calcInternalTau f mem x).tau = x.tau ∧
      (calcInternalTau f mem x).timeInc = x.timeInc := by
    intro f x
    unfold calcInternalTau
    split <;> exact ⟨rfl, rfl, rfl, rfl, rfl, rfl⟩
  obtain ⟨q1, q2, q3, q4, q5, q6⟩ := keepI noRound a6
  obtain ⟨r1, r2, r3, r4, r5, r6⟩ := keepI fl b6
  have ga1 : a6.probInternal = a1.probInternal := by
    rw [f6, f5, f4]
    show a3.probInternal = _
    rw [f3]; exact e1
  have ga3 : a6.probNeigh = a2.probNeigh := by
    rw [f6, f5, f4]
    show a3.probNeigh = _
    rw [f3]
  have gb1 : b6.probInternal = b1.probInternal := by
    rw [f6', f5', f4']
    show b3.probInternal = _
    rw [f3']; exact e3
  have gb2 : b6.cumInternal = b1.cumInternal := by
    rw [f6', f5', f4']
    show b3.cumInternal = _
    rw [f3']; exact e4
  have gb3 : b6.probNeigh = b2.probNeigh := by
    rw [f6', f5', f4']
    show b3.probNeigh = _
    rw [f3']
  have gb4 : b6.cumNeigh = b2.cumNeigh := by
    rw [f6', f5', f4']
    show b3.cumNeigh = _
    rw [f3']
  have hk4 : a4.sites.length = c.sites.length := by rw [L4.sites]
  have hp4 : (calcSumInternal noRound mem (calcSumEscape noRound mem a3)).probOn.length = c.probOn.length := by
    show a3.probOn.length = _
    rw [L3.on]
  have hE4 : links (calcSumInternal noRound mem (calcSumEscape noRound mem a3)) = links c := by rw [l3b.links, L3.links]
  have hE4' : links a4 = links c := L4.links
  refine ⟨calcInternalTau fl mem b6, ?_, ?_, ?_, ?_, ?_, ?_, ?_, ?_, ?_⟩
  · unfold derive
    simp only [bind_eq_ok]
    exact ⟨b1, hb1, b2, hb2, b3, hb3, b4, hb4, b5, hb5, b6, hb6, rfl⟩
  · refine ⟨A, B, hAB, ?_, ?_, kA, oA⟩
    · rw [q1, ga1]; exact pA
    · rw [r1, gb1]; exact pB
  · rw [r2, gb2, r1, gb1]; exact cb1
  · refine ⟨A', B', ?_, ?_, ?_, oA'⟩
    · rw [l1.links] at hAB'; exact hAB'
    · rw [q3, ga3]; exact pA'
    · rw [r3, gb3]; exact pB'
  · rw [r4, gb4, r3, gb3, cb2, cn']
  · rw [q3, ga3]
    rw [l1.sites] at K2
    exact K2
  · rw [q5, r5]; exact relmono (by omega) ht
  · rw [q6, r6]; exact relmono (by omega) hti
  · have hlen6 : a6.hopBetween.length ≤ c.sites.length := by
      rw [f6]; show a5.hopBetween.length ≤ _; omega
    exact relmono (by omega) hit

end Mythical.Rounded
