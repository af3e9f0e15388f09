import Verif.Lemmas.ClusterIter

/-! # Lemmas about the cluster: what an update changes and what it leaves alone -/

set_option linter.unusedSectionVars false

namespace Mythical.Cluster
open Mythical ClusterSpec
variable {K : Type} [Field K] [LinearOrder K] [IsStrictOrderedRing K] [FloorRing K]
variable {env : Env K} {mem : Addr → K} {c c' : Cluster K}

theorem iterate_shape (h : c.iterate = .ok c') : c' = { c with probOn := c'.probOn } := by
  unfold iterate at h
  rw [bind_eq_ok] at h
  obtain ⟨temp, -, h⟩ := h
  simp only at h
  split at h
  · cases h
  · split at h
    · cases h
    · cases h; rfl

theorem iterateN_shape {n : Nat} (h : iterateN n c = .ok c') : c' = { c with probOn := c'.probOn } := by
  induction n generalizing c with
  | zero => cases h; rfl
  | succ n ih =>
    unfold iterateN at h
    rw [bind_eq_ok] at h
    obtain ⟨d, h1, h2⟩ := h
    have h1 := iterate_shape h1
    have h2 := ih h2
    rw [h1] at h2
    exact h2

theorem toleranceLoop_shape {n : Nat} (h : toleranceLoop n c = .ok c') : c' = { c with probOn := c'.probOn } := by
  induction n generalizing c with
  | zero => cases h
  | succ n ih =>
    unfold toleranceLoop at h
    rw [bind_eq_ok] at h
    obtain ⟨d, h1, h2⟩ := h
    have h1 := iterate_shape h1
    split at h2
    · have h2 := ih h2
      rw [h1] at h2
      exact h2
    · cases h2; exact h1

theorem solveProb_shape (h : c.solveProb env = .ok c') : c' = { c with probOn := c'.probOn } := by
  unfold solveProb at h
  simp only at h
  split at h
  · exact (iterateN_shape h).trans rfl
  · exact (iterateN_shape h).trans rfl
  · split at h
    · exact (toleranceLoop_shape h).trans rfl
    · cases h; rfl

theorem calcHopToInternal_ok (h : c.calcHopToInternal env = .ok c') :
    c' = { c with probInternal := c'.probInternal, cumInternal := c.cumInternal ++ cumulate 0 c'.probInternal } ∧
    c'.probInternal = env.sort.f (c.probOn.map fun ip => (ip.1, ip.2 * (c.siteAt ip.1).tau /
      IMap.sumVals (c.probOn.map fun ip => (ip.1, ip.2 * (c.siteAt ip.1).tau)))) ∧
    (c.probOn ≠ [] → IMap.sumVals (c.probOn.map fun ip => (ip.1, ip.2 * (c.siteAt ip.1).tau)) ≠ 0) := by
  unfold calcHopToInternal at h
  simp only at h
  split at h
  · cases h
  · next hn =>
    cases h
    refine ⟨rfl, ?_, ?_⟩
    · simp only [List.map_map]; rfl
    · intro hne hz
      apply hn
      exact ⟨by simpa using hne, hz⟩

theorem calcHopToNeighbors_ok (h : c.calcHopToNeighbors env = .ok c') :
    c' = { c with probNeigh := c'.probNeigh, cumNeigh := c.cumNeigh ++ cumulate 0 c'.probNeigh } ∧
    ∃ temp, c.hopNeighTemp = .ok temp ∧ (temp ≠ [] → IMap.sumVals temp ≠ 0) ∧
    c'.probNeigh = env.sort.f (temp.map fun np => (np.1, np.2 * (1 / IMap.sumVals temp))) := by
  unfold calcHopToNeighbors at h
  rw [bind_eq_ok] at h
  obtain ⟨temp, h1, h⟩ := h
  simp only at h
  split at h
  · cases h
  · next hn =>
    cases h
    exact ⟨rfl, temp, h1, fun hne hz => hn ⟨hne, hz⟩, rfl⟩

theorem calcInternalDwell_ok (h : c.calcInternalDwell mem = .ok c') :
    c' = { c with internalDwell := c'.internalDwell } ∧
    c'.internalDwell =
      (c.ratesInternal mem).foldl (fun m ir => m.set ir.1 (1 / IMap.sumVals ir.2)) c.internalDwell ∧
    ∀ ir ∈ c.ratesInternal mem, IMap.sumVals ir.2 ≠ 0 := by
  unfold calcInternalDwell at h
  simp only at h
  split at h
  · cases h
  · next hn =>
    cases h
    exact ⟨rfl, rfl, fun ir hir hz => hn ⟨ir, hir, hz⟩⟩

theorem calcHopOff_ok (h : c.calcHopOff mem = .ok c') :
    c' = { c with hopOff := c'.hopOff } ∧ 1 < c.sites.length ∧ (c.sumRatesOff mem ≠ 0 →
    c.probOn.foldl (fun t ip => t + (c.siteAt ip.1).tau) 0 ≠ 0 ∧
    let raw := c.probOn.map fun ip => (ip.1, ip.2 * c.sumEscape.at0 ip.1 / c.sumRatesOff mem * (c.siteAt ip.1).tau /
      c.probOn.foldl (fun t ip => t + (c.siteAt ip.1).tau) 0)
    IMap.sumVals raw ≠ 0 ∧ c'.hopOff = raw.map fun ip => (ip.1, ip.2 / IMap.sumVals raw)) := by
  unfold calcHopOff at h
  split at h
  · cases h
  · next hl =>
    simp only at h
    split at h
    · next h0 =>
      split at h
      · cases h
      · cases h
        exact ⟨rfl, by omega, fun e => absurd h0 e⟩
    · split at h
      · cases h
      · next hz =>
        split at h
        · cases h
        · next ht =>
          cases h
          exact ⟨rfl, by omega, fun _ => ⟨hz, ht, rfl⟩⟩

theorem calcHopBetween_ok (h : c.calcHopBetween mem = .ok c') :
    c' = { c with hopBetween := c'.hopBetween, hopOff := c'.hopOff } ∧
    c'.hopBetween = ((c.ratesInternal mem).map fun ir =>
      (ir.1, IMap.sumVals ir.2 * (c.siteAt ir.1).tau * c.probOn.at0 ir.1)) ∧
    (c'.hopBetween ≠ [] → IMap.sumVals c'.hopBetween ≠ 0) ∧
    c'.hopOff = c'.hopBetween.foldl (fun m ib => m.set ib.1 (m.at0 ib.1 / IMap.sumVals c'.hopBetween)) c.hopOff := by
  unfold calcHopBetween at h
  split at h
  · cases h
  · simp only at h
    split at h
    · cases h
    · next ht =>
      cases h
      exact ⟨rfl, rfl, fun hne hz => ht ⟨hne, hz⟩, rfl⟩

theorem calcEscape_ok (h : c.calcEscape mem = .ok c') :
    c' = { c with tau := c'.tau, timeInc := c'.timeInc } ∧ c.resolution ≠ 0 ∧
    ((c.ratesToNeighbors mem = [] ∧ c'.tau = none ∧ c'.timeInc = none) ∨
     (c.ratesToNeighbors mem ≠ [] ∧
      c'.tau = some (c.hopOff.foldl (fun t ip =>
        if c.sumEscape.at0 ip.1 > 0 then t + 1 / c.sumEscape.at0 ip.1 * ip.2 else t) 0) ∧
      c'.timeInc = c'.tau.map (· / c.resolution))) := by
  unfold calcEscape at h
  split at h
  · cases h
  · next hr =>
    split at h
    · next hl =>
      cases h
      exact ⟨rfl, hr, Or.inl ⟨List.length_eq_zero_iff.1 hl, rfl, rfl⟩⟩
    · next hl =>
      cases h
      exact ⟨rfl, hr, Or.inr ⟨fun e => hl (by rw [e]; rfl), rfl, rfl⟩⟩

theorem calcInternalTau_shape : c.calcInternalTau mem = { c with internalTau := (c.calcInternalTau mem).internalTau } := by
  unfold calcInternalTau; split <;> rfl

theorem setVisitFrequency_ok {n id : Int} (h : c.setVisitFrequency n id = .ok c') :
    c' = { c with siteVisits := c.siteVisits.set id (n : K) } ∧ id ∈ c.siteVisits.keys ∧ c.tau.isSome := by
  unfold setVisitFrequency at h
  split at h
  · next hb =>
    cases h
    rw [Bool.and_eq_true] at hb
    exact ⟨rfl, IMap.has_iff.1 hb.1, hb.2⟩
  · cases h

/-- The value `restoreVisits` gives to a site. -/
def restored (freqs : IMap Int) (id : Int) : K := ((freqs.get? id).map fun n => (n : K)).getD 0

theorem restoreVisits_ok {freqs : IMap Int} {l : List Int} (h : restoreVisits freqs c l = .ok c') :
    c' = { c with siteVisits := l.foldl (fun m id => m.set id (restored freqs id)) c.siteVisits } ∧
    ((∃ id ∈ l, id ∈ freqs.keys) → c.tau.isSome) := by
  induction l generalizing c with
  | nil => cases h; exact ⟨rfl, by rintro ⟨id, h, -⟩; simp at h⟩
  | cons id l ih =>
    unfold restoreVisits at h
    cases hf : freqs.get? id with
    | none =>
      rw [hf] at h
      simp only at h
      rw [bind_eq_ok] at h
      obtain ⟨d, h1, h2⟩ := h
      obtain ⟨h3, h4⟩ := ih h2
      cases h1
      refine ⟨?_, ?_⟩
      · rw [h3, List.foldl_cons]; unfold restored; rw [hf]; rfl
      · rintro ⟨j, hj, hjf⟩
        rcases List.mem_cons.1 hj with rfl | hj
        · exact absurd hjf (IMap.get?_eq_none_iff.1 hf)
        · exact h4 ⟨j, hj, hjf⟩
    | some n =>
      rw [hf] at h
      simp only at h
      rw [bind_eq_ok] at h
      obtain ⟨d, h1, h2⟩ := h
      obtain ⟨h3, h4⟩ := ih h2
      obtain ⟨h5, h6, h7⟩ := setVisitFrequency_ok h1
      refine ⟨?_, fun _ => h7⟩
      have hr : restored freqs id = (n : K) := by unfold restored; rw [hf]; rfl
      rw [h3, h5, List.foldl_cons, hr]
      simp only [IMap.set_set]

/-- Everything that holds after `rebuild`. `d` is the cluster when its tables have been computed. -/
structure Rebuilt (env : Env K) (mem : Addr → K) (freqs : IMap Int) (c c' : Cluster K) : Prop where
  sites : c'.sites = c.sites
  id : c'.id = c.id
  visits : c'.visits = c.visits
  prevVisits : c'.prevVisits = c.prevVisits
  occupied : c'.occupied = c.occupied
  resolution : c'.resolution = c.resolution
  iterations : c'.iterations = c.iterations
  tol : c'.tol = c.tol
  method : c'.method = c.method
  remaining : c'.remaining = c.remaining
  seed : c'.seed = c.seed
  solved : c.solveProb env = .ok { c with probOn := c'.probOn }
  probInternal : c'.probInternal = env.sort.f (c'.probOn.map fun ip => (ip.1, ip.2 * (c'.siteAt ip.1).tau /
      IMap.sumVals (c'.probOn.map fun ip => (ip.1, ip.2 * (c'.siteAt ip.1).tau))))
  totalInternal : c'.probOn ≠ [] → IMap.sumVals (c'.probOn.map fun ip => (ip.1, ip.2 * (c'.siteAt ip.1).tau)) ≠ 0
  cumInternal : c'.cumInternal = c.cumInternal ++ cumulate 0 c'.probInternal
  probNeigh : ∃ temp, c'.hopNeighTemp = .ok temp ∧ (temp ≠ [] → IMap.sumVals temp ≠ 0) ∧
    c'.probNeigh = env.sort.f (temp.map fun np => (np.1, np.2 * (1 / IMap.sumVals temp)))
  cumNeigh : c'.cumNeigh = c.cumNeigh ++ cumulate 0 c'.probNeigh
  dwell : c'.internalDwell = (c'.ratesInternal mem).foldl (fun m ir => m.set ir.1 (1 / IMap.sumVals ir.2))
    ((c'.ratesInternal mem).foldl (fun m ir => m.set ir.1 (1 / IMap.sumVals ir.2)) c.internalDwell)
  dwellNe : ∀ ir ∈ c'.ratesInternal mem, IMap.sumVals ir.2 ≠ 0
  sumEscape : c'.sumEscape = (c'.ratesToNeighbors mem).map fun ir => (ir.1, IMap.sumVals ir.2)
  sumInternal : c'.sumInternal = (c'.ratesInternal mem).map fun ir => (ir.1, IMap.sumVals ir.2)
  size : 1 < c'.sites.length
  sumTau : c'.sumRatesOff mem ≠ 0 → c'.probOn.foldl (fun t ip => t + (c'.siteAt ip.1).tau) 0 ≠ 0
  hopOff : c'.sumRatesOff mem ≠ 0 → let raw := c'.probOn.map fun ip => (ip.1, ip.2 * c'.sumEscape.at0 ip.1 / c'.sumRatesOff mem *
      (c'.siteAt ip.1).tau / c'.probOn.foldl (fun t ip => t + (c'.siteAt ip.1).tau) 0)
    IMap.sumVals raw ≠ 0 ∧ c'.hopOff =
      c'.hopBetween.foldl (fun m ib => IMap.set m ib.1 (IMap.at0 m ib.1 / IMap.sumVals c'.hopBetween))
        (raw.map fun ip => (ip.1, ip.2 / IMap.sumVals raw))
  hopBetween : c'.hopBetween = ((c'.ratesInternal mem).map fun ir =>
      (ir.1, IMap.sumVals ir.2 * (c'.siteAt ir.1).tau * c'.probOn.at0 ir.1))
  hopBetweenNe : c'.hopBetween ≠ [] → IMap.sumVals c'.hopBetween ≠ 0
  resNe : c'.resolution ≠ 0
  tau : (c'.ratesToNeighbors mem = [] ∧ c'.tau = none ∧ c'.timeInc = none) ∨
     (c'.ratesToNeighbors mem ≠ [] ∧
      c'.tau = some (c'.hopOff.foldl (fun t ip =>
        if c'.sumEscape.at0 ip.1 > 0 then t + 1 / c'.sumEscape.at0 ip.1 * ip.2 else t) 0) ∧
      c'.timeInc = c'.tau.map (· / c'.resolution))
  siteVisits : c'.siteVisits = c.sites.keys.foldl (fun m id => IMap.set m id (restored freqs id)) ([] : IMap K)
  tauSome : (∃ id ∈ c.sites.keys, id ∈ freqs.keys) → c'.tau.isSome


theorem siteAt_congr (h : c'.sites = c.sites) (i : Int) : c'.siteAt i = c.siteAt i := by
  unfold siteAt; rw [h]

theorem ratesToNeighbors_congr (h : c'.sites = c.sites) : c'.ratesToNeighbors mem = c.ratesToNeighbors mem := by
  unfold ratesToNeighbors siteIsInCluster; rw [h]

theorem ratesInternal_congr (h : c'.sites = c.sites) : c'.ratesInternal mem = c.ratesInternal mem := by
  unfold ratesInternal siteIsInCluster; rw [h]

theorem sumRatesOff_congr (h : c'.sites = c.sites) : c'.sumRatesOff mem = c.sumRatesOff mem := by
  unfold sumRatesOff; rw [ratesToNeighbors_congr h]

theorem hopNeighTemp_congr (h : c'.sites = c.sites) (hp : c'.probOn = c.probOn) : c'.hopNeighTemp = c.hopNeighTemp := by
  unfold hopNeighTemp hopNeighStep siteIsInCluster; rw [h, hp]

theorem rebuild_ok {freqs : IMap Int} (h : rebuild env mem freqs c = .ok c') : Rebuilt env mem freqs c c' := by
  unfold rebuild solveMasterEquation at h
  simp only [bind_eq_ok] at h
  obtain ⟨c4, ⟨c1, h1, c2, h2, c3, h3, h4⟩, c5, h5, c6, h6, c7, h7, c8, h8, h9⟩ := h
  have e1 := solveProb_shape h1
  obtain ⟨e2, f2, g2⟩ := calcHopToInternal_ok h2
  obtain ⟨e3, temp, f3, g3, i3⟩ := calcHopToNeighbors_ok h3
  obtain ⟨e4, f4, g4⟩ := calcInternalDwell_ok h4
  obtain ⟨d4, e45⟩ : ∃ d4, d4 = calcSumInternal mem (calcSumEscape mem c4) := ⟨_, rfl⟩
  rw [← e45] at h5
  unfold calcSumInternal calcSumEscape at e45
  obtain ⟨e5, f5, g5⟩ := calcHopOff_ok h5
  obtain ⟨e6, f6, g6, i6⟩ := calcHopBetween_ok h6
  obtain ⟨e7, f7, g7⟩ := calcEscape_ok h7
  obtain ⟨d7, hd7⟩ : ∃ d7, d7 = calcInternalTau mem c7 := ⟨_, rfl⟩
  rw [← hd7] at h8
  have e78 := calcInternalTau_shape (mem := mem) (c := c7)
  rw [← hd7] at e78
  obtain ⟨e8, f8⟩ := restoreVisits_ok h8
  obtain ⟨e9, f9, g9⟩ := calcInternalDwell_ok h9
  have y1 : d4.sumEscape = (c4.ratesToNeighbors mem).map fun ir => (ir.1, IMap.sumVals ir.2) :=
    congrArg Cluster.sumEscape e45
  have y2 : d4.sumInternal = (c4.ratesInternal mem).map fun ir => (ir.1, IMap.sumVals ir.2) :=
    congrArg Cluster.sumInternal e45
  rw [Cluster.ext_iff] at e1 e2 e3 e4 e45 e5 e6 e7 e78 e8 e9
  simp only [true_and] at e1 e2 e3 e4 e45 e5 e6 e7 e78 e8 e9
  have s1 : c'.sites = c1.sites := by simp only [e9, e8, e78, e7, e6, e5, e45, e4, e3, e2]
  have s3 : c'.sites = c3.sites := by simp only [e9, e8, e78, e7, e6, e5, e45, e4]
  have s4 : c'.sites = c4.sites := by simp only [e9, e8, e78, e7, e6, e5, e45]
  have s2 : c'.sites = c2.sites := by simp only [e9, e8, e78, e7, e6, e5, e45, e4, e3]
  have sd : c'.sites = d4.sites := by simp only [e9, e8, e78, e7, e6, e5]
  have s5 : c'.sites = c5.sites := by simp only [e9, e8, e78, e7, e6]
  have s6 : c'.sites = c6.sites := by simp only [e9, e8, e78, e7]
  have s8 : c'.sites = c8.sites := by simp only [e9]
  have p1 : c'.probOn = c1.probOn := by simp only [e9, e8, e78, e7, e6, e5, e45, e4, e3, e2]
  have p2 : c'.probOn = c2.probOn := by simp only [e9, e8, e78, e7, e6, e5, e45, e4, e3]
  have pd : c'.probOn = d4.probOn := by simp only [e9, e8, e78, e7, e6, e5]
  have p5 : c'.probOn = c5.probOn := by simp only [e9, e8, e78, e7, e6]
  have i2 : c'.probInternal = c2.probInternal := by simp only [e9, e8, e78, e7, e6, e5, e45, e4, e3]
  have n3 : c'.probNeigh = c3.probNeigh := by simp only [e9, e8, e78, e7, e6, e5, e45, e4]
  have x4 : c'.sumEscape = d4.sumEscape := by simp only [e9, e8, e78, e7, e6, e5]
  have x6 : c'.sumEscape = c6.sumEscape := by simp only [e9, e8, e78, e7]
  have o6 : c'.hopOff = c6.hopOff := by simp only [e9, e8, e78, e7]
  have b6 : c'.hopBetween = c6.hopBetween := by simp only [e9, e8, e78, e7]
  have r6 : c'.resolution = c6.resolution := by simp only [e9, e8, e78, e7]
  have t7 : c'.tau = c7.tau := by simp only [e9, e8, e78]
  have td : c'.tau = d7.tau := by simp only [e9, e8]
  have u7 : c'.timeInc = c7.timeInc := by simp only [e9, e8, e78]
  refine
    { sites := by simp only [e9, e8, e78, e7, e6, e5, e45, e4, e3, e2, e1]
      id := by simp only [e9, e8, e78, e7, e6, e5, e45, e4, e3, e2, e1]
      visits := by simp only [e9, e8, e78, e7, e6, e5, e45, e4, e3, e2, e1]
      prevVisits := by simp only [e9, e8, e78, e7, e6, e5, e45, e4, e3, e2, e1]
      occupied := by simp only [e9, e8, e78, e7, e6, e5, e45, e4, e3, e2, e1]
      resolution := by simp only [e9, e8, e78, e7, e6, e5, e45, e4, e3, e2, e1]
      iterations := by simp only [e9, e8, e78, e7, e6, e5, e45, e4, e3, e2, e1]
      tol := by simp only [e9, e8, e78, e7, e6, e5, e45, e4, e3, e2, e1]
      method := by simp only [e9, e8, e78, e7, e6, e5, e45, e4, e3, e2, e1]
      remaining := by simp only [e9, e8, e78, e7, e6, e5, e45, e4, e3, e2, e1]
      seed := by simp only [e9, e8, e78, e7, e6, e5, e45, e4, e3, e2, e1]
      solved := by rw [p1, ← solveProb_shape h1]; exact h1
      probInternal := by simp only [siteAt_congr s1, p1, i2]; exact f2
      totalInternal := by simp only [siteAt_congr s1, p1]; exact g2
      cumInternal := by rw [i2]; simp only [e9, e8, e78, e7, e6, e5, e45, e4, e3, e2, e1]
      probNeigh := ⟨temp, by rw [hopNeighTemp_congr s2 p2]; exact f3, g3, by rw [n3]; exact i3⟩
      cumNeigh := by rw [n3]; simp only [e9, e8, e78, e7, e6, e5, e45, e4, e3, e2, e1]
      dwell := by
        rw [f9, ← ratesInternal_congr s8]
        congr 1
        have : c8.internalDwell = c4.internalDwell := by simp only [e8, e78, e7, e6, e5, e45]
        rw [this, f4, ← ratesInternal_congr s3]
        congr 1
        simp only [e3, e2, e1]
      dwellNe := by rw [ratesInternal_congr s8]; exact g9
      sumEscape := by rw [ratesToNeighbors_congr s4, x4, y1]
      sumInternal := by
        rw [ratesInternal_congr s4, ← y2]
        simp only [e9, e8, e78, e7, e6, e5]
      size := by rw [sd]; exact f5
      sumTau := by simp only [siteAt_congr sd, pd, sumRatesOff_congr sd]; exact fun h => (g5 h).1
      hopOff := by
        simp only [siteAt_congr sd, pd, x4, sumRatesOff_congr sd]
        intro h
        obtain ⟨-, j5, k5⟩ := g5 h
        refine ⟨j5, ?_⟩
        rw [o6, i6, k5, b6]
      hopBetween := by rw [b6]; simp only [ratesInternal_congr s5, siteAt_congr s5, p5]; exact f6
      hopBetweenNe := by rw [b6]; exact g6
      resNe := by rw [r6]; exact f7
      tau := by rw [ratesToNeighbors_congr s6, t7, u7, o6, x6, r6]; exact g7
      siteVisits := by
        have : c'.siteVisits = d7.sites.keys.foldl (fun m id => IMap.set m id (restored freqs id)) ([] : IMap K) := by
          simp only [e9, e8]
        rw [this]
        simp only [e78, e7, e6, e5, e45, e4, e3, e2, e1]
      tauSome := by
        intro h
        rw [td]
        apply f8
        have : d7.sites = c.sites := by simp only [e78, e7, e6, e5, e45, e4, e3, e2, e1]
        rw [this]
        exact h }

end Mythical.Cluster
