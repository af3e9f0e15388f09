import Verif.Lemmas.ClusterOrder

/-! # The cluster's calls on clusters that differ in the order of their maps -/

set_option linter.unusedSectionVars false
set_option linter.unusedVariables false

namespace Mythical
open Cluster OrderSpec
variable {K : Type} [Field K] [LinearOrder K] [IsStrictOrderedRing K] [FloorRing K]
variable {P I N : List (Int × K) → List (Int × K) → Prop}

/-- A result together with what it leaves behind, if there is a result. -/
def both {α β : Type} : Except Fault α × β → Except Fault (α × β)
  | (.ok a, b) => .ok (a, b)
  | (.error e, _) => .error e

theorem both_eq {α β : Type} {x : Except Fault α × β} {r : α × β} : both x = .ok r ↔ x = (.ok r.1, r.2) := by
  obtain ⟨x, b⟩ := x
  obtain ⟨a, b'⟩ := r
  cases x with
  | error e => exact ⟨fun h => (nomatch h), fun h => (nomatch h)⟩
  | ok a' =>
    constructor
    · intro h; cases h; rfl
    · intro h; cases h; rfl

namespace OrderSpec.Same
variable {c c' c'' : Cluster K} {env env' : Env K} {mem : Addr → K}

theorem visitShare (h : Same P I N c c') (t d : K) (i : Int) : c'.visitShare t d i = c.visitShare t d i := by
  unfold Cluster.visitShare
  simp only [h.sites.get?, h.internalDwell.get?, h.resolution, h.probOn.at0]

/-- One round of the loop of `flush`. -/
def flushStep (t d : K) (c : Cluster K) (i : Int) : Except Fault (Cluster K) := do
  let v ← c.visitShare t d i
  .ok { c with siteVisits := c.siteVisits.set i (c.siteVisits.at0 i + v) }

theorem flushLoop_eq (t d : K) (c : Cluster K) (l : List Int) :
    both (c.flushLoop t d l) = (l.foldlM (flushStep t d) c) >>= fun c => .ok ((), c) := by
  induction l generalizing c with
  | nil => rfl
  | cons i l ih =>
    unfold Cluster.flushLoop
    rw [List.foldlM_cons]
    unfold flushStep
    cases h : c.visitShare t d i with
    | error e => rfl
    | ok v => exact ih _

theorem flushStep_same (h : Same P I N c c') (t d : K) (i : Int) :
    Follows (Same P I N) (flushStep t d c i) (flushStep t d c' i) := by
  unfold flushStep
  rw [h.visitShare, h.siteVisits.at0]
  refine Follows.bind (R := Eq) (.of_eq fun _ _ => rfl) ?_
  rintro v _ rfl
  exact .ok { h with siteVisits := h.siteVisits.set _ _ }

theorem flushStep_comm (h : Reordered c c) (t d : K) (i j : Int) :
    Follows Reordered (flushStep t d c i >>= fun c => flushStep t d c j) (flushStep t d c j >>= fun c => flushStep t d c i) := by
  by_cases hij : i = j
  · subst hij
    exact (h.flushStep_same t d i).bind fun _ _ g => g.flushStep_same t d i
  · intro r hr
    obtain ⟨c1, h1, hr⟩ := bind_eq_ok.1 hr
    obtain ⟨v, hv, h1⟩ := bind_eq_ok.1 h1
    cases h1
    obtain ⟨w, hw, hr⟩ := bind_eq_ok.1 hr
    cases hr
    have hw' : c.visitShare t d j = .ok w := hw
    refine ⟨{ c with siteVisits := (c.siteVisits.set j (c.siteVisits.at0 j + w)).set i ((c.siteVisits.set j (c.siteVisits.at0 j + w)).at0 i + v) }, ?_, ?_⟩
    · unfold flushStep
      rw [hw', ok_bind, ok_bind]
      show (c.visitShare t d i >>= _) = _
      rw [hv, ok_bind]
    · refine { h with siteVisits := ?_ }
      show SameMap ((c.siteVisits.set i _).set j ((c.siteVisits.set i _).at0 j + _)) ((c.siteVisits.set j _).set i ((c.siteVisits.set j _).at0 i + _))
      rw [IMap.at0_set, if_neg hij, IMap.at0_set, if_neg (Ne.symm hij)]
      exact SameMap.set_comm h.siteVisits.wf _ _ fun e => absurd e hij

theorem flushLoop (h : Same P I N c c') (t d : K) {l l' : List Int} (hp : l.Perm l') :
    Follows (fun a b => Same P I N a.2 b.2) (both (c.flushLoop t d l)) (both (c'.flushLoop t d l')) := by
  rw [flushLoop_eq, flushLoop_eq]
  refine Follows.bind (R := Same P I N) ?_ fun _ _ g => .ok g
  exact foldlM_perm' (E := Reordered) (R := Same P I N) (fun _ _ h => h.symm) (fun _ _ _ h g => h.mix g) (fun _ _ _ h g => h.mix g)
    (fun _ _ h => h.refl_left) (Q := fun _ _ => True) (fun _ _ x h => h.flushStep_same t d x)
    (fun _ _ x h => h.flushStep_same t d x) (fun b x y h _ => flushStep_comm h t d x y) hp (fun _ _ _ _ => trivial) c c' h

theorem flush (h : Same P I N c c') (t : K) :
    Follows (fun a b => Same P I N a.2 b.2) (both (c.flush t)) (both (c'.flush t)) := by
  unfold Cluster.flush
  rw [h.visits, h.prevVisits]
  split
  · exact .ok h
  · split
    · exact .error
    · next d _ =>
      intro r hr
      have key := h.flushLoop t (d : K) h.siteVisits.keys
      revert hr key
      generalize c.flushLoop t (d : K) c.siteVisits.keys = x
      generalize c'.flushLoop t (d : K) c'.siteVisits.keys = y
      obtain ⟨x, c1⟩ := x
      obtain ⟨y, c1'⟩ := y
      intro hr key
      cases x with
      | error e => cases hr
      | ok a =>
        cases hr
        obtain ⟨b, hb, hs⟩ := key _ rfl
        obtain ⟨b, c2⟩ := b
        have := both_eq.1 hb
        cases this
        exact ⟨_, rfl, { hs with prevVisits := hs.visits }⟩

theorem getVisitFrequency (h : Same P I N c c') (i : Int) :
    Follows (fun a b => b.1 = a.1 ∧ Same P I N a.2 b.2) (both (c.getVisitFrequency i)) (both (c'.getVisitFrequency i)) := by
  rintro ⟨n, c1⟩ hr
  obtain ⟨hk, ⟨t, ht, hf⟩, hn, hfit⟩ := getVisitFrequency_ok (both_eq.1 hr)
  obtain ⟨⟨u, c1'⟩, h1, hs⟩ := h.flush t ((), c1) (both_eq.2 hf)
  have h1 := both_eq.1 h1
  have e : c1'.siteVisits.at0 i = c1.siteVisits.at0 i := hs.siteVisits.at0 i
  dsimp only at hn
  have := getVisitFrequency_of (id := i) (h.siteVisits.keys.mem_iff.1 hk) (h.tau.trans ht) h1 (by rw [e, ← hn]; exact hfit)
  exact ⟨(n, c1'), both_eq.2 (by rw [this, e, ← hn]), rfl, hs⟩

/-- The relation of what the loops over visit counts carry along. -/
def Carry (P I N : List (Int × K) → List (Int × K) → Prop) (a b : IMap Int × Cluster K) : Prop :=
  SameMap a.1 b.1 ∧ Same P I N a.2 b.2

/-- One round of the loop of `getVisitFrequencies_`. -/
def freqStep (a : IMap Int × Cluster K) (i : Int) : Except Fault (IMap Int × Cluster K) := do
  let r ← both (a.2.getVisitFrequency i)
  .ok (a.1.set i r.1, r.2)

theorem visitFreqsLoop_eq (c : Cluster K) (acc : IMap Int) (l : List Int) :
    both (c.visitFreqsLoop acc l) = l.foldlM freqStep (acc, c) := by
  induction l generalizing c acc with
  | nil => rfl
  | cons i l ih =>
    unfold Cluster.visitFreqsLoop
    rw [List.foldlM_cons]
    unfold freqStep
    dsimp only
    rcases c.getVisitFrequency i with ⟨(e | n), c1⟩
    · rfl
    · exact ih _ _

theorem freqStep_same {a b : IMap Int × Cluster K} (h : Carry P I N a b) (i : Int) :
    Follows (Carry P I N) (freqStep a i) (freqStep b i) := by
  unfold freqStep
  refine (h.2.getVisitFrequency i).bind ?_
  rintro r r' ⟨e, hs⟩
  rw [e]
  exact .ok ⟨h.1.set _ _, hs⟩

/-- Two counts read one after the other: the second read changes nothing, and the order does not matter. -/
theorem getVisitFrequency_two {i j n m : Int} {c1 c2 : Cluster K} (h1 : c.getVisitFrequency i = (.ok n, c1))
    (h2 : c1.getVisitFrequency j = (.ok m, c2)) :
    c2 = c1 ∧ c.getVisitFrequency j = (.ok m, c1) ∧ c1.getVisitFrequency i = (.ok n, c1) := by
  obtain ⟨hk, ⟨t, ht, hf⟩, hn, hfit⟩ := getVisitFrequency_ok h1
  obtain ⟨hk2, ⟨t2, ht2, hf2⟩, hn2, hfit2⟩ := getVisitFrequency_ok h2
  have hv := flush_ok hf
  rw [flush_of_eq hv] at hf2
  cases hf2
  have hvo := flush_visitsOnly (c := c) t
  rw [hf] at hvo
  obtain ⟨⟨v, p, e⟩, hkeys⟩ := hvo
  refine ⟨rfl, ?_, ?_⟩
  · rw [hn2]
    exact getVisitFrequency_of (hkeys ▸ hk2) ht hf (hn2 ▸ hfit2)
  · rw [hn]
    have ht1 : c1.tau = some t := by rw [← ht, show c1 = _ from e]
    exact getVisitFrequency_of (hkeys ▸ hk) ht1 (flush_of_eq hv t) (hn ▸ hfit)

theorem freqStep_comm {a : IMap Int × Cluster K} (h : Carry Eq Eq Eq a a) (i j : Int) :
    Follows (Carry Eq Eq Eq) (freqStep a i >>= fun a => freqStep a j) (freqStep a j >>= fun a => freqStep a i) := by
  by_cases hij : i = j
  · subst hij
    exact (freqStep_same h i).bind fun _ _ g => freqStep_same g i
  · intro r hr
    obtain ⟨a1, h1, hr2⟩ := bind_eq_ok.1 hr
    obtain ⟨⟨n, c1⟩, h2, h3⟩ := bind_eq_ok.1 h1
    cases h3
    obtain ⟨⟨m, c2⟩, h4, h5⟩ := bind_eq_ok.1 hr2
    cases h5
    have h2 := both_eq.1 h2
    have h4 := both_eq.1 h4
    dsimp only at h2 h4
    obtain ⟨e, g1, g2⟩ := getVisitFrequency_two h2 h4
    clear h1 hr hr2
    subst e
    have hs : Reordered c2 c2 := by
      obtain ⟨⟨n', d⟩, hb, -, hs⟩ := h.2.getVisitFrequency i (n, c2) (both_eq.2 h2)
      have hb := both_eq.1 hb
      rw [h2] at hb
      cases hb
      exact hs
    refine ⟨((a.1.set j m).set i n, c2), ?_, SameMap.set_comm h.1.wf _ _ fun e => absurd e hij, hs⟩
    unfold freqStep
    rw [g1]
    show (both (c2.getVisitFrequency i) >>= _) = _
    rw [g2]
    rfl

theorem visitFreqsLoop (h : Same P I N c c') {l l' : List Int} (hp : l.Perm l') :
    Follows (Carry P I N) (both (c.visitFreqsLoop [] l)) (both (c'.visitFreqsLoop [] l')) := by
  rw [visitFreqsLoop_eq, visitFreqsLoop_eq]
  exact foldlM_perm' (E := Carry Eq Eq Eq) (R := Carry P I N) (fun _ _ h => ⟨h.1.symm, h.2.symm⟩)
    (fun _ _ _ h g => ⟨h.1.trans g.1, h.2.mix g.2⟩) (fun _ _ _ h g => ⟨h.1.trans g.1, h.2.mix g.2⟩)
    (fun _ _ h => ⟨.refl h.1.wf, h.2.refl_left⟩) (Q := fun _ _ => True) (fun _ _ x h => freqStep_same h x)
    (fun _ _ x h => freqStep_same h x) (fun b x y h _ => freqStep_comm h x y) hp (fun _ _ _ _ => trivial) _ _
    ⟨.nil, h⟩

theorem setVisitFrequency (h : Same P I N c c') (n i : Int) :
    Follows (Same P I N) (c.setVisitFrequency n i) (c'.setVisitFrequency n i) := by
  unfold Cluster.setVisitFrequency
  rw [h.siteVisits.has, h.tau]
  split
  · exact .ok { h with tau := rfl, siteVisits := h.siteVisits.set _ _ }
  · exact .error

/-- One round of the loop of `updateProbabilitiesAndTimeConstant` that restores the visit counts. -/
def restoreStep (freqs : IMap Int) (c : Cluster K) (i : Int) : Except Fault (Cluster K) :=
  match freqs.get? i with
  | some f => if c.tau.isSome then .ok { c with siteVisits := c.siteVisits.set i (f : K) } else .error .assertFail
  | none => .ok { c with siteVisits := c.siteVisits.set i 0 }

theorem restoreVisits_eq (freqs : IMap Int) (c : Cluster K) (l : List Int) :
    restoreVisits freqs c l = l.foldlM (restoreStep freqs) c := by
  induction l generalizing c with
  | nil => rfl
  | cons i l ih =>
    rw [List.foldlM_cons]
    unfold restoreVisits restoreStep
    cases freqs.get? i with
    | none => exact ih _
    | some f =>
      simp only [Cluster.setVisitFrequency, IMap.has, IMap.get?_set_self, Option.isSome_some, Bool.true_and, IMap.set_set]
      split
      · exact ih _
      · rfl

theorem restoreStep_same (h : Same P I N c c') {freqs freqs' : IMap Int} (hf : SameMap freqs freqs') (i : Int) :
    Follows (Same P I N) (restoreStep freqs c i) (restoreStep freqs' c' i) := by
  unfold restoreStep
  rw [hf.get?]
  simp only [h.tau]
  split
  · split
    · exact .ok { h with tau := rfl, siteVisits := h.siteVisits.set _ _ }
    · exact .error
  · exact .ok { h with tau := rfl, siteVisits := h.siteVisits.set _ _ }

theorem restoreStep_ok {freqs : IMap Int} {i : Int} {c1 : Cluster K} (h : restoreStep freqs c i = .ok c1) :
    c1 = { c with siteVisits := c.siteVisits.set i (((freqs.get? i).getD 0 : Int) : K) } ∧
    ((freqs.get? i).isSome → c.tau.isSome) := by
  unfold restoreStep at h
  split at h
  · next f hf =>
    split at h
    · next ht => cases h; rw [hf]; exact ⟨rfl, fun _ => ht⟩
    · cases h
  · next hf => cases h; rw [hf]; exact ⟨by simp, fun h => (nomatch h)⟩

theorem restoreStep_of {freqs : IMap Int} {i : Int} (h : (freqs.get? i).isSome → c.tau.isSome) :
    restoreStep freqs c i = .ok { c with siteVisits := c.siteVisits.set i (((freqs.get? i).getD 0 : Int) : K) } := by
  unfold restoreStep
  cases hf : freqs.get? i with
  | none => simp
  | some f => rw [hf] at h; simp only [h rfl, if_true]; rfl

theorem restoreVisits (h : Same P I N c c') {freqs freqs' : IMap Int} (hf : SameMap freqs freqs') {l l' : List Int}
    (hp : l.Perm l') : Follows (Same P I N) (Cluster.restoreVisits freqs c l) (Cluster.restoreVisits freqs' c' l') := by
  rw [restoreVisits_eq, restoreVisits_eq]
  refine foldlM_perm' (E := Reordered) (R := Same P I N) (fun _ _ h => h.symm) (fun _ _ _ h g => h.mix g) (fun _ _ _ h g => h.mix g)
    (fun _ _ h => h.refl_left) (Q := fun _ _ => True) (fun _ _ x h => restoreStep_same h (.refl hf.wf) x)
    (fun _ _ x h => restoreStep_same h hf x) ?_ hp (fun _ _ _ _ => trivial) c c' h
  intro b i j hb _ r hr
  obtain ⟨b1, h1, h2⟩ := bind_eq_ok.1 hr
  obtain ⟨rfl, t1⟩ := restoreStep_ok h1
  obtain ⟨rfl, t2⟩ := restoreStep_ok h2
  refine ⟨{ b with siteVisits := (b.siteVisits.set j (((freqs.get? j).getD 0 : Int) : K)).set i (((freqs.get? i).getD 0 : Int) : K) }, ?_, ?_⟩
  · rw [restoreStep_of (c := b) (i := j) t2, ok_bind]
    exact restoreStep_of t1
  · refine { hb with siteVisits := SameMap.set_comm hb.siteVisits.wf _ _ ?_ }
    rintro rfl
    rfl

theorem addBackVisits_eq (c : Cluster K) (l : List (Int × Int)) :
    c.addBackVisits l = l.foldlM (fun c x => c.setVisitFrequency x.2 x.1) c := by
  induction l generalizing c with
  | nil => rfl
  | cons x l ih =>
    obtain ⟨i, n⟩ := x
    rw [List.foldlM_cons]
    unfold Cluster.addBackVisits
    congr 1
    funext c1
    exact ih c1

theorem addBackVisits (h : Same P I N c c') {l l' : IMap Int} (hl : SameMap l l') :
    Follows (Same P I N) (c.addBackVisits l) (c'.addBackVisits l') := by
  rw [addBackVisits_eq, addBackVisits_eq]
  refine foldlM_perm' (E := Reordered) (R := Same P I N) (fun _ _ h => h.symm) (fun _ _ _ h g => h.mix g) (fun _ _ _ h g => h.mix g)
    (fun _ _ h => h.refl_left) (Q := fun x y => x.1 = y.1 → x = y) (fun _ _ x h => h.setVisitFrequency x.2 x.1)
    (fun _ _ x h => h.setVisitFrequency x.2 x.1) ?_ hl.perm ?_ c c' h
  · rintro b ⟨i, n⟩ ⟨j, m⟩ hb hq r hr
    have sv : ∀ (c : Cluster K) (n i : Int) (c1 : Cluster K), c.setVisitFrequency n i = .ok c1 ↔
        i ∈ c.siteVisits.keys ∧ c.tau.isSome = true ∧ c1 = { c with siteVisits := c.siteVisits.set i (n : K) } := by
      intro c n i c1
      unfold Cluster.setVisitFrequency
      rw [← IMap.has_iff]
      split
      · next hh =>
        rw [Bool.and_eq_true] at hh
        rw [ok_inj]
        exact ⟨fun e => ⟨hh.1, hh.2, e.symm⟩, fun e => e.2.2.symm⟩
      · next hh =>
        rw [Bool.and_eq_true] at hh
        exact ⟨fun e => (nomatch e), fun e => absurd ⟨e.1, e.2.1⟩ hh⟩
    obtain ⟨b1, h1, h2⟩ := bind_eq_ok.1 hr
    obtain ⟨k1, t1, rfl⟩ := (sv _ _ _ _).1 h1
    obtain ⟨k2, t2, rfl⟩ := (sv _ _ _ _).1 h2
    rw [IMap.keys_set_of_mem k1] at k2
    refine ⟨{ b with siteVisits := (b.siteVisits.set j (m : K)).set i (n : K) }, ?_, ?_⟩
    · rw [bind_eq_ok]
      refine ⟨_, (sv _ _ _ _).2 ⟨k2, t1, rfl⟩, (sv _ _ _ _).2 ⟨?_, t1, rfl⟩⟩
      show i ∈ IMap.keys (IMap.set _ _ _)
      rw [IMap.keys_set_of_mem k2]
      exact k1
    · refine { hb with siteVisits := SameMap.set_comm hb.siteVisits.wf _ _ ?_ }
      intro e
      cases hq e
      rfl
  · rintro ⟨i, n⟩ hx ⟨j, m⟩ hy e
    dsimp only at e
    subst e
    have h1 := IMap.get?_of_mem hl.wf hx
    rw [IMap.get?_of_mem hl.wf hy] at h1
    cases h1
    rfl

theorem rebuild (hT : TableRel env env' P I N) (h : Same P I N c c') {freqs freqs' : IMap Int} (hf : SameMap freqs freqs') :
    Follows (Same P I N) (Cluster.rebuild env mem freqs c) (Cluster.rebuild env' mem freqs' c') := by
  unfold Cluster.rebuild
  refine (h.solveMasterEquation hT).bind fun _ _ h => ?_
  refine h.calcSumEscape.calcSumInternal.calcHopOff.bind fun _ _ h => h.calcHopBetween.bind fun _ _ h =>
    h.calcEscape.bind fun d d' h => ?_
  have h := h.calcInternalTau (mem := mem)
  refine Follows.bind (R := Same P I N) ?_ fun _ _ h => h.calcInternalDwell
  refine Same.restoreVisits ?_ hf h.sites.keys
  exact { h with siteVisits := .nil }

theorem update (hT : TableRel env env' P I N) (h : Same P I N c c') :
    Follows (fun a b => Same P I N a.2 b.2) (both (c.update env mem)) (both (c'.update env' mem)) := by
  intro r hr
  have key := h.visitFreqsLoop h.siteVisits.keys
  unfold Cluster.update at hr ⊢
  revert hr key
  generalize c.visitFreqsLoop [] c.siteVisits.keys = x
  generalize c'.visitFreqsLoop [] c'.siteVisits.keys = y
  obtain ⟨x, c1⟩ := x
  obtain ⟨y, c1'⟩ := y
  intro hr key
  cases x with
  | error e => cases hr
  | ok a =>
    obtain ⟨b, hb, hs⟩ := key _ rfl
    obtain ⟨b, c2⟩ := b
    have := both_eq.1 hb
    cases this
    dsimp only at hr ⊢
    cases hreb : Cluster.rebuild env mem a c1 with
    | error e => rw [hreb] at hr; cases hr
    | ok c3 =>
      rw [hreb] at hr
      cases hr
      obtain ⟨c3', h3, g⟩ := Same.rebuild (mem := mem) hT hs.2 hs.1 c3 hreb
      exact ⟨((), c3'), by rw [h3]; rfl, g⟩

end OrderSpec.Same
end Mythical
