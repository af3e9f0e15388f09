import Verif.Lemmas.UnitsVisits

/-! # The unit of time: the search for a basin and the calls on the system -/

set_option linter.unusedSectionVars false

namespace Mythical.Units
open Mythical

section agree
variable {α β σ τ : Type}

@[elab_as_elim]
theorem AgreeS.elim {P : α → β → Prop} {S : σ → τ → Prop} {motive : (Except Fault α × σ) → (Except Fault β × τ) → Prop}
    {x : Except Fault α × σ} {y : Except Fault β × τ} (h : AgreeS P S x y)
    (ok : ∀ a b s t, P a b → S s t → motive (.ok a, s) (.ok b, t))
    (err : ∀ e s t, S s t → motive (.error e, s) (.error e, t))
    (bl : ∀ s y, motive (.error (.ub .floatToInt), s) y) (br : ∀ x t, motive x (.error (.ub .floatToInt), t)) : motive x y := by
  obtain ⟨r, s⟩ := x
  obtain ⟨r', t⟩ := y
  rcases h with ⟨a, b, h1, h2, hp, h⟩ | ⟨e, h1, h2, h⟩ | h | h
  · simp only at h1 h2 h
    subst h1 h2
    exact ok a b s t hp h
  · simp only at h1 h2 h
    subst h1 h2
    exact err e s t h
  · have : r = _ := h
    subst this
    exact bl _ _
  · have : r' = _ := h
    subst this
    exact br _ _

@[elab_as_elim]
theorem Agree.elim {P : α → β → Prop} {motive : (Except Fault α) → (Except Fault β) → Prop}
    {x : Except Fault α} {y : Except Fault β} (h : Agree P x y)
    (ok : ∀ a b, P a b → motive (.ok a) (.ok b)) (err : ∀ e, motive (.error e) (.error e))
    (bl : ∀ y, motive (.error (.ub .floatToInt)) y) (br : ∀ x, motive x (.error (.ub .floatToInt))) : motive x y := by
  rcases h with ⟨a, b, h1, h2, hp⟩ | ⟨e, h1, h2⟩ | h | h
  · subst h1 h2; exact ok a b hp
  · subst h1 h2; exact err e
  · rw [h]; exact bl _
  · rw [h]; exact br _

theorem Agree.mono {P Q : α → β → Prop} {x : Except Fault α} {y : Except Fault β} (h : Agree P x y)
    (hq : ∀ a b, P a b → Q a b) : Agree Q x y := by
  rcases h with ⟨a, b, h1, h2, hp⟩ | h | h | h
  · exact Or.inl ⟨a, b, h1, h2, hq a b hp⟩
  · exact Or.inr (Or.inl h)
  · exact Or.inr (Or.inr (Or.inl h))
  · exact Or.inr (Or.inr (Or.inr h))

end agree

section maps
variable {V W : Type} {P : V → W → Prop}

theorem SameMap.get? {m : IMap V} {m' : IMap W} (h : SameMap P m m') (i : Int) :
    (m.get? i = none ∧ m'.get? i = none) ∨ ∃ a b, m.get? i = some a ∧ m'.get? i = some b ∧ P a b := by
  induction h with
  | nil => exact Or.inl ⟨rfl, rfl⟩
  | @cons x y m m' hxy _ ih =>
    obtain ⟨j, a⟩ := x
    obtain ⟨j', b⟩ := y
    obtain ⟨h1, h2⟩ := hxy
    simp only at h1 h2
    subst h1
    unfold IMap.get?
    split
    · exact Or.inr ⟨a, b, rfl, rfl, h2⟩
    · exact ih

theorem SameMap.set {m : IMap V} {m' : IMap W} (h : SameMap P m m') (i : Int) {a : V} {b : W} (hab : P a b) :
    SameMap P (m.set i a) (m'.set i b) := by
  induction h with
  | nil => exact .cons ⟨rfl, hab⟩ .nil
  | @cons x y m m' hxy hm ih =>
    obtain ⟨j, x⟩ := x
    obtain ⟨j', y⟩ := y
    obtain ⟨h1, h2⟩ := hxy
    simp only at h1 h2
    subst h1
    unfold IMap.set
    split
    · exact .cons ⟨rfl, hab⟩ hm
    · exact .cons ⟨rfl, h2⟩ ih

theorem SameMap.erase {m : IMap V} {m' : IMap W} (h : SameMap P m m') (i : Int) : SameMap P (m.erase i) (m'.erase i) := by
  induction h with
  | nil => exact .nil
  | @cons x y m m' hxy hm ih =>
    obtain ⟨j, x⟩ := x
    obtain ⟨j', y⟩ := y
    obtain ⟨h1, h2⟩ := hxy
    simp only at h1 h2
    subst h1
    unfold IMap.erase
    split
    · exact hm
    · exact .cons ⟨rfl, h2⟩ ih

theorem SameMap.has {m : IMap V} {m' : IMap W} (h : SameMap P m m') (i : Int) : m'.has i = m.has i := by
  unfold IMap.has
  rcases h.get? i with ⟨h1, h2⟩ | ⟨a, b, h1, h2, _⟩
  · rw [h1, h2]; rfl
  · rw [h1, h2]; rfl

end maps

variable {K : Type} [Field K] [LinearOrder K] [IsStrictOrderedRing K] [FloorRing K]
variable {k : K} (hk : 0 < k)

/-! ## Sites -/

/-- The container of sites in the new unit. -/
abbrev sitesK (k : K) (m : SiteContainer K) : SiteContainer K := IMap.mapVal (fun _ => site k) m

theorem getSite_units (m : SiteContainer K) (i : Int) : (sitesK k m).getSite i = (m.getSite i).map (site k) := by
  unfold SiteContainer.getSite sitesK
  rw [get?_mapVal]
  cases IMap.get? m i <;> rfl

theorem put_units (m : SiteContainer K) (i : Int) (s : Site K) : (sitesK k m).put i (site k s) = sitesK k (m.put i s) :=
  set_mapVal (site k) m i s

theorem addSiteC_units (m : SiteContainer K) (s : Site K) :
    (sitesK k m).addSite (site k s) = ((m.addSite s).1, sitesK k (m.addSite s).2) := by
  unfold SiteContainer.addSite sitesK
  rw [has_mapVal]
  show (if IMap.has m s.id then _ else _) = _
  split
  · rfl
  · exact congrArg (Prod.mk _) (set_mapVal (site k) m s.id s)

theorem setClusterId_units (m : SiteContainer K) (i c : Int) :
    (sitesK k m).setClusterId i c = ((m.setClusterId i c).1, sitesK k (m.setClusterId i c).2) := by
  unfold SiteContainer.setClusterId
  rw [getSite_units]
  cases m.getSite i with
  | error e => rfl
  | ok s => exact congrArg (Prod.mk _) (set_mapVal (site k) m i { s with clusterId := c })

theorem partOf_units (m : SiteContainer K) (i : Int) : (sitesK k m).partOfCluster i = m.partOfCluster i := by
  unfold SiteContainer.partOfCluster
  rw [getSite_units]
  cases m.getSite i <;> rfl

theorem clusterIdOf_units (m : SiteContainer K) (i : Int) : (sitesK k m).getClusterIdOfSite i = m.getClusterIdOfSite i := by
  unfold SiteContainer.getClusterIdOfSite
  rw [getSite_units]
  cases m.getSite i <;> rfl

theorem neighborsOf_units (m : SiteContainer K) (i : Int) : (sitesK k m).getSiteIdsOfNeighbors i = m.getSiteIdsOfNeighbors i := by
  unfold SiteContainer.getSiteIdsOfNeighbors
  rw [getSite_units]
  cases m.getSite i <;> rfl

theorem getRates_units (m : SiteContainer K) : (sitesK k m).getRates = m.getRates := by
  unfold SiteContainer.getRates sitesK IMap.mapVal
  rw [List.map_map]
  rfl

include hk in
theorem fastestOffC_units (mem : Addr → K) (m : SiteContainer K) (i : Int) :
    (sitesK k m).getFastestRateOffSite (rates k mem) i = (m.getFastestRateOffSite mem i).map (· / k) := by
  unfold SiteContainer.getFastestRateOffSite
  rw [getSite_units]
  cases m.getSite i with
  | error e => rfl
  | ok s => show Except.ok ((site k s).getFastestRate (rates k mem)) = Except.ok _; rw [fastest_units hk]

include hk in
theorem rateToC_units (mem : Addr → K) (m : SiteContainer K) (i n : Int) :
    (sitesK k m).getRateToNeighborOfSite (rates k mem) i n = (m.getRateToNeighborOfSite mem i n).map (· / k) := by
  unfold SiteContainer.getRateToNeighborOfSite
  rw [getSite_units]
  cases m.getSite i with
  | error e => rfl
  | ok s => exact rateTo_units hk mem s n

/-! ## The search for a basin -/

/-- The state of a search in the new unit. -/
def search (k : K) (st : Search K) : Search K :=
  { st with fastest := st.fastest / k, slowest := st.slowest / k, cur := st.cur / k }

include hk in
theorem div_lt_units (a b : K) : a / k < b / k ↔ a < b := div_lt_div_iff_of_pos_right hk

include hk in
theorem rateFastEnough_units (ex : Explorer K) (st : Search K) (r : K) :
    ex.rateFastEnough (search k st) (r / k) = ex.rateFastEnough st r := by
  unfold Explorer.rateFastEnough search
  simp only
  simp only [div_eq_zero_units hk]
  split
  · rfl
  · rw [div_div_div_cancel_right₀ hk.ne', ← sub_div, div_div_div_cancel_right₀ hk.ne']
    congr 1
    apply decide_eq_decide.2
    have : r / k ≥ st.slowest / k * (9999 / 10000) ↔ r ≥ st.slowest * (9999 / 10000) := by
      rw [div_mul_eq_mul_div]
      exact div_le_div_iff_of_pos_right hk
    rw [this]

include hk in
theorem addEdge_units (ex : Explorer K) (mem : Addr → K) (m : SiteContainer K) (v : Int) (st : Search K) (n : Int) :
    ex.addEdge (rates k mem) (sitesK k m) v (search k st) n = (ex.addEdge mem m v st n).map (search k) := by
  unfold Explorer.addEdge
  rw [rateToC_units hk, fastestOffC_units hk]
  show (if n ∈ st.explored then _ else _) = _
  split
  · rfl
  · cases m.getRateToNeighborOfSite mem v n with
    | error e => rfl
    | ok r =>
      simp only [Except.map, ok_bind]
      cases m.getFastestRateOffSite mem v with
      | error e => rfl
      | ok cur =>
        simp only [ok_bind]
        have e1 : ({ Explorer.updateFastest (search k st) (r / k) with cur := cur / k } : Search K) =
            search k { Explorer.updateFastest st r with cur := cur } := by
          unfold Explorer.updateFastest search
          simp only [gt_iff_lt]
          congr 1
          by_cases h : st.fastest < r
          · rw [if_pos h, if_pos ((div_lt_units hk _ _).2 h)]
          · rw [if_neg h, if_neg (fun h' => h ((div_lt_units hk _ _).1 h'))]
        rw [e1, rateFastEnough_units hk]
        cases ex.rateFastEnough { Explorer.updateFastest st r with cur := cur } r with
        | error e => rfl
        | ok b =>
          simp only [ok_bind]
          cases b
          · rfl
          · simp only [if_true]
            congr 1
            have hf : (Explorer.updateFastest (search k st) (r / k)).fastest = (Explorer.updateFastest st r).fastest / k :=
              congrArg Search.fastest e1
            show ({ explored := st.explored, opn := st.opn ++ [(v, n)],
                    fastest := (Explorer.updateFastest (search k st) (r / k)).fastest,
                    slowest := if r / k < st.slowest / k then r / k else st.slowest / k, cur := cur / k } : Search K) =
              { explored := st.explored, opn := st.opn ++ [(v, n)], fastest := (Explorer.updateFastest st r).fastest / k,
                slowest := (if r < st.slowest then r else st.slowest) / k, cur := cur / k }
            rw [hf]
            congr 1
            by_cases h : r < st.slowest
            · rw [if_pos h, if_pos ((div_lt_units hk _ _).2 h)]
            · rw [if_neg h, if_neg (fun h' => h ((div_lt_units hk _ _).1 h'))]

include hk in
theorem addEdges_units (ex : Explorer K) (mem : Addr → K) (m : SiteContainer K) (v : Int) : ∀ (l : List Int) (st : Search K),
    ex.addEdges (rates k mem) (sitesK k m) v (search k st) l = (ex.addEdges mem m v st l).map (search k) := by
  intro l
  induction l with
  | nil => intro st; rfl
  | cons n l ih =>
    intro st
    unfold Explorer.addEdges
    rw [addEdge_units hk]
    cases ex.addEdge mem m v st n with
    | error e => rfl
    | ok st => exact ih st

include hk in
theorem searchLoop_units (ex : Explorer K) (vis : Visitor) (mem : Addr → K) (m : SiteContainer K) : ∀ (n : Nat) (st : Search K),
    ex.searchLoop vis (rates k mem) (sitesK k m) n (search k st) = ex.searchLoop vis mem m n st := by
  intro n
  induction n with
  | zero => intro st; rfl
  | succ n ih =>
    intro st
    unfold Explorer.searchLoop
    show (match st.opn with
      | [] => Except.ok (vis.out st.explored)
      | e :: es => _) = _
    cases ho : st.opn with
    | nil => rfl
    | cons e es =>
      simp only
      have e1 : ∀ i, Explorer.edgesOf vis (sitesK k m) (st.explored ++ [i]) i = Explorer.edgesOf vis m (st.explored ++ [i]) i := by
        intro i; unfold Explorer.edgesOf; rw [getRates_units]
      have e2 := fun i => addEdges_units hk ex mem m i (Explorer.edgesOf vis m (st.explored ++ [i]) i)
        { st with explored := st.explored ++ [i], opn := st.opn.filter fun e => e.2 ≠ i }
      show (ex.addEdges (rates k mem) (sitesK k m) ((e :: es).getD (vis.next st.explored (e :: es) % (e :: es).length) e).2
        (search k { st with
          explored := st.explored ++ [((e :: es).getD (vis.next st.explored (e :: es) % (e :: es).length) e).2]
          opn := st.opn.filter fun e' => e'.2 ≠ ((e :: es).getD (vis.next st.explored (e :: es) % (e :: es).length) e).2 })
        (Explorer.edgesOf vis (sitesK k m)
          (st.explored ++ [((e :: es).getD (vis.next st.explored (e :: es) % (e :: es).length) e).2])
          ((e :: es).getD (vis.next st.explored (e :: es) % (e :: es).length) e).2) >>= _) = _
      rw [e1, e2, ho]
      cases ex.addEdges mem m ((e :: es).getD (vis.next st.explored (e :: es) % (e :: es).length) e).2
          { st with
            explored := st.explored ++ [((e :: es).getD (vis.next st.explored (e :: es) % (e :: es).length) e).2]
            opn := (e :: es).filter fun e' => e'.2 ≠ ((e :: es).getD (vis.next st.explored (e :: es) % (e :: es).length) e).2 }
          (Explorer.edgesOf vis m
            (st.explored ++ [((e :: es).getD (vis.next st.explored (e :: es) % (e :: es).length) e).2]) _) with
      | error e => rfl
      | ok st =>
        simp only [Except.map, ok_bind]
        show (if st.explored.length > ex.maxCount then _ else _) = _
        rw [ih]

theorem getCluster_units {m m' : ClusterContainer K} (h : SameMap (SameCluster k) m m') (i : Int) :
    (∃ e, m.getCluster i = .error e ∧ m'.getCluster i = .error e) ∨
    ∃ a b, m.getCluster i = .ok a ∧ m'.getCluster i = .ok b ∧ SameCluster k a b := by
  unfold ClusterContainer.getCluster
  rcases h.get? i with ⟨h1, h2⟩ | ⟨a, b, h1, h2, hab⟩
  · rw [h1, h2]; exact Or.inl ⟨_, rfl, rfl⟩
  · rw [h1, h2]; exact Or.inr ⟨a, b, rfl, rfl, hab⟩

include hk in
theorem findBasin_units (ex : Explorer K) (vis : Visitor) (mem : Addr → K) (m : SiteContainer K) {cs cs' : ClusterContainer K}
    (h : SameMap (SameCluster k) cs cs') (v : Int) :
    ex.findBasin vis (rates k mem) (sitesK k m) cs' v = ex.findBasin vis mem m cs v := by
  unfold Explorer.findBasin
  rw [fastestOffC_units hk]
  cases m.getFastestRateOffSite mem v with
  | error e => rfl
  | ok f =>
    simp only [Except.map, ok_bind]
    have hs : Explorer.startSlowest (rates k mem) (sitesK k m) cs' v (f / k) =
        (Explorer.startSlowest mem m cs v f).map (· / k) := by
      unfold Explorer.startSlowest
      rw [partOf_units, clusterIdOf_units]
      cases m.partOfCluster v with
      | error e => rfl
      | ok b =>
        simp only [ok_bind]
        cases b
        · rfl
        · simp only [if_true]
          cases m.getClusterIdOfSite v with
          | error e => rfl
          | ok cid =>
            simp only [ok_bind]
            rcases getCluster_units h cid with ⟨e, h1, h2⟩ | ⟨a, b, h1, h2, sv, _, rfl⟩
            · rw [h1, h2]; rfl
            · rw [h1, h2]
              simp only [ok_bind]
              rw [fastestOff_units hk]
              rfl
    rw [hs]
    cases Explorer.startSlowest mem m cs v f with
    | error e => rfl
    | ok s =>
      simp only [Except.map, ok_bind]
      have e1 : Explorer.edgesOf vis (sitesK k m) [v] v = Explorer.edgesOf vis m [v] v := by
        unfold Explorer.edgesOf; rw [getRates_units]
      rw [e1]
      have e2 := addEdges_units hk ex mem m v (Explorer.edgesOf vis m [v] v) ⟨[v], [], f, s, f⟩
      unfold search at e2
      simp only at e2
      rw [e2]
      cases ex.addEdges mem m v ⟨[v], [], f, s, f⟩ (Explorer.edgesOf vis m [v] v) with
      | error e => rfl
      | ok st =>
        simp only [Except.map, ok_bind]
        exact searchLoop_units hk ex vis mem m _ st

end Mythical.Units
