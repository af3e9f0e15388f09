import Verif.Lemmas.EscapeNet
import Verif.Props.Basin

/-! # The basins of the program that lets electrons escape (for C117) -/

set_option linter.unusedSectionVars false
set_option linter.unusedVariables false

namespace Mythical.Escape
open World BasinSpec Basin Explorer
variable {K : Type} [Field K] [LinearOrder K] [IsStrictOrderedRing K] [FloorRing K]
variable {mem : Addr → K} {sites : SiteContainer K}

/-- The sites 1 to 14 are those in the container, with the rates of the program. -/
structure Netted (mem : Addr → K) (sites : SiteContainer K) : Prop where
  neighWF : ∀ i s, sites.get? i = some s → s.neigh.WF
  row : ∀ i s, sites.get? i = some s → ∃ row, (i, row) ∈ (net : IMap (IMap K)) ∧ (s.neigh.map fun na => (na.1, mem na.2)).Perm row
  all : ∀ i, 1 ≤ i → i ≤ 14 → sites.get? i ≠ none

theorem Netted.rate_mem (h : Netted mem sites) {i j : Int} {r : K} (hr : rate mem sites i j = some r) :
    ∃ row, (i, row) ∈ (net : IMap (IMap K)) ∧ (j, r) ∈ row := by
  obtain ⟨s, a, hs, ha, rfl⟩ := rate_some hr
  obtain ⟨row, h1, h2⟩ := h.row i s hs
  exact ⟨row, h1, h2.subset (List.mem_map.2 ⟨(j, a), IMap.mem_of_get? ha, rfl⟩)⟩

theorem net_unique {i : Int} {row row' : IMap K} (h : (i, row) ∈ (net : IMap (IMap K))) (h' : (i, row') ∈ (net : IMap (IMap K))) : row = row' := by
  have h1 := IMap.get?_of_mem net_wf.1 h
  have h2 := IMap.get?_of_mem net_wf.1 h'
  rw [h1] at h2
  exact Option.some.inj h2

theorem Netted.rate_of (h : Netted mem sites) {i j : Int} {r : K} {row : IMap K} (h1 : (i, row) ∈ (net : IMap (IMap K))) (h2 : (j, r) ∈ row) :
    rate mem sites i j = some r := by
  have hi := (net_range _ h1).1
  obtain ⟨s, hs⟩ := Option.ne_none_iff_exists'.1 (h.all i hi.1 hi.2)
  obtain ⟨row', h1', hp⟩ := h.row i s hs
  obtain rfl := net_unique h1 h1'
  obtain ⟨⟨j', a⟩, ha, e⟩ := List.mem_map.1 (hp.symm.subset h2)
  simp only [Prod.mk.injEq] at e
  obtain ⟨rfl, rfl⟩ := e
  exact rate_intro hs (IMap.get?_of_mem (h.neighWF i s hs) ha)

theorem Netted.positive (h : Netted mem sites) : Positive mem sites :=
  ⟨h.neighWF, fun i j r hr => by
    obtain ⟨row, h1, h2⟩ := h.rate_mem hr
    exact net_pos _ h1 _ h2⟩

/-- The first rate out of a site that the fastest one is compared with. -/
theorem Netted.fastest (h : Netted mem sites) {v : Int} {s : Site K} (hs : sites.get? v = some s) {row : IMap K}
    (hrow : (v, row) ∈ (net : IMap (IMap K))) {j : Int} {r : K} (hj : (j, r) ∈ row) (hmax : ∀ jk ∈ row, jk.2 ≤ r) : s.getFastestRate mem = r := by
  refine fastest_iff h.positive hs ⟨⟨j, h.rate_of hrow hj⟩, fun j' r' hr' => ?_⟩
  obtain ⟨row', h1, h2⟩ := h.rate_mem hr'
  obtain rfl := net_unique hrow h1
  exact hmax _ h2

theorem net1 : ((1 : Int), [((14 : Int), (1 / 400 : K)), (6, 1 / 100), (2, 1 / 1), (5, 1 / 1)]) ∈ (net : IMap (IMap K)) := by unfold net; simp
theorem net2 : ((2 : Int), [((1 : Int), (1 / 1 : K)), (7, 1 / 400), (3, 1 / 1), (4, 10)]) ∈ (net : IMap (IMap K)) := by unfold net; simp
theorem net3 : ((3 : Int), [((2 : Int), (1 / 5 : K)), (8, 1 / 400), (9, 1 / 400), (10, 1 / 400)]) ∈ (net : IMap (IMap K)) := by unfold net; simp
theorem net4 : ((4 : Int), [((5 : Int), (1 / 1 : K)), (2, 1 / 1), (10, 1 / 300), (11, 1 / 400)]) ∈ (net : IMap (IMap K)) := by unfold net; simp
theorem net5 : ((5 : Int), [((13 : Int), (1 / 100 : K)), (1, 1 / 1), (4, 1 / 1), (12, 1 / 400)]) ∈ (net : IMap (IMap K)) := by unfold net; simp

/-- Starting from a rate of at most 1, a basin with one of the sites 1, 2, 4 and 5 has the sites 1 to 5. -/
theorem Netted.five (h : Netted mem sites) {s0 : K} {l : List Int} (h0 : s0 ≤ 1)
    (hcl : ∀ u ∈ l, ∀ x r, rate mem sites u x = some r → s0 * (9999 / 10000) ≤ r → x ∈ l) (hv : 1 ∈ l ∨ 2 ∈ l ∨ 4 ∈ l ∨ 5 ∈ l) :
    ([1, 2, 3, 4, 5] : List Int) ⊆ l := by
  have q : s0 * (9999 / 10000) ≤ 1 / 1 := by linarith
  have q' : s0 * (9999 / 10000) ≤ 10 := by linarith
  have e12 : (1 : Int) ∈ l → 2 ∈ l := fun h1 => hcl 1 h1 2 (1 / 1) (h.rate_of net1 (by simp)) q
  have e15 : (1 : Int) ∈ l → 5 ∈ l := fun h1 => hcl 1 h1 5 (1 / 1) (h.rate_of net1 (by simp)) q
  have e23 : (2 : Int) ∈ l → 3 ∈ l := fun h1 => hcl 2 h1 3 (1 / 1) (h.rate_of net2 (by simp)) q
  have e24 : (2 : Int) ∈ l → 4 ∈ l := fun h1 => hcl 2 h1 4 10 (h.rate_of net2 (by simp)) q'
  have e21 : (2 : Int) ∈ l → 1 ∈ l := fun h1 => hcl 2 h1 1 (1 / 1) (h.rate_of net2 (by simp)) q
  have e42 : (4 : Int) ∈ l → 2 ∈ l := fun h1 => hcl 4 h1 2 (1 / 1) (h.rate_of net4 (by simp)) q
  have e51 : (5 : Int) ∈ l → 1 ∈ l := fun h1 => hcl 5 h1 1 (1 / 1) (h.rate_of net5 (by simp)) q
  have h1 : (1 : Int) ∈ l := by
    rcases hv with hv | hv | hv | hv
    · exact hv
    · exact e21 hv
    · exact e21 (e42 hv)
    · exact e51 hv
  intro x hx
  simp only [List.mem_cons, List.not_mem_nil, or_false] at hx
  rcases hx with rfl | rfl | rfl | rfl | rfl
  · exact h1
  · exact e12 h1
  · exact e23 (e12 h1)
  · exact e24 (e12 h1)
  · exact e15 h1

theorem six_false {l : List Int} (hnd : l.Nodup) (hlen : l.length ≤ 5) (h5 : ([1, 2, 3, 4, 5] : List Int) ⊆ l) (h6 : (6 : Int) ∈ l) : False := by
  have hs : ([1, 2, 3, 4, 5, 6] : List Int) ⊆ l := by
    intro x hx
    have : x ∈ ([1, 2, 3, 4, 5] : List Int) ∨ x = 6 := by
      simp only [List.mem_cons, List.not_mem_nil, or_false] at hx ⊢
      omega
    rcases this with h | rfl
    · exact h5 h
    · exact h6
  have := (List.subperm_of_subset (by decide) hs).length_le
  simp at this
  omega

theorem five_perm {l : List Int} (hnd : l.Nodup) (hlen : l.length ≤ 5) (h5 : ([1, 2, 3, 4, 5] : List Int) ⊆ l) : l.Perm [1, 2, 3, 4, 5] :=
  ((List.subperm_of_subset (by decide) h5).perm_of_length_le hlen).symm

/-- Hops accepted from the rate 10 on are those from site 2 to site 4. -/
theorem Netted.accepted (h : Netted mem sites) {log : List (Int × Int)} (ha : Accepted mem sites 10 log) : ∀ e ∈ log, e = (2, 4) := by
  induction log with
  | nil => intro e he; cases he
  | cons e log ih =>
    obtain ⟨i, j⟩ := e
    obtain ⟨r, hr, hle, hrest⟩ := ha
    obtain ⟨row, h1, h2⟩ := h.rate_mem hr
    have key : i = 2 ∧ j = 4 ∧ r = 10 := by
      unfold net at h1
      simp only [List.mem_cons, List.not_mem_nil, or_false, Prod.mk.injEq] at h1
      rcases h1 with h1 | h1 | h1 | h1 | h1 | h1 | h1 | h1 | h1 | h1 | h1 | h1 | h1 | h1 <;> obtain ⟨rfl, rfl⟩ := h1 <;>
        simp only [List.mem_cons, List.not_mem_nil, or_false, Prod.mk.injEq] at h2
      all_goals first
        | (obtain ⟨rfl, e⟩ | ⟨rfl, e⟩ | ⟨rfl, e⟩ | ⟨rfl, e⟩ := h2 <;> first | exact ⟨rfl, rfl, e⟩ | (exfalso; rw [e] at hle; norm_num at hle))
        | (obtain ⟨rfl, e⟩ := h2; exfalso; rw [e] at hle; norm_num at hle)
    obtain ⟨rfl, rfl, rfl⟩ := key
    rw [min_self] at hrest
    intro e he
    rcases List.mem_cons.1 he with rfl | he
    · rfl
    · exact ih hrest e he

/-- The basin found from a site that is in no cluster. -/
theorem Netted.lone (h : Netted mem sites) {vis : Visitor} {clusters : ClusterContainer K} {v : Int} {l : List Int}
    (hb : Explorer.default.findBasin vis mem sites clusters v = .ok l) (hl : l ≠ []) {s : Site K} (hs : sites.get? v = some s)
    (hu : s.clusterId = unassignedId) : v ∈ l ∧ (l.Perm [1, 2, 3, 4, 5] ∨ l.Perm [2, 4]) := by
  obtain hnil | ⟨hnd, hlen, hv, -⟩ := C49_basin Explorer.default (by show 1 ≤ 5; omega) vis mem sites clusters v l hb
  · exact absurd hnil hl
  have hlen : l.length ≤ 5 := hlen
  refine ⟨hv, ?_⟩
  obtain ⟨s0, ⟨s', hs', hcase⟩, ⟨log, hacc, hlog⟩, hcl⟩ := C50_accepted Explorer.default (by show (0 : K) ≤ 19 / 20; norm_num)
    (by show 1 ≤ 5; omega) vis mem sites h.positive clusters v l hb hl
  change IMap.get? sites v = some s at hs
  rw [hs] at hs'
  obtain rfl := Option.some.inj hs'
  have hs0 : s0 = s.getFastestRate mem := by
    rcases hcase with ⟨-, e⟩ | ⟨hc, -⟩
    · exact e
    · rw [hu] at hc; exact absurd hc (by decide)
  obtain ⟨row, hrow, -⟩ := h.row v s hs
  have houter : s0 ≤ 1 / 400 → (1 ∈ l ∨ 2 ∈ l ∨ 4 ∈ l ∨ 5 ∈ l) → False := fun h1 hv => by
    have h5 := h.five (by linarith [show (1 / 400 : K) ≤ 1 by norm_num]) hcl hv
    exact six_false hnd hlen h5 (hcl 1 (h5 (by simp)) 6 (1 / 100) (h.rate_of net1 (by simp)) (by norm_num at h1 ⊢; linarith))
  have h32 : s0 ≤ 1 / 5 → (3 : Int) ∈ l → 2 ∈ l := fun h1 h3 =>
    hcl 3 h3 2 (1 / 5) (h.rate_of net3 (by simp)) (by linarith)
  have hone : ∀ j : Int, row = [(j, (1 / 400 : K))] → (j = 1 ∨ j = 2 ∨ j = 3 ∨ j = 4 ∨ j = 5) → False := by
    rintro j rfl hj
    have hf := h.fastest hs hrow (j := j) (r := 1 / 400) (by simp) (by simp)
    rw [hf] at hs0
    have hm : j ∈ l := hcl v hv j (1 / 400) (h.rate_of hrow (by simp)) (by rw [hs0]; norm_num)
    refine houter hs0.le ?_
    rcases hj with rfl | rfl | rfl | rfl | rfl
    · exact .inl hm
    · exact .inr (.inl hm)
    · exact .inr (.inl (h32 (by rw [hs0]; norm_num) hm))
    · exact .inr (.inr (.inl hm))
    · exact .inr (.inr (.inr hm))
  unfold net at hrow
  simp only [List.mem_cons, List.not_mem_nil, or_false, Prod.mk.injEq] at hrow
  rcases hrow with e | e | e | e | e | e | e | e | e | e | e | e | e | e <;> obtain ⟨rfl, rfl⟩ := e
  · have hf := h.fastest hs net1 (j := 2) (r := 1 / 1) (by simp) (by simp; norm_num)
    rw [hf] at hs0
    exact .inl (five_perm hnd hlen (h.five (by rw [hs0]; norm_num) hcl (.inl hv)))
  · have hf := h.fastest hs net2 (j := 4) (r := 10) (by simp) (by simp; norm_num)
    rw [hf] at hs0
    subst hs0
    right
    have h4 : (4 : Int) ∈ l := hcl 2 hv 4 10 (h.rate_of net2 (by simp)) (by norm_num)
    refine (List.perm_ext_iff_of_nodup hnd (by decide)).2 fun x => ⟨fun hx => ?_, fun hx => ?_⟩
    · by_cases hx2 : x = 2
      · simp [hx2]
      · obtain ⟨u, -, hu⟩ := hlog x hx hx2
        have := h.accepted hacc _ hu
        simp only [Prod.mk.injEq] at this
        simp [this.2]
    · simp only [List.mem_cons, List.not_mem_nil, or_false] at hx
      rcases hx with rfl | rfl
      · exact hv
      · exact h4
  · have hf := h.fastest hs net3 (j := 2) (r := 1 / 5) (by simp) (by simp; norm_num)
    rw [hf] at hs0
    exact .inl (five_perm hnd hlen (h.five (by rw [hs0]; norm_num) hcl (.inr (.inl (h32 hs0.le hv)))))
  · have hf := h.fastest hs net4 (j := 5) (r := 1 / 1) (by simp) (by simp; norm_num)
    rw [hf] at hs0
    exact .inl (five_perm hnd hlen (h.five (by rw [hs0]; norm_num) hcl (.inr (.inr (.inl hv)))))
  · have hf := h.fastest hs net5 (j := 1) (r := 1 / 1) (by simp) (by simp; norm_num)
    rw [hf] at hs0
    exact .inl (five_perm hnd hlen (h.five (by rw [hs0]; norm_num) hcl (.inr (.inr (.inr hv)))))
  all_goals exact absurd (hone _ rfl (by decide)) id

theorem off_le {c : Cluster K} {B : K} (h0 : 0 ≤ B) (h : ∀ is ∈ c.sites, ∀ na ∈ is.2.neigh, c.siteIsInCluster na.1 = false → mem na.2 ≤ B) :
    c.getFastestRateOffCluster mem ≤ B := by
  have inner : ∀ (l : IMap K) (b : K), b ≤ B → (∀ nr ∈ l, nr.2 ≤ B) → l.foldl (fun best nr => if nr.2 > best then nr.2 else best) b ≤ B := by
    intro l
    induction l with
    | nil => intro b hb _; exact hb
    | cons x l ih =>
      intro b hb hl
      refine ih _ ?_ fun nr hnr => hl nr (List.mem_cons_of_mem _ hnr)
      dsimp only
      split
      · exact hl x List.mem_cons_self
      · exact hb
  have outer : ∀ (l : IMap (IMap K)) (b : K), b ≤ B → (∀ ir ∈ l, ∀ nr ∈ ir.2, nr.2 ≤ B) →
      l.foldl (fun best ir => ir.2.foldl (fun best nr => if nr.2 > best then nr.2 else best) best) b ≤ B := by
    intro l
    induction l with
    | nil => intro b hb _; exact hb
    | cons x l ih =>
      intro b hb hl
      exact ih _ (inner x.2 b hb (hl x List.mem_cons_self)) fun ir hir => hl ir (List.mem_cons_of_mem _ hir)
  refine outer _ _ h0 fun ir hir nr hnr => ?_
  unfold Cluster.ratesToNeighbors at hir
  obtain ⟨is, his, rfl⟩ := List.mem_map.1 (List.mem_filter.1 hir).1
  obtain ⟨na, hna, rfl⟩ := List.mem_map.1 hnr
  obtain ⟨h1, h2⟩ := List.mem_filter.1 hna
  exact h is his na h1 (by simpa using h2)

/-- No basin is found from a site in a cluster of the sites 1 to 5. -/
theorem Netted.joined (h : Netted mem sites) {vis : Visitor} {clusters : ClusterContainer K} {v : Int} {l : List Int}
    (hb : Explorer.default.findBasin vis mem sites clusters v = .ok l) {s : Site K} (hs : sites.get? v = some s)
    (hu : -1 < s.clusterId) {c : Cluster K} (hc : IMap.get? clusters s.clusterId = some c) (hk : c.sites.keys.Perm [1, 2, 3, 4, 5])
    (hv5 : v ∈ c.sites.keys) (htw : ∀ i t, (i, t) ∈ c.sites → ∃ t', sites.get? i = some t' ∧ t.neigh = t'.neigh) : l = [] := by
  by_contra hl
  obtain hnil | ⟨hnd, hlen, hv, -⟩ := C49_basin Explorer.default (by show 1 ≤ 5; omega) vis mem sites clusters v l hb
  · exact absurd hnil hl
  have hlen : l.length ≤ 5 := hlen
  obtain ⟨s0, ⟨s', hs', hcase⟩, -, hcl⟩ := C50_accepted Explorer.default (by show (0 : K) ≤ 19 / 20; norm_num)
    (by show 1 ≤ 5; omega) vis mem sites h.positive clusters v l hb hl
  change IMap.get? sites v = some s at hs
  rw [hs] at hs'
  obtain rfl := Option.some.inj hs'
  have hs0 : s0 ≤ 1 / 100 := by
    rcases hcase with ⟨hn, -⟩ | ⟨-, c', hc', rfl⟩
    · exact absurd hu hn
    · rw [hc] at hc'
      obtain rfl := Option.some.inj hc'
      refine off_le (by norm_num) fun is his na hna hout => ?_
      obtain ⟨i, t⟩ := is
      obtain ⟨t', ht', e⟩ := htw i t his
      obtain ⟨row, hrow, hp⟩ := h.row i t' ht'
      have hmem : (na.1, mem na.2) ∈ row := hp.subset (List.mem_map.2 ⟨na, e ▸ hna, rfl⟩)
      have hna5 : na.1 ∉ ([1, 2, 3, 4, 5] : List Int) := fun hin => by
        have := hk.symm.subset hin
        have : c.sites.has na.1 = true := IMap.has_iff.2 this
        unfold Cluster.siteIsInCluster at hout
        rw [hout] at this
        cases this
      have hi5 : i ∈ ([1, 2, 3, 4, 5] : List Int) := hk.subset (IMap.mem_keys_of_mem his)
      generalize na.1 = j at hmem hna5
      generalize mem na.2 = r at hmem
      unfold net at hrow
      simp only [List.mem_cons, List.not_mem_nil, or_false, Prod.mk.injEq] at hrow hi5 hna5
      rcases hrow with e | e | e | e | e | e | e | e | e | e | e | e | e | e <;> obtain ⟨rfl, rfl⟩ := e <;>
        first
          | (exfalso; revert hi5; decide)
          | (simp only [List.mem_cons, List.not_mem_nil, or_false, Prod.mk.injEq] at hmem
             obtain ⟨rfl, rfl⟩ | ⟨rfl, rfl⟩ | ⟨rfl, rfl⟩ | ⟨rfl, rfl⟩ := hmem <;> first | (exfalso; revert hna5; decide) | norm_num)
  have h5 : ([1, 2, 3, 4, 5] : List Int) ⊆ l := by
    refine h.five (by linarith [show (1 / 100 : K) ≤ 1 by norm_num]) hcl ?_
    have := hk.subset hv5
    simp only [List.mem_cons, List.not_mem_nil, or_false] at this
    rcases this with rfl | rfl | rfl | rfl | rfl
    · exact .inl hv
    · exact .inr (.inl hv)
    · exact .inr (.inl (hcl 3 hv 2 (1 / 5) (h.rate_of net3 (by simp)) (by linarith [show (1 / 100 : K) ≤ 1 / 5 by norm_num])))
    · exact .inr (.inr (.inl hv))
    · exact .inr (.inr (.inr hv))
  exact six_false hnd hlen h5 (hcl 1 (h5 (by simp)) 6 (1 / 100) (h.rate_of net1 (by simp)) (by linarith))

/-! ## The sites 2 and 4 alone -/

theorem Netted.way (h : Netted mem sites) {B : List Int} {j : Int} {t : K} (hp : PathTime mem sites B 4 j t) : 0 ≤ t ∧ (j = 4 ∨ 1 ≤ t) := by
  induction hp with
  | start => exact ⟨le_rfl, .inl rfl⟩
  | @hop i j t _ hj r hr ih =>
    have hpos : 0 < r := h.positive.pos _ _ _ hr
    have hq : 0 < 1 / r := by positivity
    refine ⟨by linarith [ih.1], ?_⟩
    rcases ih.2 with rfl | h1
    · right
      obtain ⟨row, h1, h2⟩ := h.rate_mem hr
      obtain rfl := net_unique h1 net4
      have hle : r ≤ 1 := by
        simp only [List.mem_cons, List.not_mem_nil, or_false, Prod.mk.injEq] at h2
        obtain ⟨-, e⟩ | ⟨-, e⟩ | ⟨-, e⟩ | ⟨-, e⟩ := h2 <;> rw [e] <;> norm_num
      have : 1 ≤ 1 / r := by rw [le_div_iff₀ hpos]; linarith
      linarith [ih.1]
    · right; linarith

theorem Netted.out (h : Netted mem sites) {i : Int} {s : Site K} (hs : sites.get? i = some s) {row : IMap K} (hrow : (i, row) ∈ (net : IMap (IMap K)))
    (B : List Int) : ((s.neigh.filter fun na => na.1 ∉ B).map fun na => mem na.2).sum = ((row.filter fun na => na.1 ∉ B).map Prod.snd).sum := by
  obtain ⟨row', h1, hp⟩ := h.row i s hs
  obtain rfl := net_unique h1 hrow
  rw [← ((hp.filter _).map Prod.snd).sum_eq, List.filter_map, List.map_map]
  rfl

end Mythical.Escape
