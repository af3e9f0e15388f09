import Verif.Model.Merging
import Verif.Lemmas.EscapeBasin

/-! # The basins of the unit test in which two clusters are merged (for C118) -/

set_option linter.unusedSectionVars false
set_option linter.unusedVariables false

namespace Mythical.Merging
open World BasinSpec Basin Explorer SystemSpec ProgramSpec
open _root_.Mythical.ToF (layout memOf)
variable {K : Type} [Field K] [LinearOrder K] [IsStrictOrderedRing K] [FloorRing K]
variable {mem : Addr → K} {sites : SiteContainer K}

/-- The rates by kind: 0 for slow, 1 for moderate and 2 for fast. -/
def kinds : IMap (IMap Nat) :=
  [(1, [(2, 0), (5, 0)]), (2, [(1, 0), (3, 0), (6, 0)]), (3, [(2, 0), (4, 0), (7, 0)]), (4, [(3, 0), (8, 0)]),
   (5, [(1, 0), (6, 0), (9, 0)]), (6, [(2, 0), (5, 0), (7, 1), (10, 2)]), (7, [(3, 0), (6, 1), (8, 0), (11, 2)]), (8, [(4, 0), (7, 0), (12, 0)]),
   (9, [(5, 0), (10, 0), (13, 0)]), (10, [(6, 2), (9, 0), (11, 1), (14, 0)]), (11, [(7, 2), (10, 1), (12, 0), (15, 0)]),
   (12, [(8, 0), (11, 0), (16, 0)]), (13, [(9, 0), (14, 0)]), (14, [(10, 0), (13, 0), (15, 0)]), (15, [(11, 0), (14, 0), (16, 0)]),
   (16, [(12, 0), (15, 0)])]

/-- The rate of a kind. -/
def val : Nat → K
  | 0 => 1
  | 1 => 100
  | _ => 10000

/-- The map of rates. -/
def grid : IMap (IMap K) := kinds.map fun ir => (ir.1, ir.2.map fun jc => (jc.1, val jc.2))

set_option maxHeartbeats 2000000 in
theorem table_grid : (table : Except Fault (IMap (IMap K) × Nat)) = .ok (grid, 48) := rfl

theorem val_pos : ∀ c : Nat, (0 : K) < val c
  | 0 => one_pos
  | 1 => by show (0 : K) < 100; norm_num
  | _ + 2 => by show (0 : K) < 10000; norm_num

theorem val_le : ∀ {c c' : Nat}, c ≤ c' → (val c : K) ≤ val c'
  | 0, 0, _ => le_rfl
  | 0, 1, _ => by show (1 : K) ≤ 100; norm_num
  | 0, _ + 2, _ => by show (1 : K) ≤ 10000; norm_num
  | 1, 1, _ => le_rfl
  | 1, _ + 2, _ => by show (100 : K) ≤ 10000; norm_num
  | _ + 2, _ + 2, _ => le_rfl
  | 1, 0, h => by omega
  | _ + 2, 0, h => by omega
  | _ + 2, 1, h => by omega

theorem val_gap : ∀ {k c : Nat}, k ≤ 2 → (val k : K) * (9999 / 10000) ≤ val c → k ≤ c
  | 0, _, _, _ => Nat.zero_le _
  | 1, 0, _, h => by change (100 : K) * (9999 / 10000) ≤ 1 at h; norm_num at h
  | 1, _ + 1, _, _ => by omega
  | 2, 0, _, h => by change (10000 : K) * (9999 / 10000) ≤ 1 at h; norm_num at h
  | 2, 1, _, h => by change (10000 : K) * (9999 / 10000) ≤ 100 at h; norm_num at h
  | 2, _ + 2, _, _ => by omega
  | _ + 3, _, h, _ => by omega

theorem kinds_wf : kinds.WF ∧ ∀ ir ∈ kinds, IMap.WF ir.2 ∧ ir.2 ≠ [] := by
  unfold IMap.WF
  decide

theorem kinds_two : ∀ ir ∈ kinds, ∀ jc ∈ ir.2, jc.2 ≤ 2 := by decide

theorem kinds_range : ∀ ir ∈ kinds, (1 ≤ ir.1 ∧ ir.1 ≤ 16) ∧ ∀ jc ∈ ir.2, 1 ≤ jc.1 ∧ jc.1 ≤ 16 := by decide

theorem grid_mem {i : Int} {row : IMap K} : (i, row) ∈ (grid : IMap (IMap K)) ↔
    ∃ r, (i, r) ∈ kinds ∧ row = r.map fun jc => (jc.1, val jc.2) := by
  unfold grid
  rw [List.mem_map]
  constructor
  · rintro ⟨⟨i', r⟩, h, e⟩
    simp only [Prod.mk.injEq] at e
    obtain ⟨rfl, rfl⟩ := e
    exact ⟨r, h, rfl⟩
  · rintro ⟨r, h, rfl⟩
    exact ⟨(i, r), h, rfl⟩

theorem grid_wf : (grid : IMap (IMap K)).WF ∧ ∀ ir ∈ (grid : IMap (IMap K)), IMap.WF ir.2 ∧ ir.2 ≠ [] := by
  constructor
  · show ((grid : IMap (IMap K)).map Prod.fst).Nodup
    have : (grid : IMap (IMap K)).map Prod.fst = kinds.map Prod.fst := by unfold grid; rw [List.map_map]; rfl
    rw [this]; exact kinds_wf.1
  · rintro ⟨i, row⟩ h
    obtain ⟨r, hr, rfl⟩ := grid_mem.1 h
    obtain ⟨h1, h2⟩ := kinds_wf.2 _ hr
    constructor
    · show ((r.map fun jc => (jc.1, (val jc.2 : K))).map Prod.fst).Nodup
      rw [List.map_map]; exact h1
    · simpa using h2

theorem grid_pos : ∀ ir ∈ (grid : IMap (IMap K)), ∀ jk ∈ ir.2, 0 < jk.2 := by
  rintro ⟨i, row⟩ h jk hjk
  obtain ⟨r, hr, rfl⟩ := grid_mem.1 h
  obtain ⟨jc, -, rfl⟩ := List.mem_map.1 hjk
  exact val_pos _

theorem grid_range : ∀ ir ∈ (grid : IMap (IMap K)), (1 ≤ ir.1 ∧ ir.1 ≤ 16) ∧ ∀ jk ∈ ir.2, 1 ≤ jk.1 ∧ jk.1 ≤ 16 := by
  rintro ⟨i, row⟩ h
  obtain ⟨r, hr, rfl⟩ := grid_mem.1 h
  obtain ⟨h1, h2⟩ := kinds_range _ hr
  refine ⟨h1, fun jk hjk => ?_⟩
  obtain ⟨jc, hjc, rfl⟩ := List.mem_map.1 hjk
  exact h2 jc hjc

theorem mem_sixteen {i : Int} (h1 : 1 ≤ i) (h2 : i ≤ 16) : i ∈ kinds.keys := by
  show i ∈ ([1, 2, 3, 4, 5, 6, 7, 8, 9, 10, 11, 12, 13, 14, 15, 16] : List Int)
  simp only [List.mem_cons, List.not_mem_nil, or_false]
  omega

theorem grid_all {i : Int} (h1 : 1 ≤ i) (h2 : i ≤ 16) : ∃ row, (i, row) ∈ (grid : IMap (IMap K)) := by
  obtain ⟨⟨i', r⟩, h, rfl⟩ := List.mem_map.1 (mem_sixteen h1 h2)
  exact ⟨_, grid_mem.2 ⟨r, h, rfl⟩⟩

/-- The kind of the rate from a site to another. -/
def kind (i j : Int) : Option Nat := (kinds.get? i).bind fun r => r.get? j

theorem kind_mem {i j : Int} {c : Nat} : kind i j = some c ↔ ∃ r, (i, r) ∈ kinds ∧ (j, c) ∈ r := by
  unfold kind
  rw [Option.bind_eq_some_iff]
  constructor
  · rintro ⟨r, h1, h2⟩
    exact ⟨r, IMap.mem_of_get? h1, IMap.mem_of_get? h2⟩
  · rintro ⟨r, h1, h2⟩
    exact ⟨r, IMap.get?_of_mem kinds_wf.1 h1, IMap.get?_of_mem (kinds_wf.2 _ h1).1 h2⟩

/-- The sites 1 to 16 are those in the container, with the rates of the test. -/
structure Gridded (mem : Addr → K) (sites : SiteContainer K) : Prop where
  neighWF : ∀ i s, sites.get? i = some s → s.neigh.WF
  row : ∀ i s, sites.get? i = some s → ∃ row, (i, row) ∈ (grid : IMap (IMap K)) ∧ (s.neigh.map fun na => (na.1, mem na.2)).Perm row
  all : ∀ i, 1 ≤ i → i ≤ 16 → sites.get? i ≠ none

/-- What a site refers to, by kind. -/
theorem Gridded.neigh (h : Gridded mem sites) {i : Int} {s : Site K} (hs : sites.get? i = some s) :
    (∀ na ∈ s.neigh, ∃ c, kind i na.1 = some c ∧ mem na.2 = val c) ∧ ∀ j c, kind i j = some c → ∃ a, (j, a) ∈ s.neigh ∧ mem a = val c := by
  obtain ⟨row, h1, h2⟩ := h.row i s hs
  obtain ⟨r, hr, rfl⟩ := grid_mem.1 h1
  constructor
  · intro na hna
    obtain ⟨jc, hjc, e⟩ := List.mem_map.1 (h2.subset (List.mem_map.2 ⟨na, hna, rfl⟩))
    simp only [Prod.mk.injEq] at e
    exact ⟨jc.2, kind_mem.2 ⟨r, hr, e.1 ▸ hjc⟩, e.2.symm⟩
  · intro j c hk
    obtain ⟨r', hr', hjc⟩ := kind_mem.1 hk
    have : r' = r := by
      have e1 := IMap.get?_of_mem kinds_wf.1 hr
      rw [IMap.get?_of_mem kinds_wf.1 hr'] at e1
      exact Option.some.inj e1
    subst this
    obtain ⟨⟨j', a⟩, ha, e⟩ := List.mem_map.1 (h2.symm.subset (List.mem_map.2 ⟨(j, c), hjc, rfl⟩))
    simp only [Prod.mk.injEq] at e
    obtain ⟨rfl, e⟩ := e
    exact ⟨a, ha, e⟩

theorem Gridded.rate_iff (h : Gridded mem sites) {i j : Int} {r : K} : rate mem sites i j = some r ↔ ∃ c, kind i j = some c ∧ r = val c := by
  constructor
  · intro hr
    obtain ⟨s, a, hs, ha, rfl⟩ := rate_some hr
    exact (h.neigh hs).1 (j, a) (IMap.mem_of_get? ha)
  · rintro ⟨c, hk, rfl⟩
    obtain ⟨r, hr, -⟩ := kind_mem.1 hk
    have hi := (kinds_range _ hr).1
    obtain ⟨s, hs⟩ := Option.ne_none_iff_exists'.1 (h.all i hi.1 hi.2)
    obtain ⟨a, ha, e⟩ := (h.neigh hs).2 j c hk
    rw [← e]
    exact rate_intro hs (IMap.get?_of_mem (h.neighWF i s hs) ha)

theorem Gridded.positive (h : Gridded mem sites) : Positive mem sites :=
  ⟨h.neighWF, fun i j r hr => by
    obtain ⟨c, -, rfl⟩ := h.rate_iff.1 hr
    exact val_pos c⟩

/-- The kind of the fastest rate out of a site. -/
def level (i : Int) : Nat := if i ∈ ([6, 7, 10, 11] : List Int) then 2 else 0

theorem kinds_level : ∀ ir ∈ kinds, (∃ jc ∈ ir.2, jc.2 = level ir.1) ∧ ∀ jc ∈ ir.2, jc.2 ≤ level ir.1 := by decide

theorem Gridded.known (h : Gridded mem sites) {v : Int} {s : Site K} (hs : sites.get? v = some s) : v ∈ kinds.keys := by
  obtain ⟨row, hrow, -⟩ := h.row v s hs
  have := (grid_range _ hrow).1
  exact mem_sixteen this.1 this.2

theorem Gridded.fastest (h : Gridded mem sites) {v : Int} {s : Site K} (hs : sites.get? v = some s) : s.getFastestRate mem = val (level v) := by
  obtain ⟨⟨v', r⟩, hr, rfl⟩ := List.mem_map.1 (h.known hs)
  obtain ⟨⟨⟨j, c⟩, hjc, e⟩, hmax⟩ := kinds_level _ hr
  simp only at e hmax hs ⊢
  subst e
  refine fastest_iff h.positive hs ⟨⟨j, h.rate_iff.2 ⟨_, kind_mem.2 ⟨r, hr, hjc⟩, rfl⟩⟩, fun j' r' hr' => ?_⟩
  obtain ⟨c', hk, rfl⟩ := h.rate_iff.1 hr'
  obtain ⟨r2, hr2, hm⟩ := kind_mem.1 hk
  have : r2 = r := by
    have e1 := IMap.get?_of_mem kinds_wf.1 hr
    rw [IMap.get?_of_mem kinds_wf.1 hr2] at e1
    exact Option.some.inj e1
  subst this
  exact val_le (hmax _ hm)

/-! ## Sites within reach -/

/-- The sites that a site has a rate of at least the given kind to. -/
def next (k : Nat) (u : Int) : List Int := (((kinds.get? u).getD []).filter fun jc => decide (k ≤ jc.2)).map Prod.fst

/-- The sites within `n` such hops. -/
def grow (k : Nat) : Nat → List Int → List Int
  | 0, l => l
  | n + 1, l => grow k n (l ++ l.flatMap (next k))

theorem mem_next {k : Nat} {u x : Int} : x ∈ next k u ↔ ∃ c, kind u x = some c ∧ k ≤ c := by
  unfold next
  rw [List.mem_map]
  constructor
  · rintro ⟨⟨j, c⟩, h, rfl⟩
    obtain ⟨h1, h2⟩ := List.mem_filter.1 h
    cases hu : kinds.get? u with
    | none => rw [hu] at h1; cases h1
    | some r =>
      rw [hu] at h1
      exact ⟨c, kind_mem.2 ⟨r, IMap.mem_of_get? hu, h1⟩, by simpa using h2⟩
  · rintro ⟨c, h, hle⟩
    obtain ⟨r, h1, h2⟩ := kind_mem.1 h
    refine ⟨(x, c), List.mem_filter.2 ⟨?_, by simpa using hle⟩, rfl⟩
    rw [IMap.get?_of_mem kinds_wf.1 h1]
    exact h2

theorem grow_subset {k : Nat} {l : List Int} (h : ∀ u ∈ l, ∀ x ∈ next k u, x ∈ l) : ∀ (n : Nat) (l0 : List Int), l0 ⊆ l → grow k n l0 ⊆ l
  | 0, _, h0 => h0
  | n + 1, l0, h0 => by
    refine grow_subset h n _ fun x hx => ?_
    rcases List.mem_append.1 hx with hx | hx
    · exact h0 hx
    · obtain ⟨u, hu, hx⟩ := List.mem_flatMap.1 hx
      exact h u (h0 hu) x hx

theorem grow_wide : ∀ v ∈ kinds.keys, 6 ≤ (grow 0 2 [v]).dedup.length := by decide

/-- Starting from a slow rate no basin is found. -/
theorem Gridded.wide (h : Gridded mem sites) {s0 : K} {l : List Int} (h0 : s0 ≤ 1)
    (hcl : ∀ u ∈ l, ∀ x r, rate mem sites u x = some r → s0 * (9999 / 10000) ≤ r → x ∈ l) (hlen : l.length ≤ 5) {v : Int} (hv : v ∈ l)
    (hk : v ∈ kinds.keys) : False := by
  have hsub : grow 0 2 [v] ⊆ l := by
    refine grow_subset (fun u hu x hx => ?_) 2 _ (by simpa using hv)
    obtain ⟨c, hc, -⟩ := mem_next.1 hx
    have h1 : (1 : K) ≤ val c := val_le (Nat.zero_le c)
    exact hcl u hu x _ (h.rate_iff.2 ⟨c, hc, rfl⟩) (by linarith)
  have h1 : (grow 0 2 [v]).dedup ⊆ l := fun x hx => hsub (List.mem_dedup.1 hx)
  have := (List.subperm_of_subset (List.nodup_dedup _) h1).length_le
  have := grow_wide v hk
  omega

/-- A basin lies in every set with the start that is closed under the hops which are as fast as the search wants them. -/
theorem basin_within {S : Int → Prop} (hp : Positive mem sites) {B : K}
    (hgap : ∀ i j r, rate mem sites i j = some r → B * (9999 / 10000) ≤ r → B ≤ r)
    (hS : ∀ i j r, S i → rate mem sites i j = some r → B ≤ r → S j) {vis : Visitor} {clusters : ClusterContainer K} {v : Int} (hv : S v)
    (hs0 : ∀ s0, FirstSlowest mem sites clusters v s0 → B ≤ s0) {l : List Int} (hb : Explorer.default.findBasin vis mem sites clusters v = .ok l) :
    ∀ x ∈ l, S x := by
  by_cases hl : l = []
  · subst hl; intro x hx; cases hx
  have ht : (0 : K) ≤ (Explorer.default : Explorer K).threshold := by show (0 : K) ≤ 19 / 20; norm_num
  have hacc : ∀ (log : List (Int × Int)) (s : K), B ≤ s → Accepted mem sites s log → ∀ e ∈ log, ∃ r, rate mem sites e.1 e.2 = some r ∧ B ≤ r := by
    intro log
    induction log with
    | nil => intro s _ _ e he; cases he
    | cons e log ih =>
      obtain ⟨i, j⟩ := e
      rintro s hs ⟨r, hr, hle, hrest⟩ e he
      have hB : B ≤ r := hgap i j r hr (by nlinarith)
      rcases List.mem_cons.1 he with rfl | he
      · exact ⟨r, hr, hB⟩
      · exact ih _ (le_min hs hB) hrest e he
  obtain ⟨s0, hfs, -, -⟩ := C50_accepted Explorer.default ht (by show 1 ≤ 5; omega) vis mem sites hp clusters v l hb hl
  have hfs' := hfs
  unfold Explorer.findBasin at hb
  obtain ⟨fastest, hf, hb⟩ := bind_eq_ok.mp hb
  obtain ⟨s1, hs1, hb⟩ := bind_eq_ok.mp hb
  obtain ⟨st, h1, hb⟩ := bind_eq_ok.mp hb
  have hB1 : B ≤ s1 := by
    refine hs0 s1 ?_
    unfold SiteContainer.getFastestRateOffSite at hf
    unfold startSlowest at hs1
    simp only [SiteContainer.partOfCluster, SiteContainer.getSite, SiteContainer.getClusterIdOfSite, ClusterContainer.getCluster] at hf hs1
    cases hs : IMap.get? sites v with
    | none => simp [hs] at hf
    | some s =>
      simp only [hs, ok_bind, Site.partOfCluster] at hf hs1
      obtain rfl := Except.ok.inj hf
      refine ⟨s, hs, ?_⟩
      by_cases hin : s.clusterId > -1
      · simp only [hin, decide_true, if_true] at hs1
        cases hc : IMap.get? clusters s.clusterId with
        | none => simp [hc] at hs1
        | some c =>
          simp only [hc, ok_bind] at hs1
          exact .inr ⟨hin, c, rfl, (Except.ok.inj hs1).symm⟩
      · simp only [hin, decide_false, Bool.false_eq_true, if_false] at hs1
        exact .inl ⟨hin, (Except.ok.inj hs1).symm⟩
  obtain ⟨st1, h1', hg, he⟩ := start_good (ex := Explorer.default) ht vis hp v fastest s1
  rw [h1] at h1'
  obtain rfl := Except.ok.inj h1'
  have hlen : st.explored.length ≤ (Explorer.default : Explorer K).maxCount := by rw [he]; show 1 ≤ 5; omega
  rcases searchLoop_result (P := fun st => GoodAll mem sites v s1 st ∧ ∀ x ∈ st.explored, S x) (fun st e st' hg he h => by
      obtain ⟨st2, h2, hg2⟩ := goodAll_step (ex := Explorer.default) ht (vis := vis) hp hg.1 he
      rw [h] at h2
      refine ⟨Except.ok.inj h2 ▸ hg2, fun x hx => ?_⟩
      rw [addEdges_explored _ h] at hx
      rcases List.mem_append.mp hx with hx | hx
      · exact hg.2 x hx
      · rw [List.mem_singleton.1 hx]
        obtain ⟨log, hg'⟩ := hg.1
        obtain ⟨o1, o2⟩ := hg'.opn e he
        obtain ⟨r, hr, hle⟩ := hacc log s1 hB1 hg'.accepted e o1
        exact hS _ _ r (hg.2 _ o2) hr hle) _ st l ⟨hg, fun x hx => by rw [he] at hx; rw [List.mem_singleton.1 hx]; exact hv⟩ hlen hb with hnil | ⟨st', ⟨-, hx⟩, -, hperm, -⟩
  · exact absurd hnil hl
  · exact fun x hx' => hx x (hperm.subset hx')

/-- The basin that is found when the search begins with a rate of the given kind. -/
theorem Gridded.exact (h : Gridded mem sites) {vis : Visitor} {clusters : ClusterContainer K} {v : Int} {l : List Int}
    (hb : Explorer.default.findBasin vis mem sites clusters v = .ok l) (hl : l ≠ []) {k n : Nat} (hk : k ≤ 2)
    (hs0 : ∀ s0, FirstSlowest mem sites clusters v s0 → s0 = val k) {S : List Int} (hnd : S.Nodup) (hS : ∀ u ∈ S, ∀ x ∈ next k u, x ∈ S)
    (hv : v ∈ S) (hg : S ⊆ grow k n [v]) : l.Perm S := by
  obtain hnil | ⟨hlnd, hlen, hvl, -⟩ := C49_basin Explorer.default (by show 1 ≤ 5; omega) vis mem sites clusters v l hb
  · exact absurd hnil hl
  obtain ⟨s0, hfs, -, hcl⟩ := C50_accepted Explorer.default (by show (0 : K) ≤ 19 / 20; norm_num) (by show 1 ≤ 5; omega) vis mem sites
    h.positive clusters v l hb hl
  have e := hs0 s0 hfs
  subst e
  refine (List.perm_ext_iff_of_nodup hlnd hnd).2 fun x => ⟨fun hx => ?_, fun hx => ?_⟩
  · refine basin_within (S := (· ∈ S)) (B := val k) h.positive (fun i j r hr hle => ?_) (fun i j r hi hr hle => ?_) hv
      (fun s0 hf => (hs0 s0 hf).ge) hb x hx
    · obtain ⟨c, -, rfl⟩ := h.rate_iff.1 hr
      exact val_le (val_gap hk hle)
    · obtain ⟨c, hc, rfl⟩ := h.rate_iff.1 hr
      exact hS i hi j (mem_next.2 ⟨c, hc, val_gap (K := K) hk (by linarith [val_pos (K := K) k])⟩)
  · refine grow_subset (k := k) (fun u hu x hx => ?_) n _ (by simpa using hvl) (hg hx)
    obtain ⟨c, hc, hle⟩ := mem_next.1 hx
    exact hcl u hu x _ (h.rate_iff.2 ⟨c, hc, rfl⟩) (by linarith [val_pos (K := K) k, val_le (K := K) hle])

/-- The basin found from a site that is in no cluster. -/
theorem Gridded.lone (h : Gridded mem sites) {vis : Visitor} {clusters : ClusterContainer K} {v : Int} {l : List Int}
    (hb : Explorer.default.findBasin vis mem sites clusters v = .ok l) (hl : l ≠ []) {s : Site K} (hs : sites.get? v = some s)
    (hu : s.clusterId = unassignedId) : l.Perm [6, 10] ∨ l.Perm [7, 11] := by
  have hs0 : ∀ s0, FirstSlowest mem sites clusters v s0 → s0 = val (level v) := by
    rintro s0 ⟨s', hs', hcase⟩
    change IMap.get? sites v = some s at hs
    rw [hs] at hs'
    obtain rfl := Option.some.inj hs'
    rcases hcase with ⟨-, e⟩ | ⟨hc, -⟩
    · rw [e]; exact h.fastest hs
    · rw [hu] at hc; exact absurd hc (by decide)
  by_cases hv : v ∈ ([6, 7, 10, 11] : List Int)
  · have : v ∈ ([6, 10] : List Int) ∨ v ∈ ([7, 11] : List Int) := by
      simp only [List.mem_cons, List.not_mem_nil, or_false] at hv ⊢
      omega
    have e2 : level v = 2 := by unfold level; rw [if_pos hv]
    rw [e2] at hs0
    rcases this with hv | hv
    · exact .inl (h.exact (n := 1) hb hl le_rfl hs0 (by decide) (by decide) hv ((by decide : ∀ v ∈ ([6, 10] : List Int), ([6, 10] : List Int) ⊆ grow 2 1 [v]) v hv))
    · exact .inr (h.exact (n := 1) hb hl le_rfl hs0 (by decide) (by decide) hv ((by decide : ∀ v ∈ ([7, 11] : List Int), ([7, 11] : List Int) ⊆ grow 2 1 [v]) v hv))
  · exfalso
    obtain hnil | ⟨hlnd, hlen, hvl, -⟩ := C49_basin Explorer.default (by show 1 ≤ 5; omega) vis mem sites clusters v l hb
    · exact absurd hnil hl
    obtain ⟨s0, hfs, -, hcl⟩ := C50_accepted Explorer.default (by show (0 : K) ≤ 19 / 20; norm_num) (by show 1 ≤ 5; omega) vis mem sites
      h.positive clusters v l hb hl
    refine h.wide (s0 := s0) ?_ hcl hlen hvl (h.known hs)
    rw [hs0 s0 hfs]
    unfold level
    rw [if_neg hv]
    exact le_rfl

theorem off_ge {c : Cluster K} {i j : Int} {s : Site K} {a : Addr} (hs : (i, s) ∈ c.sites) (ha : (j, a) ∈ s.neigh)
    (ho : c.siteIsInCluster j = false) : mem a ≤ c.getFastestRateOffCluster mem := by
  have inner0 : ∀ (l : IMap K) (b : K), b ≤ l.foldl (fun best nr => if nr.2 > best then nr.2 else best) b := by
    intro l
    induction l with
    | nil => intro b; exact le_rfl
    | cons x l ih =>
      intro b
      refine le_trans ?_ (ih _)
      dsimp only
      split
      · next h => exact h.le
      · exact le_rfl
  have inner : ∀ (l : IMap K) (b : K), ∀ nr ∈ l, nr.2 ≤ l.foldl (fun best nr => if nr.2 > best then nr.2 else best) b := by
    intro l
    induction l with
    | nil => intro b nr h; cases h
    | cons x l ih =>
      intro b nr h
      rcases List.mem_cons.1 h with rfl | h
      · refine le_trans ?_ (inner0 l _)
        dsimp only
        split
        · exact le_rfl
        · next h => exact not_lt.1 h
      · exact ih _ nr h
  have outer0 : ∀ (l : IMap (IMap K)) (b : K),
      b ≤ l.foldl (fun best ir => ir.2.foldl (fun best nr => if nr.2 > best then nr.2 else best) best) b := by
    intro l
    induction l with
    | nil => intro b; exact le_rfl
    | cons x l ih => intro b; exact le_trans (inner0 x.2 b) (ih _)
  have outer : ∀ (l : IMap (IMap K)) (b : K), ∀ ir ∈ l, ∀ nr ∈ ir.2,
      nr.2 ≤ l.foldl (fun best ir => ir.2.foldl (fun best nr => if nr.2 > best then nr.2 else best) best) b := by
    intro l
    induction l with
    | nil => intro b ir h; cases h
    | cons x l ih =>
      intro b ir h nr hnr
      rcases List.mem_cons.1 h with rfl | h
      · exact le_trans (inner _ b nr hnr) (outer0 l _)
      · exact ih _ ir h nr hnr
  have hmem : (j, mem a) ∈ ((s.neigh.filter fun na => !c.siteIsInCluster na.1).map fun na => (na.1, mem na.2)) :=
    List.mem_map.2 ⟨(j, a), List.mem_filter.2 ⟨ha, by simp [ho]⟩, rfl⟩
  refine outer (c.ratesToNeighbors mem) 0 (i, _) ?_ _ hmem
  unfold Cluster.ratesToNeighbors
  refine List.mem_filter.2 ⟨List.mem_map.2 ⟨(i, s), hs, rfl⟩, ?_⟩
  cases hh : ((s.neigh.filter fun na => !c.siteIsInCluster na.1).map fun na => (na.1, mem na.2)) with
  | nil => rw [hh] at hmem; cases hmem
  | cons => rfl

/-- The fastest rate out of a cluster with the sites `l`. -/
theorem Gridded.off (h : Gridded mem sites) {c : Cluster K} {l : List Int} (hk : c.sites.keys.Perm l)
    (htw : ∀ i t, (i, t) ∈ c.sites → ∃ t', sites.get? i = some t' ∧ t.neigh = t'.neigh) {k : Nat}
    (hle : ∀ ir ∈ kinds, ir.1 ∈ l → ∀ jc ∈ ir.2, jc.1 ∉ l → jc.2 ≤ k) (hge : ∃ ir ∈ kinds, ir.1 ∈ l ∧ ∃ jc ∈ ir.2, jc.1 ∉ l ∧ jc.2 = k) :
    c.getFastestRateOffCluster mem = val k := by
  have hin : ∀ j, c.siteIsInCluster j = false ↔ j ∉ l := by
    intro j
    have : c.siteIsInCluster j = true ↔ j ∈ l := by
      rw [← hk.mem_iff]
      exact IMap.has_iff
    rw [← this]; simp
  refine le_antisymm (Escape.off_le (val_pos k).le fun is his na hna hout => ?_) ?_
  · obtain ⟨i, t⟩ := is
    obtain ⟨t', ht', e⟩ := htw i t his
    obtain ⟨c', hc', e'⟩ := (h.neigh ht').1 na (e ▸ hna)
    rw [e']
    obtain ⟨r, hr, hm⟩ := kind_mem.1 hc'
    exact val_le (hle _ hr (hk.subset (IMap.mem_keys_of_mem his)) _ hm ((hin _).1 hout))
  · obtain ⟨⟨i, r⟩, hr, hi, ⟨j, k'⟩, hm, hj, rfl⟩ := hge
    obtain ⟨⟨i', t⟩, ht, e⟩ := List.mem_map.1 (hk.symm.subset hi)
    simp only at e
    subst e
    obtain ⟨t', ht', e⟩ := htw _ _ ht
    obtain ⟨a, ha, e'⟩ := (h.neigh ht').2 j k' (kind_mem.2 ⟨r, hr, hm⟩)
    rw [← e']
    exact off_ge ht (e ▸ ha) ((hin j).2 hj)

/-- The basin found from a site in one of the clusters. -/
theorem Gridded.joined (h : Gridded mem sites) {vis : Visitor} {clusters : ClusterContainer K} {v : Int} {l : List Int}
    (hb : Explorer.default.findBasin vis mem sites clusters v = .ok l) (hl : l ≠ []) {s : Site K} (hs : sites.get? v = some s)
    (hu : -1 < s.clusterId) {c : Cluster K} (hc : IMap.get? clusters s.clusterId = some c)
    (hk : c.sites.keys.Perm [6, 10] ∨ c.sites.keys.Perm [7, 11] ∨ c.sites.keys.Perm [6, 7, 10, 11])
    (hvk : v ∈ c.sites.keys) (htw : ∀ i t, (i, t) ∈ c.sites → ∃ t', sites.get? i = some t' ∧ t.neigh = t'.neigh) :
    l.Perm [6, 7, 10, 11] ∧ (c.sites.keys.Perm [6, 10] ∨ c.sites.keys.Perm [7, 11]) := by
  have hs0 : ∀ s0, FirstSlowest mem sites clusters v s0 → s0 = c.getFastestRateOffCluster mem := by
    rintro s0 ⟨s', hs', hcase⟩
    change IMap.get? sites v = some s at hs
    rw [hs] at hs'
    obtain rfl := Option.some.inj hs'
    rcases hcase with ⟨hn, -⟩ | ⟨-, c', hc', e⟩
    · exact absurd hu hn
    · rw [hc] at hc'
      obtain rfl := Option.some.inj hc'
      exact e
  have hgrow : ∀ v ∈ ([6, 7, 10, 11] : List Int), ([6, 7, 10, 11] : List Int) ⊆ grow 1 2 [v] := by decide
  rcases hk with hk | hk | hk
  · have e := h.off hk htw (k := 1) (by decide) (by decide)
    have hv4 : v ∈ ([6, 7, 10, 11] : List Int) := (by decide : ([6, 10] : List Int) ⊆ [6, 7, 10, 11]) (hk.subset hvk)
    exact ⟨h.exact (n := 2) hb hl (by omega) (fun s0 hf => (hs0 s0 hf).trans e) (by decide) (by decide) hv4 (hgrow v hv4), .inl hk⟩
  · have e := h.off hk htw (k := 1) (by decide) (by decide)
    have hv4 : v ∈ ([6, 7, 10, 11] : List Int) := (by decide : ([7, 11] : List Int) ⊆ [6, 7, 10, 11]) (hk.subset hvk)
    exact ⟨h.exact (n := 2) hb hl (by omega) (fun s0 hf => (hs0 s0 hf).trans e) (by decide) (by decide) hv4 (hgrow v hv4), .inr hk⟩
  · exfalso
    have e := h.off hk htw (k := 0) (by decide) (by decide)
    obtain hnil | ⟨hlnd, hlen, hvl, -⟩ := C49_basin Explorer.default (by show 1 ≤ 5; omega) vis mem sites clusters v l hb
    · exact absurd hnil hl
    obtain ⟨s0, hfs, -, hcl⟩ := C50_accepted Explorer.default (by show (0 : K) ≤ 19 / 20; norm_num) (by show 1 ≤ 5; omega) vis mem sites
      h.positive clusters v l hb hl
    exact h.wide (s0 := s0) ((hs0 s0 hfs).trans e).le hcl hlen hvl (h.known hs)

end Mythical.Merging
