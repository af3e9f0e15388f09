import Verif.Lemmas.EscapeBasin
import Verif.Props.SystemGrain

/-! # The one cluster of the program that lets electrons escape (for C117) -/

set_option linter.unusedSectionVars false
set_option linter.unusedVariables false

namespace Mythical.Escape
open World SystemSpec ProgramSpec BasinSpec
open _root_.Mythical.ToF (layout memOf)
variable {K : Type} [Field K] [LinearOrder K] [IsStrictOrderedRing K] [FloorRing K]
variable {env : Env K} {mem : Addr → K} {m : IMap (IMap Addr)} {w w' : World K} {n0 : Nat} {evs : List (Event K)}

/-- What holds of the histories that are looked at. -/
structure Calls (mem : Addr → K) (m : IMap (IMap Addr)) (evs : List (Event K)) : Prop where
  hops : HopsReturn evs
  fixed : RatesFixed mem evs
  only : ∀ ev ∈ evs, ∀ m', ev.op = .initializeSystem m' → m' = m ∧ ∃ n, ev.res = .ok n
  ratio : ∀ ev ∈ evs, ∀ r, ev.op = .setPerformanceRatio r → 1 / 5 ≤ r

/-- The references are those to the rates of the program. -/
structure Refers (mem : Addr → K) (m : IMap (IMap Addr)) : Prop where
  fits : Fits mem m
  row : ∀ i row, (i, row) ∈ m → ∃ row', (i, row') ∈ (net : IMap (IMap K)) ∧ (row.map fun na => (na.1, mem na.2)).Perm row'
  all : ∀ i, 1 ≤ i → i ≤ 14 → Mentions m i

theorem net_refers {R' : IMap (IMap K)} (hR : Rearranged R' net) : Refers (memOf R') (layout R') := by
  have hh := ToF.layout_holds R'
  unfold ToFSpec.Holds at hh
  refine ⟨net_fits hR, fun i row hrow => ?_, fun i h1 h2 => ?_⟩
  · have hmem : (i, row.map fun na => (na.1, memOf R' na.2)) ∈ R' := by
      have := List.mem_map_of_mem (f := fun ir : Int × IMap Addr => (ir.1, ir.2.map fun na => (na.1, memOf R' na.2))) hrow
      exact (congrArg (_ ∈ ·) hh).mp this
    obtain ⟨⟨i', row'⟩, hj, e1, hperm⟩ := hR.row.2 _ hmem
    simp only at e1 hperm
    subst e1
    exact ⟨row', hj, hperm⟩
  · obtain ⟨row, hrow⟩ := net_all (K := K) h1 h2
    have e1 : (layout R').map Prod.fst = R'.map Prod.fst := by
      have := congrArg (List.map Prod.fst) hh
      rw [List.map_map] at this
      exact this
    have : i ∈ (layout R').map Prod.fst := by
      rw [e1, hR.row.1.mem_iff]
      exact List.mem_map.2 ⟨_, hrow, rfl⟩
    obtain ⟨⟨i', row'⟩, h, rfl⟩ := List.mem_map.1 this
    exact ⟨_, h, .inl rfl⟩

theorem Calls.positive (h : Calls mem m evs) (hm : Refers mem m) : RatesPositive mem evs := by
  intro ev he m' ho
  obtain ⟨rfl, -⟩ := h.only ev he m' ho
  intro ir hir na hna
  obtain ⟨row', h1, h2⟩ := hm.row ir.1 ir.2 hir
  exact net_pos _ h1 _ (h2.subset (List.mem_map_of_mem (f := fun na : Int × Addr => (na.1, mem na.2)) hna))

theorem Calls.row (h : Calls mem m evs) (hm : Refers mem m) (ht : Trace env (World.new n0) evs w) {i : Int} {s : Site K}
    (hs : w.sites.get? i = some s) : s.neigh.WF ∧ ∃ row, (i, row) ∈ (net : IMap (IMap K)) ∧ (s.neigh.map fun na => (na.1, mem na.2)).Perm row := by
  obtain ⟨hw, -, -⟩ := ht.good h.hops h.fixed (h.positive hm) i s hs
  obtain ⟨ev, he, m', sd, s0, ho, hn, htw, rfl⟩ := (ht.static h.hops).1 i s hs
  obtain ⟨rfl, -⟩ := h.only ev he m' ho
  have hmen : Mentions m' s0.id := by
    refine mentions_iff.2 ?_
    rcases hn with ⟨rates, -, hr, -⟩ | ⟨-, hd⟩
    · exact .inl (IMap.mem_keys_of_mem hr)
    · exact .inr (mem_drains.1 hd).2
  obtain ⟨row, hrow⟩ := hm.fits.closed _ hmen
  have hwr := (hm.fits.proper.2 _ hrow).1
  have hperm := ToF.perm_of_get? hw hwr (by rw [htw.neigh]; exact hn.rates hm.fits.proper.1 hrow hwr)
  obtain ⟨row', h1, h2⟩ := hm.row _ _ hrow
  exact ⟨hw, row', h1, (hperm.map _).trans h2⟩

/-- No cluster, or one of the sites 1 to 5. -/
def Shape (w : World K) : Prop :=
  (w.getClusters = [] ∧ ∀ i s, w.sites.get? i = some s → s.clusterId = unassignedId) ∨
    ∃ c l, w.getClusters = [(c, l)] ∧ l.Perm [1, 2, 3, 4, 5] ∧ ∀ i s, w.sites.get? i = some s → s.clusterId ≠ unassignedId → s.clusterId = c

theorem Shape.keep (h : Shape w) (hst : Struct env w) (hk : Keep env w w') : Shape w' := by
  rcases h with ⟨h1, h2⟩ | ⟨c, l, h1, h2, h3⟩
  · exact .inl ⟨(hk.getClusters hst).trans h1, hk.early h2⟩
  · refine .inr ⟨c, l, (hk.getClusters hst).trans h1, h2, fun i s hs hne => ?_⟩
    obtain ⟨t, ht, hs'⟩ := rel_some (hs ▸ hk.site i)
    have e : s.clusterId = t.clusterId := hs'.clusterId
    rw [e] at hne ⊢
    exact h3 i t ht hne

theorem Shape.adds (h : Shape w) (ha : Adds mem m w w') : Shape w' := by
  have e : w'.getClusters = w.getClusters := by unfold World.getClusters; rw [ha.clusters]
  rcases h with ⟨h1, h2⟩ | ⟨c, l, h1, h2, h3⟩
  · exact .inl ⟨e.trans h1, ha.early h2⟩
  · refine .inr ⟨c, l, e.trans h1, h2, fun i s hs hne => ?_⟩
    rcases ha.sites hs with hs | ⟨-, -, sd, hn⟩
    · exact h3 i s hs hne
    · exact absurd hn.fresh.1 hne

/-- What a successful attempt does. -/
theorem Shape.grained (hsh : Shape w) (hst : Struct env w) (htw : Twins w) (hnet : Netted mem w.sites) (hρ : 1 / 5 ≤ w.perfRatio)
    {a : Choices K} {v : Int} {basin : List Int} (hg : Grained' env mem w w' a v basin)
    (hc : ∀ x ∈ basin, ∀ y ∈ basin, x ≠ y → Reach mem w.sites basin x y → ∃ t ∈ a.times, ∃ t' ≤ t, PathTime mem w.sites basin x y t') :
    Shape w' := by
  have hne := hg.nonempty hst
  obtain hnil | ⟨hnd, -, hv, -⟩ := Basin.C49_basin Explorer.default (by show 1 ≤ 5; omega) a.vis mem w.sites w.clusters v basin hg.found
  · exact absurd hnil hne
  have hknown : ∀ i ∈ basin, w.sites.get? i ≠ none := by
    cases hg.grew with
    | created c0 hb h => intro i hi; obtain ⟨s, hs, -⟩ := h.lone i hi; rw [hs]; simp
    | merged sc fav c d erased _ _ _ _ h => exact h.known
  obtain ⟨s, hs⟩ := Option.ne_none_iff_exists'.1 (hknown v hv)
  rcases hsh with ⟨h1, h2⟩ | ⟨c, l, h1, h2, h3⟩
  · have hcl : w.clusters = [] := List.map_eq_nil_iff.1 h1
    obtain ⟨-, h5 | h24⟩ := hnet.lone hg.found hne hs (h2 v s hs)
    · cases hg.grew with
      | merged sc fav c d erased _ _ _ _ h => have := h.target; rw [hcl] at this; cases this
      | created c0 hb h =>
        refine .inr ⟨w.nextId, (w.seedCluster c0).getSiteIdsInCluster, ?_, (h.perm hst).trans h5, fun i s' hs' hne' => ?_⟩
        · unfold World.getClusters
          rw [h.eq]
          show ClusterContainer.getSiteIdsOfClusters (IMap.set w.clusters w.nextId (w.seedCluster c0)) = _
          rw [hcl]
          rfl
        · rw [h.site] at hs'
          split at hs'
          · obtain ⟨t, -, rfl⟩ := Option.map_eq_some_iff.1 hs'
            rfl
          · exact absurd (h2 i s' hs') hne'
    · exfalso
      have m4 : (4 : Int) ∈ basin := h24.symm.subset (by simp)
      have m2 : (2 : Int) ∈ basin := h24.symm.subset (by simp)
      obtain ⟨t, ht, t', htt, hp⟩ := hc 4 m4 2 m2 (by decide) (.hop .start m2 (1 / 1) (hnet.rate_of net4 (by simp)))
      have hM : 1 ≤ maxTime a.times := by
        have := (maxTime_spec a.times).1 t ht
        rcases (hnet.way hp).2 with e | e
        · exact absurd e (by decide)
        · linarith
      obtain ⟨res, -, -, h3⟩ := satisfies_true (fun i s hs => hnet.neighWF i s hs) hg.sat
      obtain ⟨s2, hs2⟩ := Option.ne_none_iff_exists'.1 (hknown 2 m2)
      obtain ⟨s4, hs4⟩ := Option.ne_none_iff_exists'.1 (hknown 4 m4)
      have he : exitRate mem w basin = 361 / 120 := by
        rw [exitRate_perm h24]
        unfold exitRate ratesOf
        simp only [List.map_cons, List.map_nil, hs2, hs4]
        rw [hnet.out hs2 net2, hnet.out hs4 net4]
        simp
        norm_num
      have hq : 2 / 5 ≤ 2 * maxTime a.times * w.perfRatio := by nlinarith
      rw [he] at h3
      rcases h3 with ⟨h3, -⟩ | ⟨-, h3⟩
      · norm_num at h3
      · norm_num at h3; linarith
  · exfalso
    obtain ⟨x, hx⟩ : ∃ x, w.clusters = [(c, x)] := by
      unfold World.getClusters ClusterContainer.getSiteIdsOfClusters at h1
      obtain ⟨⟨c', x⟩, hcl, e⟩ := List.map_eq_singleton_iff.1 h1
      simp only [Prod.mk.injEq] at e
      obtain ⟨rfl, -⟩ := e
      exact ⟨x, hcl⟩
    have hget : w.clusters.get? c = some x := by rw [hx]; simp [IMap.get?]
    have hkeys : x.sites.keys.Perm [1, 2, 3, 4, 5] := by
      unfold World.getClusters ClusterContainer.getSiteIdsOfClusters at h1
      rw [hx] at h1
      simp only [List.map_cons, List.map_nil, List.cons.injEq, Prod.mk.injEq, and_true, true_and] at h1
      rw [← h1] at h2
      exact h2
    have hall5 : ∀ i ∈ ([1, 2, 3, 4, 5] : List Int), ∀ t, w.sites.get? i = some t → t.clusterId ≠ unassignedId := by
      intro i hi t ht
      obtain ⟨q, hq⟩ := Option.isSome_iff_exists.1 (IMap.get?_isSome_iff.2 (hkeys.symm.subset hi))
      obtain ⟨-, t', ht', hn⟩ := hst.member c x i q hget hq
      rw [ht] at ht'
      obtain rfl := Option.some.inj ht'
      exact hn
    by_cases hu : s.clusterId = unassignedId
    · obtain ⟨-, h5 | h24⟩ := hnet.lone hg.found hne hs hu
      · exact hall5 v (h5.subset hv) s hs hu
      · exact hall5 v (by have := h24.subset hv; simp only [List.mem_cons, List.not_mem_nil, or_false] at this ⊢; omega) s hs hu
    · have ec := h3 v s hs hu
      obtain ⟨-, j1, -, j2⟩ := hst.joined v s hs hu
      have hget' : w.clusters.get? s.clusterId = some x := by rw [ec]; exact hget
      refine hne (hnet.joined hg.found hs (by omega) hget' hkeys (IMap.get?_isSome_iff.1 (Option.isSome_iff_ne_none.2 (j2 x hget'))) fun i t hit => ?_)
      obtain ⟨evs, hev⟩ := hst.trace c x hget
      have hwf : x.sites.WF := ((Cluster.CInv.new c).trace hev).sites
      have hi := IMap.get?_of_mem hwf hit
      obtain ⟨-, t', ht', -⟩ := hst.member c x i t hget hi
      exact ⟨t', ht', (htw c x i t t' hget hi ht').neigh⟩

/-- All histories with the rates of the program and a performance ratio of at least 1/5. -/
theorem trace_shape (hm : Refers mem m) (ht : Trace env (World.new n0) evs w) (h : Calls mem m evs) (hcov : TimesCover evs) :
    Shape w ∧ 1 / 5 ≤ w.perfRatio ∧ (w.sites = [] ∨ ∀ i, 1 ≤ i → i ≤ 14 → w.sites.get? i ≠ none) := by
  generalize hw0 : (World.new n0 : World K) = w0 at ht
  induction ht with
  | nil =>
    subst hw0
    exact ⟨.inl ⟨rfl, fun i s hs => (by cases hs)⟩, by show (1 / 5 : K) ≤ 1; norm_num, .inl rfl⟩
  | @snoc w1 w' evs op res mem' ht hstep hr ih =>
    subst hw0
    have h1 : Calls mem m evs := ⟨fun ev he => h.hops ev (List.mem_append_left _ he), fun ev he => h.fixed ev (List.mem_append_left _ he),
      fun ev he => h.only ev (List.mem_append_left _ he), fun ev he => h.ratio ev (List.mem_append_left _ he)⟩
    have hlast : (⟨w1, mem', op, res, w'⟩ : Event K) ∈ evs ++ [⟨w1, mem', op, res, w'⟩] := List.mem_append_right _ (List.mem_singleton_self _)
    obtain ⟨i1, i2, i3⟩ := ih h1 (fun ev he => hcov ev (List.mem_append_left _ he))
    have hmem : mem' = mem := h.fixed _ hlast
    subst hmem
    obtain ⟨-, hu2⟩ := hopsReturn_snoc h.hops
    have hst := ht.struct h1.hops
    have htw := (ht.static h1.hops).2
    have hρ : 1 / 5 ≤ w'.perfRatio := by
      rcases step_ratio hst hstep hr hu2 with e | ⟨r, rfl, e⟩
      · rw [e]; exact i2
      · rw [e]; exact h.ratio _ hlast r rfl
    have keys : ∀ {w2 : World K}, w2.sites.keys = w1.sites.keys → (w2.sites = [] ∨ ∀ i, 1 ≤ i → i ≤ 14 → w2.sites.get? i ≠ none) := by
      intro w2 e
      rcases i3 with i3 | i3
      · left
        rw [i3] at e
        exact List.map_eq_nil_iff.1 e
      · right
        intro i a b
        have := i3 i a b
        rw [← Option.isSome_iff_ne_none, IMap.get?_isSome_iff] at this ⊢
        rw [e]; exact this
    rcases step_cases hst hstep hr hu2 with hk | ⟨m', rfl, ha⟩ | ⟨wid, k, a, j, w1', w2, w3, basin, rfl, hmove, hk, rfl, hg, rfl⟩
    · exact ⟨i1.keep hst hk, hρ, keys hk.siteKeys⟩
    · refine ⟨i1.adds ha, hρ, .inr fun i a b => ?_⟩
      obtain ⟨rfl, n, hn⟩ := h.only _ hlast m' rfl
      simp only at hn
      subst hn
      simp only [World.step, Prod.mk.injEq] at hstep
      have hok : w1.initializeSystem mem' m' = (.ok (), w') := by
        refine Prod.ext ?_ hstep.2
        cases hh : (w1.initializeSystem mem' m').1 with
        | ok u => rfl
        | error e => rw [hh] at hstep; cases hstep.1
      exact ((initializeSystem_known hok i).1).2 (.inr (mentions_iff.1 (hm.all i a b)))
    · have hk2 : Keep env w1 { w1' with iteration := w1'.iteration + 1 } := hk.trans (.of_eq rfl rfl rfl le_rfl)
      have st2 := hst.keep hk2
      have hkn := keys hk2.siteKeys
      have hne := hg.nonempty st2
      have hsites : w1'.sites ≠ [] := by
        intro e
        obtain ⟨i, hi⟩ := List.exists_mem_of_ne_nil _ hne
        have : w1'.sites.get? i ≠ none := by
          cases hg.grew with
          | created c0 hb h => obtain ⟨s, hs, -⟩ := h.lone i hi; exact fun e => by rw [show w1'.sites.get? i = some s from hs] at e; cases e
          | merged sc fav c d erased _ _ _ _ h => exact h.known i hi
        rw [e] at this
        exact this rfl
      have hall : ∀ i, 1 ≤ i → i ≤ 14 → w1'.sites.get? i ≠ none := by
        rcases hkn with e | e
        · exact absurd e hsites
        · exact e
      have hnet : Netted mem' w1'.sites := by
        refine ⟨fun i s hs => ?_, fun i s hs => ?_, hall⟩
        · obtain ⟨t, ht', hs'⟩ := hk.twin hs
          rw [hs'.neigh]; exact (h1.row hm ht ht').1
        · obtain ⟨t, ht', hs'⟩ := hk.twin hs
          rw [hs'.neigh]; exact (h1.row hm ht ht').2
      have hρ' : 1 / 5 ≤ w1'.perfRatio := by
        have : w1'.perfRatio = w1.perfRatio := by obtain ⟨S, C, W, rfl⟩ := hopMove_outer hmove; rfl
        rw [this]; exact i2
      have hsh := (i1.keep hst hk2).grained st2 (htw.keep hst hk2) hnet hρ' hg (hcov _ hlast wid k a j w1' basin rfl hmove hg.found)
      refine ⟨hsh, hρ, .inr fun i a b => ?_⟩
      have hi := hall i a b
      obtain ⟨s, hs⟩ := Option.ne_none_iff_exists'.1 hi
      show w3.sites.get? i ≠ none
      cases hg.grew with
      | created c0 hb h =>
        rw [h.site]
        show (if i ∈ basin then Option.map _ (w1'.sites.get? i) else w1'.sites.get? i) ≠ none
        rw [hs]; split <;> simp
      | merged sc fav c d erased _ _ _ _ h =>
        rw [h.site]
        show (if i ∈ basin then Option.map _ (w1'.sites.get? i) else w1'.sites.get? i) ≠ none
        rw [hs]; split <;> simp

/-! ## What the calls of a block keep -/

/-- The maps and ratios that the calls of a block give to the library. -/
def Mine (m : IMap (IMap Addr)) (ratio : Option K) (op : Op K) : Prop :=
  (∀ m', op = .initializeSystem m' → m' = m) ∧ ∀ q, op = .setPerformanceRatio q → ratio = some q

theorem block_ops {P : ToF.Prog K → Prop} {luck : Luck K} {ratio : Option K} {threshold : Int} {n r : Nat} {p : ToF.Prog K} {pb : ToF.Prog K × Books K}
    (hP : ∀ p op p', Mine m ratio op → P p → p.call env mem op = .ok p' → P p')
    (e : block env mem m ratio threshold luck n r p = .ok pb) (h0 : P p) : P pb.1 := by
  unfold block at e
  obtain ⟨p1, e1, ef⟩ := bind_eq_ok.1 e
  have h1 : P p1 := by
    unfold system at e1
    obtain ⟨q1, c1, e1⟩ := bind_eq_ok.1 e1
    obtain ⟨q2, c2, e1⟩ := bind_eq_ok.1 e1
    obtain ⟨q3, c3, e1⟩ := bind_eq_ok.1 e1
    obtain ⟨q4, c4, c5⟩ := bind_eq_ok.1 e1
    have g1 : P q1 := hP _ _ _ (by constructor <;> intro _ e <;> cases e) h0 c1
    have : P q2 := by
      cases ratio with
      | none => rw [← ok_inj.1 c2]; exact g1
      | some q =>
        exact hP _ _ _ ⟨(by intro _ e; cases e), fun q' e => by cases e; rfl⟩ g1 (show q1.call env mem (.setPerformanceRatio q) = .ok q2 from c2)
    exact hP _ _ _ ⟨fun m' e => by cases e; rfl, by intro _ e; cases e⟩
      (hP _ _ _ (by constructor <;> intro _ e <;> cases e) (hP _ _ _ (by constructor <;> intro _ e <;> cases e) this c3) c4) c5
  have hroam : ∀ (r : Nat) (h : Int) (p : ToF.Prog K) (b : Books K) (total : K) (x : ToF.Prog K × Books K × K),
      roam env mem luck h r p b total = .ok x → P p → P x.1 := by
    intro r h
    induction r with
    | zero =>
      intro p b total x e h0
      unfold roam at e
      obtain ⟨y, -, e⟩ := bind_eq_ok.1 e
      obtain ⟨i, -, e⟩ := bind_eq_ok.1 e
      split at e
      · cases e
      · rw [← ok_inj.1 e]; exact h0
    | succ r ih =>
      intro p b total x e h0
      unfold roam at e
      obtain ⟨y, -, e⟩ := bind_eq_ok.1 e
      obtain ⟨i, -, e⟩ := bind_eq_ok.1 e
      split at e
      · obtain ⟨⟨p1, b1, total1⟩, e1, e⟩ := bind_eq_ok.1 e
        unfold hopOnce at e1
        obtain ⟨p2, c, e1⟩ := bind_eq_ok.1 e1
        obtain ⟨z, -, e1⟩ := bind_eq_ok.1 e1
        obtain ⟨j, -, e1⟩ := bind_eq_ok.1 e1
        obtain ⟨hops, -, e1⟩ := bind_eq_ok.1 e1
        obtain ⟨times, -, e1⟩ := bind_eq_ok.1 e1
        have e1 := ok_inj.1 e1
        simp only [Prod.mk.injEq] at e1
        refine ih _ _ _ _ e ?_
        rw [← e1.1]
        exact hP _ _ _ (by constructor <;> intro _ e <;> cases e) h0 c
      · rw [← ok_inj.1 e]; exact h0
  clear e1 e
  induction n generalizing pb with
  | zero => rw [← ok_inj.1 ef]; exact h1
  | succ n ih =>
    rw [List.range_succ, List.foldlM_append] at ef
    obtain ⟨pb1, e1, e⟩ := bind_eq_ok.1 ef
    simp only [List.foldlM_cons, List.foldlM_nil] at e
    obtain ⟨pb2, e2, e⟩ := bind_eq_ok.1 e
    rw [← ok_inj.1 e]
    unfold electron at e2
    obtain ⟨p1, c1, e2⟩ := bind_eq_ok.1 e2
    obtain ⟨p2, c2, e2⟩ := bind_eq_ok.1 e2
    obtain ⟨p3, c3, e2⟩ := bind_eq_ok.1 e2
    obtain ⟨⟨p4, b4, total⟩, e4, e2⟩ := bind_eq_ok.1 e2
    dsimp only at e2
    obtain ⟨p5, c5, e2⟩ := bind_eq_ok.1 e2
    rw [← ok_inj.1 e2]
    exact hP _ _ _ (by constructor <;> intro _ e <;> cases e) (hroam _ _ _ _ _ _ e4
      (hP _ _ _ (by constructor <;> intro _ e <;> cases e) (hP _ _ _ (by constructor <;> intro _ e <;> cases e)
        (hP _ _ _ (by constructor <;> intro _ e <;> cases e) (ih e1) c1) c2) c3)) c5

/-- So it is after each call. -/
theorem trace_shapes (hm : Refers mem m) (ht : Trace env (World.new n0) evs w) (h : Calls mem m evs) (hcov : TimesCover evs) :
    ∀ ev ∈ evs, Shape ev.post := by
  generalize hw0 : (World.new n0 : World K) = w0 at ht
  induction ht with
  | nil => intro ev hev; cases hev
  | @snoc w1 w' evs op res mem' ht hstep hr ih =>
    subst hw0
    intro ev hev
    rcases List.mem_append.1 hev with hev | hev
    · exact ih ⟨fun ev he => h.hops ev (List.mem_append_left _ he), fun ev he => h.fixed ev (List.mem_append_left _ he),
        fun ev he => h.only ev (List.mem_append_left _ he), fun ev he => h.ratio ev (List.mem_append_left _ he)⟩
        (fun ev he => hcov ev (List.mem_append_left _ he)) ev hev
    · rw [List.mem_singleton.1 hev]
      exact (trace_shape hm (.snoc mem' ht hstep hr) h hcov).1

/-- The calls of a block. -/
theorem block_calls {luck : Luck K} {ratio : Option K} (hq : ∀ q, ratio = some q → 1 / 5 ≤ q) {threshold : Int} {n r : Nat} {pb : ToF.Prog K × Books K}
    (e : block env mem m ratio threshold luck n r ⟨World.new n0, []⟩ = .ok pb) :
    Trace env (World.new n0) pb.1.calls pb.1.world ∧ Calls mem m pb.1.calls := by
  have hP := block_ops (P := fun p => Trace env (World.new n0) p.calls p.world ∧ Calls mem m p.calls)
    (fun p op p' hop h hc => by
      obtain ⟨r, h1, h2⟩ := ToF.call_ok hc
      rw [h2]
      have cases' : ∀ ev ∈ p.calls ++ [(⟨p.world, mem, op, .ok r, p'.world⟩ : Event K)], ev ∈ p.calls ∨ ev = ⟨p.world, mem, op, .ok r, p'.world⟩ := by
        intro ev hev
        rcases List.mem_append.1 hev with hev | hev
        · exact .inl hev
        · exact .inr (List.mem_singleton.1 hev)
      refine ⟨.snoc mem h.1 h1 trivial, fun ev hev wid k a ho => ?_, fun ev hev => ?_, fun ev hev m' ho => ?_, fun ev hev q ho => ?_⟩
      · rcases cases' ev hev with hev | rfl
        · exact h.2.hops ev hev wid k a ho
        · exact ⟨r, rfl⟩
      · rcases cases' ev hev with hev | rfl
        · exact h.2.fixed ev hev
        · rfl
      · rcases cases' ev hev with hev | rfl
        · exact h.2.only ev hev m' ho
        · exact ⟨hop.1 m' ho, r, rfl⟩
      · rcases cases' ev hev with hev | rfl
        · exact h.2.ratio ev hev q ho
        · exact hq q (hop.2 q ho)) e ⟨.nil _, fun ev hev => (by cases hev), fun ev hev => (by cases hev), fun ev hev => (by cases hev), fun ev hev => (by cases hev)⟩
  exact hP

end Mythical.Escape
