import Verif.Lemmas.SystemKnown

/-! # The seeds of sites and clusters -/

set_option linter.unusedSectionVars false
set_option linter.unusedVariables false

namespace Mythical.World
open Mythical SystemSpec
variable {K : Type} [Field K] [LinearOrder K] [IsStrictOrderedRing K] [FloorRing K]
variable {w w' w1 w2 : World K} {env : Env K} {mem : Addr → K}

/-! ## Merging keeps the settings of the surviving cluster -/

theorem mergeClusters_frame' {fav : Int} {cids : List Int} {c : Cluster K} (hf : fav ∉ cids)
    (hw : w.clusters.WF) (hc : w.clusters.get? fav = some c) (h : mergeClusters env mem fav w cids = (.ok (), w')) :
    ∃ d, w'.clusters.get? fav = some d ∧ Cluster.Frame c d := by
  induction cids generalizing w c with
  | nil =>
    unfold mergeClusters at h
    simp only [Prod.mk.injEq, true_and] at h
    subst h
    exact ⟨c, hc, .refl c⟩
  | cons k cids ih =>
    rw [List.mem_cons, not_or] at hf
    unfold mergeClusters at h
    split at h
    · simp at h
    · simp at h
    · next c0 src hc0 hsrc =>
      have hc0 := getCluster_ok hc0
      rw [hc] at hc0; cases hc0
      split at h
      · simp at h
      · next u c' src' hm =>
        have hfr := Cluster.migrate_frame (env := env) (mem := mem) (c := c) src
        rw [hm] at hfr
        have hw' : IMap.WF (w.clusters.put fav c') := IMap.WF.set hw fav c'
        obtain ⟨d, hd, hcd⟩ := ih (w := { w with clusters := (w.clusters.put fav c').erase k }) hf.2
          (IMap.WF.erase hw' k) (by
            show IMap.get? (IMap.erase (IMap.set w.clusters fav c') k) fav = some c'
            rw [IMap.get?_erase (IMap.WF.set hw fav c'), if_neg (Ne.symm hf.1), IMap.get?_set_self]) h
        exact ⟨d, hd, hfr.trans hcd⟩

theorem merge_frame' (hst : Struct env w) {order : List Int → List Int} (hord : ∀ l, (order l).Perm l) {sc : IMap Int}
    {basin : List Int} {fav : Int} (hsc : w.clustersOfSites basin [] = .ok sc)
    (h : merge env mem w order sc fav = (.ok (), w')) :
    ∃ c d, w.clusters.get? fav = some c ∧ w'.clusters.get? fav = some d ∧ Cluster.Frame c d := by
  obtain ⟨iso, cids, w1, c, c1, c2, hm, hc, h1, h2, h3⟩ := merge_steps h
  obtain ⟨hscw, hget, hknown⟩ := clustersOfSites_ok hst (acc := []) List.nodup_nil hsc
  obtain ⟨ha, -, hcids, hcn, -⟩ := mergeCollect_ok hscw hm
  have hcl : w1.clusters = w.clusters := by rw [ha.eq]
  have huf := Cluster.update_frame (env := env) (mem := mem) c1
  rw [h2] at huf
  obtain ⟨d, hd, hcd⟩ := mergeClusters_frame' (w := { w1 with clusters := IMap.set w1.clusters fav c2 }) (c := c2)
    (fun hm => by
      have := (hord cids).mem_iff.1 hm
      rw [hcids] at this
      simp at this) (by show IMap.WF (IMap.set w1.clusters fav c2); rw [hcl]; exact IMap.WF.set hst.clustersWF _ _)
    (by show IMap.get? (IMap.set w1.clusters fav c2) fav = _; exact IMap.get?_set_self ..) h3
  rw [hcl] at hc
  exact ⟨c, d, hc, hd, ((Cluster.addSites_frame h1).trans huf).trans hcd⟩

/-! ## What a call does to the seed of the system -/

/-- The four kinds of calls. -/
theorem step_seeds (hst : Struct env w) {op : Op K} {res : Except Fault Int} (h : w.step env mem op = (res, w'))
    (hr : Cluster.GoesOn res) (hhop : ∀ wid h a, op = .hop wid h a → ∃ n, res = .ok n) :
    (Keep env w w' ∧ w'.seed = w.seed) ∨
    (∃ n, op = .setRandomSeed n ∧ w.feats = [] ∧ res = .ok 0 ∧ w' = { w with seed := some (n % 2 ^ 64) }) ∨
    (∃ m, op = .initializeSystem m ∧ w' = (w.initializeSystem mem m).2) ∨
    ∃ wid h a j w1 w2 w3 basin, op = .hop wid h a ∧ w.hopMove wid h a = .ok (j, w1) ∧ Keep env w w1 ∧ w1.seed = w.seed ∧
      w2 = { w1 with iteration := w1.iteration + 1 } ∧ Grained' env mem w2 w3 a j basin ∧
      w' = { w3 with threshold := w3.thresholdMin, iteration := 0 } := by
  cases op with
  | setRandomSeed n =>
    simp only [step, Prod.mk.injEq] at h
    obtain ⟨h1, h2⟩ := h
    unfold World.setRandomSeed at h1 h2
    split at h2
    · subst h2; exact .inl ⟨.refl w, rfl⟩
    · next hf =>
      rw [if_neg hf] at h1
      refine .inr (.inl ⟨n, rfl, ?_, h1.symm, h2.symm⟩)
      simpa using hf
  | initializeSystem m =>
    simp only [step, Prod.mk.injEq] at h
    exact .inr (.inr (.inl ⟨m, rfl, h.2.symm⟩))
  | hop wid k a =>
    obtain ⟨n, rfl⟩ := hhop wid k a rfl
    simp only [step, Prod.mk.injEq] at h
    obtain ⟨h1, h2⟩ := h
    have hret : w.hop env mem wid k a = (.ok (), w') := by
      refine Prod.ext ?_ h2
      cases hh : (w.hop env mem wid k a).1 with
      | ok u => rfl
      | error e => rw [hh] at h1; cases h1
    obtain ⟨j, w1, hm, hc⟩ := hop_ok hret
    have hk : Keep env w w1 := hst.hopMove_keep hm
    have hsd : w1.seed = w.seed := by obtain ⟨S, C, W, rfl⟩ := hopMove_outer hm; rfl
    obtain ⟨-, h⟩ := hopCount_ok (hst.keep hk) hc
    rcases h with ⟨-, rfl⟩ | ⟨-, -, rfl⟩ | ⟨-, -, -, -, rfl⟩ | ⟨-, -, w3, basin, -, hg, rfl⟩
    · exact .inl ⟨hk.trans (.of_eq rfl rfl rfl le_rfl), hsd⟩
    · exact .inl ⟨hk.trans (.of_eq rfl rfl rfl le_rfl), hsd⟩
    · exact .inl ⟨hk.trans (.of_eq rfl rfl rfl le_rfl), hsd⟩
    · refine .inr (.inr (.inr ⟨wid, k, a, j, w1, _, w3, basin, rfl, hm, hk, hsd, rfl, hg, ?_⟩))
      have hmin : w3.thresholdMin = w1.thresholdMin := by
        cases hg.grew with
        | created c0 hb h => rw [h.eq]
        | merged sc fav c d erased _ _ _ _ h => rw [h.eq]
      simp only [hmin]
  | _ =>
    rcases step_cases hst h hr hhop with hk | ⟨m, e, -⟩ | ⟨wid, k, a, j, w1, w2, w3, basin, e, -⟩
    · refine .inl ⟨hk, ?_⟩
      simp only [step] at h
      first
        | (simp only [Prod.mk.injEq] at h; rw [← h.2]; rfl)
        | (simp only [Prod.mk.injEq] at h; rw [← h.2]; unfold World.setTimeResolution; split <;> rfl)
        | (simp only [Prod.mk.injEq] at h; rw [← h.2]; obtain ⟨S, C, W, e⟩ := initializeWalkers_outer (w := w); rw [e])
        | (simp only [simple] at h
           split at h
           · next w1 h1 =>
             simp only [Prod.mk.injEq] at h
             obtain ⟨x, -, h1⟩ := bind_eq_ok.1 h1
             cases h1
             rw [← h.2]
           · simp only [Prod.mk.injEq] at h; rw [← h.2])
        | (simp only [simple] at h
           split at h
           · next w1 h1 =>
             simp only [Prod.mk.injEq] at h
             rw [← h.2]
             obtain ⟨S, C, rfl⟩ := removeWalker_inner h1
             rfl
           · simp only [Prod.mk.injEq] at h; rw [← h.2])
        | (split at h <;> simp only [Prod.mk.injEq] at h <;> rw [← h.2])
        | (obtain ⟨S, C, rfl⟩ := (hst.getVisitFrequencyOfSite_step h hr).inner; rfl)
    · cases e
    · cases e

/-! ## The seeds handed out since `setRandomSeed n` -/

/-- `k` seeds have been handed out since `setRandomSeed n`. -/
structure Seeded (n k : Nat) (w : World K) : Prop where
  seed : w.seed = some ((n + k) % 2 ^ 64)
  lab : ∃ f : Int ⊕ Int → Nat, (∀ o, Streams w o → f o < k ∧ seedOf w o = some ((n + f o) % 2 ^ 32)) ∧
    ∀ o o', Streams w o → Streams w o' → f o = f o' → o = o'

theorem Seeded.mono {n k : Nat} (h : Seeded n k w) (hs : w'.seed = w.seed)
    (ho : ∀ o, Streams w' o → Streams w o ∧ seedOf w' o = seedOf w o) : Seeded n k w' := by
  obtain ⟨f, h1, h2⟩ := h.lab
  refine ⟨hs.trans h.seed, f, ?_, ?_⟩
  · intro o h'
    rw [(ho o h').2]; exact h1 o (ho o h').1
  · intro o o' ho1 ho2; exact h2 o o' (ho o ho1).1 (ho o' ho2).1

theorem Seeded.next {n k : Nat} (h : Seeded n k w) : w.nextSeed = some ((n + (k + 1)) % 2 ^ 64) := by
  unfold nextSeed
  rw [h.seed, Option.map_some, Nat.mod_add_mod, Nat.add_assoc]

theorem Seeded.skip {n k : Nat} (h : Seeded n k w) (hs : w'.seed = w.nextSeed)
    (ho : ∀ o, Streams w' o → Streams w o ∧ seedOf w' o = seedOf w o) : Seeded n (k + 1) w' := by
  obtain ⟨f, h1, h2⟩ := h.lab
  refine ⟨hs.trans h.next, f, ?_, ?_⟩
  · intro o h'
    rw [(ho o h').2]
    have := h1 o (ho o h').1
    exact ⟨Nat.lt_succ_of_lt this.1, this.2⟩
  · intro o o' ho1 ho2; exact h2 o o' (ho o ho1).1 (ho o' ho2).1

open Classical in
theorem Seeded.give {n k : Nat} (h : Seeded n k w) (hs : w'.seed = w.nextSeed) (o0 : Int ⊕ Int)
    (h0 : seedOf w' o0 = w.seed.map (· % 2 ^ 32))
    (ho : ∀ o, o ≠ o0 → Streams w' o → Streams w o ∧ seedOf w' o = seedOf w o) : Seeded n (k + 1) w' := by
  obtain ⟨f, h1, h2⟩ := h.lab
  refine ⟨hs.trans h.next, fun o => if o = o0 then k else f o, ?_, ?_⟩
  · intro o h'
    by_cases e : o = o0
    · subst e
      simp only [if_true]
      refine ⟨Nat.lt_succ_self k, ?_⟩
      rw [h0, h.seed, Option.map_some]
      exact congrArg some (Nat.mod_mod_of_dvd _ (by norm_num))
    · simp only [if_neg e]
      rw [(ho o e h').2]
      have := h1 o (ho o e h').1
      exact ⟨Nat.lt_succ_of_lt this.1, this.2⟩
  · intro o o' ho1 ho2 hf
    by_cases e : o = o0
    · by_cases e' : o' = o0
      · rw [e, e']
      · simp only [if_pos e, if_neg e'] at hf
        have := (h1 o' (ho o' e' ho2).1).1
        omega
    · by_cases e' : o' = o0
      · simp only [if_neg e, if_pos e'] at hf
        have := (h1 o (ho o e ho1).1).1
        omega
      · simp only [if_neg e, if_neg e'] at hf
        exact h2 o o' (ho o e ho1).1 (ho o' e' ho2).1 hf

theorem streams_inl {i : Int} : Streams w (.inl i) ↔ ∃ s, w.sites.get? i = some s ∧ s.neigh ≠ [] := by
  unfold Streams ratesOf
  cases h : w.sites.get? i <;> simp [h]

theorem streams_inr {c : Int} : Streams w (.inr c) ↔ ∃ x, w.clusters.get? c = some x := exists_iff

theorem Seeded.keep {n k : Nat} (h : Seeded n k w) (hk : Keep env w w') (hs : w'.seed = w.seed) : Seeded n k w' := by
  refine h.mono hs ?_
  rintro (i | c) ho
  · obtain ⟨s, hs, hn⟩ := streams_inl.1 ho
    obtain ⟨t, ht, hts⟩ := rel_some (hs ▸ hk.site i)
    refine ⟨streams_inl.2 ⟨t, ht, by rw [← hts.neigh]; exact hn⟩, ?_⟩
    simp only [seedOf, hs, ht, Option.bind_some]
    exact hts.twin.seed.symm ▸ rfl
  · obtain ⟨x, hx⟩ := streams_inr.1 ho
    obtain ⟨y, hy, hxy⟩ := rel_some (hx ▸ hk.cluster c)
    refine ⟨streams_inr.2 ⟨y, hy⟩, ?_⟩
    simp only [seedOf, hx, hy, Option.bind_some]
    rw [hxy.eq]

theorem Seeded.initSite {n k : Nat} (h : Seeded n k w) (id : Int) (rates : IMap Addr) :
    ∃ k' ≤ k + 1, Seeded n k' (initSite mem w id rates).2 := by
  unfold World.initSite
  split
  · exact ⟨k, Nat.le_succ k, h⟩
  · next s hs =>
    have hk := setRates_keep hs
    have hid : s.id = id := by rw [hk]; rfl
    have hse : s.seed = none := by rw [hk]; rfl
    have e := seedSite_eq w s hse
    have hid' : (w.seedSite s).id = id := by rw [e]; exact hid
    refine ⟨k + 1, le_rfl, ?_⟩
    split
    · exact h.skip rfl fun o ho => ⟨ho, rfl⟩
    · next S hS =>
      obtain ⟨h1, h2⟩ := addSite_ok hS
      rw [hid'] at h1 h2
      subst h2
      refine h.give rfl (.inl id) ?_ ?_
      · show (IMap.get? (IMap.set w.sites id (w.seedSite s)) id).bind (·.seed) = _
        rw [IMap.get?_set_self, e]; rfl
      · rintro (i | c) hne ho
        · have hi : id ≠ i := fun e => hne (by rw [e])
          obtain ⟨t, ht, hn⟩ := streams_inl.1 ho
          change IMap.get? (IMap.set w.sites id (w.seedSite s)) i = some t at ht
          have hset : IMap.get? (IMap.set w.sites id (w.seedSite s)) i = IMap.get? w.sites i := by
            rw [IMap.get?_set, if_neg hi]
          refine ⟨streams_inl.2 ⟨t, hset ▸ ht, hn⟩, ?_⟩
          show (IMap.get? (IMap.set w.sites id (w.seedSite s)) i).bind (·.seed) = (w.sites.get? i).bind (·.seed)
          rw [hset]
        · exact ⟨ho, rfl⟩

theorem Seeded.initSites {n k : Nat} (h : Seeded n k w) (l : List (Int × IMap Addr)) :
    ∃ k' ≤ k + l.length, Seeded n k' (initSites mem w l).2 := by
  induction l generalizing w k with
  | nil => exact ⟨k, le_rfl, h⟩
  | cons a l ih =>
    obtain ⟨id, rates⟩ := a
    obtain ⟨k1, hk1, h1⟩ := h.initSite (mem := mem) id rates
    unfold World.initSites
    split
    · next he => rw [he] at h1; exact ⟨k1, by simp only [List.length_cons]; omega, h1⟩
    · next u w1 he =>
      rw [he] at h1
      obtain ⟨k2, hk2, h2⟩ := ih h1
      exact ⟨k2, by simp only [List.length_cons]; omega, h2⟩

theorem Seeded.initDrains {n k : Nat} (h : Seeded n k w) (l : List Int) : Seeded n k (initDrains w l).2 := by
  induction l generalizing w with
  | nil => exact h
  | cons id l ih =>
    unfold World.initDrains
    split
    · exact h
    · next u S hS =>
      obtain ⟨hn, e⟩ := addSite_ok hS
      apply ih
      refine h.mono rfl ?_
      rintro (i | c) ho
      · obtain ⟨t, ht, hne⟩ := streams_inl.1 ho
        change IMap.get? S i = some t at ht
        have hi : (Site.new id : Site K).id ≠ i := by
          rintro rfl
          rw [e, IMap.get?_set_self] at ht
          cases ht
          exact hne rfl
        have hS' : IMap.get? S i = w.sites.get? i := by rw [e, IMap.get?_set, if_neg hi]
        refine ⟨streams_inl.2 ⟨t, hS' ▸ ht, hne⟩, ?_⟩
        show (IMap.get? S i).bind (·.seed) = (w.sites.get? i).bind (·.seed)
        rw [hS']
      · exact ⟨ho, rfl⟩

theorem Seeded.initializeSystem {n k : Nat} (h : Seeded n k w) (m : IMap (IMap Addr)) :
    ∃ k' ≤ k + m.length, Seeded n k' (initializeSystem mem w m).2 := by
  unfold World.initializeSystem
  split
  · exact ⟨k, Nat.le_add_right .., h⟩
  · obtain ⟨k1, hk1, h1⟩ := h.initSites (mem := mem) m
    split
    · next he => rw [he] at h1; exact ⟨k1, hk1, h1⟩
    · next he => rw [he] at h1; exact ⟨k1, hk1, h1.initDrains _⟩

theorem member_stream (basin : List Int) (c : Int)
    (hsite : ∀ i, w'.sites.get? i = if i ∈ basin then (w.sites.get? i).map (World.member c) else w.sites.get? i) (i : Int)
    (ho : Streams w' (.inl i)) : Streams w (.inl i) ∧ seedOf w' (.inl i) = seedOf w (.inl i) := by
  obtain ⟨t, ht, hn⟩ := streams_inl.1 ho
  simp only [seedOf]
  rw [hsite] at ht ⊢
  split at ht
  · next hi =>
    obtain ⟨s, hs, rfl⟩ := Option.map_eq_some_iff.1 ht
    refine ⟨streams_inl.2 ⟨s, hs, hn⟩, ?_⟩
    rw [if_pos hi, hs]; rfl
  · next hi => rw [if_neg hi]; exact ⟨streams_inl.2 ⟨t, ht, hn⟩, rfl⟩

theorem Seeded.grew (hst : Struct env w) {basin : List Int} {M : K} {order : List Int → List Int} (hord : ∀ l, (order l).Perm l)
    {n k : Nat} (h : Seeded n k w) (hg : Grew env mem w w' basin M order) : ∃ k' ≤ k + 1, Seeded n k' w' := by
  cases hg with
  | created c0 hb hc =>
    refine ⟨k + 1, le_rfl, h.give (by rw [hc.eq]) (.inr w.nextId) ?_ ?_⟩
    · simp only [seedOf, hc.cluster, if_pos, Option.bind_some]
      unfold seedCluster
      rw [h.seed]
      rfl
    · rintro (i | c) hne ho
      · exact member_stream basin w.nextId hc.site i ho
      · obtain ⟨x, hx⟩ := streams_inr.1 ho
        have hcn : c ≠ w.nextId := fun e => hne (by rw [e])
        have e := hc.cluster c
        rw [if_neg hcn] at e
        exact ⟨streams_inr.2 ⟨x, e ▸ hx⟩, by simp only [seedOf, e]⟩
  | merged sc fav c d erased hsc hf hu hm hc =>
    refine ⟨k, Nat.le_succ k, h.mono (by rw [hc.eq]) ?_⟩
    rintro (i | j) ho
    · exact member_stream basin fav hc.site i ho
    · obtain ⟨x, hx⟩ := streams_inr.1 ho
      by_cases hj : j = fav
      · subst hj
        refine ⟨streams_inr.2 ⟨c, hc.target⟩, ?_⟩
        obtain ⟨c', d', h1, h2, hfr⟩ := merge_frame' hst hord hsc hm
        simp only [seedOf, h1, h2, Option.bind_some, hfr.seed]
      · have e := hc.cluster j
        rw [if_neg hj] at e
        split at e
        · rw [hx] at e; cases e
        · exact ⟨streams_inr.2 ⟨x, e ▸ hx⟩, by simp only [seedOf, e]⟩

/-- Without sites there are no clusters. -/
theorem Trace.noClusters {n : Nat} {evs : List (Event K)} (ht : Trace env (World.new n) evs w) (hu : HopsReturn evs) :
    (∀ i, w.sites.get? i = none) → ∀ c, w.clusters.get? c = none := by
  generalize hw0 : (World.new n : World K) = w0 at ht
  induction ht with
  | nil => subst hw0; exact fun _ _ => rfl
  | @snoc w1 w' evs op res mem ht h hr ih =>
    obtain ⟨hu1, hu2⟩ := hopsReturn_snoc hu
    subst hw0
    have hst := ht.struct hu1
    have ih := ih hu1
    intro hn
    rcases step_cases hst h hr hu2 with hk | ⟨m, rfl, ha⟩ | ⟨wid, k, a, j, w1', w2, w3, basin, -, -, hk, rfl, hg, rfl⟩
    · intro c
      rw [← rel_none (hk.cluster c)]
      exact ih (fun i => (rel_none (hk.site i)).2 (hn i)) c
    · intro c
      rw [ha.clusters]
      refine ih (fun i => ?_) c
      by_contra hne
      obtain ⟨s, hs⟩ := Option.ne_none_iff_exists'.1 hne
      have := ha.old hs
      rw [hn] at this; cases this
    · exfalso
      change ∀ i, w3.sites.get? i = none at hn
      cases hg.grew with
      | created c0 hb hc =>
        obtain ⟨i, hi⟩ := List.exists_mem_of_ne_nil _ hc.nonempty
        obtain ⟨s, hs, -⟩ := hc.lone i hi
        have := hc.site i
        rw [hn, if_pos hi, hs] at this; cases this
      | merged sc fav c d erased hsc hf hu hm hc =>
        have : ∃ i, w1.sites.get? i ≠ none := by
          by_contra hall
          push Not at hall
          have h1 := ih hall fav
          rw [rel_none (hk.cluster fav)] at h1
          have h2 : w1'.clusters.get? fav = some c := hc.target
          rw [h1] at h2; cases h2
        obtain ⟨i, hi⟩ := this
        have h1 : w1'.sites.get? i ≠ none := fun e => hi ((rel_none (hk.site i)).2 e)
        have h2 := hc.site i
        rw [hn] at h2
        split at h2
        · exact h1 (Option.map_eq_none_iff.1 h2.symm)
        · exact h1 h2.symm

theorem Trace.seeded {n0 : Nat} {evs before after : List (Event K)} {ev : Event K} {n : Nat} {r : Int}
    (ht : Trace env (World.new n0) evs w) (hu : HopsReturn evs) (he : evs = before ++ ev :: after)
    (hop : ev.op = .setRandomSeed n) (hres : ev.res = .ok r)
    (hlast : ∀ e ∈ after, ∀ n', e.op = .setRandomSeed n' → ∀ r', e.res ≠ .ok r') :
    ∃ k ≤ seedings after, Seeded n k w := by
  generalize hw0 : (World.new n0 : World K) = w0 at ht
  induction ht generalizing after with
  | nil => simp at he
  | @snoc w1 w' evs op res mem ht h hr ih =>
    obtain ⟨hu1, hu2⟩ := hopsReturn_snoc hu
    subst hw0
    have hst := ht.struct hu1
    rcases List.eq_nil_or_concat after with rfl | ⟨l, x, rfl⟩
    · obtain ⟨-, e⟩ := List.append_inj' he rfl
      cases e
      simp only at hop hres
      subst hop hres
      simp only [step, Prod.mk.injEq] at h
      obtain ⟨h1, h2⟩ := h
      unfold World.setRandomSeed at h1 h2
      split at h2
      · next hf => rw [if_pos hf] at h1; cases h1
      · next hf =>
        have hf : w1.feats = [] := by simpa using hf
        have hs : ∀ i, w1.sites.get? i = none := fun i => (hst.known i).1 (by rw [hf]; rfl)
        have hc := ht.noClusters hu1 hs
        subst h2
        have hno : ∀ o, ¬ Streams ({ w1 with seed := some (n % 2 ^ 64) } : World K) o := by
          rintro (i | c) ho
          · obtain ⟨s, e, -⟩ := streams_inl.1 ho
            have := hs i
            rw [show w1.sites.get? i = some s from e] at this
            cases this
          · obtain ⟨x, e⟩ := streams_inr.1 ho
            have := hc c
            rw [show w1.clusters.get? c = some x from e] at this
            cases this
        exact ⟨0, Nat.zero_le _, rfl, fun _ => 0, fun o ho => absurd ho (hno o), fun o _ ho => absurd ho (hno o)⟩
    · rw [List.concat_eq_append, ← List.cons_append, ← List.append_assoc] at he
      obtain ⟨e1, e2⟩ := List.append_inj' he rfl
      rw [List.singleton_inj] at e2
      subst e2
      obtain ⟨k, hk, hs⟩ := ih hu1 e1 fun e hm => hlast e (by simp [hm])
      have hsum : seedings (l.concat ⟨w1, mem, op, res, w'⟩) = seedings l + seedsFor op := by simp [seedings]
      rw [hsum]
      rcases step_seeds hst h hr hu2 with ⟨hk', hsd⟩ | ⟨n', rfl, -, rfl, -⟩ | ⟨m, rfl, rfl⟩ |
        ⟨wid, hh, a, j, w1', w2, w3, basin, rfl, -, hk', hsd, rfl, hg, rfl⟩
      · exact ⟨k, Nat.le_add_right_of_le hk, hs.keep hk' hsd⟩
      · exact absurd rfl (hlast _ (by rw [List.concat_eq_append]; exact List.mem_append_right _ (List.mem_singleton_self _)) n' rfl 0)
      · obtain ⟨k', hk', h'⟩ := hs.initializeSystem (mem := mem) m
        exact ⟨k', by simp only [seedsFor]; omega, h'⟩
      · have hs1 := hs.keep hk' hsd
        have st2 : Struct env { w1' with iteration := w1'.iteration + 1 } :=
          (hst.keep hk').keep (.of_eq rfl rfl rfl le_rfl)
        have hs2 : Seeded n k { w1' with iteration := w1'.iteration + 1 } := hs1.mono rfl fun o ho => ⟨ho, rfl⟩
        obtain ⟨k', hk', h'⟩ := hs2.grew st2 a.order_perm hg.grew
        exact ⟨k', by simp only [seedsFor]; omega, h'.mono rfl fun o ho => ⟨ho, rfl⟩⟩

/-- The `t`-th site of the rate map gets the `t`-th seed. -/
theorem initSites_seeds {l : List (Int × IMap Addr)} {u : Unit} {sd : Nat} (h : initSites mem w l = (.ok u, w'))
    (hs : w.seed = some (sd % 2 ^ 64)) (t : Nat) (ht : t < l.length) : seedOf w' (.inl (l[t]).1) = some ((sd + t) % 2 ^ 32) := by
  induction l generalizing w sd t with
  | nil => exact absurd ht (Nat.not_lt_zero t)
  | cons a l ih =>
    obtain ⟨id, rates⟩ := a
    unfold initSites at h
    split at h
    · simp at h
    · next v w1 h1 =>
      obtain ⟨s, hs0, hid, hn, e⟩ := initSite_ok h1
      have hse : s.seed = none := by rw [setRates_keep hs0]; rfl
      have hsd : w1.seed = some ((sd + 1) % 2 ^ 64) := by
        rw [e]
        show w.nextSeed = _
        unfold nextSeed
        rw [hs, Option.map_some, Nat.mod_add_mod]
      cases t with
      | zero =>
        have ha : Adds mem l w1 w' := by
          have := initSites_adds (mem := mem) (w := w1) (m := l) (l := l) fun x hx => hx
          rwa [h] at this
        have : w1.sites.get? id = some (w.seedSite s) := by rw [e]; exact IMap.get?_set_self ..
        have := ha.old this
        simp only [List.getElem_cons_zero, seedOf, this, Option.bind_some, seedSite_eq w s hse, hs, Option.map_some, Nat.add_zero]
        rw [Nat.mod_mod_of_dvd _ (by norm_num)]
      | succ t =>
        have ht' : t < l.length := by simpa using ht
        have := ih (sd := sd + 1) h hsd t ht'
        simp only [List.getElem_cons_succ]
        rw [this, Nat.add_assoc, Nat.add_comm 1 t]

theorem initializeSystem_seeds {m : IMap (IMap Addr)} {u : Unit} {sd : Nat} (h : initializeSystem mem w m = (.ok u, w'))
    (hs : w.seed = some (sd % 2 ^ 64)) (t : Nat) (ht : t < m.length) : seedOf w' (.inl (m[t]).1) = some ((sd + t) % 2 ^ 32) := by
  obtain ⟨-, w1, h1, h2⟩ := initializeSystem_ok h
  have hh := initSites_seeds h1 hs t ht
  have ha : Adds mem m w1 w' := by
    have := initDrains_adds (mem := mem) (w := w1) (m := m) (l := drains m) fun x hx => hx
    rwa [h2] at this
  simp only [seedOf] at hh ⊢
  obtain ⟨s, hs, e⟩ := Option.bind_eq_some_iff.1 hh
  rw [ha.old hs]
  exact e

end Mythical.World
