import Verif.Spec.Basin
import Verif.Lemmas.IMap
import Verif.Lemmas.Except
import Mathlib.Tactic.Linarith
import Mathlib.Tactic.Positivity

/-! # Invariants of the basin search -/

set_option linter.unusedSectionVars false

namespace Mythical.Explorer
open Mythical BasinSpec
variable {K : Type} [Field K] [LinearOrder K] [IsStrictOrderedRing K] [FloorRing K]

/-! ## The rates as seen through the container -/

theorem getRateToNeighbor_spec (mem : Addr → K) (sites : SiteContainer K) (v n : Int) (r : K) :
    sites.getRateToNeighborOfSite mem v n = .ok r ↔ rate mem sites v n = some r := by
  unfold SiteContainer.getRateToNeighborOfSite SiteContainer.getSite rate
  cases h : IMap.get? sites v with
  | none => simp
  | some s =>
    cases h' : IMap.get? s.neigh n with
    | none => simp [Site.getRateToNeighbor, h']
    | some a => simp [Site.getRateToNeighbor, h']

theorem foldl_max_ge_init (mem : Addr → K) : ∀ (l : IMap Addr) (x : K),
    x ≤ l.foldl (fun rate na => if mem na.2 > rate then mem na.2 else rate) x
  | [], x => le_refl x
  | na :: l, x => by
    simp only [List.foldl_cons]
    refine le_trans ?_ (foldl_max_ge_init mem l _)
    split
    · rename_i h; exact le_of_lt h
    · exact le_refl x

theorem foldl_max_ge_mem (mem : Addr → K) : ∀ (l : IMap Addr) (x : K) (na : Int × Addr), na ∈ l →
    mem na.2 ≤ l.foldl (fun rate na => if mem na.2 > rate then mem na.2 else rate) x
  | na' :: l, x, na, h => by
    simp only [List.foldl_cons]
    rcases List.mem_cons.mp h with rfl | h
    · refine le_trans ?_ (foldl_max_ge_init mem l _)
      split
      · exact le_refl _
      · rename_i h; exact not_lt.mp h
    · exact foldl_max_ge_mem mem l _ na h

theorem foldl_max_mem (mem : Addr → K) : ∀ (l : IMap Addr) (x : K),
    l.foldl (fun rate na => if mem na.2 > rate then mem na.2 else rate) x = x ∨
    ∃ na ∈ l, l.foldl (fun rate na => if mem na.2 > rate then mem na.2 else rate) x = mem na.2
  | [], x => .inl rfl
  | na :: l, x => by
    simp only [List.foldl_cons]
    rcases foldl_max_mem mem l (if mem na.2 > x then mem na.2 else x) with h | ⟨nb, hb, h⟩
    · rw [h]
      split
      · exact .inr ⟨na, by simp, rfl⟩
      · exact .inl rfl
    · exact .inr ⟨nb, by simp [hb], h⟩

theorem rate_le_fastest {mem : Addr → K} {s : Site K} {n : Int} {a : Addr} (h : s.neigh.get? n = some a) :
    mem a ≤ s.getFastestRate mem :=
  foldl_max_ge_mem mem s.neigh 0 (n, a) (IMap.mem_of_get? h)

theorem fastest_nonneg (mem : Addr → K) (s : Site K) : 0 ≤ s.getFastestRate mem :=
  foldl_max_ge_init mem s.neigh 0

theorem rate_some {mem : Addr → K} {sites : SiteContainer K} {v n : Int} {r : K} (h : rate mem sites v n = some r) :
    ∃ s a, IMap.get? sites v = some s ∧ s.neigh.get? n = some a ∧ mem a = r := by
  unfold rate at h
  cases hs : IMap.get? sites v with
  | none => simp [hs] at h
  | some s =>
    cases ha : IMap.get? s.neigh n with
    | none => simp [hs, ha] at h
    | some a =>
      simp [hs, ha] at h
      exact ⟨s, a, rfl, ha, h⟩

theorem rate_intro {mem : Addr → K} {sites : SiteContainer K} {v n : Int} {s : Site K} {a : Addr}
    (hs : IMap.get? sites v = some s) (ha : s.neigh.get? n = some a) : rate mem sites v n = some (mem a) := by
  simp [rate, hs, ha]

/-- With positive rates the largest rate is what `getFastestRate` returns. -/
theorem fastest_iff {mem : Addr → K} {sites : SiteContainer K} (hp : Positive mem sites) {v : Int} {s : Site K}
    (hs : IMap.get? sites v = some s) {r : K} (h : Fastest mem sites v r) : s.getFastestRate mem = r := by
  obtain ⟨⟨j, hj⟩, hmax⟩ := h
  obtain ⟨s', a, hs', ha, hr⟩ := rate_some hj
  rw [hs] at hs'
  obtain rfl := Option.some.inj hs'
  apply le_antisymm
  · rcases foldl_max_mem mem s.neigh 0 with h | ⟨na, hna, h⟩
    · unfold Site.getFastestRate
      rw [h]
      exact le_of_lt (hp.pos _ _ _ hj)
    · unfold Site.getFastestRate
      rw [h]
      refine hmax na.1 _ (rate_intro hs ?_)
      exact IMap.get?_of_mem (hp.neighWF v s hs) hna
  · rw [← hr]
    exact rate_le_fastest ha

theorem mem_edgesOf {vis : Visitor} {sites : SiteContainer K} {ex : List Int} {v n : Int} :
    n ∈ edgesOf vis sites ex v ↔ ∃ s, IMap.get? sites v = some s ∧ n ∈ s.neigh.keys := by
  unfold edgesOf SiteContainer.getRates
  rw [(vis.order_perm _ _ _).mem_iff]
  have := IMap.get?_mapVal (fun _ (s : Site K) => s.neigh) sites v
  unfold IMap.mapVal at this
  rw [this]
  cases IMap.get? sites v with
  | none => simp [IMap.keys]
  | some s => simp

theorem mem_edgesOf_rate {vis : Visitor} {sites : SiteContainer K} {ex : List Int} {v n : Int} (mem : Addr → K) :
    n ∈ edgesOf vis sites ex v ↔ ∃ r, rate mem sites v n = some r := by
  rw [mem_edgesOf]
  constructor
  · rintro ⟨s, hs, hn⟩
    obtain ⟨a, ha⟩ := IMap.mem_keys_iff_get?.mp hn
    exact ⟨_, rate_intro hs ha⟩
  · rintro ⟨r, hr⟩
    obtain ⟨s, a, hs, ha, -⟩ := rate_some hr
    exact ⟨s, hs, IMap.mem_keys_iff_get?.mpr ⟨a, ha⟩⟩

/-! ## What a step of the search does, for all rates -/

theorem addEdge_ok {ex : Explorer K} {mem : Addr → K} {sites : SiteContainer K} {v n : Int} {st st' : Search K}
    (h : addEdge ex mem sites v st n = .ok st') :
    st'.explored = st.explored ∧
    (st'.opn = st.opn ∨ n ∉ st.explored ∧ st'.opn = st.opn ++ [(v, n)] ∧ ∃ r, rate mem sites v n = some r) := by
  unfold addEdge at h
  split at h
  · rw [← Except.ok.inj h]; exact ⟨rfl, .inl rfl⟩
  · rename_i hn
    obtain ⟨r, hr, h⟩ := bind_eq_ok.mp h
    obtain ⟨cur, hc, h⟩ := bind_eq_ok.mp h
    obtain ⟨b, hb, h⟩ := bind_eq_ok.mp h
    cases b with
    | true =>
      simp only [if_true] at h
      rw [← Except.ok.inj h]
      exact ⟨rfl, .inr ⟨hn, rfl, r, (getRateToNeighbor_spec _ _ _ _ _).mp hr⟩⟩
    | false =>
      simp only [Bool.false_eq_true, if_false] at h
      rw [← Except.ok.inj h]
      exact ⟨rfl, .inl rfl⟩

/-- Explored vertices are distinct and reachable; open edges lead along existing rates from explored to unexplored
vertices. -/
structure Inv (mem : Addr → K) (sites : SiteContainer K) (v : Int) (st : Search K) : Prop where
  nodup : st.explored.Nodup
  start : v ∈ st.explored
  reach : ∀ x ∈ st.explored, Reach mem sites st.explored v x
  opn : ∀ e ∈ st.opn, e.1 ∈ st.explored ∧ e.2 ∉ st.explored ∧ ∃ r, rate mem sites e.1 e.2 = some r

theorem addEdge_inv {ex : Explorer K} {mem : Addr → K} {sites : SiteContainer K} {v0 v n : Int} {st st' : Search K}
    (hi : Inv mem sites v0 st) (hv : v ∈ st.explored) (h : addEdge ex mem sites v st n = .ok st') :
    Inv mem sites v0 st' ∧ st'.explored = st.explored := by
  obtain ⟨he, ho⟩ := addEdge_ok h
  refine ⟨⟨he ▸ hi.nodup, he ▸ hi.start, ?_, ?_⟩, he⟩
  · rw [he]; exact hi.reach
  · rw [he]
    rcases ho with ho | ⟨hn, ho, hr⟩
    · rw [ho]; exact hi.opn
    · rw [ho]
      intro e hm
      rcases List.mem_append.mp hm with hm | hm
      · exact hi.opn e hm
      · rw [List.mem_singleton] at hm
        subst hm
        exact ⟨hv, hn, hr⟩

theorem addEdges_inv {ex : Explorer K} {mem : Addr → K} {sites : SiteContainer K} {v0 v : Int} :
    ∀ (ns : List Int) {st st' : Search K}, Inv mem sites v0 st → v ∈ st.explored →
    addEdges ex mem sites v st ns = .ok st' → Inv mem sites v0 st' ∧ st'.explored = st.explored
  | [], st, st', hi, _, h => by
    unfold addEdges at h
    rw [← Except.ok.inj h]; exact ⟨hi, rfl⟩
  | n :: ns, st, st', hi, hv, h => by
    unfold addEdges at h
    obtain ⟨st1, h1, h⟩ := bind_eq_ok.mp h
    obtain ⟨hi1, he1⟩ := addEdge_inv hi hv h1
    obtain ⟨hi2, he2⟩ := addEdges_inv ns hi1 (he1 ▸ hv) h
    exact ⟨hi2, he2.trans he1⟩

theorem _root_.Mythical.BasinSpec.Reach.mono {mem : Addr → K} {sites : SiteContainer K} {l l' : List Int} {v x : Int} (hl : ∀ y ∈ l, y ∈ l')
    (h : Reach mem sites l v x) : Reach mem sites l' v x := by
  induction h with
  | start => exact .start
  | hop h hj r hr ih => exact .hop ih (hl _ hj) r hr

/-- The edge that is explored next is an open one. -/
theorem next_mem (i : Nat) (e : Int × Int) (es : List (Int × Int)) :
    (e :: es).getD (i % (e :: es).length) e ∈ e :: es := by
  have : i % (e :: es).length < (e :: es).length := Nat.mod_lt _ (by simp)
  rw [List.getD_eq_getElem?_getD, List.getElem?_eq_getElem this]
  exact List.getElem_mem _

/-- Exploring the open edge `e`. -/
def explore (st : Search K) (n : Int) : Search K :=
  { st with explored := st.explored ++ [n], opn := st.opn.filter fun e => e.2 ≠ n }

theorem explore_inv {mem : Addr → K} {sites : SiteContainer K} {v0 : Int} {st : Search K} {e : Int × Int}
    (hi : Inv mem sites v0 st) (he : e ∈ st.opn) : Inv mem sites v0 (explore st e.2) := by
  obtain ⟨h1, h2, r, hr⟩ := hi.opn e he
  have hsub : ∀ y ∈ st.explored, y ∈ st.explored ++ [e.2] := fun y hy => by simp [hy]
  refine ⟨?_, ?_, ?_, ?_⟩
  · show (st.explored ++ [e.2]).Nodup
    refine List.nodup_append.mpr ⟨hi.nodup, by simp, ?_⟩
    intro a ha b hb
    rw [List.mem_singleton] at hb
    rw [hb]
    exact fun hab => h2 (hab ▸ ha)
  · exact hsub _ hi.start
  · intro x hx
    rcases List.mem_append.mp hx with hx | hx
    · exact (hi.reach x hx).mono hsub
    · rw [List.mem_singleton] at hx
      subst hx
      exact .hop ((hi.reach _ h1).mono hsub) (by simp [explore]) r hr
  · intro f hf
    obtain ⟨hf, hne⟩ := List.mem_filter.mp hf
    obtain ⟨g1, g2, g3⟩ := hi.opn f hf
    refine ⟨hsub _ g1, ?_, g3⟩
    intro hm
    rcases List.mem_append.mp hm with hm | hm
    · exact g2 hm
    · rw [List.mem_singleton] at hm
      simp [hm] at hne

/-- The loop in one equation. -/
theorem searchLoop_cons {ex : Explorer K} {vis : Visitor} {mem : Addr → K} {sites : SiteContainer K} {fuel : Nat}
    {st : Search K} (h : st.opn ≠ []) : ∃ e ∈ st.opn,
    searchLoop ex vis mem sites (fuel + 1) st =
      (addEdges ex mem sites e.2 (explore st e.2) (edgesOf vis sites (explore st e.2).explored e.2)).bind fun st' =>
        if st'.explored.length > ex.maxCount then .ok [] else searchLoop ex vis mem sites fuel st' := by
  cases ho : st.opn with
  | nil => exact absurd ho h
  | cons e es =>
    refine ⟨_, next_mem (vis.next st.explored (e :: es)) e es, ?_⟩
    rw [searchLoop.eq_def]
    simp only [ho, explore]
    rfl

theorem searchLoop_nil {ex : Explorer K} {vis : Visitor} {mem : Addr → K} {sites : SiteContainer K} {fuel : Nat}
    {st : Search K} (h : st.opn = []) : searchLoop ex vis mem sites (fuel + 1) st = .ok (vis.out st.explored) := by
  rw [searchLoop.eq_def]
  simp [h]

/-- The result of the loop, for an invariant that is kept by exploring an open edge. -/
theorem searchLoop_result {ex : Explorer K} {vis : Visitor} {mem : Addr → K} {sites : SiteContainer K}
    {P : Search K → Prop}
    (hP : ∀ st e st', P st → e ∈ st.opn →
      addEdges ex mem sites e.2 (explore st e.2) (edgesOf vis sites (explore st e.2).explored e.2) = .ok st' → P st') :
    ∀ (fuel : Nat) (st : Search K) (l : List Int), P st → st.explored.length ≤ ex.maxCount →
    searchLoop ex vis mem sites fuel st = .ok l →
    l = [] ∨ ∃ st', P st' ∧ st'.opn = [] ∧ l.Perm st'.explored ∧ st'.explored.length ≤ ex.maxCount
  | 0, _, _, _, _, h => by cases h
  | fuel + 1, st, l, hi, hlen, h => by
    by_cases ho : st.opn = []
    · rw [searchLoop_nil ho] at h
      rw [← Except.ok.inj h]
      exact .inr ⟨st, hi, ho, vis.out_perm _, hlen⟩
    · obtain ⟨e, he, heq⟩ := searchLoop_cons (ex := ex) (vis := vis) (mem := mem) (sites := sites) (fuel := fuel) ho
      rw [heq] at h
      obtain ⟨st', h1, h⟩ := bind_eq_ok.mp h
      have hi' := hP st e st' hi he h1
      split at h
      · exact .inl (Except.ok.inj h).symm
      · rename_i hl
        exact searchLoop_result hP fuel st' l hi' (not_lt.mp hl) h

/-! ## Termination -/

theorem addEdge_fuel {ex : Explorer K} {mem : Addr → K} {sites : SiteContainer K} {v n : Int} {st : Search K} :
    addEdge ex mem sites v st n ≠ .error .outOfFuel := by
  intro h
  unfold addEdge at h
  split at h
  · cases h
  · rcases bind_eq_error.mp h with h | ⟨r, -, h⟩
    · unfold SiteContainer.getRateToNeighborOfSite SiteContainer.getSite at h
      cases hs : IMap.get? sites v with
      | none => simp [hs] at h
      | some s => cases ha : IMap.get? s.neigh n <;> simp [hs, Site.getRateToNeighbor, ha] at h
    rcases bind_eq_error.mp h with h | ⟨c, -, h⟩
    · unfold SiteContainer.getFastestRateOffSite SiteContainer.getSite at h
      cases hs : IMap.get? sites v <;> simp [hs] at h
    rcases bind_eq_error.mp h with h | ⟨b, -, h⟩
    · unfold rateFastEnough at h
      split at h <;> cases h
    · cases b <;> simp at h

theorem addEdges_fuel {ex : Explorer K} {mem : Addr → K} {sites : SiteContainer K} {v : Int} :
    ∀ (ns : List Int) (st : Search K), addEdges ex mem sites v st ns ≠ .error .outOfFuel
  | [], _, h => by cases h
  | n :: ns, st, h => by
    unfold addEdges at h
    rcases bind_eq_error.mp h with h | ⟨st', -, h⟩
    · exact addEdge_fuel h
    · exact addEdges_fuel ns st' h

theorem addEdges_explored {ex : Explorer K} {mem : Addr → K} {sites : SiteContainer K} {v : Int} :
    ∀ (ns : List Int) {st st' : Search K}, addEdges ex mem sites v st ns = .ok st' → st'.explored = st.explored
  | [], st, st', h => by unfold addEdges at h; rw [← Except.ok.inj h]
  | n :: ns, st, st', h => by
    unfold addEdges at h
    obtain ⟨st1, h1, h⟩ := bind_eq_ok.mp h
    exact (addEdges_explored ns h).trans (addEdge_ok h1).1

theorem searchLoop_fuel {ex : Explorer K} {vis : Visitor} {mem : Addr → K} {sites : SiteContainer K} :
    ∀ (fuel : Nat) (st : Search K), 0 < fuel → ex.maxCount + 2 ≤ st.explored.length + fuel →
    searchLoop ex vis mem sites fuel st ≠ .error .outOfFuel
  | fuel + 1, st, _, hf, h => by
    by_cases ho : st.opn = []
    · rw [searchLoop_nil ho] at h; cases h
    · obtain ⟨e, he, heq⟩ := searchLoop_cons (ex := ex) (vis := vis) (mem := mem) (sites := sites) (fuel := fuel) ho
      rw [heq] at h
      rcases bind_eq_error.mp h with h | ⟨st', h1, h⟩
      · exact addEdges_fuel _ _ h
      · have hlen : st'.explored.length = st.explored.length + 1 := by
          rw [addEdges_explored _ h1]; simp [explore]
        split at h
        · cases h
        · rename_i hl
          exact searchLoop_fuel fuel st' (by omega) (by omega) h

/-! ## What a step of the search does, for positive rates -/

/-- The slowest rate after the hops in `log` were accepted. -/
def slowAfter (mem : Addr → K) (sites : SiteContainer K) : K → List (Int × Int) → K
  | s, [] => s
  | s, e :: log => slowAfter mem sites (min s ((rate mem sites e.1 e.2).getD s)) log

theorem slowAfter_le (mem : Addr → K) (sites : SiteContainer K) : ∀ (log : List (Int × Int)) (s : K),
    slowAfter mem sites s log ≤ s
  | [], s => le_refl s
  | _ :: log, _ => le_trans (slowAfter_le mem sites log _) (min_le_left _ _)

theorem slowAfter_snoc (mem : Addr → K) (sites : SiteContainer K) : ∀ (log : List (Int × Int)) (s : K) (e : Int × Int)
    (r : K), rate mem sites e.1 e.2 = some r →
    slowAfter mem sites s (log ++ [e]) = min (slowAfter mem sites s log) r
  | [], s, e, r, h => by simp [slowAfter, h]
  | _ :: log, s, e, r, h => by
    simp only [List.cons_append, slowAfter]
    exact slowAfter_snoc mem sites log _ e r h

theorem accepted_snoc (mem : Addr → K) (sites : SiteContainer K) : ∀ (log : List (Int × Int)) (s : K) (e : Int × Int)
    (r : K), Accepted mem sites s log → rate mem sites e.1 e.2 = some r →
    slowAfter mem sites s log * (9999 / 10000) ≤ r → Accepted mem sites s (log ++ [e])
  | [], _, e, r, _, hr, h => ⟨r, hr, h, trivial⟩
  | f :: log, s, e, r, ha, hr, h => by
    obtain ⟨q, hq, hle, ha⟩ := ha
    simp only [slowAfter, hq, Option.getD_some] at h
    exact ⟨q, hq, hle, accepted_snoc mem sites log _ e r ha hr h⟩

theorem addEdge_pos {ex : Explorer K} (ht : 0 ≤ ex.threshold) {mem : Addr → K} {sites : SiteContainer K}
    (hp : Positive mem sites) {v n : Int} {r : K} (hr : rate mem sites v n = some r) (st : Search K) :
    ∃ st', addEdge ex mem sites v st n = .ok st' ∧ st'.explored = st.explored ∧
      if n ∉ st.explored ∧ st.slowest * (9999 / 10000) ≤ r then
        st'.opn = st.opn ++ [(v, n)] ∧ st'.slowest = min st.slowest r
      else st'.opn = st.opn ∧ st'.slowest = st.slowest := by
  have hrpos := hp.pos _ _ _ hr
  unfold addEdge
  by_cases hn : n ∈ st.explored
  · rw [if_pos hn]
    exact ⟨st, rfl, rfl, by rw [if_neg (fun h => h.1 hn)]; exact ⟨rfl, rfl⟩⟩
  · rw [if_neg hn]
    rw [(getRateToNeighbor_spec mem sites v n r).mpr hr]
    obtain ⟨s, a, hs, ha, har⟩ := rate_some hr
    have hcur : sites.getFastestRateOffSite mem v = .ok (s.getFastestRate mem) := by
      simp [SiteContainer.getFastestRateOffSite, SiteContainer.getSite, hs]
    simp only [ok_bind, hcur]
    have hrc : r ≤ s.getFastestRate mem := har ▸ rate_le_fastest ha
    have hcpos : 0 < s.getFastestRate mem := lt_of_lt_of_le hrpos hrc
    have hfge : r ≤ (updateFastest st r).fastest := by
      unfold updateFastest
      simp only
      split
      · exact le_refl r
      · rename_i h; exact not_lt.mp h
    have hfpos : 0 < (updateFastest st r).fastest := lt_of_lt_of_le hrpos hfge
    have hratio : ¬ (r / (updateFastest st r).fastest * ((r - s.getFastestRate mem) / s.getFastestRate mem) >
        ex.threshold) := by
      have h1 : 0 ≤ r / (updateFastest st r).fastest := by positivity
      have h2 : (r - s.getFastestRate mem) / s.getFastestRate mem ≤ 0 :=
        div_nonpos_of_nonpos_of_nonneg (by linarith) hcpos.le
      have := mul_nonpos_of_nonneg_of_nonpos h1 h2
      linarith
    have hfast : rateFastEnough ex { updateFastest st r with cur := s.getFastestRate mem } r =
        .ok (decide (st.slowest * (9999 / 10000) ≤ r)) := by
      unfold rateFastEnough
      rw [if_neg (by simp only [not_or]; exact ⟨hfpos.ne', hcpos.ne'⟩)]
      congr 1
      rw [decide_eq_decide]
      constructor
      · rintro (h | h)
        · exact absurd h hratio
        · exact h
      · exact fun h => .inr h
    rw [hfast]
    simp only [ok_bind, decide_eq_true_eq]
    by_cases hc : st.slowest * (9999 / 10000) ≤ r
    · rw [if_pos hc]
      refine ⟨_, rfl, rfl, ?_⟩
      rw [if_pos ⟨hn, hc⟩]
      refine ⟨rfl, ?_⟩
      show (if r < st.slowest then r else st.slowest) = min st.slowest r
      split
      · rename_i h; exact (min_eq_right h.le).symm
      · rename_i h; exact (min_eq_left (not_lt.mp h)).symm
    · rw [if_neg hc]
      refine ⟨_, rfl, rfl, ?_⟩
      rw [if_neg (fun h => hc h.2)]
      exact ⟨rfl, rfl⟩

/-- The accepted hops: `log` lists them in order, every explored vertex but the start was entered through one of them,
and every rate out of the vertices in `done` that is at least 0.9999 times `s0` leads to an explored vertex or is open. -/
structure Good (mem : Addr → K) (sites : SiteContainer K) (v0 : Int) (s0 : K) (done : Int → Int → Prop) (st : Search K)
    (log : List (Int × Int)) : Prop where
  accepted : Accepted mem sites s0 log
  slowest : st.slowest = slowAfter mem sites s0 log
  opn : ∀ e ∈ st.opn, e ∈ log ∧ e.1 ∈ st.explored
  entered : ∀ x ∈ st.explored, x ≠ v0 → ∃ u ∈ st.explored, (u, x) ∈ log
  closed : ∀ u x r, done u x → rate mem sites u x = some r → s0 * (9999 / 10000) ≤ r →
    x ∈ st.explored ∨ ∃ e ∈ st.opn, e.2 = x

theorem addEdge_good {ex : Explorer K} (ht : 0 ≤ ex.threshold) {mem : Addr → K} {sites : SiteContainer K}
    (hp : Positive mem sites) {v0 v n : Int} {s0 r : K} {done : Int → Int → Prop} {st : Search K}
    {log : List (Int × Int)} (hr : rate mem sites v n = some r) (hv : v ∈ st.explored)
    (hg : Good mem sites v0 s0 done st log) :
    ∃ st' log', addEdge ex mem sites v st n = .ok st' ∧ st'.explored = st.explored ∧
      Good mem sites v0 s0 (fun u x => done u x ∨ u = v ∧ x = n) st' log' := by
  obtain ⟨st', h1, he, h2⟩ := addEdge_pos ht hp hr st
  by_cases hc : n ∉ st.explored ∧ st.slowest * (9999 / 10000) ≤ r
  · rw [if_pos hc] at h2
    refine ⟨st', log ++ [(v, n)], h1, he, ?_, ?_, ?_, ?_, ?_⟩
    · exact accepted_snoc mem sites log s0 (v, n) r hg.accepted hr (hg.slowest ▸ hc.2)
    · rw [slowAfter_snoc mem sites log s0 (v, n) r hr, h2.2, hg.slowest]
    · rw [h2.1, he]
      intro e hm
      rcases List.mem_append.mp hm with hm | hm
      · exact ⟨by simp [(hg.opn e hm).1], (hg.opn e hm).2⟩
      · rw [List.mem_singleton] at hm
        subst hm
        exact ⟨by simp, hv⟩
    · rw [he]
      intro x hx hne
      obtain ⟨u, hu, hul⟩ := hg.entered x hx hne
      exact ⟨u, hu, by simp [hul]⟩
    · rw [he, h2.1]
      rintro u x q (hd | ⟨rfl, rfl⟩) hq hle
      · rcases hg.closed u x q hd hq hle with h | ⟨e, h, h'⟩
        · exact .inl h
        · exact .inr ⟨e, by simp [h], h'⟩
      · exact .inr ⟨(u, x), by simp, rfl⟩
  · rw [if_neg hc] at h2
    refine ⟨st', log, h1, he, hg.accepted, h2.2.trans hg.slowest, ?_, ?_, ?_⟩
    · rw [h2.1, he]; exact hg.opn
    · rw [he]; exact hg.entered
    · rw [he, h2.1]
      rintro u x q (hd | ⟨rfl, rfl⟩) hq hle
      · exact hg.closed u x q hd hq hle
      · by_contra hcon
        rw [not_or] at hcon
        refine hc ⟨hcon.1, ?_⟩
        rw [hr] at hq
        obtain rfl := Option.some.inj hq
        have : st.slowest ≤ s0 := hg.slowest ▸ slowAfter_le mem sites log s0
        refine le_trans ?_ hle
        exact mul_le_mul_of_nonneg_right this (by norm_num)

theorem addEdges_good {ex : Explorer K} (ht : 0 ≤ ex.threshold) {mem : Addr → K} {sites : SiteContainer K}
    (hp : Positive mem sites) {v0 v : Int} {s0 : K} : ∀ (ns : List Int) {done : Int → Int → Prop} {st : Search K}
    {log : List (Int × Int)}, (∀ n ∈ ns, ∃ r, rate mem sites v n = some r) → v ∈ st.explored →
    Good mem sites v0 s0 done st log →
    ∃ st' log', addEdges ex mem sites v st ns = .ok st' ∧ st'.explored = st.explored ∧
      Good mem sites v0 s0 (fun u x => done u x ∨ u = v ∧ x ∈ ns) st' log'
  | [], done, st, log, _, _, hg => by
    refine ⟨st, log, rfl, rfl, ?_⟩
    have : (fun u x => done u x ∨ u = v ∧ x ∈ ([] : List Int)) = done := by
      funext u x; simp
    rwa [this]
  | n :: ns, done, st, log, hns, hv, hg => by
    obtain ⟨r, hr⟩ := hns n (by simp)
    obtain ⟨st1, log1, h1, he1, hg1⟩ := addEdge_good ht hp hr hv hg
    obtain ⟨st2, log2, h2, he2, hg2⟩ := addEdges_good ht hp ns (fun m hm => hns m (by simp [hm])) (he1 ▸ hv) hg1
    refine ⟨st2, log2, ?_, he2.trans he1, ?_⟩
    · unfold addEdges; rw [h1]; exact h2
    · have : (fun u x => done u x ∨ u = v ∧ x ∈ n :: ns) =
          fun u x => (done u x ∨ u = v ∧ x = n) ∨ u = v ∧ x ∈ ns := by
        funext u x
        simp only [List.mem_cons, eq_iff_iff]
        tauto
      rw [this]
      exact hg2

/-- The invariant of the loop for positive rates: all vertices explored so far are done. -/
def GoodAll (mem : Addr → K) (sites : SiteContainer K) (v0 : Int) (s0 : K) (st : Search K) : Prop :=
  ∃ log, Good mem sites v0 s0 (fun u _ => u ∈ st.explored) st log

theorem explore_good {mem : Addr → K} {sites : SiteContainer K} {v0 : Int} {s0 : K} {st : Search K}
    {log : List (Int × Int)} (hg : Good mem sites v0 s0 (fun u _ => u ∈ st.explored) st log) {e : Int × Int}
    (he : e ∈ st.opn) :
    Good mem sites v0 s0 (fun u _ => u ∈ st.explored) (explore st e.2) log := by
  refine ⟨hg.accepted, hg.slowest, ?_, ?_, ?_⟩
  · intro f hf
    have := hg.opn f (List.mem_filter.mp hf).1
    exact ⟨this.1, by simp [explore, this.2]⟩
  · intro x hx hne
    rcases List.mem_append.mp hx with hx | hx
    · obtain ⟨u, hu, hul⟩ := hg.entered x hx hne
      exact ⟨u, by simp [explore, hu], hul⟩
    · rw [List.mem_singleton] at hx
      subst hx
      exact ⟨e.1, by simp [explore, (hg.opn e he).2], (hg.opn e he).1⟩
  · intro u x r hu hr hle
    rcases hg.closed u x r hu hr hle with h | ⟨f, hf, rfl⟩
    · exact .inl (by simp [explore, h])
    · by_cases hfe : f.2 = e.2
      · exact .inl (by simp [explore, hfe])
      · exact .inr ⟨f, List.mem_filter.mpr ⟨hf, by simpa using hfe⟩, rfl⟩

theorem goodAll_step {ex : Explorer K} (ht : 0 ≤ ex.threshold) {vis : Visitor} {mem : Addr → K} {sites : SiteContainer K}
    (hp : Positive mem sites) {v0 : Int} {s0 : K} {st : Search K} {e : Int × Int}
    (hg : GoodAll mem sites v0 s0 st) (he : e ∈ st.opn) :
    ∃ st', addEdges ex mem sites e.2 (explore st e.2) (edgesOf vis sites (explore st e.2).explored e.2) = .ok st' ∧
      GoodAll mem sites v0 s0 st' := by
  obtain ⟨log, hg⟩ := hg
  obtain ⟨st', log', h1, he', hg'⟩ := addEdges_good (ex := ex) ht hp
    (edgesOf vis sites (explore st e.2).explored e.2) (fun n hn => (mem_edgesOf_rate mem).mp hn)
    (show e.2 ∈ (explore st e.2).explored by simp [explore]) (explore_good hg he)
  refine ⟨st', h1, log', hg'.accepted, hg'.slowest, hg'.opn, hg'.entered, ?_⟩
  intro u x r hu hr hle
  rw [he'] at hu
  refine hg'.closed u x r ?_ hr hle
  rcases List.mem_append.mp hu with hu | hu
  · exact .inl hu
  · rw [List.mem_singleton] at hu
    subst hu
    exact .inr ⟨rfl, (mem_edgesOf_rate mem).mpr ⟨r, hr⟩⟩

theorem searchLoop_total {ex : Explorer K} (ht : 0 ≤ ex.threshold) {vis : Visitor} {mem : Addr → K}
    {sites : SiteContainer K} (hp : Positive mem sites) {v0 : Int} {s0 : K} :
    ∀ (fuel : Nat) (st : Search K), GoodAll mem sites v0 s0 st →
    (∃ l, searchLoop ex vis mem sites fuel st = .ok l) ∨ searchLoop ex vis mem sites fuel st = .error .outOfFuel
  | 0, _, _ => .inr rfl
  | fuel + 1, st, hg => by
    by_cases ho : st.opn = []
    · exact .inl ⟨_, searchLoop_nil ho⟩
    · obtain ⟨e, he, heq⟩ := searchLoop_cons (ex := ex) (vis := vis) (mem := mem) (sites := sites) (fuel := fuel) ho
      rw [heq]
      obtain ⟨st', h1, hg'⟩ := goodAll_step (ex := ex) ht (vis := vis) hp hg he
      rw [h1]
      simp only [Except.bind]
      by_cases hl : st'.explored.length > ex.maxCount
      · exact .inl ⟨[], by rw [if_pos hl]⟩
      · rw [if_neg hl]
        rcases searchLoop_total ht hp fuel st' hg' with ⟨l, h⟩ | h
        · exact .inl ⟨l, h⟩
        · exact .inr h

end Mythical.Explorer
