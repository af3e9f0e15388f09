import Verif.Lemmas.RateContainer

/-! # Rate_Container (C25-C29) -/

namespace Mythical
open RateContainer RateSpec

/-- A fresh container, after `addRate(1,2,a)` and `addRate(2,3,b)`. -/
def rc0 : RateContainer := RateContainer.run ⟨[]⟩ [.addRate 1 2 (some 100), .addRate 2 3 (some 200)]

/-- C25: `addRate` throws exactly for a stored pair and then changes nothing; otherwise it adds exactly this one
rate, which `getRate` then returns. -/
theorem C25_addRate (c : RateContainer) (s n : Int) (p : Ptr) :
    ((∃ q, Holds c s n q) → c.addRate s n p = (.error .invalidArgument, c)) ∧
    ((¬ ∃ q, Holds c s n q) → (c.addRate s n p).1 = .ok () ∧
      (∀ i j q, Holds (c.addRate s n p).2 i j q ↔ (i = s ∧ j = n ∧ q = p) ∨ Holds c i j q) ∧
      ((c.addRate s n p).2.getRate s n).1 = .ok p) := by
  simp only [holds_iff]
  constructor
  · rintro ⟨q, h⟩; exact addRate_of_some h
  · intro h
    have h : c.at' s n = none := by
      cases hc : c.at' s n with
      | none => rfl
      | some q => exact absurd ⟨q, hc⟩ h
    refine ⟨by rw [addRate_of_none h], ?_, ?_⟩
    · intro i j q
      rw [at'_addRate h]
      by_cases hij : s = i ∧ n = j
      · obtain ⟨rfl, rfl⟩ := hij
        simp [h, eq_comm]
      · rw [if_neg hij]
        constructor
        · exact Or.inr
        · rintro (⟨rfl, rfl, -⟩ | h')
          · exact absurd ⟨rfl, rfl⟩ hij
          · exact h'
    · have := at'_addRate (p := p) h s n
      rw [if_pos ⟨rfl, rfl⟩] at this
      rw [getRate_of_some this]

/-- Both cases occur. -/
example : (∃ q, Holds rc0 1 2 q) ∧ ¬ ∃ q, Holds rc0 2 1 q := by
  simp only [holds_iff]
  exact ⟨⟨some 100, by decide⟩, by rintro ⟨q, h⟩; revert h; show none = some q → False; simp⟩

/-! ## C26 -/

/-- C26 (partial: about rates that exist): a stored rate is returned and the call changes nothing. -/
theorem C26_stored_partial {c : RateContainer} {i j : Int} {p : Ptr} (h : Holds c i j p) :
    c.getRate i j = (.ok p, c) := getRate_of_some ((holds_iff c i j p).1 h)

theorem given_mono {ops ops' : List Op} (h : ops ⊆ ops') {i j p} (hg : Given ops i j p) : Given ops' i j p := by
  rcases hg with h1 | ⟨m, h1, h2⟩
  · exact Or.inl (h h1)
  · exact Or.inr ⟨m, h h1, h2⟩

theorem at'_addRate_imp {c : RateContainer} {s n : Int} {p : Ptr} {i j : Int} {q : Ptr}
    (h : (c.addRate s n p).2.at' i j = some q) : c.at' i j = some q ∨ (s = i ∧ n = j ∧ q = p) := by
  cases hc : c.at' s n with
  | some r => rw [addRate_of_some hc] at h; exact Or.inl h
  | none =>
    rw [at'_addRate hc] at h
    split at h
    · next e => cases h; exact Or.inr ⟨e.1, e.2, rfl⟩
    · exact Or.inl h

theorem at'_addRow_imp {s : Int} {r : IMap Ptr} (hr : r.WF) {i j : Int} {q : Ptr} :
    ∀ {c : RateContainer}, (c.addRow s r).2.at' i j = some q →
      c.at' i j = some q ∨ (s = i ∧ r.get? j = some q) := by
  induction r with
  | nil => intro c h; exact Or.inl h
  | cons a r ih =>
    obtain ⟨n, p⟩ := a
    rw [IMap.wf_cons] at hr
    intro c h
    have himp := @at'_addRate_imp c s n p i j q
    unfold addRow at h
    generalize c.addRate s n p = x at h himp
    obtain ⟨x1, c'⟩ := x
    have fin : c'.at' i j = some q → c.at' i j = some q ∨ (s = i ∧ IMap.get? ((n, p) :: r) j = some q) := by
      intro h'
      rcases himp h' with h1 | ⟨rfl, rfl, rfl⟩
      · exact Or.inl h1
      · right; simp [IMap.get?_cons]
    cases x1 with
    | error e => exact fin h
    | ok _ =>
      rcases ih hr.2 h with h1 | ⟨rfl, h2⟩
      · exact fin h1
      · right
        refine ⟨rfl, ?_⟩
        have : n ≠ j := by
          rintro rfl; exact hr.1 (IMap.mem_keys_iff_get?.2 ⟨_, h2⟩)
        rw [IMap.get?_cons, if_neg this, h2]

theorem at'_addRows_imp {m : RateMap} (hm : IsMap m) {i j : Int} {q : Ptr} :
    ∀ {c : RateContainer}, (c.addRows m).2.at' i j = some q → c.at' i j = some q ∨ entry m i j = some q := by
  induction m with
  | nil => intro c h; exact Or.inl h
  | cons a m ih =>
    obtain ⟨s, r⟩ := a
    rw [isMap_cons] at hm
    intro c h
    have himp := @at'_addRow_imp s r hm.2.1 i j q c
    unfold addRows at h
    generalize c.addRow s r = x at h himp
    obtain ⟨x1, c'⟩ := x
    have fin : c'.at' i j = some q → c.at' i j = some q ∨ entry ((s, r) :: m) i j = some q := by
      intro h'
      rcases himp h' with h1 | ⟨rfl, h2⟩
      · exact Or.inl h1
      · right; rw [entry_cons, if_pos rfl, h2]
    cases x1 with
    | error e => exact fin h
    | ok _ =>
      rcases ih hm.2.2 h with h1 | h2
      · exact fin h1
      · right
        have : s ≠ i := by
          rintro rfl; rw [entry_of_not_mem hm.1] at h2; cases h2
        rw [entry_cons, if_neg this, h2]

theorem at'_step_imp {c : RateContainer} {o : Op} (ho : ValidOp o) {i j : Int} {a : Nat}
    (h : (c.step o).at' i j = some (some a)) : c.at' i j = some (some a) ∨ Given [o] i j (some a) := by
  cases o with
  | addRate s n p =>
    rcases at'_addRate_imp h with h | ⟨rfl, rfl, h'⟩
    · exact Or.inl h
    · right; left; rw [h']; simp
  | addRates m =>
    change (c.addRates m).2.at' i j = _ at h
    unfold addRates at h
    split at h
    · exact Or.inr (Or.inr ⟨m, by simp, h⟩)
    · rcases at'_addRows_imp ho h with h | h
      · exact Or.inl h
      · exact Or.inr (Or.inr ⟨m, by simp, h⟩)
  | getRate s n =>
    rcases at'_getRate c s n i j with h' | ⟨-, h', -⟩
    · exact Or.inl (h' ▸ h)
    · change (c.getRate s n).2.at' i j = _ at h; rw [h'] at h; cases h
  | outgoingRateCount s => exact Or.inl ((at'_row c s i j) ▸ h)
  | getOutgoingRates s =>
    change (c.getOutgoingRates s).2.at' i j = _ at h
    unfold getOutgoingRates at h
    split at h
    · exact Or.inl ((at'_row c s i j) ▸ h)
    · exact Or.inl h
  | incomingRateCount s => exact Or.inl h
  | getIncomingRates s => exact Or.inl h
  | getSourceSiteIds => exact Or.inl h
  | getSinkSiteIds => exact Or.inl h

theorem at'_run_imp {ops : List Op} (hv : ∀ o ∈ ops, ValidOp o) {i j : Int} {a : Nat} :
    ∀ {c : RateContainer}, (c.run ops).at' i j = some (some a) →
      c.at' i j = some (some a) ∨ Given ops i j (some a) := by
  induction ops with
  | nil => intro c h; exact Or.inl h
  | cons o ops ih =>
    intro c h
    rcases ih (fun o' ho' => hv o' (by simp [ho'])) (c := c.step o) h with h1 | h1
    · rcases at'_step_imp (hv o (by simp)) h1 with h2 | h2
      · exact Or.inl h2
      · exact Or.inr (given_mono (by simp) h2)
    · exact Or.inr (given_mono (by simp) h1)

/-- C26 (partial): over every history, a non-null pointer returned by `getRate(i,j)` was given to the container as
the rate of exactly this pair. -/
theorem C26_returned_was_given_partial {ops : List Op} (hv : ∀ o ∈ ops, ValidOp o) {i j : Int} {a : Nat}
    (h : ((RateContainer.run ⟨[]⟩ ops).getRate i j).1 = .ok (some a)) : Given ops i j (some a) := by
  set c := RateContainer.run ⟨[]⟩ ops with hc
  have hat : c.at' i j = some (some a) := by
    cases hx : c.at' i j with
    | some p => rw [getRate_of_some hx] at h; cases h; rfl
    | none =>
      by_cases hs : i ∈ c.rates.keys
      · rw [getRate_of_missing hs hx] at h; cases h
      · rw [getRate_of_no_row hs] at h; cases h
  rcases at'_run_imp hv hat with h | h
  · cases h
  · exact h

theorem keys_step_imp {c : RateContainer} {o : Op} {i : Int} (h : i ∈ (c.step o).rates.keys) :
    i ∈ c.rates.keys ∨ Touches i o := by
  have hrow : ∀ s, i ∈ (c.row s).2.rates.keys → i ∈ c.rates.keys ∨ s = i := by
    intro s h
    by_cases hs : s = i
    · exact Or.inr hs
    · left; rw [IMap.mem_keys_iff_get?, row_get?_ne c hs] at h; exact IMap.mem_keys_iff_get?.2 h
  cases o with
  | addRate s n p =>
    rcases keys_addRate.1 h with h | h
    · exact Or.inl h
    · exact Or.inr h.symm
  | addRates m =>
    change i ∈ (c.addRates m).2.rates.keys at h
    unfold addRates at h
    split at h
    · exact Or.inr h
    · have krow : ∀ (r : IMap Ptr) (s : Int) (c : RateContainer), i ∈ (c.addRow s r).2.rates.keys →
          i ∈ c.rates.keys ∨ i = s := by
        intro r
        induction r with
        | nil => intro s c h; exact Or.inl h
        | cons a r ih =>
          obtain ⟨n, p⟩ := a
          intro s c h
          have hk := @keys_addRate c s n p i
          unfold addRow at h
          generalize c.addRate s n p = x at h hk
          obtain ⟨x1, c'⟩ := x
          cases x1 with
          | error e => exact hk.1 h
          | ok _ =>
            rcases ih s c' h with h | h
            · exact hk.1 h
            · exact Or.inr h
      have krows : ∀ (m : RateMap) (c : RateContainer), i ∈ (c.addRows m).2.rates.keys →
          i ∈ c.rates.keys ∨ i ∈ m.keys := by
        intro m
        induction m with
        | nil => intro c h; exact Or.inl h
        | cons a m ih =>
          obtain ⟨s, r⟩ := a
          intro c h
          have hk := krow r s c
          unfold addRows at h
          generalize c.addRow s r = x at h hk
          obtain ⟨x1, c'⟩ := x
          have fin : i ∈ c'.rates.keys → i ∈ c.rates.keys ∨ i ∈ IMap.keys ((s, r) :: m) := by
            intro h; rcases hk h with h | rfl
            · exact Or.inl h
            · right; simp
          cases x1 with
          | error e => exact fin h
          | ok _ =>
            rcases ih c' h with h | h
            · exact fin h
            · right; simp [h]
      exact krows m c h
  | getRate s n =>
    change i ∈ (c.getRate s n).2.rates.keys at h
    cases hx : c.at' s n with
    | some p => rw [getRate_of_some hx] at h; exact Or.inl h
    | none =>
      by_cases hs : s ∈ c.rates.keys
      · rw [getRate_of_missing hs hx] at h
        rcases IMap.mem_keys_set.1 h with rfl | h
        · exact Or.inl hs
        · exact Or.inl h
      · rw [getRate_of_no_row hs] at h
        rcases IMap.mem_keys_set.1 h with rfl | h
        · exact Or.inr rfl
        · exact Or.inl h
  | outgoingRateCount s => exact hrow s h
  | getOutgoingRates s =>
    change i ∈ (c.getOutgoingRates s).2.rates.keys at h
    unfold getOutgoingRates at h
    split at h
    · next hs =>
      rcases hrow s h with h | rfl
      · exact Or.inl h
      · exact Or.inl (IMap.has_iff.1 hs)
    · exact Or.inl h
  | incomingRateCount s => exact Or.inl h
  | getIncomingRates s => exact Or.inl h
  | getSourceSiteIds => exact Or.inl h
  | getSinkSiteIds => exact Or.inl h

theorem keys_run_imp {ops : List Op} {i : Int} : ∀ {c : RateContainer}, i ∈ (c.run ops).rates.keys →
    i ∈ c.rates.keys ∨ ∃ o ∈ ops, Touches i o := by
  induction ops with
  | nil => intro c h; exact Or.inl h
  | cons o ops ih =>
    intro c h
    rcases ih (c := c.step o) h with h1 | ⟨o', h1, h2⟩
    · rcases keys_step_imp h1 with h2 | h2
      · exact Or.inl h2
      · exact Or.inr ⟨o, by simp, h2⟩
    · exact Or.inr ⟨o', by simp [h1], h2⟩

/-- C26 (partial: only for sites that no earlier call has named as a source): then `getRate` throws. -/
theorem C26_untouched_throws_partial {ops : List Op} {i : Int} (h : ∀ o ∈ ops, ¬ Touches i o) (j : Int) :
    ((RateContainer.run ⟨[]⟩ ops).getRate i j).1 = .error .invalidArgument := by
  rw [getRate_of_no_row]
  intro hk
  rcases keys_run_imp hk with h' | ⟨o, h1, h2⟩
  · cases h'
  · exact h o h1 h2

/-- C26 is false of the code: a rate that was never added is returned as a null pointer, if the source site has
another rate. -/
theorem C26_counterexample : (rc0.getRate 1 3).1 = .ok none ∧ ¬ ∃ p, Given
    [.addRate 1 2 (some 100), .addRate 2 3 (some 200)] 1 3 p := by
  refine ⟨rfl, ?_⟩
  rintro ⟨p, h | ⟨m, h, -⟩⟩ <;> simp at h

/-- C26 is false of the code: a failing call makes the next identical call succeed with a null pointer, and the
lookups change which sites are reported as sources, sinks and how many rates come in. -/
theorem C26_second_call_returns_null :
    (rc0.getRate 3 1).1 = .error .invalidArgument ∧
    ((rc0.getRate 3 1).2.getRate 3 1).1 = .ok none ∧
    rc0.getSinkSiteIds.1 = [3] ∧ (rc0.getRate 3 1).2.getSinkSiteIds.1 = [] ∧
    rc0.getSourceSiteIds.1 = [1] ∧ ((rc0.getRate 3 1).2.getRate 3 1).2.getSourceSiteIds.1 = [] ∧
    (rc0.incomingRateCount 1).1 = 0 ∧ (((rc0.getRate 3 1).2.getRate 3 1).2.incomingRateCount 1).1 = 1 := by
  decide

/-- The hypotheses of the positive parts are met. -/
example : Holds rc0 2 3 (some 200) ∧
    (∀ o ∈ [Op.addRate 1 2 (some 100), Op.addRate 2 3 (some 200)], ¬ Touches 3 o) := by
  refine ⟨(holds_iff _ _ _ _).2 (by decide), ?_⟩
  intro o ho
  simp only [List.mem_cons, List.not_mem_nil, or_false] at ho
  rcases ho with rfl | rfl <;> simp [Touches]

/-! ## C27 -/

/-- Calls that are queries. -/
def IsQuery : Op → Prop
  | .incomingRateCount _ | .getIncomingRates _ | .getOutgoingRates _ | .getSourceSiteIds | .getSinkSiteIds
  | .outgoingRateCount _ => True
  | _ => False

/-- C27 (partial: `outgoingRateCount` only for sites with an outgoing rate): queries, in any number and order, leave
every later answer unchanged. -/
theorem C27_queries_partial (c : RateContainer) (ops : List Op) (hq : ∀ o ∈ ops, IsQuery o)
    (ho : ∀ s, .outgoingRateCount s ∈ ops → ∃ j p, Holds c s j p) : SameAnswers c (c.run ops) := by
  have hrun : c.run ops = c := by
    induction ops with
    | nil => rfl
    | cons o ops ih =>
      have h1 : c.step o = c := by
        have hq := hq o (by simp)
        have hk : ∀ s, (∃ j p, Holds c s j p) → (c.row s).2 = c := by
          rintro s ⟨j, p, h⟩
          rw [holds_iff] at h
          apply row_snd_of_mem
          by_contra hs; unfold at' at h; rw [entry_of_not_mem hs] at h; cases h
        cases o with
        | outgoingRateCount s => exact hk s (ho s (by simp))
        | getOutgoingRates s =>
          change (c.getOutgoingRates s).2 = c
          unfold getOutgoingRates
          split
          · next h => exact row_snd_of_mem (IMap.has_iff.1 h)
          · rfl
        | incomingRateCount s => rfl
        | getIncomingRates s => rfl
        | getSourceSiteIds => rfl
        | getSinkSiteIds => rfl
        | addRate => exact hq.elim
        | addRates => exact hq.elim
        | getRate => exact hq.elim
      show RateContainer.run (c.step o) ops = c
      rw [h1]
      exact ih (fun o' h => hq o' (by simp [h])) fun s hs => ho s (by simp [hs])
  rw [hrun]
  exact ⟨fun _ _ => rfl, fun _ => rfl, fun _ => rfl, fun _ => rfl, fun _ => rfl, rfl, rfl⟩

/-- C27 (partial): even when `outgoingRateCount` inserts an empty row, the stored rates and all counts stay. -/
theorem C27_outgoingRateCount_partial (c : RateContainer) (s : Int) :
    (∀ i j p, Holds (c.outgoingRateCount s).2 i j p ↔ Holds c i j p) ∧
    (∀ i, ((c.outgoingRateCount s).2.incomingRateCount i).1 = (c.incomingRateCount i).1) ∧
    (∀ i, ((c.outgoingRateCount s).2.outgoingRateCount i).1 = (c.outgoingRateCount i).1) := by
  refine ⟨fun i j p => ?_, fun i => ?_, fun i => ?_⟩
  · simp only [holds_iff]
    show (c.row s).2.at' i j = _ ↔ _
    rw [at'_row]
  · show ((c.row s).2.rates.filter _).length = _
    unfold row
    split
    · rfl
    · next h =>
      rw [IMap.set_of_not_mem (IMap.get?_eq_none_iff.1 h), List.filter_append]
      simp [incomingRateCount, IMap.has]
  · show ((c.row s).2.row i).1.length = (c.row i).1.length
    have hrow : ∀ (c : RateContainer) (i : Int), (c.row i).1 = (c.rates.get? i).getD [] := by
      intro c i; unfold row; cases c.rates.get? i <;> rfl
    rw [hrow, hrow c i]
    by_cases h : s = i
    · subst h
      rw [row_get?, hrow]; rfl
    · rw [row_get?_ne c h]

/-- C27 is false of the code: counting the outgoing rates of the sink 3 makes it disappear from the sinks, and
counting those of an unknown site makes that site a source. -/
theorem C27_counterexample :
    rc0.getSinkSiteIds.1 = [3] ∧ (rc0.outgoingRateCount 3).2.getSinkSiteIds.1 = [] ∧
    rc0.getSourceSiteIds.1 = [1] ∧ (rc0.outgoingRateCount 9).2.getSourceSiteIds.1 = [1, 9] := by decide

/-- The hypotheses of `C27_queries_partial` are met. -/
example : (∀ o ∈ [Op.outgoingRateCount 1, .getSinkSiteIds], IsQuery o) ∧
    (∀ s, Op.outgoingRateCount s ∈ [Op.outgoingRateCount 1, .getSinkSiteIds] → ∃ j p, Holds rc0 s j p) := by
  refine ⟨by simp [IsQuery], ?_⟩
  intro s hs
  simp at hs; subst hs
  exact ⟨2, some 100, (holds_iff _ _ _ _).2 (by decide)⟩

/-! ## C28 -/

/-- Calls that cannot create an empty row. -/
def KeepsRows : Op → Prop
  | .getRate _ _ | .outgoingRateCount _ => False
  | .addRates m => ∀ sr ∈ m, sr.2 ≠ []
  | _ => True

theorem noEmpty_step {c : RateContainer} (hc : c.NoEmpty) {o : Op} (ho : KeepsRows o) : (c.step o).NoEmpty := by
  cases o with
  | addRate s n p => exact noEmpty_addRate hc s n p
  | addRates m =>
    show (c.addRates m).2.NoEmpty
    unfold addRates; split
    · intro i r hr; exact ho _ (IMap.mem_of_get? hr)
    · exact addRows_inv (P := NoEmpty) (fun c s n p h => noEmpty_addRate h s n p) m hc
  | getRate s n => exact ho.elim
  | outgoingRateCount s => exact ho.elim
  | getOutgoingRates s =>
    show (c.getOutgoingRates s).2.NoEmpty
    unfold getOutgoingRates
    split
    · next h => show (c.row s).2.NoEmpty; rw [row_snd_of_mem (IMap.has_iff.1 h)]; exact hc
    · exact hc
  | incomingRateCount s => exact hc
  | getIncomingRates s => exact hc
  | getSourceSiteIds => exact hc
  | getSinkSiteIds => exact hc

theorem noEmpty_run {c : RateContainer} (hc : c.NoEmpty) {ops : List Op} (ho : ∀ o ∈ ops, KeepsRows o) :
    (c.run ops).NoEmpty := by
  induction ops generalizing c with
  | nil => exact hc
  | cons o ops ih =>
    exact ih (noEmpty_step hc (ho o (by simp))) fun o' h => ho o' (by simp [h])

theorem mem_incomingIds {c : RateContainer} (hc : c.WF) {i : Int} :
    i ∈ c.incomingIds ↔ ∃ k p, Holds c k i p := by
  unfold incomingIds
  simp only [List.mem_dedup, List.mem_flatMap, holds_iff]
  constructor
  · rintro ⟨⟨k, r⟩, hm, hi⟩
    obtain ⟨p, hp⟩ := IMap.mem_keys_iff_get?.1 hi
    exact ⟨k, p, by simp [at', entry, IMap.get?_of_mem hc.1 hm, hp]⟩
  · rintro ⟨k, p, h⟩
    unfold at' entry at h
    cases hr : c.rates.get? k with
    | none => simp [hr] at h
    | some r =>
      simp only [hr, Option.bind_some] at h
      exact ⟨(k, r), IMap.mem_of_get? hr, IMap.mem_keys_iff_get?.2 ⟨p, h⟩⟩

theorem mem_outgoingIds {c : RateContainer} (hn : c.NoEmpty) {i : Int} :
    i ∈ c.outgoingIds ↔ ∃ j p, Holds c i j p := by
  unfold outgoingIds
  simp only [List.mem_dedup, holds_iff]
  constructor
  · intro h
    obtain ⟨r, hr⟩ := IMap.mem_keys_iff_get?.1 h
    have hne := hn i r hr
    cases r with
    | nil => exact absurd rfl hne
    | cons a r =>
      obtain ⟨j, p⟩ := a
      exact ⟨j, p, by simp [at', entry, hr, IMap.get?_cons]⟩
  · rintro ⟨j, p, h⟩
    by_contra hs; unfold at' at h; rw [entry_of_not_mem hs] at h; cases h

/-- C28 (partial: no `getRate`/`outgoingRateCount` before, and no empty rows in added maps, see
`C28_counterexample`): sources and sinks are exactly what they should be. -/
theorem C28_sources_sinks_partial {ops : List Op} (hv : ∀ o ∈ ops, ValidOp o) (hk : ∀ o ∈ ops, KeepsRows o) :
    let c := RateContainer.run ⟨[]⟩ ops
    c.getSourceSiteIds.1.Nodup ∧ c.getSinkSiteIds.1.Nodup ∧
    (∀ i, i ∈ c.getSourceSiteIds.1 ↔ (∃ j p, Holds c i j p) ∧ ¬ ∃ k p, Holds c k i p) ∧
    (∀ i, i ∈ c.getSinkSiteIds.1 ↔ (∃ k p, Holds c k i p) ∧ ¬ ∃ j p, Holds c i j p) := by
  intro c
  have hw : c.WF := wf_run wf_empty hv
  have hn : c.NoEmpty := noEmpty_run (c := ⟨[]⟩) (by intro i r h; cases h) hk
  refine ⟨?_, ?_, fun i => ?_, fun i => ?_⟩
  · exact (List.nodup_dedup _).filter _
  · exact (List.nodup_dedup _).filter _
  · show i ∈ List.filter _ _ ↔ _
    rw [List.mem_filter, mem_outgoingIds hn, ← mem_incomingIds hw]
    simp
  · show i ∈ List.filter _ _ ↔ _
    rw [List.mem_filter, mem_incomingIds hw, ← mem_outgoingIds hn]
    simp

/-- C28: over every history (no restriction), the counts are the numbers of stored rates and the rate lists hold
exactly the stored rates. -/
theorem C28_counts_and_rates {ops : List Op} (hv : ∀ o ∈ ops, ValidOp o) (i : Int) :
    let c := RateContainer.run ⟨[]⟩ ops
    (∃ l : List Int, l.Nodup ∧ (∀ k, k ∈ l ↔ ∃ p, Holds c k i p) ∧ (c.incomingRateCount i).1 = l.length) ∧
    (∃ l : List Int, l.Nodup ∧ (∀ j, j ∈ l ↔ ∃ p, Holds c i j p) ∧ (c.outgoingRateCount i).1 = l.length) ∧
    (∀ a b p, entry (c.getIncomingRates i).1 a b = some p ↔ b = i ∧ Holds c a b p) ∧
    (∀ a b p, entry (c.getOutgoingRates i).1 a b = some p ↔ a = i ∧ Holds c a b p) := by
  intro c
  have hw : c.WF := wf_run wf_empty hv
  refine ⟨?_, ?_, fun a b p => ?_, fun a b p => ?_⟩
  · refine ⟨(c.rates.filter fun sr => sr.2.has i).map Prod.fst, ?_, fun k => ?_, ?_⟩
    · exact hw.1.sublist (List.filter_sublist.map _)
    · simp only [List.mem_map, List.mem_filter, holds_iff]
      constructor
      · rintro ⟨⟨k', r⟩, ⟨hm, hi⟩, rfl⟩
        obtain ⟨p, hp⟩ := IMap.mem_keys_iff_get?.1 (IMap.has_iff.1 hi)
        exact ⟨p, by simp [at', entry, IMap.get?_of_mem hw.1 hm, hp]⟩
      · rintro ⟨p, h⟩
        unfold at' entry at h
        cases hr : c.rates.get? k with
        | none => simp [hr] at h
        | some r =>
          simp only [hr, Option.bind_some] at h
          exact ⟨(k, r), ⟨IMap.mem_of_get? hr, IMap.has_iff.2 (IMap.mem_keys_iff_get?.2 ⟨p, h⟩)⟩, rfl⟩
    · rw [List.length_map]; rfl
  · refine ⟨(c.row i).1.keys, (wf_row hw i).1, fun j => ?_, ?_⟩
    · rw [IMap.mem_keys_iff_get?]
      simp only [get?_row_fst, holds_iff]
    · show (c.row i).1.length = _
      simp [IMap.keys]
  · rw [getIncomingRates_eq hw, holds_iff]
    have key : ∀ m : RateMap, m.WF →
        entry (m.filterMap fun sr => (sr.2.get? i).map fun p => (sr.1, [(i, p)])) a i = entry m a i := by
      intro m hm
      induction m with
      | nil => rfl
      | cons x m ih =>
        obtain ⟨s, r⟩ := x
        rw [IMap.wf_cons] at hm
        rw [List.filterMap_cons, entry_cons]
        cases hr : r.get? i with
        | none =>
          simp only [Option.map_none]
          rw [ih hm.2]
          split
          · next e => subst e; exact entry_of_not_mem hm.1
          · rfl
        | some q =>
          simp only [Option.map_some]
          rw [entry_cons, ih hm.2]
          simp [IMap.get?_cons]
    by_cases hb : b = i
    · subst hb
      rw [key _ hw.1]
      simp [at']
    · simp only [hb, false_and, iff_false]
      intro h
      unfold entry at h
      cases hr : IMap.get? (c.rates.filterMap fun sr => (sr.2.get? i).map fun p => (sr.1, [(i, p)])) a with
      | none => simp [hr] at h
      | some r =>
        simp only [hr, Option.bind_some] at h
        have := IMap.mem_of_get? hr
        simp only [List.mem_filterMap, Option.map_eq_some_iff, Prod.mk.injEq] at this
        obtain ⟨x, -, q, -, -, rfl⟩ := this
        simp [IMap.get?_cons, Ne.symm hb] at h
  · by_cases ha : a = i
    · subst ha; simp [Holds]
    · simp only [ha, false_and, iff_false]
      unfold getOutgoingRates
      split
      · simp [entry, IMap.get?_cons, Ne.symm ha]
      · simp [entry]

/-- C28 is false of the code after other calls: site 9 has no rate at all, yet is listed as a source; and site 3,
which has an incoming and no outgoing rate, is not listed as a sink. -/
theorem C28_counterexample :
    let c := RateContainer.run ⟨[]⟩ [.addRate 1 2 (some 100), .addRate 2 3 (some 200),
      .outgoingRateCount 9, .outgoingRateCount 3]
    (9 ∈ c.getSourceSiteIds.1 ∧ ¬ ∃ j p, Holds c 9 j p) ∧
    (3 ∉ c.getSinkSiteIds.1 ∧ (∃ k p, Holds c k 3 p) ∧ ¬ ∃ j p, Holds c 3 j p) := by
  intro c
  refine ⟨⟨by decide, ?_⟩, by decide, ⟨2, some 200, (holds_iff _ _ _ _).2 (by decide)⟩, ?_⟩
  · rintro ⟨j, p, h⟩; rw [holds_iff] at h; exact absurd h (by show none ≠ some p; simp)
  · rintro ⟨j, p, h⟩; rw [holds_iff] at h; exact absurd h (by show none ≠ some p; simp)

/-- The hypotheses of `C28_sources_sinks_partial` are met by a non-trivial history. -/
example : (∀ o ∈ [Op.addRate 1 2 (some 100), .addRates [(2, [(3, some 7), (1, some 8)])], .getSinkSiteIds], ValidOp o) ∧
    (∀ o ∈ [Op.addRate 1 2 (some 100), .addRates [(2, [(3, some 7), (1, some 8)])], .getSinkSiteIds], KeepsRows o) ∧
    (RateContainer.run ⟨[]⟩ [Op.addRate 1 2 (some 100), .addRates [(2, [(3, some 7), (1, some 8)])],
      .getSinkSiteIds]).getSinkSiteIds.1 = [3] := by
  refine ⟨?_, ?_, by decide⟩ <;> intro o ho <;>
    simp only [List.mem_cons, List.not_mem_nil, or_false] at ho <;> rcases ho with rfl | rfl | rfl <;>
    simp [ValidOp, KeepsRows, IsMap, IMap.WF]

/-! ## C29 -/

/-- C29 (partial: the container is empty or no rate clashes; see `C29_counterexample`): every rate of the argument
is added, nothing else changes. -/
theorem C29_no_clash_partial {c : RateContainer} {m : RateMap} (hm : IsMap m)
    (h : ∀ i j p, entry m i j = some p → ¬ ∃ q, Holds c i j q) :
    (c.addRates m).1 = .ok () ∧
    ∀ i j p, Holds (c.addRates m).2 i j p ↔ entry m i j = some p ∨ Holds c i j p := by
  simp only [holds_iff] at h ⊢
  unfold addRates
  split
  · next he =>
    refine ⟨rfl, fun i j p => ?_⟩
    have : c.at' i j = none := by
      unfold at' entry; rw [List.length_eq_zero_iff.1 he]; rfl
    rw [this]; simp [at']
  · obtain ⟨h1, h2⟩ := addRows_spec hm (c := c) (by
      intro i j hij
      obtain ⟨p, hp⟩ := Option.ne_none_iff_exists'.1 hij
      by_contra hc
      exact h i j p hp (Option.ne_none_iff_exists'.1 hc))
    refine ⟨h1, fun i j p => ?_⟩
    rw [h2]
    cases he : entry m i j with
    | none => simp
    | some q =>
      have : c.at' i j = none := by
        by_contra hc
        exact h i j q he (Option.ne_none_iff_exists'.1 hc)
      simp [this]

/-- C29 (partial): a clash is always reported, and no stored rate is ever lost or changed by the failing call. -/
theorem C29_clash_throws_partial {c : RateContainer} {m : RateMap} (hm : IsMap m)
    (h : ∃ i j p q, entry m i j = some p ∧ Holds c i j q) :
    (c.addRates m).1 = .error .invalidArgument ∧ ∀ i j p, Holds c i j p → Holds (c.addRates m).2 i j p := by
  obtain ⟨i, j, p, q, h1, h2⟩ := h
  simp only [holds_iff] at h2 ⊢
  unfold addRates
  have he : ¬ c.rates.length = 0 := by
    intro he
    unfold at' entry at h2; rw [List.length_eq_zero_iff.1 he] at h2; simp at h2
  rw [if_neg he]
  refine ⟨addRows_error hm ⟨i, j, by simp [h1], by simp [h2]⟩, ?_⟩
  intro a b r hr
  refine addRows_inv (P := fun c => c.at' a b = some r) ?_ m hr
  intro c s n p hc
  cases hx : c.at' s n with
  | some q => rw [addRate_of_some hx]; exact hc
  | none =>
    rw [at'_addRate hx]; split
    · next e => rw [e.1, e.2] at hx; rw [hx] at hc; cases hc
    · exact hc

/-- C29 is false of the code: the call throws, but has already stored the rate from 1 to 3. -/
theorem C29_counterexample :
    let m : RateMap := [(1, [(3, some 7), (2, some 8)])]
    IsMap m ∧ (rc0.addRates m).1 = .error .invalidArgument ∧
    ((rc0.addRates m).2.getRate 1 3).1 = .ok (some 7) ∧ ¬ ∃ p, Holds rc0 1 3 p := by
  intro m
  refine ⟨by simp [m, IsMap, IMap.WF], by decide, by decide, ?_⟩
  rintro ⟨p, h⟩; rw [holds_iff] at h; exact absurd h (by show none ≠ some p; simp)

/-- The hypotheses of the two partial theorems are met. -/
example : (∀ i j p, entry [(1, [(3, some 7)])] i j = some p → ¬ ∃ q, Holds rc0 i j q) ∧
    (∃ i j p q, entry [(1, [(3, some 7), (2, some 8)])] i j = some p ∧ Holds rc0 i j q) := by
  constructor
  · intro i j p h
    have : i = 1 ∧ j = 3 := by
      rw [entry_cons] at h
      split at h
      · next e =>
        simp only [IMap.get?_cons] at h
        split at h
        · next e' => exact ⟨e.symm, e'.symm⟩
        · simp at h
      · simp [entry] at h
    obtain ⟨rfl, rfl⟩ := this
    rintro ⟨q, h⟩; rw [holds_iff] at h; exact absurd h (by show none ≠ some q; simp)
  · exact ⟨1, 2, some 8, some 100, by decide, (holds_iff _ _ _ _).2 (by decide)⟩

end Mythical
