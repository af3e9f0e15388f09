import Verif.Spec.RateContainer
import Verif.Lemmas.IMap
import Verif.Lemmas.Except
import Mathlib.Data.Finset.Card

/-! # Lemmas about the rate container -/

namespace Mythical.RateContainer
open Mythical RateSpec

/-- Representation invariant: distinct keys everywhere. -/
def WF (c : RateContainer) : Prop := IsMap c.rates

/-- Entry of the stored map. -/
def at' (c : RateContainer) (i j : Int) : Option Ptr := entry c.rates i j

theorem isMap_row {m : RateMap} (h : IsMap m) {s : Int} {r : IMap Ptr} (hr : m.get? s = some r) : r.WF :=
  h.2 _ (IMap.mem_of_get? hr)

theorem isMap_set {m : RateMap} (h : IsMap m) {s : Int} {r : IMap Ptr} (hr : r.WF) : IsMap (m.set s r) := by
  refine ⟨h.1.set _ _, ?_⟩
  rintro ⟨k, v⟩ hm
  have := IMap.get?_of_mem (h.1.set s r) hm
  rw [IMap.get?_set] at this
  split at this
  · cases this; exact hr
  · exact isMap_row h this

theorem entry_set (m : RateMap) (s : Int) (r : IMap Ptr) (i j : Int) :
    entry (m.set s r) i j = if s = i then r.get? j else entry m i j := by
  unfold entry; rw [IMap.get?_set]; split <;> rfl

theorem wf_row {c : RateContainer} (h : c.WF) (s : Int) : (c.row s).1.WF ∧ (c.row s).2.WF := by
  unfold row; split
  · next r hr => exact ⟨isMap_row h hr, h⟩
  · exact ⟨IMap.wf_nil, isMap_set h IMap.wf_nil⟩

theorem get?_row_fst (c : RateContainer) (s n : Int) : (c.row s).1.get? n = c.at' s n := by
  unfold row at' entry; split
  · next r hr => simp [hr]
  · next hr => simp [hr]

theorem at'_row (c : RateContainer) (s i j : Int) : (c.row s).2.at' i j = c.at' i j := by
  unfold row; split
  · rfl
  · next hr =>
    unfold at'; rw [entry_set]; split
    · next e => subst e; simp [entry, hr]
    · rfl

theorem row_get? (c : RateContainer) (s : Int) : (c.row s).2.rates.get? s = some (c.row s).1 := by
  unfold row; split
  · next r hr => exact hr
  · simp

theorem row_get?_ne (c : RateContainer) {s i : Int} (h : s ≠ i) : (c.row s).2.rates.get? i = c.rates.get? i := by
  unfold row; split
  · rfl
  · simp [IMap.get?_set, h]

theorem row_snd_of_mem {c : RateContainer} {s : Int} (h : s ∈ c.rates.keys) : (c.row s).2 = c := by
  obtain ⟨r, hr⟩ := IMap.mem_keys_iff_get?.1 h
  unfold row; rw [hr]

theorem holds_iff (c : RateContainer) (i j : Int) (p : Ptr) : Holds c i j p ↔ c.at' i j = some p := by
  unfold Holds getOutgoingRates
  by_cases h : c.rates.has i
  · rw [if_pos h]
    show entry [(i, (c.row i).1)] i j = some p ↔ _
    rw [← get?_row_fst]; simp [entry, IMap.get?_cons]
  · rw [if_neg h]
    have : c.rates.get? i = none := by
      rw [IMap.get?_eq_none_iff, ← IMap.has_eq_false_iff]; simpa using h
    simp [at', entry, this]

theorem addRate_cond (c : RateContainer) (s n : Int) :
    (c.rates.has s && (c.row s).1.has n) = (c.at' s n).isSome := by
  unfold IMap.has
  rw [get?_row_fst]
  unfold at' entry
  cases h : c.rates.get? s <;> simp

theorem addRate_of_some {c : RateContainer} {s n : Int} {p q : Ptr} (h : c.at' s n = some q) :
    c.addRate s n p = (.error .invalidArgument, c) := by
  unfold addRate; rw [addRate_cond, h]; rfl

theorem addRate_of_none {c : RateContainer} {s n : Int} {p : Ptr} (h : c.at' s n = none) :
    c.addRate s n p = (.ok (), ⟨(c.row s).2.rates.set s ((c.row s).1.set n p)⟩) := by
  unfold addRate; rw [addRate_cond, h]; rfl

theorem at'_addRate {c : RateContainer} {s n : Int} {p : Ptr} (h : c.at' s n = none) (i j : Int) :
    (c.addRate s n p).2.at' i j = if s = i ∧ n = j then some p else c.at' i j := by
  rw [addRate_of_none h]
  unfold at'
  rw [entry_set]
  by_cases hs : s = i
  · subst hs
    rw [if_pos rfl, IMap.get?_set]
    by_cases hn : n = j
    · simp [hn]
    · simp only [hn, if_false, and_false]; exact get?_row_fst c s j
  · simp only [hs, if_false, false_and]; exact at'_row c s i j

theorem wf_addRate {c : RateContainer} (hc : c.WF) (s n : Int) (p : Ptr) : (c.addRate s n p).2.WF := by
  cases h : c.at' s n with
  | some q => rw [addRate_of_some h]; exact hc
  | none => rw [addRate_of_none h]; exact isMap_set (wf_row hc s).2 ((wf_row hc s).1.set _ _)

/-- No row is empty. -/
def NoEmpty (c : RateContainer) : Prop := ∀ i r, c.rates.get? i = some r → r ≠ []

theorem set_ne_nil {V} (m : IMap V) (k : Int) (v : V) : m.set k v ≠ [] := by
  cases m with
  | nil => simp [IMap.set]
  | cons p m => obtain ⟨a, b⟩ := p; simp only [IMap.set]; split <;> simp

theorem noEmpty_addRate {c : RateContainer} (hc : c.NoEmpty) (s n : Int) (p : Ptr) :
    (c.addRate s n p).2.NoEmpty := by
  cases h : c.at' s n with
  | some q => rw [addRate_of_some h]; exact hc
  | none =>
    rw [addRate_of_none h]
    intro i r hr
    simp only [IMap.get?_set] at hr
    split at hr
    · cases hr; exact set_ne_nil _ _ _
    · next hne => rw [row_get?_ne c hne] at hr; exact hc i r hr

theorem keys_addRate {c : RateContainer} {s n : Int} {p : Ptr} {i : Int} :
    i ∈ (c.addRate s n p).2.rates.keys ↔ i ∈ c.rates.keys ∨ i = s := by
  cases h : c.at' s n with
  | some q =>
    rw [addRate_of_some h]
    have : s ∈ c.rates.keys := by
      unfold at' entry at h
      cases h' : c.rates.get? s with
      | none => simp [h'] at h
      | some r => exact IMap.mem_keys_iff_get?.2 ⟨r, h'⟩
    constructor
    · exact Or.inl
    · rintro (h | rfl) <;> assumption
  | none =>
    rw [addRate_of_none h]
    simp only [IMap.mem_keys_set]
    by_cases hs : s = i
    · subst hs; simp
    · rw [IMap.mem_keys_iff_get?, row_get?_ne c hs, ← IMap.mem_keys_iff_get?]
      exact or_comm

/-! ## addRow / addRows -/

theorem addRow_spec {s : Int} {l : IMap Ptr} (hl : l.WF) :
    ∀ {c : RateContainer}, (∀ n p, (n, p) ∈ l → c.at' s n = none) →
      (c.addRow s l).1 = .ok () ∧
      ∀ i j, (c.addRow s l).2.at' i j = if s = i ∧ j ∈ l.keys then l.get? j else c.at' i j := by
  induction l with
  | nil => intro c _; exact ⟨rfl, by simp [addRow]⟩
  | cons a l ih =>
    obtain ⟨n, p⟩ := a
    rw [IMap.wf_cons] at hl
    intro c h
    have hn := h n p (by simp)
    have hok : (c.addRate s n p).1 = .ok () := by rw [addRate_of_none hn]
    have hat := at'_addRate (p := p) hn
    unfold addRow
    generalize c.addRate s n p = x at hok hat
    obtain ⟨x1, c'⟩ := x
    cases hok
    simp only at hat ⊢
    obtain ⟨h1, h2⟩ := ih hl.2 (c := c') (by
      intro n' p' hm
      rw [hat]
      have : n ≠ n' := fun e => hl.1 (e ▸ IMap.mem_keys_of_mem hm)
      simp [this, h n' p' (List.mem_cons_of_mem _ hm)])
    refine ⟨h1, fun i j => ?_⟩
    rw [h2, hat]
    by_cases hs : s = i
    · subst hs
      by_cases hn : n = j
      · subst hn
        simp [IMap.get?_cons, hl.1]
      · simp [IMap.get?_cons, hn, Ne.symm hn]
    · simp [hs]

theorem addRow_error {s : Int} {l : IMap Ptr} (hl : l.WF) :
    ∀ {c : RateContainer}, (∃ n p, (n, p) ∈ l ∧ c.at' s n ≠ none) →
      (c.addRow s l).1 = .error .invalidArgument := by
  induction l with
  | nil => rintro c ⟨n, p, h, -⟩; cases h
  | cons a l ih =>
    obtain ⟨n, p⟩ := a
    rw [IMap.wf_cons] at hl
    rintro c ⟨n', p', hm, hne⟩
    unfold addRow
    cases hn : c.at' s n with
    | some q => rw [addRate_of_some hn]
    | none =>
      have hok : (c.addRate s n p).1 = .ok () := by rw [addRate_of_none hn]
      have hat := at'_addRate (p := p) hn
      generalize c.addRate s n p = x at hok hat
      obtain ⟨x1, c'⟩ := x
      cases hok
      simp only at hat ⊢
      rcases List.mem_cons.1 hm with e | hm
      · cases e; exact absurd hn hne
      · refine ih hl.2 ⟨n', p', hm, ?_⟩
        rw [hat]; split
        · simp
        · exact hne

theorem addRow_inv {P : RateContainer → Prop} (hP : ∀ c s n p, P c → P (c.addRate s n p).2) {s : Int}
    (l : IMap Ptr) : ∀ {c : RateContainer}, P c → P (c.addRow s l).2 := by
  induction l with
  | nil => intro c h; exact h
  | cons a l ih =>
    obtain ⟨n, p⟩ := a
    intro c h
    have h1 := hP c s n p h
    unfold addRow
    generalize c.addRate s n p = x at h1
    obtain ⟨x1, c'⟩ := x
    cases x1 with
    | ok _ => exact ih h1
    | error e => exact h1

theorem addRows_inv {P : RateContainer → Prop} (hP : ∀ c s n p, P c → P (c.addRate s n p).2)
    (m : RateMap) : ∀ {c : RateContainer}, P c → P (c.addRows m).2 := by
  induction m with
  | nil => intro c h; exact h
  | cons a m ih =>
    obtain ⟨s, r⟩ := a
    intro c h
    have h1 := addRow_inv hP (s := s) r h
    unfold addRows
    generalize c.addRow s r = x at h1
    obtain ⟨x1, c'⟩ := x
    cases x1 with
    | ok _ => exact ih h1
    | error e => exact h1

theorem entry_cons (s : Int) (r : IMap Ptr) (m : RateMap) (i j : Int) :
    entry ((s, r) :: m) i j = if s = i then r.get? j else entry m i j := by
  unfold entry; rw [IMap.get?_cons]; split <;> rfl

theorem isMap_cons {s : Int} {r : IMap Ptr} {m : RateMap} :
    IsMap ((s, r) :: m) ↔ s ∉ m.keys ∧ r.WF ∧ IsMap m := by
  unfold IsMap; rw [IMap.wf_cons]; simp only [List.forall_mem_cons]; tauto

theorem entry_of_not_mem {m : RateMap} {i j : Int} (h : i ∉ m.keys) : entry m i j = none := by
  unfold entry; rw [IMap.get?_eq_none_iff.2 h]; rfl

/-- Adding a map that does not clash. -/
theorem addRows_spec {m : RateMap} (hm : IsMap m) :
    ∀ {c : RateContainer}, (∀ i j, entry m i j ≠ none → c.at' i j = none) →
      (c.addRows m).1 = .ok () ∧ ∀ i j, (c.addRows m).2.at' i j = (entry m i j).or (c.at' i j) := by
  induction m with
  | nil => intro c _; exact ⟨rfl, fun i j => by simp [addRows, entry]⟩
  | cons a m ih =>
    obtain ⟨s, r⟩ := a
    rw [isMap_cons] at hm
    intro c h
    obtain ⟨h1, h2⟩ := addRow_spec (s := s) hm.2.1 (c := c) (by
      intro n p hnp
      apply h; rw [entry_cons, if_pos rfl, IMap.get?_of_mem hm.2.1 hnp]; simp)
    unfold addRows
    generalize c.addRow s r = x at h1 h2
    obtain ⟨x1, c'⟩ := x
    cases h1
    simp only at h2 ⊢
    obtain ⟨h3, h4⟩ := ih hm.2.2 (c := c') (by
      intro i j hij
      rw [h2]
      have hi : s ≠ i := by rintro rfl; exact hij (entry_of_not_mem hm.1)
      simp only [hi, false_and, if_false]
      apply h; rw [entry_cons, if_neg hi]; exact hij)
    refine ⟨h3, fun i j => ?_⟩
    rw [h4, h2, entry_cons]
    by_cases hi : s = i
    · subst hi
      rw [entry_of_not_mem hm.1]
      simp only [true_and, if_true, Option.none_or]
      split
      · next hk => obtain ⟨v, hv⟩ := IMap.mem_keys_iff_get?.1 hk; simp [hv]
      · next hk => rw [IMap.get?_eq_none_iff.2 hk]; rfl
    · simp [hi]

/-- Adding a map that clashes throws. -/
theorem addRows_error {m : RateMap} (hm : IsMap m) :
    ∀ {c : RateContainer}, (∃ i j, entry m i j ≠ none ∧ c.at' i j ≠ none) →
      (c.addRows m).1 = .error .invalidArgument := by
  induction m with
  | nil => rintro c ⟨i, j, h, -⟩; simp [entry] at h
  | cons a m ih =>
    obtain ⟨s, r⟩ := a
    rw [isMap_cons] at hm
    rintro c ⟨i, j, hij, hc⟩
    rw [entry_cons] at hij
    unfold addRows
    by_cases hcl : ∃ n p, (n, p) ∈ r ∧ c.at' s n ≠ none
    · have := addRow_error hm.2.1 hcl
      generalize c.addRow s r = x at this
      obtain ⟨x1, c'⟩ := x
      cases this; rfl
    · have hcl' : ∀ n p, (n, p) ∈ r → c.at' s n = none := by
        intro n p hnp; by_contra h; exact hcl ⟨n, p, hnp, h⟩
      obtain ⟨h1, h2⟩ := addRow_spec (s := s) hm.2.1 (c := c) hcl'
      generalize c.addRow s r = x at h1 h2
      obtain ⟨x1, c'⟩ := x
      cases h1
      simp only at h2 ⊢
      have hi : s ≠ i := by
        rintro rfl
        rw [if_pos rfl] at hij
        obtain ⟨v, hv⟩ := Option.ne_none_iff_exists'.1 hij
        exact hc (hcl' j v (IMap.mem_of_get? hv))
      rw [if_neg hi] at hij
      exact ih hm.2.2 ⟨i, j, hij, by rw [h2]; simpa [hi] using hc⟩

/-! ## getRate -/

theorem getRate_of_some {c : RateContainer} {s n : Int} {p : Ptr} (h : c.at' s n = some p) :
    c.getRate s n = (.ok p, c) := by
  have hs : s ∈ c.rates.keys := by
    by_contra hs; unfold at' at h; rw [entry_of_not_mem hs] at h; cases h
  unfold getRate
  have := IMap.has_iff.2 hs
  simp only [this, Bool.not_true, Bool.false_and, Bool.false_eq_true, if_false, row_snd_of_mem hs]
  rw [get?_row_fst, h]

theorem getRate_of_no_row {c : RateContainer} {s n : Int} (h : s ∉ c.rates.keys) :
    c.getRate s n = (.error .invalidArgument, ⟨c.rates.set s []⟩) := by
  have hn := IMap.get?_eq_none_iff.2 h
  unfold getRate
  simp [row, hn, IMap.has]

theorem getRate_of_missing {c : RateContainer} {s n : Int} (hs : s ∈ c.rates.keys) (h : c.at' s n = none) :
    c.getRate s n = (.ok none, ⟨c.rates.set s ((c.row s).1.set n none)⟩) := by
  unfold getRate
  have := IMap.has_iff.2 hs
  simp only [this, Bool.not_true, Bool.false_and, Bool.false_eq_true, if_false, row_snd_of_mem hs]
  rw [get?_row_fst, h]

theorem at'_getRate (c : RateContainer) (s n i j : Int) :
    (c.getRate s n).2.at' i j = c.at' i j ∨
      (c.at' i j = none ∧ (c.getRate s n).2.at' i j = some none ∧ s = i ∧ n = j) := by
  cases h : c.at' s n with
  | some p => rw [getRate_of_some h]; exact Or.inl rfl
  | none =>
    by_cases hs : s ∈ c.rates.keys
    · rw [getRate_of_missing hs h]
      simp only [at', entry_set]
      by_cases hi : s = i
      · subst hi
        rw [if_pos rfl, IMap.get?_set]
        by_cases hj : n = j
        · subst hj; right; exact ⟨h, by simp⟩
        · left; rw [if_neg hj, get?_row_fst]; rfl
      · left; rw [if_neg hi]
    · rw [getRate_of_no_row hs]
      left
      simp only [at', entry_set]
      split
      · next e => subst e; rw [entry_of_not_mem hs]; rfl
      · rfl

theorem wf_getRate {c : RateContainer} (hc : c.WF) (s n : Int) : (c.getRate s n).2.WF := by
  cases h : c.at' s n with
  | some p => rw [getRate_of_some h]; exact hc
  | none =>
    by_cases hs : s ∈ c.rates.keys
    · rw [getRate_of_missing hs h]; exact isMap_set hc ((wf_row hc s).1.set _ _)
    · rw [getRate_of_no_row hs]; exact isMap_set hc IMap.wf_nil

theorem wf_step {c : RateContainer} (hc : c.WF) {o : Op} (ho : ValidOp o) : (c.step o).WF := by
  cases o with
  | addRate s n p => exact wf_addRate hc s n p
  | addRates m =>
    show (c.addRates m).2.WF
    unfold addRates; split
    · exact ho
    · exact addRows_inv (P := WF) (fun c s n p h => wf_addRate h s n p) m hc
  | getRate s n => exact wf_getRate hc s n
  | outgoingRateCount s => exact (wf_row hc s).2
  | getOutgoingRates s =>
    show (c.getOutgoingRates s).2.WF
    unfold getOutgoingRates; split
    · exact (wf_row hc s).2
    · exact hc
  | incomingRateCount s => exact hc
  | getIncomingRates s => exact hc
  | getSourceSiteIds => exact hc
  | getSinkSiteIds => exact hc

theorem wf_run {c : RateContainer} (hc : c.WF) {ops : List Op} (h : ∀ o ∈ ops, ValidOp o) : (c.run ops).WF := by
  induction ops generalizing c with
  | nil => exact hc
  | cons o ops ih =>
    exact ih (wf_step hc (h o (by simp))) fun o' ho' => h o' (by simp [ho'])

theorem wf_empty : WF ⟨[]⟩ := ⟨IMap.wf_nil, by simp⟩

/-! ## Incoming rates -/

theorem incomingRow_spec {s n : Int} {l : IMap Ptr} (hl : l.WF) :
    ∀ {acc : RateMap}, (s ∉ acc.keys) →
      incomingRow s n acc l = match l.get? n with
        | some p => acc ++ [(s, [(n, p)])]
        | none => acc := by
  induction l with
  | nil => intro acc _; rfl
  | cons a l ih =>
    obtain ⟨j, p⟩ := a
    rw [IMap.wf_cons] at hl
    intro acc hs
    unfold incomingRow
    by_cases hj : j = n
    · subst hj
      rw [if_pos rfl, IMap.get?_cons, if_pos rfl, IMap.get?_eq_none_iff.2 hs]
      have hrest : ∀ (acc : RateMap) (l : IMap Ptr), j ∉ l.keys → incomingRow s j acc l = acc := by
        intro acc l
        induction l generalizing acc with
        | nil => intro _; rfl
        | cons b l ih2 =>
          obtain ⟨j', p'⟩ := b
          intro h
          simp only [IMap.keys_cons, List.mem_cons, not_or] at h
          unfold incomingRow
          rw [if_neg (Ne.symm h.1)]
          exact ih2 _ h.2
      rw [hrest _ _ hl.1]
      simp only [Option.getD_none]
      rw [IMap.set_of_not_mem hs]; rfl
    · rw [if_neg hj, ih hl.2 hs, IMap.get?_cons, if_neg hj]

theorem getIncomingRates_eq {c : RateContainer} (hc : c.WF) (n : Int) :
    (c.getIncomingRates n).1 = c.rates.filterMap fun sr => (sr.2.get? n).map fun p => (sr.1, [(n, p)]) := by
  unfold getIncomingRates
  obtain ⟨m⟩ := c
  have hc : IsMap m := hc
  simp only
  have key : ∀ (m : RateMap) (acc : RateMap), IsMap m → (∀ i ∈ m.keys, i ∉ acc.keys) →
      m.foldl (fun acc sr => incomingRow sr.1 n acc sr.2) acc =
        acc ++ m.filterMap fun sr => (sr.2.get? n).map fun p => (sr.1, [(n, p)]) := by
    intro m
    induction m with
    | nil => intro acc _ _; simp
    | cons a m ih =>
      obtain ⟨s, r⟩ := a
      intro acc hm hd
      rw [isMap_cons] at hm
      rw [List.foldl_cons, incomingRow_spec hm.2.1 (hd s (by simp)), List.filterMap_cons]
      cases hr : r.get? n with
      | none =>
        simp only [Option.map_none]
        exact ih acc hm.2.2 fun i hi => hd i (by simp [hi])
      | some p =>
        simp only [Option.map_some]
        rw [ih _ hm.2.2]
        · simp
        · intro i hi hc'
          simp only [IMap.keys, List.map_append, List.mem_append, List.map_cons, List.map_nil, List.mem_singleton] at hc'
          rcases hc' with h | rfl
          · exact hd i (by simp [hi]) h
          · exact hm.1 hi
  rw [key m [] hc (by simp)]; rfl

end Mythical.RateContainer
