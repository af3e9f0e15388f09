import Verif.Spec.Width
import Verif.Lemmas.Box
import Mathlib.Tactic.Linarith
import Mathlib.Tactic.FieldSimp
import Mathlib.Tactic.Ring
import Mathlib.Tactic.IntervalCases
import Mathlib.Algebra.Order.Field.Basic

/-! # Lemmas on the bins of energies -/

set_option linter.unusedSectionVars false

namespace Mythical.Correlated
open WidthSpec
variable {K : Type} [Field K] [LinearOrder K] [IsStrictOrderedRing K]

theorem extremes_aux (es : List K) : ∀ a b : K, ∃ lo hi,
    es.foldl (fun b e => (if e < b.1 then e else b.1, if e > b.2 then e else b.2)) (a, b) = (lo, hi) ∧
      ((lo = a ∨ lo ∈ es) ∧ lo ≤ a ∧ ∀ e ∈ es, lo ≤ e) ∧ (hi = b ∨ hi ∈ es) ∧ b ≤ hi ∧ ∀ e ∈ es, e ≤ hi := by
  induction es with
  | nil => intro a b; exact ⟨a, b, rfl, ⟨.inl rfl, le_rfl, by simp⟩, .inl rfl, le_rfl, by simp⟩
  | cons e es ih =>
    intro a b
    obtain ⟨lo, hi, h, ⟨l1, l2, l3⟩, h1, h2, h3⟩ := ih (if e < a then e else a) (if e > b then e else b)
    refine ⟨lo, hi, h, ⟨?_, ?_, ?_⟩, ?_, ?_, ?_⟩
    · rcases l1 with rfl | l1
      · split <;> simp
      · exact .inr (by simp [l1])
    · split at l2 <;> linarith
    · intro x hx
      rcases List.mem_cons.1 hx with rfl | hx
      · split at l2 <;> linarith
      · exact l3 x hx
    · rcases h1 with rfl | h1
      · split <;> simp
      · exact .inr (by simp [h1])
    · split at h2 <;> linarith
    · intro x hx
      rcases List.mem_cons.1 hx with rfl | hx
      · split at h2 <;> linarith
      · exact h3 x hx

theorem range_unique {E : List K} {lo hi lo' hi' : K} (h : Range E lo hi) (h' : Range E lo' hi') : lo = lo' ∧ hi = hi' :=
  ⟨le_antisymm (h.1.2 _ h'.1.1) (h'.1.2 _ h.1.1), le_antisymm (h'.2.2 _ h.2.1) (h.2.2 _ h'.2.1)⟩

theorem extremes_range {E : List K} (hne : E ≠ []) : ∃ b, extremes E = .ok b ∧ Range E b.1 b.2 := by
  obtain ⟨e, es, rfl⟩ := List.exists_cons_of_ne_nil hne
  obtain ⟨lo, hi, h, ⟨l1, l2, l3⟩, h1, h2, h3⟩ := extremes_aux es e e
  refine ⟨(lo, hi), congrArg Except.ok h, ⟨?_, ?_⟩, ?_, ?_⟩
  · rcases l1 with rfl | l1 <;> simp [*]
  · intro x hx
    rcases List.mem_cons.1 hx with rfl | hx
    · exact l2
    · exact l3 x hx
  · rcases h1 with rfl | h1 <;> simp [*]
  · intro x hx
    rcases List.mem_cons.1 hx with rfl | hx
    · exact h2
    · exact h3 x hx

theorem extremes_ok {E : List K} {lo hi : K} (h : Range E lo hi) : extremes E = .ok (lo, hi) := by
  obtain ⟨b, e, hb⟩ := extremes_range (List.ne_nil_of_mem h.1.1)
  obtain ⟨h1, h2⟩ := range_unique hb h
  rw [e, ← h1, ← h2]

theorem binOf_eq {inc e : K} (hi : 0 ≤ inc) (n : Nat) : ∀ (i : Nat) (edge : K), (i = 0 ∨ edge < e) → ∀ j,
    (binOf inc e n i edge = some j ↔ i ≤ j ∧ j < i + n ∧ e ≤ edge + ((j : K) - i + 1) * inc ∧ (j = i ∨ edge + ((j : K) - i) * inc < e)) := by
  induction n with
  | zero => intro i edge _ j; unfold binOf; simp; omega
  | succ n ih =>
    intro i edge h0 j
    unfold binOf
    split
    · next h =>
      rw [Option.some_inj]
      constructor
      · rintro rfl
        exact ⟨le_rfl, by omega, by simpa using h, .inl rfl⟩
      · rintro ⟨h1, h2, h3, rfl | h4⟩
        · rfl
        · by_contra hij
          have : (1 : K) ≤ (j : K) - i := by
            have : ((i + 1 : Nat) : K) ≤ (j : K) := by exact_mod_cast (by omega : i + 1 ≤ j)
            push_cast at this
            linarith
          nlinarith
    · next h =>
      rw [ih (i + 1) (edge + inc) (.inr (not_le.1 h)) j]
      push_cast
      have e1 : edge + inc + ((j : K) - (i + 1) + 1) * inc = edge + ((j : K) - i + 1) * inc := by ring
      have e2 : edge + inc + ((j : K) - (i + 1)) * inc = edge + ((j : K) - i) * inc := by ring
      rw [e1, e2]
      constructor
      · rintro ⟨h1, h2, h3, h4⟩
        refine ⟨by omega, by omega, h3, .inr ?_⟩
        rcases h4 with rfl | h4
        · push_cast
          have : edge + ((i : K) + 1 - i) * inc = edge + inc := by ring
          rw [this]
          exact not_le.1 h
        · exact h4
      · rintro ⟨h1, h2, h3, h4⟩
        have hij : j ≠ i := by
          rintro rfl
          exact h (by simpa using h3)
        refine ⟨by omega, by omega, h3, ?_⟩
        rcases h4 with h4 | h4
        · exact absurd h4 hij
        · exact .inr h4

theorem binOf_iff {lo inc e : K} (hi : 0 ≤ inc) (j : Nat) : binOf inc e 20 0 lo = some j ↔ j < 20 ∧ InBin lo inc j e := by
  rw [binOf_eq hi 20 0 lo (.inl rfl) j]
  unfold InBin
  simp only [Nat.cast_zero, sub_zero, zero_add, Nat.zero_le, true_and]

theorem bins_aux (lo inc : K) (E : List K) : ∀ b : List Int, b.length = 20 →
    (E.foldl (fun b e => match binOf inc e 20 0 lo with
      | none => b
      | some i => b.modify i (· + 1)) b).length = 20 ∧
    ∀ k, k < 20 → (E.foldl (fun b e => match binOf inc e 20 0 lo with
      | none => b
      | some i => b.modify i (· + 1)) b)[k]? = b[k]?.map (· + (E.countP fun e => binOf inc e 20 0 lo = some k : Int)) := by
  induction E with
  | nil => intro b hb; exact ⟨hb, fun k hk => by simp⟩
  | cons e E ih =>
    intro b hb
    rw [List.foldl_cons]
    cases he : binOf inc e 20 0 lo with
    | none =>
      simp only
      obtain ⟨h1, h2⟩ := ih b hb
      refine ⟨h1, fun k hk => ?_⟩
      rw [h2 k hk, List.countP_cons_of_neg (by simp [he])]
    | some i =>
      simp only
      obtain ⟨h1, h2⟩ := ih (b.modify i (· + 1)) (by simpa using hb)
      refine ⟨h1, fun k hk => ?_⟩
      rw [h2 k hk, List.getElem?_modify]
      by_cases hik : i = k
      · subst hik
        rw [List.countP_cons_of_pos (by simp [he])]
        cases b[i]? with
        | none => simp
        | some x =>
          simp
          ring
      · rw [List.countP_cons_of_neg (by simpa [he] using hik)]
        simp [hik]

theorem bins_eq {lo inc : K} (hi : 0 ≤ inc) (E : List K) :
    bins lo inc E = (List.range 20).map fun k => (held lo inc E k : Int) := by
  obtain ⟨h1, h2⟩ := bins_aux lo inc E (List.replicate 20 0) (by simp)
  refine List.ext_getElem? fun k => ?_
  by_cases hk : k < 20
  · refine (h2 k hk).trans ?_
    rw [List.getElem?_replicate, if_pos hk, List.getElem?_map, List.getElem?_range hk]
    simp only [Option.map_some, zero_add]
    unfold held
    congr 2
    refine List.countP_congr fun e _ => ?_
    simp only [decide_eq_true_eq]
    rw [binOf_iff hi k]
    simp [hk]
  · have h3 : (bins lo inc E).length = 20 := h1
    rw [List.getElem?_eq_none (by omega), List.getElem?_eq_none (by simp; omega)]

theorem maxCount_aux (b : List Int) : ∀ m : Int, (b.foldl (fun m c => if c > m then c else m) m = m ∨ b.foldl (fun m c => if c > m then c else m) m ∈ b) ∧
    m ≤ b.foldl (fun m c => if c > m then c else m) m ∧ ∀ c ∈ b, c ≤ b.foldl (fun m c => if c > m then c else m) m := by
  induction b with
  | nil => intro m; simp
  | cons c b ih =>
    intro m
    rw [List.foldl_cons]
    obtain ⟨h1, h2, h3⟩ := ih (if c > m then c else m)
    refine ⟨?_, ?_, ?_⟩
    · rcases h1 with h1 | h1
      · rw [h1]
        split
        · exact .inr (by simp)
        · exact .inl rfl
      · exact .inr (by simp [h1])
    · split at h2 <;> first | (rw [if_pos (by assumption)]; omega) | (rw [if_neg (by assumption)]; omega)
    · intro x hx
      rcases List.mem_cons.1 hx with rfl | hx
      · split at h2 <;> first | (rw [if_pos (by assumption)]; omega) | (rw [if_neg (by assumption)]; omega)
      · exact h3 x hx

theorem maxCount_eq {N : Nat → Nat} {m : Nat} (ha : ∃ k, k < 20 ∧ N k = m) (hg : ∀ k, k < 20 → N k ≤ m) :
    maxCount ((List.range 20).map fun k => (N k : Int)) = m := by
  obtain ⟨h1, h2, h3⟩ := maxCount_aux ((List.range 20).map fun k => (N k : Int)) 0
  unfold maxCount
  generalize List.foldl (fun m c => if c > m then c else m) 0 ((List.range 20).map fun k => (N k : Int)) = M at *
  obtain ⟨k, hk, rfl⟩ := ha
  have h4 := h3 (N k) (by simp only [List.mem_map, List.mem_range]; exact ⟨k, hk, rfl⟩)
  rcases h1 with rfl | h1
  · have := hg k hk
    omega
  · simp only [List.mem_map, List.mem_range] at h1
    obtain ⟨k', hk', rfl⟩ := h1
    have := hg k' hk'
    omega

theorem scanUp_eq {half inc : K} (i : Nat) : ∀ (bs : List Int) (edge prev : K) (c : Int), bs[i]? = some c → (half : K) < c →
    (∀ k, k < i → ∀ x, bs[k]? = some x → (x : K) ≤ half) →
    scanUp half inc bs edge prev = ((c : K), (edge + i * inc + inc) / 2, if i = 0 then prev else ((bs.getD (i - 1) 0 : Int) : K),
      (edge + i * inc + inc) / 2 - inc) := by
  induction i with
  | zero =>
    intro bs edge prev c hc hh _
    cases bs with
    | nil => simp at hc
    | cons a bs =>
      obtain rfl : a = c := by simpa using hc
      unfold scanUp
      rw [if_pos hh]
      simp
  | succ i ih =>
    intro bs edge prev c hc hh hk
    cases bs with
    | nil => simp at hc
    | cons a bs =>
      unfold scanUp
      rw [if_neg (not_lt.2 (hk 0 (by omega) a (by simp)))]
      rw [ih bs (edge + inc) a c (by simpa using hc) hh fun k hki x hx => hk (k + 1) (by omega) x (by simpa using hx)]
      have e : edge + inc + (i : K) * inc = edge + ((i + 1 : Nat) : K) * inc := by push_cast; ring
      rw [e, if_neg (by omega : i + 1 ≠ 0)]
      congr 3
      cases i with
      | zero => simp
      | succ i => simp

theorem scanDown_eq {half inc : K} (i : Nat) : ∀ (bs : List Int) (edge prev : K) (c : Int), bs[i]? = some c → (half : K) < c →
    (∀ k, k < i → ∀ x, bs[k]? = some x → (x : K) ≤ half) →
    scanDown half inc bs edge prev = ((c : K), (edge - i * inc - inc) / 2, if i = 0 then prev else ((bs.getD (i - 1) 0 : Int) : K), inc) := by
  induction i with
  | zero =>
    intro bs edge prev c hc hh _
    cases bs with
    | nil => simp at hc
    | cons a bs =>
      obtain rfl : a = c := by simpa using hc
      unfold scanDown
      rw [if_pos hh]
      simp
  | succ i ih =>
    intro bs edge prev c hc hh hk
    cases bs with
    | nil => simp at hc
    | cons a bs =>
      unfold scanDown
      rw [if_neg (not_lt.2 (hk 0 (by omega) a (by simp)))]
      rw [ih bs (edge - inc) a c (by simpa using hc) hh fun k hki x hx => hk (k + 1) (by omega) x (by simpa using hx)]
      have e : edge - inc - (i : K) * inc = edge - ((i + 1 : Nat) : K) * inc := by push_cast; ring
      rw [e, if_neg (by omega : i + 1 ≠ 0)]
      congr 3
      cases i with
      | zero => simp
      | succ i => simp

theorem lower_eq {half c h p inc : K} (hi : inc ≠ 0) (hc : c ≠ p) :
    lowerIntersect half (c, h, p, h - inc) = .ok (h - inc + (half - p) / (c - p) * inc) := by
  have hcp : c - p ≠ 0 := sub_ne_zero.2 hc
  unfold lowerIntersect quot
  simp only [sub_sub_cancel]
  rw [if_neg hi, ok_bind, if_neg (div_ne_zero hcp hi)]
  congr 1
  field_simp
  ring

theorem upper_eq {half c h p inc : K} (hc : c ≠ p) :
    upperIntersect half (c, h, p, inc) = if h = inc then .error .nonFinite else .ok (inc + (half - p) / (c - p) * (h - inc)) := by
  have hcp : c - p ≠ 0 := sub_ne_zero.2 hc
  have hpc : p - c ≠ 0 := sub_ne_zero.2 (Ne.symm hc)
  unfold upperIntersect quot
  simp only
  split
  · next h0 => rw [if_pos (sub_eq_zero.1 h0).symm]; rfl
  · next h0 =>
    rw [if_neg (fun e => h0 (by rw [e, sub_self])), ok_bind, if_neg (div_ne_zero hpc h0)]
    congr 1
    field_simp
    ring

theorem sum_held {lo hi inc : K} {E : List K} (hr : Range E lo hi) (hlt : lo ≤ hi) (hi' : inc = (hi - lo) / 20) :
    ((List.range 20).map (held lo inc E)).sum = E.length ∧ ∀ e ∈ E, ∃ k, k < 20 ∧ InBin lo inc k e := by
  have hinc : 0 ≤ inc := by rw [hi']; exact div_nonneg (sub_nonneg.2 hlt) (by norm_num)
  have h20 : lo + 20 * inc = hi := by rw [hi']; field_simp; ring
  have hex : ∀ e ∈ E, ∃ k, k < 20 ∧ InBin lo inc k e := by
    intro e he
    have h : ∃ k : Nat, e ≤ lo + ((k : K) + 1) * inc := ⟨19, by have := hr.2.2 e he; push_cast; linarith⟩
    classical
    refine ⟨Nat.find h, ?_, Nat.find_spec h, ?_⟩
    · have : Nat.find h ≤ 19 := Nat.find_min' h (by have := hr.2.2 e he; push_cast; linarith)
      omega
    · rcases hn : Nat.find h with _ | n
      · exact .inl rfl
      · have := Nat.find_min h (m := n) (by omega)
        refine .inr ?_
        push_cast
        exact not_le.1 this
  refine ⟨?_, hex⟩
  have : ∀ l : List K, (∀ e ∈ l, e ∈ E) → ((List.range 20).map (held lo inc l)).sum = l.length := by
    intro l
    induction l with
    | nil =>
      intro _
      have : held lo inc ([] : List K) = fun _ => 0 := funext fun k => by unfold held; exact List.countP_nil
      rw [this]
      rw [List.length_nil]
      decide
    | cons e l ih =>
      intro hl
      obtain ⟨k, hk, hk'⟩ := hex e (hl e (by simp))
      have huniq : ∀ k', k' < 20 → (InBin lo inc k' e ↔ k' = k) := by
        intro k' hk2
        constructor
        · intro h
          have a := (binOf_iff hinc k').2 ⟨hk2, h⟩
          have b := (binOf_iff hinc k).2 ⟨hk, hk'⟩
          rw [a] at b
          exact Option.some_inj.1 b
        · rintro rfl; exact hk'
      have e1 : (List.range 20).map (held lo inc (e :: l)) = (List.range 20).map fun k' => held lo inc l k' + if k' = k then 1 else 0 := by
        refine List.map_congr_left fun k' hk2 => ?_
        unfold held
        rw [List.countP_cons]
        simp only [decide_eq_true_eq, huniq k' (List.mem_range.1 hk2)]
      rw [e1, List.sum_map_add, List.length_cons]
      have e2 : ((List.range 20).map fun k' => if k' = k then 1 else 0).sum = 1 := by
        interval_cases k <;> rfl
      rw [e2]
      have := ih fun x hx => hl x (by simp [hx])
      omega
  exact this E fun _ h => h

theorem exists_peak {N : Nat → Nat} (h : ∃ k, k < 20 ∧ 0 < N k) : ∃ m i j, Peak N m i j := by
  classical
  obtain ⟨k0, hk0, hmax⟩ := Finset.exists_max_image (Finset.range 20) N ⟨0, by simp⟩
  have hg : ∀ k, k < 20 → N k ≤ N k0 := fun k hk => hmax k (Finset.mem_range.2 hk)
  have hpos : 0 < N k0 := by
    obtain ⟨k, hk, hp⟩ := h
    exact hp.trans_le (hg k hk)
  have hf : ∃ i, i < 20 ∧ N k0 < 20 * N i := ⟨k0, Finset.mem_range.1 hk0, by omega⟩
  have hl : ∃ i, i < 20 ∧ N k0 < 20 * N (19 - i) := ⟨19 - k0, by omega, by
    have := Finset.mem_range.1 hk0
    rw [show 19 - (19 - k0) = k0 by omega]; omega⟩
  refine ⟨N k0, Nat.find hf, 19 - Nat.find hl, ⟨k0, Finset.mem_range.1 hk0, rfl⟩, hg,
    ⟨(Nat.find_spec hf).1, (Nat.find_spec hf).2, fun k hk => ?_⟩, ⟨by omega, (Nat.find_spec hl).2, fun k hk hk' => ?_⟩⟩
  · have := Nat.find_min hf hk
    have := (Nat.find_spec hf).1
    omega
  · have hlt := (Nat.find_spec hl).1
    have := Nat.find_min hl (m := 19 - k) (by omega)
    rw [show 19 - (19 - k) = k by omega] at this
    omega

end Mythical.Correlated
