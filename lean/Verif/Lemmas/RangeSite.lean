import Verif.Lemmas.Range
import Verif.Lemmas.Site
import Verif.Props.Rounded

/-! # Lemmas on the range of `double` in `Site` -/

set_option linter.unusedSectionVars false

namespace Mythical
open Rounded RoundSpec Site
variable {K : Type} [Field K] [LinearOrder K] [IsStrictOrderedRing K] [FloorRing K] {fl : K → K}

theorem imap_set_length {V : Type} (m : IMap V) (k : Int) (v : V) : (m.set k v).length ≤ m.length + 1 := by
  induction m with
  | nil => simp [IMap.set]
  | cons x m ih =>
    unfold IMap.set
    split
    · simp
    · simp only [List.length_cons]; omega

theorem imap_set_mem {V : Type} {m : IMap V} {k : Int} {v : V} {x : Int × V} (h : x ∈ m.set k v) : x ∈ m ∨ x.2 = v := by
  induction m with
  | nil =>
    simp only [IMap.set, List.mem_singleton] at h
    right; rw [h]
  | cons y m ih =>
    unfold IMap.set at h
    split at h
    · rcases List.mem_cons.1 h with h | h
      · right; rw [h]
      · left; simp [h]
    · rcases List.mem_cons.1 h with h | h
      · left; simp [h]
      · rcases ih h with h | h
        · left; simp [h]
        · right; exact h

theorem setInsert_sub {x y : Int × K} {l : List (Int × K)} (h : y ∈ setInsert x l) : y = x ∨ y ∈ l := by
  induction l with
  | nil => left; simpa [setInsert] using h
  | cons z l ih =>
    unfold setInsert at h
    split at h
    · simpa using h
    · split at h
      · rcases List.mem_cons.1 h with h | h
        · right; simp [h]
        · rcases ih h with h | h
          · left; exact h
          · right; simp [h]
      · right; exact h

theorem setInsert_length (x : Int × K) (l : List (Int × K)) : (setInsert x l).length ≤ l.length + 1 := by
  induction l with
  | nil => simp [setInsert]
  | cons z l ih =>
    unfold setInsert
    split
    · simp
    · split
      · simp only [List.length_cons]; omega
      · simp

theorem inserts_range {vals acc : List (Int × K)} {P : Int × K → Prop} (h : ∀ v ∈ vals, P v) (h' : ∀ v ∈ acc, P v) :
    (∀ v ∈ vals.foldl (fun l v => setInsert v l) acc, P v) ∧
    (vals.foldl (fun l v => setInsert v l) acc).length ≤ acc.length + vals.length := by
  induction vals generalizing acc with
  | nil => exact ⟨h', by simp⟩
  | cons x vals ih =>
    simp only [List.foldl_cons]
    have := ih (acc := setInsert x acc) (fun v hv => h v (by simp [hv])) (fun v hv => by
      rcases setInsert_sub hv with rfl | hv
      · exact h _ (by simp)
      · exact h' v hv)
    refine ⟨this.1, this.2.trans ?_⟩
    have := setInsert_length x acc
    simp only [List.length_cons]; omega

/-- What a site holds after its first recalculation. -/
structure Tame (s : Site K) : Prop where
  tau : Mag (-520) 500 s.tau
  prob : ∀ v ∈ s.prob, Mag (-1020) 1000 v.2
  len : s.prob.length ≤ 2 ^ 20

theorem sumRates_range (I : Ieee fl) {mem : Addr → K} {s : Site K} (hm : ∀ na ∈ s.neigh, Mag (-500) 500 (mem na.2))
    (hn : s.neigh.length ≤ 2 ^ 20) : Rounded.sumRates fl mem s = Rounded.sumRates binary64 mem s ∧
      (s.neigh ≠ [] → Mag (-500) 520 (Rounded.sumRates binary64 mem s)) := by
  have := sum_range I (a := -500) (b := 500) (by norm_num) (by norm_num) (fun na : Int × Addr => mem na.2) s.neigh hm 0
    (by simpa using hn) 0 (le_refl _) (by simp) (by simp)
  refine ⟨this.1, fun h => this.2 ?_⟩
  simpa using h

theorem recalc_range (I : Ieee fl) {mem : Addr → K} {s : Site K} (hm : ∀ na ∈ s.neigh, Mag (-500) 500 (mem na.2))
    (hn : s.neigh.length ≤ 2 ^ 20) : Rounded.recalc fl mem s = Rounded.recalc binary64 mem s ∧
      ∀ s', Rounded.recalc binary64 mem s = .ok s' → s'.neigh = s.neigh ∧ Tame s' := by
  obtain ⟨hs, hs'⟩ := sumRates_range I hm hn
  by_cases he : s.neigh = []
  · have hz : Rounded.sumRates binary64 mem s = 0 := by unfold Rounded.sumRates; rw [he]; rfl
    have k1 : Rounded.calcTau binary64 mem s = .error .nonFinite := if_pos hz
    have k2 : Rounded.calcTau fl mem s = .error .nonFinite := if_pos (hs.trans hz)
    unfold Rounded.recalc
    rw [k1, k2]
    exact ⟨rfl, fun s' h => by cases h⟩
  · have hS := hs' he
    have ht := Mag.one.div hS
    have hv : ∀ na ∈ s.neigh, Mag (-1020) 1000 (mem na.2 / Rounded.sumRates binary64 mem s) := fun na hna =>
      ((hm na hna).div hS).mono (by norm_num) (by norm_num)
    have htau : Rounded.calcTau fl mem s = Rounded.calcTau binary64 mem s := by
      unfold Rounded.calcTau
      rw [hs, I.eq ht (by norm_num) (by norm_num)]
    have htau' : Rounded.calcTau binary64 mem s = .ok { s with tau := binary64 (1 / Rounded.sumRates binary64 mem s) } :=
      if_neg hS.pos.ne'
    have hprob : ∀ t, Rounded.calcProb fl mem { s with tau := t } = Rounded.calcProb binary64 mem { s with tau := t } := by
      intro t
      unfold Rounded.calcProb
      have e : Rounded.sumRates fl mem { s with tau := t } = Rounded.sumRates fl mem s := rfl
      have e' : Rounded.sumRates binary64 mem { s with tau := t } = Rounded.sumRates binary64 mem s := rfl
      rw [e, e', hs]
      have : (s.neigh.map fun na => (na.1, fl (mem na.2 / Rounded.sumRates binary64 mem s))) =
          s.neigh.map fun na => (na.1, binary64 (mem na.2 / Rounded.sumRates binary64 mem s)) :=
        List.map_congr_left fun na hna => by rw [I.eq (hv na hna) (by norm_num) (by norm_num)]
      simp only [this]
    unfold Rounded.recalc
    rw [htau, htau', ok_bind, ok_bind, hprob]
    refine ⟨rfl, fun s' h => ?_⟩
    unfold Rounded.calcProb at h
    simp only at h
    split at h
    · cases h
    · split at h
      · cases h
      · obtain rfl := ok_inj.1 h
        have := inserts_range (acc := []) (P := fun v : Int × K => Mag (-1020) 1000 v.2)
          (vals := s.neigh.map fun na => (na.1, binary64 (mem na.2 / Rounded.sumRates binary64 mem s))) (by
            intro v hv'
            obtain ⟨na, hna, rfl⟩ := List.mem_map.1 hv'
            exact (hv na hna).round) (by simp)
        refine ⟨rfl, ?_, this.1, ?_⟩
        · exact ht.round.mono (by norm_num) (by norm_num)
        · refine this.2.trans ?_
          simpa using hn

theorem setRatesLoop_range {mem : Addr → K} {s s' : Site K} {m : IMap Addr} (h : s.setRatesLoop mem m = .ok s') :
    s'.neigh.length ≤ s.neigh.length + m.length ∧ ∀ na ∈ s'.neigh, na ∈ s.neigh ∨ na.2 ∈ m.map Prod.snd := by
  induction m generalizing s with
  | nil =>
    obtain rfl := ok_inj.1 h
    exact ⟨by simp, fun na hna => .inl hna⟩
  | cons x m ih =>
    obtain ⟨n, a⟩ := x
    unfold Site.setRatesLoop at h
    split at h
    · cases h
    · obtain ⟨h1, h2⟩ := ih h
      have := imap_set_length s.neigh n a
      refine ⟨by simp only [List.length_cons] at *; omega, fun na hna => ?_⟩
      rcases h2 na hna with h' | h'
      · rcases imap_set_mem h' with h' | h'
        · exact .inl h'
        · right; simp [h']
      · right; simp only [List.map_cons, List.mem_cons]; exact .inr h'

theorem step_range (I : Ieee fl) {A : List Addr} {mem : Addr → K} {s : Site K} {o : Op} (hm : ∀ a ∈ A, Mag (-500) 500 (mem a))
    (hs : ∀ na ∈ s.neigh, na.2 ∈ A) (ho : ∀ a ∈ addrsOf o, a ∈ A) (hn : s.neigh.length + (addrsOf o).length ≤ 2 ^ 20) :
    Rounded.step fl mem s o = Rounded.step binary64 mem s o ∧
    ∀ s', Rounded.step binary64 mem s o = .ok s' → (∀ na ∈ s'.neigh, na.2 ∈ A) ∧
      s'.neigh.length ≤ s.neigh.length + (addrsOf o).length ∧ Tame s' := by
  have one : ∀ n a, a ∈ A → s.neigh.length + 1 ≤ 2 ^ 20 →
      Rounded.recalc fl mem { s with neigh := s.neigh.set n a } = Rounded.recalc binary64 mem { s with neigh := s.neigh.set n a } ∧
      ∀ s', Rounded.recalc binary64 mem { s with neigh := s.neigh.set n a } = .ok s' → (∀ na ∈ s'.neigh, na.2 ∈ A) ∧
        s'.neigh.length ≤ s.neigh.length + 1 ∧ Tame s' := by
    intro n a ha hl
    have hl' := imap_set_length s.neigh n a
    have hA : ∀ na ∈ s.neigh.set n a, na.2 ∈ A := by
      intro na hna
      rcases imap_set_mem hna with h | h
      · exact hs na h
      · rw [h]; exact ha
    obtain ⟨r1, r2⟩ := recalc_range I (mem := mem) (s := { s with neigh := s.neigh.set n a }) (fun na hna => hm _ (hA na hna))
      (by simp only; omega)
    refine ⟨r1, fun s' h => ?_⟩
    obtain ⟨e, t⟩ := r2 s' h
    rw [e]
    exact ⟨hA, hl', t⟩
  cases o with
  | setRates m =>
    simp only [addrsOf, List.length_map] at ho hn ⊢
    have e : ∀ f : K → K, Rounded.step f mem s (.setRates m) = Rounded.setRatesToNeighbors f mem s m := fun _ => rfl
    simp only [e]
    unfold Rounded.setRatesToNeighbors
    by_cases h0 : m.length = 0
    · simp only [if_pos h0]
      exact ⟨trivial, fun s' h => by cases h⟩
    · simp only [if_neg h0]
      cases hl : s.setRatesLoop mem m with
      | error e => exact ⟨rfl, fun s' h => by cases h⟩
      | ok s1 =>
        rw [ok_bind, ok_bind]
        obtain ⟨l1, l2⟩ := setRatesLoop_range hl
        have hA : ∀ na ∈ s1.neigh, na.2 ∈ A := by
          intro na hna
          rcases l2 na hna with h | h
          · exact hs na h
          · exact ho _ h
        obtain ⟨r1, r2⟩ := recalc_range I (mem := mem) (s := s1) (fun na hna => hm _ (hA na hna)) (by omega)
        refine ⟨r1, fun s' h => ?_⟩
        obtain ⟨e, t⟩ := r2 s' h
        rw [e]
        exact ⟨hA, l1, t⟩
  | addNeigh n a =>
    simp only [addrsOf, List.length_cons, List.length_nil] at ho hn ⊢
    have e : ∀ f : K → K, Rounded.step f mem s (.addNeigh n a) = Rounded.addNeighRate f mem s n a := fun _ => rfl
    simp only [e]
    unfold Rounded.addNeighRate
    split
    · exact ⟨rfl, fun s' h => by cases h⟩
    · exact one n a (ho a (by simp)) hn
  | resetNeigh n a =>
    simp only [addrsOf, List.length_cons, List.length_nil] at ho hn ⊢
    exact one n a (ho a (by simp)) hn

theorem run_range (I : Ieee fl) {A : List Addr} {ops : List ((Addr → K) × Op)} {s : Site K}
    (hm : ∀ mo ∈ ops, ∀ a ∈ A, Mag (-500) 500 (mo.1 a)) (hs : ∀ na ∈ s.neigh, na.2 ∈ A)
    (ho : ∀ mo ∈ ops, ∀ a ∈ addrsOf mo.2, a ∈ A) (hn : s.neigh.length + (ops.map fun mo => (addrsOf mo.2).length).sum ≤ 2 ^ 20) :
    Rounded.run fl s ops = Rounded.run binary64 s ops ∧
    ∀ s', Rounded.run binary64 s ops = .ok s' → (∀ na ∈ s'.neigh, na.2 ∈ A) ∧ s'.neigh.length ≤ 2 ^ 20 ∧ (ops ≠ [] → Tame s') := by
  induction ops generalizing s with
  | nil =>
    refine ⟨rfl, fun s' h => ?_⟩
    obtain rfl := ok_inj.1 h
    exact ⟨hs, by simpa using hn, fun h => absurd rfl h⟩
  | cons mo ops ih =>
    obtain ⟨mem, o⟩ := mo
    simp only [List.map_cons, List.sum_cons] at hn
    obtain ⟨a1, a2⟩ := step_range I (mem := mem) (o := o) (hm (mem, o) (by simp)) hs (ho (mem, o) (by simp)) (by omega)
    have e : ∀ f : K → K, Rounded.run f s ((mem, o) :: ops) = (do let s ← Rounded.step f mem s o; Rounded.run f s ops) := fun _ => rfl
    rw [e, e, a1]
    cases hst : Rounded.step binary64 mem s o with
    | error e => exact ⟨rfl, fun s' h => by cases h⟩
    | ok s1 =>
      obtain ⟨b1, b2, b3⟩ := a2 s1 hst
      simp only [ok_bind]
      obtain ⟨c1, c2⟩ := ih (s := s1) (fun mo h => hm mo (by simp [h])) b1 (fun mo h => ho mo (by simp [h])) (by omega)
      refine ⟨c1, fun s' h => ⟨(c2 s' h).1, (c2 s' h).2.1, fun _ => ?_⟩⟩
      by_cases hops : ops = []
      · subst hops
        obtain rfl := ok_inj.1 h
        exact b3
      · exact (c2 s' h).2.2 hops

theorem pickLoop_range (I : Ieee fl) {u : K} (l : List (Int × K)) (hl : ∀ v ∈ l, Mag (-1020) 1000 v.2) (k : Nat)
    (hk : k + l.length ≤ 2 ^ 20) (thr : K) (h0 : 0 ≤ thr) (h1 : thr ≤ k * 2 ^ (1000 : Int)) :
    Rounded.pickLoop fl u thr l = Rounded.pickLoop binary64 u thr l := by
  have hb0 : (0 : K) < 2 ^ (1000 : Int) := zpow_pos (by norm_num) _
  induction l generalizing k thr with
  | nil => rfl
  | cons v l ih =>
    obtain ⟨n, p⟩ := v
    have hp := hl (n, p) (by simp)
    simp only [List.length_cons] at hk
    have hle : thr + p ≤ ((k + 1 : Nat) : K) * 2 ^ (1000 : Int) := by
      push_cast
      linarith [hp.2]
    have m : Mag (-1020) 1020 (thr + p) := by
      refine ⟨by linarith [hp.1], hle.trans ?_⟩
      have : (2 : K) ^ (1020 : Int) = 2 ^ (20 : Int) * 2 ^ (1000 : Int) := by rw [← zpow_add₀ (by norm_num)]; norm_num
      rw [this]
      apply mul_le_mul_of_nonneg_right _ hb0.le
      have : ((k + 1 : Nat) : K) ≤ ((2 ^ 20 : Nat) : K) := by exact_mod_cast (by omega : k + 1 ≤ 2 ^ 20)
      exact this.trans (le_of_eq (by norm_num))
    have hle' : binary64 (thr + p) ≤ ((k + 1 : Nat) : K) * 2 ^ (1000 : Int) := by
      have e := binary64_fixed (K := K) ((k + 1 : Nat) : Int) 1000 (by
        rw [abs_of_nonneg (by omega)]
        have : (2 : Int) ^ 20 ≤ 2 ^ 53 := by norm_num
        have : ((k + 1 : Nat) : Int) ≤ 2 ^ 20 := by exact_mod_cast (by omega : k + 1 ≤ 2 ^ 20)
        omega)
      rw [Int.cast_natCast] at e
      rw [← e]
      exact binary64_mono hle
    unfold Rounded.pickLoop
    rw [I.eq m (by norm_num) (by norm_num), ih (fun v hv => hl v (by simp [hv])) (k + 1) (by omega) _ m.round.pos.le hle']

theorem pick_range (I : Ieee fl) {s : Site K} (h : Tame s) (u : K) :
    Rounded.pickNewSiteId fl s u = Rounded.pickNewSiteId binary64 s u :=
  pickLoop_range I s.prob h.prob 0 (by simpa using h.len) 0 (le_refl _) (by simp)

theorem dwell_range (I : Ieee fl) {s : Site K} (h : Tame s) {e : K} (he : Mag (-60) 10 e) :
    Rounded.getDwellTime fl s e = Rounded.getDwellTime binary64 s e :=
  I.eq (he.mul h.tau) (by norm_num) (by norm_num)

end Mythical
