import Verif.Spec.Crude
import Verif.Lemmas.BoxRates
import Verif.Lemmas.MapSum
import Mathlib.MeasureTheory.Measure.Lebesgue.Basic

/-! # Lemmas about the crude Monte Carlo simulation: the tables and the choice -/

set_option linter.unusedSectionVars false

namespace Mythical.Crude
open Cuboid (Pos)
open BoxSpec CrudeSpec Box
variable {K : Type} [Field K] [LinearOrder K] [IsStrictOrderedRing K]

theorem sumRate_eq (row : IMap K) (ns : List Int) : sumRate row ns = (ns.map (val row)).sum := by
  unfold sumRate
  rw [IMap.foldl_add_start]
  simp

/-- The entries of the table, as a list. -/
def entries (row : IMap K) (sum : K) : K → List Int → List (Int × K)
  | _, [] => []
  | acc, n :: ns => (n, val row n / sum + acc) :: entries row sum (acc + val row n / sum) ns

theorem entries_keys (row : IMap K) (sum : K) (ns : List Int) : ∀ acc, (entries row sum acc ns).map Prod.fst = ns := by
  induction ns with
  | nil => intro acc; rfl
  | cons n ns ih => intro acc; simp [entries, ih]

theorem cumulate_aux (row : IMap K) (sum : K) (ns : List Int) : ∀ (m : IMap K) (acc : K), ns.Nodup → (∀ n ∈ ns, n ∉ m.keys) →
    (ns.foldl (fun tp n => ((IMap.set tp.1 n (val row n / sum)).set n (val row n / sum + tp.2), tp.2 + val row n / sum)) (m, acc)).1
      = m ++ entries row sum acc ns := by
  induction ns with
  | nil => intro m acc _ _; simp [entries]
  | cons n ns ih =>
    intro m acc hnd hm
    rw [List.nodup_cons] at hnd
    simp only [List.foldl_cons]
    rw [IMap.set_set, IMap.set_of_not_mem (hm n (by simp)), ih _ _ hnd.2 ?_, List.append_assoc]
    · rfl
    · intro n' hn' hc
      unfold IMap.keys at hc
      rw [List.map_append, List.mem_append] at hc
      rcases hc with hc | hc
      · exact hm n' (by simp [hn']) hc
      · simp at hc
        exact hnd.1 (hc ▸ hn')

theorem cumulate_eq (row : IMap K) (sum : K) {ns : List Int} (h : ns.Nodup) : (cumulate row sum ns).1 = entries row sum 0 ns := by
  unfold cumulate
  rw [cumulate_aux row sum ns [] 0 h (by simp [IMap.keys])]
  rfl

/-- The values are greater than the one before. -/
theorem entries_lt {row : IMap K} {sum : K} (hs : 0 < sum) (ns : List Int) (hp : ∀ n ∈ ns, 0 < val row n) :
    ∀ acc, ∀ np ∈ entries row sum acc ns, acc < np.2 := by
  induction ns with
  | nil => intro acc np h; cases h
  | cons n ns ih =>
    intro acc np h
    have h0 : 0 < val row n / sum := div_pos (hp n (by simp)) hs
    rcases List.mem_cons.1 h with rfl | h
    · simpa using h0
    · have := ih (fun n' hn' => hp n' (by simp [hn'])) _ np h
      linarith

theorem entries_strict {row : IMap K} {sum : K} (hs : 0 < sum) (ns : List Int) (hp : ∀ n ∈ ns, 0 < val row n) :
    ∀ acc, (entries row sum acc ns).Pairwise fun a b => a.2 < b.2 := by
  induction ns with
  | nil => intro acc; exact List.Pairwise.nil
  | cons n ns ih =>
    intro acc
    refine List.pairwise_cons.2 ⟨fun np h => ?_, ih (fun n' hn' => hp n' (by simp [hn'])) _⟩
    have := entries_lt hs ns (fun n' hn' => hp n' (by simp [hn'])) _ np h
    simpa [add_comm] using this

theorem entries_le {row : IMap K} {sum : K} (hs : 0 < sum) (ns : List Int) (hp : ∀ n ∈ ns, 0 < val row n) :
    ∀ acc, ∀ np ∈ entries row sum acc ns, np.2 ≤ acc + (ns.map (val row)).sum / sum := by
  induction ns with
  | nil => intro acc np h; cases h
  | cons n ns ih =>
    intro acc np h
    have h0 : ∀ n' ∈ ns, 0 < val row n' := fun n' hn' => hp n' (by simp [hn'])
    rw [List.map_cons, List.sum_cons, add_div]
    rcases List.mem_cons.1 h with rfl | h
    · have : 0 ≤ (ns.map (val row)).sum / sum :=
        div_nonneg (List.sum_nonneg fun x hx => by obtain ⟨n', hn', rfl⟩ := List.mem_map.1 hx; exact (h0 n' hn').le) hs.le
      dsimp only
      linarith
    · have := ih h0 _ np h
      linarith

/-- The last value is the sum. -/
theorem entries_last (row : IMap K) (sum : K) (ns : List Int) : ∀ acc, ns ≠ [] → ∃ init n,
    entries row sum acc ns = init ++ [(n, acc + (ns.map (val row)).sum / sum)] := by
  induction ns with
  | nil => intro acc h; exact absurd rfl h
  | cons n ns ih =>
    intro acc _
    by_cases h : ns = []
    · subst h; exact ⟨[], n, by simp [entries, add_comm]⟩
    · obtain ⟨init, n', e⟩ := ih (acc + val row n / sum) h
      refine ⟨(n, val row n / sum + acc) :: init, n', ?_⟩
      rw [entries, e, List.map_cons, List.sum_cons, add_div]
      simp [add_assoc]

/-! ## The choice -/

/-- An entry is chosen if its value is the first one greater than the random number. -/
theorem choose_iff (u : K) {n : Int} {c : K} {post : List (Int × K)} : ∀ {pre : List (Int × K)}, n ∉ pre.map Prod.fst → n ∉ post.map Prod.fst →
    (choose u (pre ++ (n, c) :: post) = some n ↔ u < c ∧ ∀ x ∈ pre, x.2 ≤ u) := by
  have hpost : ∀ post : List (Int × K), n ∉ post.map Prod.fst → choose u post ≠ some n := by
    intro post
    induction post with
    | nil => intro _ h; cases h
    | cons x post ih =>
      intro hn
      rw [List.map_cons, List.mem_cons, not_or] at hn
      unfold choose
      split
      · exact fun h => hn.1 (Option.some.inj h).symm
      · exact ih hn.2
  intro pre
  induction pre with
  | nil =>
    intro _ h2
    rw [List.nil_append, choose]
    split
    · next h => simp only at h; simp [h]
    · next h => simp only at h; simp [h, hpost post h2]
  | cons x pre ih =>
    intro h1 h2
    rw [List.map_cons, List.mem_cons, not_or] at h1
    rw [List.cons_append, choose]
    split
    · next h =>
      refine ⟨fun hc => absurd (Option.some.inj hc).symm h1.1, fun ⟨_, hx⟩ => absurd h (not_lt.2 (hx x (by simp)))⟩
    · next h =>
      rw [ih h1.2 h2]
      simp only [List.mem_cons, forall_eq_or_imp, not_lt.1 h, true_and]

theorem choose_mem {u : K} : ∀ {l : List (Int × K)} {n : Int}, choose u l = some n → n ∈ l.map Prod.fst := by
  intro l
  induction l with
  | nil => intro n h; cases h
  | cons x l ih =>
    intro n h
    unfold choose at h
    split at h
    · cases h; simp
    · exact List.mem_cons_of_mem _ (ih h)

theorem choose_none {u : K} : ∀ {l : List (Int × K)}, choose u l = none → ∀ x ∈ l, x.2 ≤ u := by
  intro l
  induction l with
  | nil => intro _ x hx; cases hx
  | cons y l ih =>
    intro h x hx
    unfold choose at h
    split at h
    · cases h
    · next hy =>
      rcases List.mem_cons.1 hx with rfl | hx
      · exact not_lt.1 hy
      · exact ih h x hx

theorem before_le {pre : List (Int × ℝ)} {u : ℝ} : before pre ≤ u ↔ 0 ≤ u ∧ ∀ x ∈ pre, x.2 ≤ u := by
  induction pre with
  | nil => simp [before]
  | cons x pre ih =>
    rw [before, List.foldr_cons, ← before, max_le_iff, ih]
    simp only [List.mem_cons, forall_eq_or_imp]
    tauto

/-- The probability of an entry, whatever the order. -/
theorem choose_volume {n : Int} {c : ℝ} {pre post : List (Int × ℝ)} (h1 : n ∉ pre.map Prod.fst) (h2 : n ∉ post.map Prod.fst)
    (hc : c ≤ 1) : MeasureTheory.volume {u : ℝ | (0 ≤ u ∧ u < 1) ∧ choose u (pre ++ (n, c) :: post) = some n} =
      ENNReal.ofReal (c - before pre) := by
  rw [← Real.volume_Ico]
  congr 1
  ext u
  rw [Set.mem_ofPred_eq, choose_iff u h1 h2, Set.mem_Ico, before_le]
  constructor
  · rintro ⟨⟨a, -⟩, b, e⟩; exact ⟨⟨a, e⟩, b⟩
  · rintro ⟨⟨a, e⟩, b⟩; exact ⟨⟨a, b.trans_le hc⟩, b, e⟩

/-- In the order in which the entries were made the probabilities are the shares. -/
theorem entries_volume {row : IMap ℝ} {sum : ℝ} (hs : 0 < sum) : ∀ (ns : List Int) (acc : ℝ), ns.Nodup → (∀ n ∈ ns, 0 < val row n) → 0 ≤ acc →
    acc + (ns.map (val row)).sum / sum ≤ 1 → ∀ n ∈ ns,
    MeasureTheory.volume {u : ℝ | (acc ≤ u ∧ u < 1) ∧ choose u (entries row sum acc ns) = some n} = ENNReal.ofReal (val row n / sum) := by
  intro ns
  induction ns with
  | nil => intro acc _ _ _ _ n hn; cases hn
  | cons m ns ih =>
    intro acc hnd hp h0 h1 n hn
    rw [List.nodup_cons] at hnd
    have hm : 0 < val row m / sum := div_pos (hp m (by simp)) hs
    have hr : 0 ≤ (ns.map (val row)).sum / sum :=
      div_nonneg (List.sum_nonneg fun x hx => by obtain ⟨n', hn', rfl⟩ := List.mem_map.1 hx; exact (hp n' (by simp [hn'])).le) hs.le
    rw [List.map_cons, List.sum_cons, add_div] at h1
    by_cases e : n = m
    · subst e
      have : {u : ℝ | (acc ≤ u ∧ u < 1) ∧ choose u (entries row sum acc (n :: ns)) = some n} = Set.Ico acc (acc + val row n / sum) := by
        ext u
        have := choose_iff u (n := n) (c := val row n / sum + acc) (pre := []) (post := entries row sum (acc + val row n / sum) ns) (by simp)
          (by rw [entries_keys]; exact hnd.1)
        rw [List.nil_append] at this
        rw [Set.mem_ofPred_eq, entries, this, Set.mem_Ico]
        constructor
        · rintro ⟨⟨a, -⟩, b, -⟩; exact ⟨a, by linarith⟩
        · rintro ⟨a, b⟩; exact ⟨⟨a, by linarith⟩, by linarith, by simp⟩
      rw [this, Real.volume_Ico]
      congr 1
      ring
    · have hn' : n ∈ ns := (List.mem_cons.1 hn).resolve_left e
      rw [← ih (acc + val row m / sum) hnd.2 (fun n' h => hp n' (by simp [h])) (by linarith) (by linarith) n hn']
      congr 1
      ext u
      rw [Set.mem_ofPred_eq, Set.mem_ofPred_eq, entries, choose]
      simp only
      by_cases hu : u < val row m / sum + acc
      · rw [if_pos hu]
        constructor
        · rintro ⟨-, b⟩; exact absurd (Option.some.inj b).symm e
        · rintro ⟨⟨a, -⟩, -⟩; linarith
      · rw [if_neg hu]
        constructor
        · rintro ⟨⟨-, b⟩, c⟩; exact ⟨⟨by linarith, b⟩, c⟩
        · rintro ⟨⟨a, b⟩, c⟩; exact ⟨⟨by linarith, b⟩, c⟩

/-! ## The tables -/

theorem val_of_get? {m : IMap K} {k : Int} {v : K} (h : m.get? k = some v) : val m k = v := by
  unfold val; rw [h]; rfl

/-- What the tables hold for a site whose neighbours in the order of the loops are `ns`. -/
structure Entry (R : IMap (IMap K)) (T : Tables K) (i : Int) (ns : List Int) : Prop where
  nodup : ns.Nodup
  nonempty : ns ≠ []
  rates : ∀ j, j ∈ ns ↔ ∃ k, (R.get? i).bind (fun row => IMap.get? row j) = some k
  pos : ∀ j ∈ ns, 0 < rateOf R i j
  sum : (ns.map (rateOf R i)).sum = outRate R i
  outPos : 0 < outRate R i
  sojourn : T.sojourn.get? i = some (1 / outRate R i)
  cumul : T.cumul.get? i = some (entries ((R.get? i).getD []) (outRate R i) 0 ns)

theorem Entry.mono {R : IMap (IMap K)} {T T' : Tables K} {i : Int} {ns : List Int} (h : Entry R T i ns)
    (h1 : T'.sojourn.get? i = T.sojourn.get? i) (h2 : T'.cumul.get? i = T.cumul.get? i) : Entry R T' i ns :=
  { h with sojourn := h1.trans h.sojourn, cumul := h2.trans h.cumul }

theorem siteTables_ok {d : Int} (h3 : 3 ≤ d) (h1 : d ≤ 1290) {R : IMap (IMap K)} (hR : BoxRates d R) (T : Tables K) {i : Int} {p : Pos}
    (hp : At d i p) : ∃ T' ns, siteTables d R T p = .ok T' ∧ around d p = .ok ns ∧ Entry R T' i (ns.map Prod.fst) ∧
      ∀ j, j ≠ i → T'.sojourn.get? j = T.sojourn.get? j ∧ T'.cumul.get? j = T.cumul.get? j := by
  have h0 : 0 < d := by omega
  obtain ⟨ns, hns, hnd, hmem⟩ := around_ok h0 h1 hp
  obtain ⟨row, hrow, hwf, hkeys, hpos⟩ := hR i p hp
  have hmem' : ∀ j, j ∈ ns.map Prod.fst ↔ j ∈ row.keys := by
    intro j
    rw [hkeys, List.mem_map]
    constructor
    · rintro ⟨⟨j', q⟩, hq, rfl⟩
      obtain ⟨a, b, c⟩ := (hmem _ _).1 hq
      exact ⟨q, a, hp.1, a.1, b, c⟩
    · rintro ⟨q, a, -, -, b, c⟩; exact ⟨(j, q), (hmem _ _).2 ⟨a, b, c⟩, rfl⟩
  have hrate : ∀ j, rateOf R i j = val row j := fun j => by unfold rateOf val; rw [hrow]; rfl
  have hvp : ∀ j ∈ ns.map Prod.fst, 0 < val row j := by
    intro j hj
    obtain ⟨v, hv⟩ := IMap.mem_keys_iff.1 ((hmem' j).1 hj)
    rw [val_of_get? (IMap.get?_of_mem hwf hv)]
    exact hpos _ hv
  have hne : ns.map Prod.fst ≠ [] := by
    obtain ⟨q, hq⟩ := step_exists h3 hp.1
    intro hc
    have := (hmem' (q.x + d * q.y + d * d * q.z)).2 ((hkeys _).2 ⟨q, at_of_inCube hq.2.1, hq⟩)
    rw [hc] at this
    cases this
  have hperm : (ns.map Prod.fst).Perm (row.map Prod.fst) := (List.perm_ext_iff_of_nodup hnd hwf).2 hmem'
  have hsum : ((ns.map Prod.fst).map (val row)).sum = outRate R i := by
    rw [(hperm.map _).sum_eq]
    unfold outRate
    rw [hrow, Option.getD_some, List.map_map]
    congr 1
    refine List.map_congr_left fun jk h => ?_
    exact val_of_get? (IMap.get?_of_mem hwf h)
  have hout : 0 < outRate R i := by
    rw [← hsum]
    obtain ⟨a, l, e⟩ := List.exists_cons_of_ne_nil hne
    rw [e] at hvp ⊢
    rw [List.map_cons, List.sum_cons]
    refine add_pos_of_pos_of_nonneg (hvp a (by simp)) (List.sum_nonneg fun x hx => ?_)
    obtain ⟨n, hn, rfl⟩ := List.mem_map.1 hx
    exact (hvp n (by simp [hn])).le
  refine ⟨⟨T.sojourn.set i (1 / outRate R i), T.cumul.set i (entries row (outRate R i) 0 (ns.map Prod.fst))⟩, ns, ?_, hns,
    ⟨hnd, hne, ?_, ?_, ?_, hout, IMap.get?_set_self .., ?_⟩, ?_⟩
  · unfold siteTables
    rw [to1D_ok h0 h1 hp, ok_bind, hns, ok_bind]
    simp only [hrow, Option.getD_some]
    rw [sumRate_eq, hsum, if_neg hout.ne', cumulate_eq _ _ hnd, if_pos]
    intro hc
    have : (entries row (outRate R i) 0 (ns.map Prod.fst)).map Prod.fst = [] := by
      rw [List.length_eq_zero_iff.1 hc]; rfl
    rw [entries_keys] at this
    exact hne this
  · intro j
    rw [hmem', hrow, IMap.mem_keys_iff_get?]; rfl
  · intro j hj; rw [hrate]; exact hvp j hj
  · rw [List.map_congr_left fun j _ => hrate j, hsum]
  · rw [hrow]; exact IMap.get?_set_self ..
  · intro j hj
    exact ⟨IMap.get?_set_ne _ _ (Ne.symm hj), IMap.get?_set_ne _ _ (Ne.symm hj)⟩

theorem tables_fold {d : Int} (h3 : 3 ≤ d) (h1 : d ≤ 1290) {R : IMap (IMap K)} (hR : BoxRates d R) : ∀ (ps : List Pos) (T : Tables K),
    (∀ p ∈ ps, InCube d p) → ∃ T', ps.foldlM (siteTables d R) T = .ok T' ∧
      (∀ i p, At d i p → p ∈ ps ∨ (∃ ns, around d p = .ok ns ∧ Entry R T i (ns.map Prod.fst)) →
        ∃ ns, around d p = .ok ns ∧ Entry R T' i (ns.map Prod.fst)) := by
  intro ps
  induction ps with
  | nil => intro T _; exact ⟨T, rfl, fun i p _ h => h.resolve_left (by simp)⟩
  | cons p ps ih =>
    intro T hps
    have hp := at_of_inCube (hps p (by simp))
    obtain ⟨T1, ns, hT1, hns, hent, hother⟩ := siteTables_ok h3 h1 hR T hp
    obtain ⟨T', hT', h⟩ := ih T1 fun q hq => hps q (by simp [hq])
    refine ⟨T', by rw [List.foldlM_cons, hT1]; exact hT', fun i q hq hor => h i q hq ?_⟩
    by_cases hqp : q = p
    · subst hqp
      rw [hq.2]
      exact .inr ⟨ns, hns, hent⟩
    · rcases hor with hm | ⟨ns', hns', hent'⟩
      · exact .inl ((List.mem_cons.1 hm).resolve_left hqp)
      · have hi : i ≠ p.x + d * p.y + d * d * p.z := fun e => hqp (at_unique (by omega) h1 hq (e ▸ hp))
        exact .inr ⟨ns', hns', hent'.mono (hother i hi).1 (hother i hi).2⟩

/-- The tables are made, with an entry for every site. -/
theorem tables_ok {d : Int} (h3 : 3 ≤ d) (h1 : d ≤ 1290) {R : IMap (IMap K)} (hR : BoxRates d R) : ∃ T, tables d R = .ok T ∧
    ∀ i p, At d i p → ∃ ns, around d p = .ok ns ∧ Entry R T i (ns.map Prod.fst) := by
  obtain ⟨T, hT, h⟩ := tables_fold h3 h1 hR (cube d) ⟨[], []⟩ fun p hp => mem_cube.1 hp
  exact ⟨T, hT, fun i p hp => h i p hp (.inl (mem_cube.2 hp.1))⟩

/-- The rates of the programs are such rates. -/
theorem boxRates_of_stored {d : Int} (h3 : 3 ≤ d) (h1 : d ≤ 1290) {E : Int → ℝ} {field : ℝ} {R : IMap (IMap ℝ)}
    (h : Stored d E field (cube d) R) : BoxRates d R := by
  intro i p hp
  have key : ∀ j k, Cuboid.get2 R i j = some k ↔ ∃ q, At d j q ∧ CrudeSpec.Step d p q ∧ k = value E field (q.x - p.x) i j := by
    intro j k
    rw [h.iff i j k]
    constructor
    · rintro ⟨p', -, q, a, b, c, e, f⟩
      obtain rfl := at_unique (by omega) h1 a hp
      exact ⟨q, b, ⟨a.1, b.1, c, e⟩, f⟩
    · rintro ⟨q, b, ⟨-, -, c, e⟩, f⟩
      exact ⟨p, mem_cube.2 hp.1, q, hp, b, c, e, f⟩
  obtain ⟨q, hq⟩ := step_exists h3 hp.1
  have hk := (key _ _).2 ⟨q, at_of_inCube hq.2.1, hq, rfl⟩
  unfold Cuboid.get2 at hk key
  obtain ⟨row, hrow, -⟩ := Option.bind_eq_some_iff.1 hk
  have hwf := (h.neat.2 _ (IMap.mem_of_get? hrow)).1
  rw [hrow] at key
  simp only [Option.bind_some] at key
  refine ⟨row, hrow, hwf, fun j => ?_, fun jk hjk => ?_⟩
  · rw [IMap.mem_keys_iff_get?]
    constructor
    · rintro ⟨v, hv⟩
      obtain ⟨q, a, b, -⟩ := (key j v).1 hv
      exact ⟨q, a, b⟩
    · rintro ⟨q, a, b⟩; exact ⟨_, (key j _).2 ⟨q, a, b, rfl⟩⟩
  · obtain ⟨q, -, -, e⟩ := (key jk.1 jk.2).1 (IMap.get?_of_mem hwf hjk)
    rw [e]
    unfold value coef hbar Box.pi transfer kBT
    positivity

end Mythical.Crude
