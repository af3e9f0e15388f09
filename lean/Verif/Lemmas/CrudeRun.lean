import Verif.Lemmas.Crude

/-! # Lemmas about the crude Monte Carlo simulation: walkers, sites and times -/

set_option linter.unusedSectionVars false

namespace Mythical.Crude
open Cuboid (Pos)
open BoxSpec CrudeSpec Box
variable {K : Type} [Field K] [LinearOrder K] [IsStrictOrderedRing K]

theorem perm_sortTimes (l : List (Int × K)) : (sortTimes l).Perm l := List.perm_insertionSort _ l

theorem sorted_sortTimes (l : List (Int × K)) : (sortTimes l).Pairwise fun a b => a.2 ≤ b.2 := by
  have : Std.Total fun a b : Int × K => a.2 ≤ b.2 := ⟨fun a b => le_total a.2 b.2⟩
  have : IsTrans (Int × K) fun a b : Int × K => a.2 ≤ b.2 := ⟨fun a b c => le_trans⟩
  exact List.pairwise_insertionSort _ l

theorem seated_zero (d : Int) : Seated d 0 [] [] :=
  ⟨fun k => ⟨fun ⟨p, hp⟩ => (nomatch hp), fun h => by omega⟩, fun k p h => (nomatch h), fun k k' p h => (nomatch h),
    fun i => ⟨fun h => (nomatch h), fun ⟨k, p, h, _⟩ => (nomatch h)⟩⟩

/-- One more walker. -/
theorem seated_push {d : Int} {k : Nat} {occ : List Int} {pos : IMap Pos} (h : Seated d k occ pos) {i : Int} {q : Pos}
    (hq : At d i q) (hi : i ∉ occ) : Seated d (k + 1) (occ ++ [i]) (pos.set k q) := by
  have hfree : ∀ k' p, pos.get? k' = some p → p ≠ q := fun k' p hp e => hi ((h.occupied i).2 ⟨k', p, hp, e ▸ hq⟩)
  have hold : ∀ k' p, pos.get? k' = some p → k' ≠ k := fun k' p hp e => by have := (h.walkers k').1 ⟨p, hp⟩; omega
  refine ⟨fun k' => ?_, fun k' p hp => ?_, fun a b p ha hb => ?_, fun j => ?_⟩
  · rw [IMap.get?_set]
    split
    · next e => subst e; exact ⟨fun _ => by omega, fun _ => ⟨q, rfl⟩⟩
    · next e => rw [h.walkers]; push_cast; omega
  · rw [IMap.get?_set] at hp
    split at hp
    · cases hp; exact hq.1
    · exact h.inside _ _ hp
  · rw [IMap.get?_set] at ha hb
    split at ha <;> split at hb
    · omega
    · cases ha; exact absurd rfl (hfree _ _ hb)
    · cases hb; exact absurd rfl (hfree _ _ ha)
    · exact h.apart _ _ _ ha hb
  · rw [List.mem_append, List.mem_singleton, h.occupied]
    constructor
    · rintro (⟨k', p, hp, ha⟩ | rfl)
      · exact ⟨k', p, by rw [IMap.get?_set_ne _ _ (hold _ _ hp).symm]; exact hp, ha⟩
      · exact ⟨k, q, IMap.get?_set_self .., hq⟩
    · rintro ⟨k', p, hp, ha⟩
      rw [IMap.get?_set] at hp
      split at hp
      · cases hp; exact .inr (by rw [ha.2, hq.2])
      · exact .inl ⟨k', p, hp, ha⟩

/-- Walkers are placed if there are positions enough. -/
theorem place_cases {d : Int} (h0 : 0 < d) (h1 : d ≤ 1290) {n : Nat} : ∀ (picks : List Pos) (k : Nat) (occ : List Int) (pos : IMap Pos) (P : Finset Pos),
    (∀ q ∈ picks, InCube d q) → Seated d k occ pos → (∀ q, q ∈ P ↔ ∃ i ∈ occ, At d i q) → k ≤ n →
    (n ≤ k + (picks.toFinset \ P).card → ∃ occ' pos', place d n picks k occ pos = .ok (occ', pos') ∧ Seated d n occ' pos') ∧
    (k + (picks.toFinset \ P).card < n → place d n picks k occ pos = .error .outOfFuel) := by
  intro picks
  induction picks with
  | nil =>
    intro k occ pos P _ hs _ hk
    constructor
    · intro hn
      simp at hn
      obtain rfl : k = n := by omega
      exact ⟨occ, pos, by rw [place, if_neg (by omega)], hs⟩
    · intro hn
      simp at hn
      rw [place, if_pos hn]
  | cons q picks ih =>
    intro k occ pos P hpk hs hP hk
    by_cases hkn : k < n
    · have hq := hpk q (by simp)
      have ha := at_of_inCube hq
      have hin : (q.x < d ∧ q.y < d ∧ q.z < d) ∧ 0 ≤ q.x ∧ 0 ≤ q.y ∧ 0 ≤ q.z := ⟨⟨hq.1.2, hq.2.1.2, hq.2.2.2⟩, hq.1.1, hq.2.1.1, hq.2.2.1⟩
      have hqP : q.x + d * q.y + d * d * q.z ∈ occ ↔ q ∈ P := by
        rw [hP]
        exact ⟨fun h => ⟨_, h, ha⟩, fun ⟨i, hi, hi'⟩ => by rwa [← hi'.2]⟩
      rw [place, if_pos hkn, if_pos hin, to1D_ok h0 h1 ha, ok_bind]
      split
      · next hocc =>
        have e : (q :: picks).toFinset \ P = picks.toFinset \ P := by
          ext x
          simp only [List.toFinset_cons, Finset.mem_sdiff, Finset.mem_insert]
          constructor
          · rintro ⟨rfl | h, hx⟩
            · exact absurd (hqP.1 hocc) hx
            · exact ⟨h, hx⟩
          · rintro ⟨h, hx⟩; exact ⟨.inr h, hx⟩
        rw [e]
        exact ih k occ pos P (fun x hx => hpk x (by simp [hx])) hs hP hk
      · next hocc =>
        have e : ((q :: picks).toFinset \ P).card = (picks.toFinset \ insert q P).card + 1 := by
          have hq' : q ∉ picks.toFinset \ insert q P := by simp
          rw [← Finset.card_insert_of_notMem hq']
          congr 1
          ext x
          simp only [List.toFinset_cons, Finset.mem_sdiff, Finset.mem_insert]
          constructor
          · rintro ⟨h, hx⟩
            by_cases hxq : x = q
            · exact .inl hxq
            · exact .inr ⟨h.resolve_left hxq, fun hc => hc.elim hxq hx⟩
          · rintro (rfl | ⟨h, hx⟩)
            · exact ⟨.inl rfl, fun hc => hocc (hqP.2 hc)⟩
            · exact ⟨.inr h, fun hc => hx (.inr hc)⟩
        rw [e]
        have := ih (k + 1) (occ ++ [q.x + d * q.y + d * d * q.z]) (pos.set k q) (insert q P) (fun x hx => hpk x (by simp [hx]))
          (seated_push hs ha hocc) (fun x => by
            rw [Finset.mem_insert, hP]
            constructor
            · rintro (rfl | ⟨i, hi, hx⟩)
              · exact ⟨_, by simp, ha⟩
              · exact ⟨i, by simp [hi], hx⟩
            · rintro ⟨i, hi, hx⟩
              rcases List.mem_append.1 hi with hi | hi
              · exact .inr ⟨i, hi, hx⟩
              · rw [List.mem_singleton.1 hi] at hx
                exact .inl (at_unique h0 h1 hx ha)) (by omega)
        refine ⟨fun h => this.1 (by omega), fun h => this.2 (by omega)⟩
    · obtain rfl : k = n := by omega
      rw [place, if_neg hkn]
      exact ⟨fun _ => ⟨occ, pos, rfl, hs⟩, fun h => by omega⟩

/-- As many walkers as sites at most. -/
theorem seated_le {d : Int} {n : Nat} {occ : List Int} {pos : IMap Pos} (h : Seated d n occ pos) : (n : Int) ≤ d ^ 3 ∨ n = 0 := by
  by_cases hn : n = 0
  · exact .inr hn
  · left
    have hd : 0 < d := by
      obtain ⟨p, hp⟩ := (h.walkers 0).2 ⟨le_refl _, by omega⟩
      have := (h.inside 0 p hp).1
      omega
    have hp : ∀ k : Nat, k < n → ∃ p, pos.get? k = some p := fun k hk => (h.walkers k).2 ⟨by omega, by omega⟩
    have hlen : ((List.range n).map fun k : Nat => (pos.get? k).getD ⟨0, 0, 0⟩).length ≤ (cube d).length := by
      refine List.Subperm.length_le (List.subperm_of_subset ?_ fun q hq => ?_)
      · refine List.Nodup.map_on (fun a ha b hb e => ?_) List.nodup_range
        obtain ⟨p, hp1⟩ := hp a (List.mem_range.1 ha)
        obtain ⟨p', hp2⟩ := hp b (List.mem_range.1 hb)
        rw [hp1, hp2] at e
        simp only [Option.getD_some] at e
        subst e
        have := h.apart _ _ _ hp1 hp2
        omega
      · obtain ⟨a, ha, rfl⟩ := List.mem_map.1 hq
        obtain ⟨p, hp1⟩ := hp a (List.mem_range.1 ha)
        rw [hp1]
        exact mem_cube.2 (h.inside _ _ hp1)
    have hc : (cube d).length = d.toNat * (d.toNat * d.toNat) := by
      have ha : (axis d).length = d.toNat := by simp [axis]
      simp [cube, List.length_flatMap, ha]
    rw [List.length_map, List.length_range, hc] at hlen
    have : (n : Int) ≤ (d.toNat : Int) * (d.toNat * d.toNat) := by exact_mod_cast hlen
    rw [Int.toNat_of_nonneg hd.le] at this
    nlinarith

theorem siteOf_ok {d : Int} (h0 : 0 < d) (h1 : d ≤ 1290) {pos : IMap Pos} {k i : Int} {p : Pos} (hk : pos.get? k = some p) (hp : At d i p) :
    siteOf d pos k = .ok i := by
  unfold siteOf
  rw [hk]
  exact flat_ok h0 h1 hp

/-- The first times. -/
theorem firstTimes_ok {d : Int} (h0 : 0 < d) (h1 : d ≤ 1290) {R : IMap (IMap K)} {T : Tables K}
    (hT : ∀ i p, At d i p → T.sojourn.get? i = some (1 / outRate R i)) {n : Nat} {occ : List Int} {pos : IMap Pos} (hs : Seated d n occ pos)
    (e : Nat → K) : ∃ l, firstTimes d T pos e n = .ok l ∧ l.map Prod.fst = (List.range n).map (fun k : Nat => (k : Int)) ∧
      ∀ k : Nat, k < n → ∃ p i, pos.get? k = some p ∧ At d i p ∧ ((k : Int), e k / outRate R i) ∈ l := by
  have hp : ∀ k : Nat, k < n → ∃ p i, pos.get? k = some p ∧ At d i p := fun k hk => by
    obtain ⟨p, hp⟩ := (hs.walkers k).2 ⟨by omega, by omega⟩
    exact ⟨p, _, hp, at_of_inCube (hs.inside _ _ hp)⟩
  let pk : Nat → Pos := fun k => (pos.get? k).getD ⟨0, 0, 0⟩
  let ik : Nat → Int := fun k => (pk k).x + d * (pk k).y + d * d * (pk k).z
  have hpk : ∀ k, k < n → pos.get? k = some (pk k) ∧ At d (ik k) (pk k) := fun k hk => by
    obtain ⟨p, i, h, ha⟩ := hp k hk
    have : pk k = p := by simp [pk, h]
    exact ⟨by rw [this]; exact h, by rw [this]; exact ⟨ha.1, by simp [ik, this]⟩⟩
  refine ⟨(List.range n).map fun k : Nat => ((k : Int), e k / outRate R (ik k)), ?_, by rw [List.map_map]; rfl, fun k hk => ?_⟩
  · unfold firstTimes
    refine mapM_ok fun k hk => ?_
    obtain ⟨a, b⟩ := hpk k (List.mem_range.1 hk)
    rw [siteOf_ok h0 h1 a b, ok_bind, val_of_get? (hT _ _ b), one_div, mul_comm, ← div_eq_mul_inv]
  · obtain ⟨a, b⟩ := hpk k hk
    exact ⟨pk k, ik k, a, b, List.mem_map.2 ⟨k, List.mem_range.2 hk, rfl⟩⟩

/-- The tables as they are used. -/
def Good (d : Int) (R : IMap (IMap K)) (T : Tables K) : Prop := ∀ i p, At d i p → ∃ ns, around d p = .ok ns ∧ Entry R T i (ns.map Prod.fst)

/-- One round of a sound state. -/
theorem hop_ok {d : Int} (h0 : 0 < d) (h1 : d ≤ 1290) {R : IMap (IMap K)} {T : Tables K} (hT : Good d R T)
    {order : IMap K → List (Int × K)} (ho : ∀ t, (order t).Perm t) {n : Nat} {s : State K} (hs : Sound d n s) {k : Int} {t : K}
    {rest : List (Int × K)} (ht : s.times = (k, t) :: rest) {u : K} (hu : u < 1) (e : K) :
    ∃ s', hop d T order u e k t rest s = .ok s' ∧ Sound d n s' ∧ Round d R e s s' := by
  have hkn : 0 ≤ k ∧ k < n := by
    have : k ∈ s.times.map Prod.fst := by rw [ht]; simp
    rw [hs.timed.mem_iff, List.mem_map] at this
    obtain ⟨a, ha, rfl⟩ := this
    rw [List.mem_range] at ha
    omega
  obtain ⟨p, hp⟩ := (hs.seated.walkers k).2 hkn
  have ha := at_of_inCube (hs.seated.inside _ _ hp)
  generalize p.x + d * p.y + d * d * p.z = i at ha
  obtain ⟨ns, hns, hent⟩ := hT i p ha
  have hleast : ∀ kt ∈ s.times, t ≤ kt.2 := by
    intro kt hkt
    rw [ht] at hkt
    rcases List.mem_cons.1 hkt with rfl | hkt
    · exact le_refl _
    · have := hs.sorted
      rw [ht, List.pairwise_cons] at this
      exact this.1 kt hkt
  have htimed : ∀ x, ((sortTimes ((k, x) :: rest)).map Prod.fst).Perm ((List.range n).map fun k : Nat => (k : Int)) := by
    intro x
    refine ((perm_sortTimes _).map _).trans ?_
    have := hs.timed
    rw [ht] at this
    simpa using this
  have hperm : ∀ x, (sortTimes ((k, x) :: rest)).Perm ((k, x) :: s.times.erase (k, t)) := by
    intro x
    rw [ht, List.erase_cons_head]
    exact perm_sortTimes _
  have hv : ∀ j, val ((R.get? i).getD []) j = rateOf R i j := fun j => by unfold val rateOf; cases R.get? i <;> rfl
  unfold hop
  rw [siteOf_ok h0 h1 hp ha, ok_bind]
  simp only [hent.cumul, Option.getD_some]
  rw [if_pos (by
    intro hc
    have : (entries ((R.get? i).getD []) (outRate R i) 0 (ns.map Prod.fst)).map Prod.fst = [] := by
      rw [List.length_eq_zero_iff.1 hc]; rfl
    rw [entries_keys] at this
    exact hent.nonempty this)]
  cases hc : choose u (order (entries ((R.get? i).getD []) (outRate R i) 0 (ns.map Prod.fst))) with
  | none =>
    obtain ⟨init, n', he⟩ := entries_last ((R.get? i).getD []) (outRate R i) (ns.map Prod.fst) 0 hent.nonempty
    have := choose_none hc _ ((ho _).mem_iff.2 (by rw [he]; exact List.mem_append_right _ (List.mem_singleton.2 rfl)))
    rw [List.map_congr_left fun j _ => hv j, hent.sum, div_self hent.outPos.ne'] at this
    linarith
  | some j =>
    have hj : j ∈ ns.map Prod.fst := by
      have := choose_mem hc
      rwa [((ho _).map Prod.fst).mem_iff, entries_keys] at this
    simp only
    split
    · refine ⟨_, rfl, ⟨hs.seated, htimed _, sorted_sortTimes _⟩, k, t, by rw [ht]; simp, hleast, p, p, i, i, hp, hp, ha, ha, .inl rfl,
        fun _ _ => rfl, ?_⟩
      rw [val_of_get? hent.sojourn, one_div, mul_comm, ← div_eq_mul_inv]
      exact hperm _
    · next hfree =>
      obtain ⟨⟨j', q⟩, hq, rfl⟩ := List.mem_map.1 hj
      obtain ⟨ns', hns', -, hmem⟩ := around_ok h0 h1 ha
      rw [hns] at hns'
      obtain rfl := ok_inj.1 hns'
      obtain ⟨haq, hadj, hent'⟩ := (hmem _ _).1 hq
      obtain ⟨_, -, hE⟩ := hT j' q haq
      rw [to3D_ok h0 h1 haq, ok_bind, val_of_get? hE.sojourn, one_div, mul_comm, ← div_eq_mul_inv]
      have hempty : ∀ k' p', s.positions.get? k' = some p' → p' ≠ q := fun k' p' hk' e' =>
        hfree ((hs.seated.occupied _).2 ⟨k', p', hk', e' ▸ haq⟩)
      have hnd : ∀ x, x ∈ s.occupied.filter (· ≠ i) ++ [j'] ↔ (x ≠ i ∧ x ∈ s.occupied) ∨ x = j' := by
        intro x; simp [and_comm]
      refine ⟨_, rfl, ⟨⟨fun k' => ?_, fun k' p' hp' => ?_, fun a b p' h1' h2' => ?_, fun x => ?_⟩, htimed _, sorted_sortTimes _⟩,
        k, t, by rw [ht]; simp, hleast, p, q, i, j', hp, IMap.get?_set_self .., ha, haq, .inr ⟨⟨ha.1, haq.1, hadj, hent'⟩, hent.pos _ hj, hempty⟩,
        fun k' hk' => IMap.get?_set_ne _ _ hk'.symm, hperm _⟩
      · simp only
        rw [IMap.get?_set]
        split
        · next e' => subst e'; exact ⟨fun _ => hkn, fun _ => ⟨q, rfl⟩⟩
        · exact hs.seated.walkers k'
      · simp only [IMap.get?_set] at hp'
        split at hp'
        · cases hp'; exact haq.1
        · exact hs.seated.inside _ _ hp'
      · simp only [IMap.get?_set] at h1' h2'
        split at h1' <;> split at h2'
        · omega
        · cases h1'; exact absurd rfl (hempty _ _ h2')
        · cases h2'; exact absurd rfl (hempty _ _ h1')
        · exact hs.seated.apart _ _ _ h1' h2'
      · simp only
        rw [hnd, hs.seated.occupied]
        constructor
        · rintro (⟨hx, k', p', hk', hp'⟩ | rfl)
          · refine ⟨k', p', ?_, hp'⟩
            rw [IMap.get?_set_ne]
            · exact hk'
            · rintro rfl
              rw [hp] at hk'
              cases hk'
              exact hx (by rw [hp'.2, ha.2])
          · exact ⟨k, q, IMap.get?_set_self .., haq⟩
        · rintro ⟨k', p', hk', hp'⟩
          rw [IMap.get?_set] at hk'
          split at hk'
          · cases hk'; exact .inr (by rw [hp'.2, haq.2])
          · next hne =>
            refine .inl ⟨fun hx => hne ?_, k', p', hk', hp'⟩
            rw [hx] at hp'
            have := at_unique h0 h1 hp' ha
            rw [this] at hk'
            exact hs.seated.apart _ _ _ hp hk'

/-- The loop: rounds until no walker is due before the cutoff or the random numbers are used up. -/
theorem loops_ok {d : Int} (h0 : 0 < d) (h1 : d ≤ 1290) {R : IMap (IMap K)} {T : Tables K} (hT : Good d R T)
    {order : IMap K → List (Int × K)} (ho : ∀ t, (order t).Perm t) {n : Nat} (hn : 0 < n) (cutoff : K) :
    ∀ (ues : List (K × K)), (∀ ue ∈ ues, ue.1 < 1) → ∀ s : State K, Sound d n s →
    ∃ s' done, loops d T order cutoff ues s = .ok s' ∧ Sound d n s' ∧ Rounds d R cutoff ((ues.take done).map Prod.snd) s s' ∧
      (done < ues.length → ∀ kt ∈ s'.times, cutoff ≤ kt.2) ∧ done ≤ ues.length := by
  intro ues
  induction ues with
  | nil => intro _ s hs; exact ⟨s, 0, rfl, hs, .nil s, fun h => by simp at h, by simp⟩
  | cons ue ues ih =>
    intro hu s hs
    obtain ⟨⟨k, t⟩, rest, ht⟩ : ∃ kt rest, s.times = kt :: rest := by
      cases h : s.times with
      | nil =>
        have := hs.timed.length_eq
        rw [h] at this
        simp at this
        omega
      | cons kt rest => exact ⟨kt, rest, rfl⟩
    rw [loops]
    unfold advance
    rw [ht]
    simp only
    by_cases hc : t < cutoff
    · obtain ⟨s1, e1, hs1, hr⟩ := hop_ok h0 h1 hT ho hs ht (hu ue (by simp)) ue.2
      obtain ⟨s', done, e2, hs', hrs, hd, hl⟩ := ih (fun x hx => hu x (by simp [hx])) s1 hs1
      refine ⟨s', done + 1, ?_, hs', ?_, fun h => hd (by simpa using h), by simpa using hl⟩
      · rw [if_pos hc, e1]; exact e2
      · rw [List.take_succ_cons, List.map_cons]
        exact .cons ⟨(k, t), by rw [ht]; simp, hc⟩ hr hrs
    · refine ⟨s, 0, by rw [if_neg hc], hs, .nil s, fun _ kt hkt => ?_, by simp⟩
      rw [ht] at hkt
      rcases List.mem_cons.1 hkt with rfl | hkt
      · exact not_lt.1 hc
      · have := hs.sorted
        rw [ht, List.pairwise_cons] at this
        exact (not_lt.1 hc).trans (this.1 kt hkt)

end Mythical.Crude
