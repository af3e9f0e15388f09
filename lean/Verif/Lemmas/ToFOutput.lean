import Verif.Lemmas.ToFEnds
import Verif.Spec.ToFOutput

/-! # Helper lemmas for the output of the time-of-flight program -/

set_option linter.unusedSectionVars false
set_option linter.unusedVariables false

namespace Mythical.ToF
open Mythical World SystemSpec ToFSpec CuboidSpec Queue
variable {K : Type} [Field K] [LinearOrder K] [IsStrictOrderedRing K] [FloorRing K]
variable {env : Env K} {mem : Addr → K} {c : Cuboid} {m : IMap (IMap Addr)} {cfg : Config K} {ch : Chances K} {s s' : Sim K}
variable {p p' : Prog K}

/-! ## The hops of the charges -/

theorem leaps_append {k : Int} {t : K} {a b : List (Event K)} :
    leaps c k t (a ++ b) = leaps c k t a ++ leaps c k (t + (staysOf k a).sum) b := by
  induction a generalizing t with
  | nil => simp [leaps, staysOf]
  | cons ev a ih =>
    have : (staysOf k (ev :: a)).sum = (staysIn k ev).sum + (staysOf k a).sum := by
      unfold staysOf
      rw [List.flatMap_cons, List.sum_append]
    rw [List.cons_append, leaps, leaps, ih, this, List.append_assoc, add_assoc]

theorem leaps_hop {k : Int} {a : Choices K} (hc : p.call env mem (.hop k k a) = .ok p') (wid : Int) :
    leaps c wid 0 p'.calls = leaps c wid 0 p.calls ++
      if wid = k then [⟨(staysOf k p.calls).sum, planeIn c p.world k, planeIn c p'.world k⟩] else [] := by
  obtain ⟨r, -, e⟩ := call_ok hc
  rw [e, leaps_append, zero_add]
  congr 1
  show (if k = wid then _ else _) ++ [] = _
  rw [List.append_nil]
  by_cases h : wid = k
  · subst h
    rw [if_pos rfl]
  · rw [if_neg h, if_neg (Ne.symm h)]

theorem leaps_remove {k : Int} (hc : p.call env mem (.removeWalker k k) = .ok p') (wid : Int) :
    leaps c wid 0 p'.calls = leaps c wid 0 p.calls := by
  obtain ⟨r, -, e⟩ := call_ok hc
  rw [e, leaps_append]
  exact List.append_nil _

theorem leaps_none {k : Int} {t : K} {evs : List (Event K)} (h : ∀ ev ∈ evs, ∀ a b d, ev.op ≠ .hop a b d) : leaps c k t evs = [] := by
  induction evs generalizing t with
  | nil => rfl
  | cons ev evs ih =>
    rw [leaps, ih fun e he => h e (List.mem_cons_of_mem _ he), List.append_nil]
    split
    · next ho => exact absurd ho (h ev List.mem_cons_self _ _ _)
    · rfl

theorem planeIn_of {w : World K} {k i : Int} {a : Cuboid.Pos} (ho : On w k i) (hs : SiteAt c i a) : planeIn c w k = a.x := by
  obtain ⟨y, hy, rfl, -⟩ := ho
  unfold planeIn
  rw [hy]
  obtain ⟨⟨⟨h0, h1⟩, -⟩, e⟩ := hs
  show y.site % c.length = a.x
  rw [e, Int.add_mul_emod_self_left]
  exact Int.emod_eq_of_lt h0 h1

theorem covered_change {n : Nat} {evs evs' : List (Event K)} {k : Int} {l : Leap K} (hk : 0 ≤ k ∧ k < n)
    (h : ∀ wid, leaps c wid 0 evs' = leaps c wid 0 evs ++ if wid = k then [l] else []) (a b : K) :
    covered c n evs' a b = covered c n evs a b + if a ≤ l.time ∧ l.time < b then l.after - l.before else 0 := by
  unfold covered
  rw [sum_range_change (j := k.toNat) (f := fun j : Nat =>
    (((leaps c j 0 evs).filter fun l => a ≤ l.time ∧ l.time < b).map fun l => l.after - l.before).sum) (by omega)]
  · congr 1
    rw [Int.toNat_of_nonneg hk.1, h, if_pos rfl, List.filter_append, List.map_append, List.sum_append, add_sub_cancel_left]
    by_cases hl : a ≤ l.time ∧ l.time < b
    · rw [if_pos hl, List.filter_cons_of_pos (by simpa using hl)]
      simp
    · rw [if_neg hl, List.filter_cons_of_neg (by simpa using hl)]
      simp
  · intro j hj
    rw [h, if_neg (by omega), List.append_nil]

theorem stillThere_change {n : Nat} {evs evs' : List (Event K)} {k : Int} {l : Leap K}
    (h : ∀ wid, leaps c wid 0 evs' = leaps c wid 0 evs ++ if wid = k then [l] else []) {t : K} (ht : t ≤ l.time) :
    stillThere c n evs' t = stillThere c n evs t := by
  unfold stillThere
  refine List.countP_congr fun j _ => ?_
  rw [h, List.all_append]
  by_cases hj : (j : Int) = k
  · rw [if_pos hj]
    have : [l].all (fun l => decide (l.time < t → l.after ≠ c.length - 1)) = true := by
      simp [not_lt.2 ht]
    rw [this, Bool.and_true]
  · rw [if_neg hj]
    simp

/-- What the samples tell. -/
structure Told (c : Cuboid) (cfg : Config K) (s : Sim K) : Prop where
  past : ∀ (k : Int), ∀ l ∈ leaps c k 0 s.prog.calls, l.time < if s.inside then s.sampleTime else s.sampleTime - cfg.dt
  arrived : ∀ k : Int, 0 ≤ k → k < cfg.charges → (k ∈ ids s ↔ ∀ l ∈ leaps c k 0 s.prog.calls, l.after ≠ c.length - 1)
  delta : s.inside = true → s.deltaX = (covered c cfg.charges s.prog.calls (s.sampleTime - cfg.dt) s.sampleTime : K)
  rows : ∀ (i : Nat) j n, s.samples[i]? = some (j, n) → n = stillThere c cfg.charges s.prog.calls (cfg.dt * ((i : K) + 1)) ∧
    IsCurrent c cfg s.prog.calls (cfg.dt * i) n j

theorem told_start (hS : Setting c mem m cfg ch) (h : start env mem c m cfg ch = .ok s) : Told c cfg s := by
  obtain ⟨sites, -, hl, -, ⟨s1, h1, -, -, hi, hs, hq, -⟩ | ⟨h1, -⟩⟩ :=
    start_spec (env := env) hS.built hS.suits hS.possible hS.sensible hS.length hS.enough
  swap
  · rw [h] at h1; cases h1
  rw [h] at h1
  cases h1
  obtain ⟨p, hp, hc, -, -, -⟩ := start_calls h
  have hnone : ∀ k, leaps c k 0 s.prog.calls = [] := by
    intro k
    obtain ⟨r, -, e⟩ := call_ok hc
    rw [e, leaps_append, leaps_none]
    · rfl
    · intro ev hev a b d ho
      rcases hp ev hev with ⟨_, e⟩ | ⟨_, _, e⟩ | e | e | e <;> rw [e] at ho <;> cases ho
  refine ⟨fun k l hl => ?_, fun k h0 h1 => ⟨fun _ l hl => ?_, fun _ => ?_⟩, fun h => ?_, fun i j n hn => ?_⟩
  · rw [hnone] at hl; cases hl
  · rw [hnone] at hl; cases hl
  · have hk : k.toNat < sites.length := by omega
    have := (hq k.toNat _ (List.getElem?_eq_getElem hk)).2
    rw [Int.toNat_of_nonneg h0] at this
    exact List.mem_map_of_mem (f := Prod.fst) this
  · rw [hi] at h; cases h
  · rw [hs] at hn; simp at hn

/-- The charges in the queue are those that have not arrived. -/
theorem stillThere_eq (hI : Inv env mem c m cfg s) (hT : Told c cfg s) {t : K} (ht : ∀ (k : Int), ∀ l ∈ leaps c k 0 s.prog.calls, l.time < t) :
    (stillThere c cfg.charges s.prog.calls t : Int) = s.remain := by
  have hset : (ids s).Perm (((List.range cfg.charges).filter fun k : Nat =>
      (leaps c k 0 s.prog.calls).all fun l => decide (l.time < t → l.after ≠ c.length - 1)).map fun k : Nat => (k : Int)) := by
    refine (List.perm_ext_iff_of_nodup hI.nodup ?_).2 fun k => ?_
    · exact (List.nodup_range.filter _).map fun a b h => by simpa using h
    · constructor
      · intro hk
        obtain ⟨h0, h1⟩ := hI.range k hk
        refine List.mem_map.2 ⟨k.toNat, List.mem_filter.2 ⟨List.mem_range.2 (by omega), ?_⟩, by omega⟩
        rw [Int.toNat_of_nonneg h0, List.all_eq_true]
        intro l hl
        exact decide_eq_true fun _ => (hT.arrived k h0 h1).1 hk l hl
      · intro hk
        obtain ⟨j, hj, rfl⟩ := List.mem_map.1 hk
        obtain ⟨hj, hall⟩ := List.mem_filter.1 hj
        have hj := List.mem_range.1 hj
        refine (hT.arrived j (by omega) (by omega)).2 fun l hl => ?_
        exact of_decide_eq_true (List.all_eq_true.1 hall l hl) (ht _ l hl)
  have := hset.length_eq
  rw [List.length_map] at this
  unfold stillThere
  rw [List.countP_eq_length_filter, ← this, hI.remain]
  unfold ids Queue.size
  rw [List.length_map]

theorem told_advance (hS : Setting c mem m cfg ch) {n : Nat} (hI : Inv env mem c m cfg s) (hC : Clock cfg n s) (hT : Told c cfg s)
    (h : advance env mem c cfg ch s = .ok (some s')) : Told c cfg s' := by
  have hdt := hS.sensible.dt
  have hI' := advance_inv hS.built hS.suits hS.possible hI h
  rcases advance_ok h with ⟨hin, hd, s1, h1, e⟩ | ⟨hin, hd, s1, h1, e⟩ | ⟨hin, hd, e⟩ | ⟨-, -, e⟩
  · cases e
    obtain ⟨e, es, x, i, old, p, y, j, new, d, he, hr, hx, rfl, -, hold, hp, hy, rfl, -, hnew, rfl, hcase⟩ := iterate_ok h1
    have hids : ids s = e.1 :: es.map Prod.fst := by unfold ids; rw [he]; rfl
    have hid : e.1 ∈ ids s := by rw [hids]; exact List.mem_cons_self
    have hact : e.1 ∈ active s.prog.calls := hI.act.subset hid
    obtain ⟨-, -, ⟨x', hx', hon⟩, ⟨y', hy', hon', hv, -⟩, -⟩ :=
      hI.story.hop hS.suits hact (hS.possible.draw _ _)
        (fun v w1 e' => hS.possible.times _ _ v w1 (by rw [hI.story.last]; exact e')) hp
    rw [hx] at hx'; cases hx'
    rw [hy] at hy'; cases hy'
    have hmem : e ∈ s.queue.entries := by rw [he]; exact List.mem_cons_self
    have hlt : e.2 < s.sampleTime := by
      rw [due_cons he] at hd
      simpa using hd
    have hlow := hI.lower e hmem
    -- the planes
    obtain ⟨xp, ⟨i0, a0, hon0, hs0, -⟩, -⟩ := hI.ahead _ hid
    have := onSite_unique hon0 hon
    subst this
    have hold' : planeIn c s.prog.world e.1 = old := by
      rw [planeIn_of hon hs0]
      rw [getX_ok hS.built hs0] at hold
      exact ok_inj.1 hold
    obtain ⟨a1, hs1, hx1⟩ := getX_valid hS.built hv
    have hnew' : planeIn c p.world e.1 = new := by
      rw [planeIn_of hon' hs1]
      rw [hx1] at hnew
      exact ok_inj.1 hnew
    have hbox : new ≤ c.length - 1 := by
      rw [hx1] at hnew
      have := ok_inj.1 hnew
      obtain ⟨⟨⟨_, hb⟩, _⟩, _⟩ := hs1
      omega
    have key : ∃ q : Prog K, s'.prog = q ∧
        (∀ wid, leaps c wid 0 q.calls = leaps c wid 0 s.prog.calls ++ if wid = e.1 then [⟨e.2, old, new⟩] else []) ∧
        s'.inside = s.inside ∧ s'.sampleTime = s.sampleTime ∧ s'.samples = s.samples ∧
        s'.deltaX = s.deltaX + ((new - old : Int) : K) := by
      have hleap := leaps_hop (c := c) hp
      rw [← hC.times e hmem, hold', hnew'] at hleap
      rcases hcase with ⟨-, rfl⟩ | ⟨-, p', hp', rfl⟩
      · exact ⟨p, rfl, hleap, rfl, rfl, rfl, rfl⟩
      · refine ⟨p', rfl, fun wid => ?_, rfl, rfl, rfl, rfl⟩
        rw [leaps_remove hp', hleap]
    obtain ⟨q, hq, hlp, k1, k2, k3, k4⟩ := key
    have hidk : ∀ k, k ∈ ids s' ↔ (k ∈ ids s ∧ (k = e.1 → new ≠ c.length - 1)) := by
      have hnd := hI.nodup
      rw [hids, List.nodup_cons] at hnd
      intro k
      rcases hcase with ⟨hlt', rfl⟩ | ⟨hge, p', hp', rfl⟩
      · have : ((insertBefore (e.1, e.2 + y.dwell) es).map Prod.fst).Perm (ids s) := by
          rw [hids]
          exact (insertBefore_perm (e.1, e.2 + y.dwell) es).map Prod.fst
        show k ∈ (insertBefore (e.1, e.2 + y.dwell) es).map Prod.fst ↔ _
        rw [this.mem_iff]
        exact ⟨fun hk => ⟨hk, fun _ => by omega⟩, fun hk => hk.1⟩
      · show k ∈ es.map Prod.fst ↔ _
        rw [hids, List.mem_cons]
        constructor
        · exact fun hk => ⟨.inr hk, fun hke => absurd (hke ▸ hk) hnd.1⟩
        · rintro ⟨rfl | hk, hne⟩
          · exact absurd (le_antisymm hbox hge) (hne rfl)
          · exact hk
    refine ⟨fun k l hl => ?_, fun k h0 h1 => ?_, fun hi => ?_, fun i j n hn => ?_⟩
    · rw [k1, k2, if_pos hin]
      rw [hq, hlp] at hl
      rcases List.mem_append.1 hl with hl | hl
      · have := hT.past k l hl
        rwa [if_pos hin] at this
      · split at hl
        · rw [List.mem_singleton.1 hl]; exact hlt
        · cases hl
    · rw [hidk, hT.arrived k h0 h1, hq, hlp]
      constructor
      · rintro ⟨h2, h3⟩ l hl
        rcases List.mem_append.1 hl with hl | hl
        · exact h2 l hl
        · split at hl
          · next hke => rw [List.mem_singleton.1 hl]; exact h3 hke
          · cases hl
      · intro h2
        refine ⟨fun l hl => h2 l (List.mem_append_left _ hl), fun hke => ?_⟩
        exact h2 ⟨e.2, old, new⟩ (List.mem_append_right _ (by rw [if_pos hke]; exact List.mem_singleton.2 rfl))
    · rw [k4, k2, hq, covered_change hr hlp, if_pos ⟨hlow, hlt⟩, hT.delta hin]
      push_cast
      ring
    · rw [k3] at hn
      obtain ⟨r1, r2, r3⟩ := hT.rows i j n hn
      have hi : i < s.samples.length := (List.getElem?_eq_some_iff.1 hn).1
      have hle : cfg.dt * (i + 1) ≤ e.2 := by
        refine le_trans ?_ hlow
        rw [hI.time]
        have : ((i : K) + 1) ≤ s.samples.length := by exact_mod_cast hi
        have := mul_le_mul_of_nonneg_left this hdt.le
        linarith
      rw [hq, stillThere_change hlp (l := ⟨e.2, old, new⟩) hle]
      refine ⟨r1, fun h4 h5 => ?_, r3⟩
      rw [covered_change hr hlp, if_neg, add_zero]
      · exact r2 h4 h5
      · rintro ⟨-, h6⟩
        have h6 : e.2 < cfg.dt * i + cfg.dt := h6
        have : cfg.dt * (i + 1) = cfg.dt * i + cfg.dt := by ring
        linarith
  · cases e
    have hps := hT.past
    rw [hin] at hps
    simp only [if_true] at hps
    have hstill := stillThere_eq hI hT hps
    have := sample_ok h1
    subst this
    refine ⟨fun k l hl => ?_, hT.arrived, fun h => (by cases h), fun i j n hn => ?_⟩
    · simp only [Bool.false_eq_true, if_false, add_sub_cancel_right]
      exact hps k l hl
    · show n = (stillThere c cfg.charges s.prog.calls (cfg.dt * (i + 1)) : Int) ∧ IsCurrent c cfg s.prog.calls (cfg.dt * i) n j
      have hn : (s.samples ++ [(current cfg s.queue.size s.deltaX, s.remain)])[i]? = some (j, n) := hn
      rcases Nat.lt_or_ge i s.samples.length with hi | hi
      · rw [List.getElem?_append_left hi] at hn
        exact hT.rows i j n hn
      · rw [List.getElem?_append_right hi] at hn
        have hi' : i = s.samples.length := by
          have := (List.getElem?_eq_some_iff.1 hn).1
          simp at this
          omega
        subst hi'
        simp only [Nat.sub_self, List.getElem?_cons_zero, Option.some.injEq, Prod.mk.injEq] at hn
        obtain ⟨rfl, rfl⟩ := hn
        have ht : s.sampleTime = cfg.dt * (s.samples.length + 1) := hI.time
        refine ⟨by rw [← ht]; exact hstill.symm, fun h4 h5 => ?_, fun h4 => ?_⟩
        · have hsz : ((s.queue.size : ℕ) : K) ≠ 0 := by
            have := hI.remain
            intro h0
            apply h4
            rw [this]
            exact_mod_cast h0
          unfold current
          rw [if_neg (fun h => h.elim (mul_ne_zero hsz hdt.ne') h5), hT.delta hin]
          congr 1
          rw [show s.sampleTime - cfg.dt = cfg.dt * (s.samples.length : K) by rw [ht]; ring,
            show cfg.dt * (s.samples.length : K) + cfg.dt = s.sampleTime by rw [ht]; ring]
          field_simp
        · unfold current
          rw [if_pos]
          rcases h4 with h4 | h4
          · left
            rw [hI.remain] at h4
            have : s.queue.size = 0 := by exact_mod_cast h4
            rw [this]
            simp
          · exact .inr h4
  · cases e
    have hps := hT.past
    rw [hin] at hps
    simp only [Bool.false_eq_true, if_false] at hps
    refine ⟨fun k l hl => ?_, hT.arrived, fun _ => ?_, hT.rows⟩
    · simp only [if_true]
      have := hps k l hl
      linarith
    · show (0 : K) = (covered c cfg.charges s.prog.calls (s.sampleTime - cfg.dt) s.sampleTime : K)
      have : covered c cfg.charges s.prog.calls (s.sampleTime - cfg.dt) s.sampleTime = 0 := by
        unfold covered
        rw [List.map_congr_left (g := fun _ => (0 : Int))]
        · simp
        · intro k _
          rw [List.filter_eq_nil_iff.2]
          · rfl
          · intro l hl
            have := hps _ l hl
            simp only [decide_eq_true_eq, not_and, not_lt]
            intro h1
            exact absurd this (not_lt.2 h1)
      rw [this, Int.cast_zero]
  · cases e

theorem program_told (hS : Setting c mem m cfg ch) {n : Nat} {fin : Bool} (h : program env mem c m cfg ch n = .ok (s, fin)) : Told c cfg s := by
  obtain ⟨s0, h0, h⟩ := bind_eq_ok.1 h
  obtain ⟨hI, -⟩ := start_ok hS h0
  obtain ⟨j, -, ⟨-, -, h2⟩, -⟩ := loops_steps (P := fun n s => Inv env mem c m cfg s ∧ Clock cfg n s ∧ Told c cfg s)
    (fun n s s' ⟨i1, i2, i3⟩ ha => ⟨advance_inv hS.built hS.suits hS.possible i1 ha, clock_advance hS i1 i2 ha, told_advance hS i1 i2 i3 ha⟩)
    ⟨hI, clock_start hS h0, told_start hS h0⟩ h
  exact h2

/-! ## The file -/

theorem writeRows_ok {cur : List (Option K)} {charges : List Int} {dt : K} (hl : cur.length = charges.length) {left ind : Nat} {t : K}
    (h : ind + left = cur.length) : ∃ rows, writeRows cur charges dt left ind t = .ok rows ∧ rows.length = left ∧
      ∀ (i : Nat) (r : Row K), rows[i]? = some r ↔ r.time = t + dt * ((i : K) + 1) ∧ cur[ind + i]? = some r.current ∧ charges[ind + i]? = some r.left := by
  induction left generalizing ind t with
  | zero =>
    refine ⟨[], rfl, rfl, fun i r => ?_⟩
    have : cur[ind + i]? = none := List.getElem?_eq_none (by omega)
    simp [this]
  | succ left ih =>
    obtain ⟨rows, h1, h2, h3⟩ := ih (ind := ind + 1) (t := t + dt) (by omega)
    obtain ⟨j, hj⟩ : ∃ j, cur[ind]? = some j := ⟨_, List.getElem?_eq_getElem (by omega)⟩
    obtain ⟨n, hn⟩ : ∃ n, charges[ind]? = some n := ⟨_, List.getElem?_eq_getElem (by omega)⟩
    refine ⟨⟨t + dt, j, n⟩ :: rows, ?_, by simp [h2], fun i r => ?_⟩
    · unfold writeRows
      simp only [hj, hn, h1, ok_bind]
    · cases i with
      | zero =>
        simp only [List.getElem?_cons_zero, Option.some.injEq, Nat.cast_zero, zero_add, mul_one, Nat.add_zero, hj, hn]
        constructor
        · rintro rfl; exact ⟨rfl, rfl, rfl⟩
        · obtain ⟨a, b, d⟩ := r
          rintro ⟨h, rfl, rfl⟩
          have h : a = t + dt := h
          rw [h]
      | succ i =>
        rw [List.getElem?_cons_succ, h3, show ind + 1 + i = ind + (i + 1) by omega]
        have : t + dt + dt * ((i : K) + 1) = t + dt * (((i + 1 : ℕ) : K) + 1) := by push_cast; ring
        rw [this]

end Mythical.ToF
