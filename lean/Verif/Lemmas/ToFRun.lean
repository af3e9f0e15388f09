import Verif.Lemmas.ToFStart

/-! # Helper lemmas for the time-of-flight program: whole runs -/

set_option linter.unusedSectionVars false
set_option linter.unusedVariables false

namespace Mythical.ToF
open Mythical World SystemSpec ToFSpec CuboidSpec Queue
variable {K : Type} [Field K] [LinearOrder K] [IsStrictOrderedRing K] [FloorRing K]
variable {env : Env K} {mem : Addr → K} {c : Cuboid} {m : IMap (IMap Addr)} {cfg : Config K} {ch : Chances K} {s s' : Sim K}

theorem loops_succ {n : Nat} : loops env mem c cfg ch (n + 1) s = match advance env mem c cfg ch s with
    | .error f => .error f
    | .ok none => .ok (s, true)
    | .ok (some s) => loops env mem c cfg ch n s := rfl

theorem loops_add {n k : Nat} {s1 : Sim K} (h : loops env mem c cfg ch n s = .ok (s1, false)) :
    loops env mem c cfg ch (n + k) s = loops env mem c cfg ch k s1 := by
  induction n generalizing s with
  | zero => cases h; rw [Nat.zero_add]
  | succ n ih =>
    unfold loops at h
    rw [Nat.add_right_comm]
    rw [loops_succ]
    cases ha : advance env mem c cfg ch s with
    | error f => rw [ha] at h; cases h
    | ok o =>
      rw [ha] at h
      cases o with
      | none => cases h
      | some s2 => exact ih h

theorem loops_done {n k : Nat} {s1 : Sim K} (h : loops env mem c cfg ch n s = .ok (s1, true)) :
    loops env mem c cfg ch (n + k) s = .ok (s1, true) := by
  induction n generalizing s with
  | zero => cases h
  | succ n ih =>
    unfold loops at h
    rw [Nat.add_right_comm]
    rw [loops_succ]
    cases ha : advance env mem c cfg ch s with
    | error f => rw [ha] at h; cases h
    | ok o =>
      rw [ha] at h
      cases o with
      | none => exact h
      | some s2 => exact ih h

theorem loops_one {fin : Bool} (h : loops env mem c cfg ch 1 s = .ok (s', fin)) :
    (fin = true ∧ s' = s) ∨ advance env mem c cfg ch s = .ok (some s') := by
  unfold loops at h
  split at h
  · cases h
  · cases h; exact .inl ⟨rfl, rfl⟩
  · next s2 ha => cases h; exact .inr ha

/-- When the last charge has left the queue and the sample has been taken, the last sample is not a number. -/
def LastSample (s : Sim K) : Prop := s.inside = false → s.queue.entries = [] → s.samples.getLast? = some (none, 0)

theorem advance_lastSample (hI : Inv env mem c m cfg s) (h : advance env mem c cfg ch s = .ok (some s')) : LastSample s' := by
  rcases advance_ok h with ⟨hi, -, s1, h1, e⟩ | ⟨hi, hd, s1, h1, e⟩ | ⟨hi, -, e⟩ | ⟨-, -, e⟩
  · cases e
    intro hf
    obtain ⟨e, es, x, i, old, p, y, j, new, d, -, -, -, -, -, -, -, -, -, -, -, -, hcase⟩ := iterate_ok h1
    rcases hcase with ⟨-, rfl⟩ | ⟨-, p', -, rfl⟩ <;> exact absurd (hi.symm.trans hf) (by decide)
  · cases e
    intro _ he
    have := sample_ok h1
    subst this
    have he : s.queue.entries = [] := he
    have hz : s.queue.size = 0 := by unfold Queue.size; rw [he]; rfl
    have hr : s.remain = 0 := by rw [hI.remain, hz]; rfl
    show (s.samples ++ [(current cfg s.queue.size s.deltaX, s.remain)]).getLast? = _
    rw [List.getLast?_append, hr, hz]
    unfold current
    simp
  · cases e
    intro hf
    cases hf
  · cases e

theorem start_ok (hS : Setting c mem m cfg ch) (h : start env mem c m cfg ch = .ok s) :
    Inv env mem c m cfg s ∧ Moved (planeX c) cfg s ∧ s.inside = false ∧ s.samples = [] ∧ s.queue.entries ≠ [] := by
  obtain ⟨sites, -, hl, -, ⟨s1, h1, hI, hM, hi, hs, hq, -⟩ | ⟨h1, -⟩⟩ :=
    start_spec (env := env) hS.built hS.suits hS.possible hS.sensible hS.length hS.enough
  · rw [h] at h1
    cases h1
    refine ⟨hI, hM, hi, hs, fun he => ?_⟩
    have h0 : 0 < sites.length := by rw [hl]; exact hS.sensible.charges
    have := (hq 0 _ (List.getElem?_eq_getElem h0)).2
    rw [he] at this
    cases this
  · rw [h] at h1; cases h1

/-- What holds in every state of the program in the loops. -/
theorem program_ok (hS : Setting c mem m cfg ch) {n : Nat} {fin : Bool} (h : program env mem c m cfg ch n = .ok (s, fin)) :
    Inv env mem c m cfg s ∧ Moved (planeX c) cfg s ∧ LastSample s ∧ (fin = true → advance env mem c cfg ch s = .ok none) := by
  obtain ⟨s0, h0, h⟩ := bind_eq_ok.1 h
  obtain ⟨hI, hM, hi, hs, hq⟩ := start_ok hS h0
  have := loops_ind (P := fun s => Inv env mem c m cfg s ∧ Moved (planeX c) cfg s ∧ LastSample s)
    (fun s s' ⟨i1, i2, i3⟩ ha => ⟨advance_inv hS.built hS.suits hS.possible i1 ha, advance_moved hS.suits hS.possible i1 ha i2,
      advance_lastSample i1 ha⟩) ⟨hI, hM, fun _ he => absurd he hq⟩ h
  exact ⟨this.1.1, this.1.2.1, this.1.2.2, this.2⟩

/-- The queue's times are bounded from below by what has been reached. -/
theorem advance_bound (hS : Setting c mem m cfg ch) (hI : Inv env mem c m cfg s) {t : K}
    (ht : ∀ e ∈ s.queue.entries, t ≤ e.2) (h : advance env mem c cfg ch s = .ok (some s')) : ∀ e ∈ s'.queue.entries, t ≤ e.2 := by
  rcases advance_ok h with ⟨hi, -, s1, h1, e⟩ | ⟨hi, hd, s1, h1, e⟩ | ⟨hi, -, e⟩ | ⟨-, -, e⟩
  · cases e
    obtain ⟨e, es, x, i, old, p, y, j, new, d, he, hr, hx, rfl, -, hold, hp, hy, rfl, -, hnew, rfl, hcase⟩ := iterate_ok h1
    have hids : ids s = e.1 :: es.map Prod.fst := by unfold ids; rw [he]; rfl
    have hact : e.1 ∈ active s.prog.calls := hI.act.subset (by rw [hids]; exact List.mem_cons_self)
    obtain ⟨-, -, -, ⟨y', hy', -, -, hdw⟩, -⟩ :=
      hI.story.hop hS.suits hact (hS.possible.draw _ _)
        (fun v w1 e' => hS.possible.times _ _ v w1 (by rw [hI.story.last]; exact e')) hp
    rw [hy] at hy'; cases hy'
    rw [he] at ht
    rcases hcase with ⟨-, rfl⟩ | ⟨-, p', -, rfl⟩
    · intro e' he'
      rcases List.mem_cons.1 ((insertBefore_perm (e.1, e.2 + y.dwell) es).subset he') with rfl | he'
      · show t ≤ e.2 + y.dwell
        have := ht e List.mem_cons_self
        linarith
      · exact ht _ (List.mem_cons_of_mem _ he')
    · intro e' he'
      exact ht _ (List.mem_cons_of_mem _ he')
  · cases e
    have := sample_ok h1
    subst this
    exact ht
  · cases e; exact ht
  · cases e

/-- Later times are not before earlier ones. -/
theorem program_bound (hS : Setting c mem m cfg ch) {n k : Nat} {fin fin' : Bool} (h : program env mem c m cfg ch n = .ok (s, fin))
    (h' : program env mem c m cfg ch (n + k) = .ok (s', fin')) {t : K} (ht : ∀ e ∈ s.queue.entries, t ≤ e.2) :
    ∀ e ∈ s'.queue.entries, t ≤ e.2 := by
  obtain ⟨hI, -⟩ := program_ok hS h
  obtain ⟨s0, h0, h⟩ := bind_eq_ok.1 h
  obtain ⟨s0', h0', h'⟩ := bind_eq_ok.1 h'
  rw [h0] at h0'; cases h0'
  cases fin with
  | true => rw [loops_done h] at h'; cases h'; exact ht
  | false =>
    rw [loops_add h] at h'
    exact (loops_ind (P := fun s => Inv env mem c m cfg s ∧ ∀ e ∈ s.queue.entries, t ≤ e.2)
      (fun s s' ⟨i1, i2⟩ ha => ⟨advance_inv hS.built hS.suits hS.possible i1 ha, advance_bound hS i1 i2 ha⟩) ⟨hI, ht⟩ h').1.2

/-- Consecutive states. -/
theorem program_next {n : Nat} {fin : Bool} (h : program env mem c m cfg ch n = .ok (s, false))
    (h' : program env mem c m cfg ch (n + 1) = .ok (s', fin)) : (fin = true ∧ s' = s) ∨ advance env mem c cfg ch s = .ok (some s') := by
  obtain ⟨s0, h0, h⟩ := bind_eq_ok.1 h
  obtain ⟨s0', h0', h'⟩ := bind_eq_ok.1 h'
  rw [h0] at h0'; cases h0'
  rw [loops_add h] at h'
  exact loops_one h'

theorem sumPlanes_eq {w : World K} {X : Int → Int}
    (hX : ∀ k : Int, 0 ≤ k → k < cfg.charges → planeOf (planeX c) w k = X k) :
    sumPlanes (planeX c) cfg w = ((List.range cfg.charges).map fun k : Nat => X k).sum := by
  unfold sumPlanes
  congr 1
  exact List.map_congr_left fun k hk => hX k (by omega) (by have := List.mem_range.1 hk; omega)

theorem planeOf_at (hb : Built c) {w : World K} {k x : Int} (h : AtPlane c w k x) : planeOf (planeX c) w k = x := by
  obtain ⟨i, a, ⟨y, hy, hs, -⟩, ha, rfl⟩ := h
  unfold planeOf planeX
  rw [hy]
  simp only
  rw [hs, getX_ok hb ha]

/-- A plane holds `width * height` sites. -/
theorem plane_size (hb : Built c) {l : List Int} (hl : l.Nodup) (hf : AllFirst c l) : (l.length : Int) ≤ c.width * c.height := by
  have g := Cuboid.good_of_built hb
  have hsub : l ⊆ (List.range c.width.toNat ×ˢ List.range c.height.toNat).map
      (fun d : Nat × Nat => siteOfDraw c ((d.1 : Int), (d.2 : Int))) := by
    intro i hi
    obtain ⟨a, ha, ha0⟩ := hf i hi
    obtain ⟨⟨-, ⟨y0, y1⟩, z0, z1⟩, e⟩ := ha
    refine List.mem_map.2 ⟨(a.y.toNat, a.z.toNat), List.mem_product.2 ⟨List.mem_range.2 (by omega), List.mem_range.2 (by omega)⟩, ?_⟩
    unfold siteOfDraw
    rw [e, ha0, Int.toNat_of_nonneg y0, Int.toNat_of_nonneg z0]
  have := (hl.subperm hsub).length_le
  rw [List.length_map, List.length_product, List.length_range, List.length_range] at this
  have h1 : ((c.width.toNat * c.height.toNat : Nat) : Int) = c.width * c.height := by
    rw [Nat.cast_mul, Int.toNat_of_nonneg g.w.le, Int.toNat_of_nonneg g.h.le]
  omega

/-- Too many charges are never placed. -/
theorem pickSites_crowded (hb : Built c) {n : Nat} (hn : c.width * c.height < n) {ds : List (Int × Int)}
    (hd : ∀ d ∈ ds, (0 ≤ d.1 ∧ d.1 < c.width) ∧ 0 ≤ d.2 ∧ d.2 < c.height) : pickSites c n ds [] = .error .outOfFuel := by
  rcases pickSites_spec hb hd List.nodup_nil (fun _ h => nomatch h) (Nat.zero_le n) with ⟨l, -, h1, h2, h3⟩ | ⟨h, -⟩
  · have := plane_size hb h1 h3
    omega
  · exact h

/-- Traversal times can be given so that they cover all that there are. -/
theorem exists_times (mem : Addr → K) (w : World K) (v : Int) (a : Choices K) :
    ∃ ts, CoversTimes mem w v { a with times := ts } := by
  classical
  cases hf : Explorer.default.findBasin a.vis mem w.sites w.clusters v with
  | error e => exact ⟨[], fun B hB => by rw [hf] at hB; cases hB⟩
  | ok B =>
    have path : ∀ x y, BasinSpec.Reach mem w.sites B x y → ∃ t, BasinSpec.PathTime mem w.sites B x y t := by
      intro x y h
      induction h with
      | start => exact ⟨0, .start⟩
      | hop h hj r hr ih => obtain ⟨t, ht⟩ := ih; exact ⟨_, .hop ht hj r hr⟩
    have key : ∀ ps : List (Int × Int), ∃ ts : List K, ∀ p ∈ ps, BasinSpec.Reach mem w.sites B p.1 p.2 →
        ∃ t ∈ ts, BasinSpec.PathTime mem w.sites B p.1 p.2 t := by
      intro ps
      induction ps with
      | nil => exact ⟨[], fun _ h => nomatch h⟩
      | cons p ps ih =>
        obtain ⟨ts, hts⟩ := ih
        by_cases hr : BasinSpec.Reach mem w.sites B p.1 p.2
        · obtain ⟨t, ht⟩ := path _ _ hr
          refine ⟨t :: ts, fun q hq hq' => ?_⟩
          rcases List.mem_cons.1 hq with rfl | hq
          · exact ⟨t, List.mem_cons_self, ht⟩
          · obtain ⟨t', h1, h2⟩ := hts q hq hq'
            exact ⟨t', List.mem_cons_of_mem _ h1, h2⟩
        · refine ⟨ts, fun q hq hq' => ?_⟩
          rcases List.mem_cons.1 hq with rfl | hq
          · exact absurd hq' hr
          · exact hts q hq hq'
    obtain ⟨ts, hts⟩ := key (B.product B)
    refine ⟨ts, fun B' hB' x hx y hy _ hr => ?_⟩
    have hB' : Explorer.default.findBasin a.vis mem w.sites w.clusters v = .ok B' := hB'
    rw [hf] at hB'
    cases hB'
    obtain ⟨t, h1, h2⟩ := hts (x, y) (List.mem_product.2 ⟨hx, hy⟩) hr
    exact ⟨t, h1, t, le_rfl, h2⟩

/-- The choices `a` with traversal times that cover those of the basin searched in a hop of walker `h` after `evs`. -/
noncomputable def withTimes (mem : Addr → K) (a : Choices K) (evs : List (Event K)) (h : Int) : Choices K :=
  { a with times := match (worldAfter evs).hopMove h h a with
    | .ok vw => (exists_times mem vw.2 vw.1 a).choose
    | .error _ => [] }

theorem withTimes_covers {mem : Addr → K} {a : Choices K} {evs : List (Event K)} {h v : Int} {w : World K}
    (hm : (worldAfter evs).hopMove h h (withTimes mem a evs h) = .ok (v, w)) : CoversTimes mem w v (withTimes mem a evs h) := by
  have hm : (worldAfter evs).hopMove h h a = .ok (v, w) := hm
  have e : withTimes mem a evs h = { a with times := (exists_times mem w v a).choose } := by
    unfold withTimes
    rw [hm]
  rw [e]
  exact (exists_times mem w v a).choose_spec

end Mythical.ToF
