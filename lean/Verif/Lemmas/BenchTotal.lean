import Verif.Spec.BenchTotal
import Verif.Lemmas.BenchRun
import Verif.Props.SystemTotal
import Verif.Lemmas.ToFOverflow

/-! # The simulations with coarse graining return (for C116) -/

namespace Mythical.Bench
open World SystemSpec BenchSpec
open _root_.Mythical.ToF (AllOps Prog)
open _root_.Mythical.ToFSpec (OnlyOverflow)
variable {K : Type} [Field K] [LinearOrder K] [IsStrictOrderedRing K] [FloorRing K]
variable {env : Env K} {mem : Addr → K} {m : IMap (IMap Addr)} {n0 : Nat} {p p' : Prog K} {s s' : Sim K}
variable {sites : List Int} {seed threshold rate : Int} {cutoff : K} {luck : Luck K}

theorem start_fuel {f f' : Nat} (p : Prog K) : start { env with fuel := f } mem m sites seed threshold cutoff rate luck p =
    start { env with fuel := f' } mem m sites seed threshold cutoff rate luck p := by
  unfold start
  rw [ToF.place_fuel (f := f) (f' := f')]
  congr 1

/-- What the guarantees for hops need beyond `Log`. -/
structure Fair (mem : Addr → K) (p : Prog K) : Prop where
  ratio : RatioHalf p.calls
  times : TimesCover p.calls
  last : ToFSpec.worldAfter p.calls = p.world

theorem last_call {op : Op K} (h : p.call env mem op = .ok p') : ToFSpec.worldAfter p'.calls = p'.world := by
  obtain ⟨r, h1, h2⟩ := ToF.call_ok h
  unfold ToFSpec.worldAfter
  rw [h2, List.getLast?_append]
  rfl

/-- The calls at the start. -/
def AtStart (op : Op K) : Prop := (∀ r, op ≠ .setPerformanceRatio r) ∧ ∀ wid h a, op ≠ .hop wid h a

theorem start_fair (h : start env mem m sites seed threshold cutoff rate luck ⟨World.new n0, []⟩ = .ok s) : Fair mem s.prog := by
  unfold start at h
  obtain ⟨p1, h1, h⟩ := bind_eq_ok.1 h
  obtain ⟨inc, -, h⟩ := bind_eq_ok.1 h
  obtain ⟨p2, h2, h⟩ := bind_eq_ok.1 h
  obtain ⟨p3, h3, h⟩ := bind_eq_ok.1 h
  obtain ⟨p4, h4, h⟩ := bind_eq_ok.1 h
  obtain ⟨p5, h5, h⟩ := bind_eq_ok.1 h
  obtain ⟨p6, h6, h⟩ := bind_eq_ok.1 h
  obtain ⟨l, -, h⟩ := bind_eq_ok.1 h
  have a1 : AllOps AtStart p1 := AllOps.place (fun k => ⟨fun _ e => (nomatch e), fun _ _ _ e => (nomatch e)⟩)
    (fun k i => ⟨fun _ e => (nomatch e), fun _ _ _ e => (nomatch e)⟩) (fun ev hev => by cases hev) h1
  have a6 : AllOps AtStart p6 := AllOps.call (AllOps.call (AllOps.call (AllOps.call (AllOps.call a1 h2
    ⟨fun _ e => (nomatch e), fun _ _ _ e => (nomatch e)⟩) h3 ⟨fun _ e => (nomatch e), fun _ _ _ e => (nomatch e)⟩) h4
    ⟨fun _ e => (nomatch e), fun _ _ _ e => (nomatch e)⟩) h5 ⟨fun _ e => (nomatch e), fun _ _ _ e => (nomatch e)⟩) h6
    ⟨fun _ e => (nomatch e), fun _ _ _ e => (nomatch e)⟩
  have hs : s.prog = p6 := by
    split at h
    · cases h
    · split at h
      · cases h; rfl
      · cases h
  rw [hs]
  exact ⟨fun ev he r ho => absurd ho ((a6 ev he).1 r), fun ev he wid h a v w1 B ho => absurd ho ((a6 ev he).2 wid h a), last_call h6⟩

theorem fair_advance {n : Nat} (hc : Covering mem luck) (hf : Fair mem s.prog) (h : advance env mem n cutoff luck s = .ok (some s')) :
    Fair mem s'.prog := by
  obtain ⟨k, t, rest, p, x, -, -, -, hp, -, rfl⟩ := advance_some h
  obtain ⟨r, -, h2⟩ := ToF.call_ok hp
  refine ⟨fun ev he q ho => ?_, fun ev he wid h a v w1 B ho hm => ?_, last_call hp⟩
  · rw [h2] at he
    rcases List.mem_append.1 he with he | he
    · exact hf.ratio ev he q ho
    · rw [List.mem_singleton.1 he] at ho; cases ho
  · rw [h2] at he
    rcases List.mem_append.1 he with he | he
    · exact hf.times ev he wid h a v w1 B ho hm
    · have he := List.mem_singleton.1 he
      subst he
      cases ho
      exact hc _ _ v w1 (by rw [hf.last]; exact hm) B

/-- A round returns, with the same result for all sufficiently large limits on the rounds of the library's loop. -/
theorem advance_total (hS : Setting mem m sites cutoff rate luck) (h2 : TwoWay m) (hc : Covering mem luck) {v N : Nat}
    (hI : ∀ f ≥ N, Inv { env with fuel := f } mem m n0 sites.length cutoff v s) (hf : Fair mem s.prog) :
    ∃ N' x, OnlyOverflow x ∧ ∀ f ≥ N', advance { env with fuel := f } mem sites.length cutoff luck s = x := by
  have hI0 := hI N le_rfl
  have hlen := hI0.ids.length_eq
  obtain ⟨⟨k, t⟩, rest, he⟩ : ∃ e es, s.times = e :: es := List.exists_cons_of_ne_nil fun h0 => by
    have := List.length_pos_of_ne_nil hS.walkers
    rw [h0] at hlen
    simp at hlen
    omega
  have hk : 0 ≤ k ∧ k < sites.length := (hI0.mem_ids k).1 (by rw [he]; exact List.mem_cons_self)
  have hka : k ∈ active s.prog.calls := by
    rw [hI0.act]
    exact List.mem_map.2 ⟨k.toNat, List.mem_range.2 (by omega), by omega⟩
  by_cases hlt : t < cutoff
  · have hl := hI0.log
    obtain ⟨N', r, hr, hstep⟩ := C69_hop_returns _ mem n0 _ _ hl.trace hl.usage hl.fixed (hl.pos hS.proper) (hl.sys hS.closed)
      (fun ev he m' ho => by obtain ⟨rfl, -⟩ := hl.only ev he m' ho; exact ⟨hS.proper.1, fun ir hir => (hS.proper.2 ir hir).1⟩)
      (fun ev he m' ho => by obtain ⟨rfl, -⟩ := hl.only ev he m' ho; exact h2)
      hl.draws hl.sent hf.ratio hf.times k k hka (luck.draw s.prog.calls k) (hS.draw _ _)
      (fun v w1 e' => hc _ _ v w1 (by rw [hf.last]; exact e'))
    have hcall : ∀ f ≥ N', s.prog.call { env with fuel := f } mem (.hop k k (luck.draw s.prog.calls k)) =
        s.prog.call { env with fuel := max N' N } mem (.hop k k (luck.draw s.prog.calls k)) := fun f hf' => by
      have e1 : s.prog.world.step { env with fuel := max N' N } mem (.hop k k (luck.draw s.prog.calls k)) = r := hstep _ (le_max_left _ _)
      have e2 : s.prog.world.step { env with fuel := f } mem (.hop k k (luck.draw s.prog.calls k)) = r := hstep f hf'
      unfold Prog.call
      rw [e1, e2]
    have hadv : ∀ f ≥ N', advance { env with fuel := f } mem sites.length cutoff luck s =
        advance { env with fuel := max N' N } mem sites.length cutoff luck s := fun f hf' => by
      unfold advance
      rw [he]
      simp only
      rw [hcall f hf']
    refine ⟨N', _, ?_, hadv⟩
    have ho : OnlyOverflow (s.prog.call { env with fuel := max N' N } mem (.hop k k (luck.draw s.prog.calls k))) := ToF.fine_call (by
      have e1 : s.prog.world.step { env with fuel := max N' N } mem (.hop k k (luck.draw s.prog.calls k)) = r := hstep _ (le_max_left _ _)
      rw [e1]
      exact hr)
    unfold advance
    rw [he]
    simp only
    rw [if_pos hlt, if_pos hk]
    refine ToF.fine_bind ho fun p hp => ?_
    obtain ⟨-, -, y, hy⟩ := (hI _ (le_max_right _ _)).log.hop hS.proper hS.closed hka (hS.draw _ _) hp
    rw [walkerOf_of hy, ok_bind]
    exact ToF.fine_ok _
  · refine ⟨0, .ok none, ToF.fine_ok _, fun f _ => ?_⟩
    unfold advance
    rw [he]
    simp only
    rw [if_neg hlt]

/-- The loop, for any number of rounds. -/
theorem loops_returns (hS : Setting mem m sites cutoff rate luck) (h2 : TwoWay m) (hc : Covering mem luck) (r : Nat) {v N : Nat}
    (hI : ∀ f ≥ N, Inv { env with fuel := f } mem m n0 sites.length cutoff v s) (hf : Fair mem s.prog) :
    ∃ N' x, OnlyOverflow x ∧ ∀ f ≥ N', loops { env with fuel := f } mem sites.length cutoff luck r s = x := by
  induction r generalizing s v N with
  | zero => exact ⟨0, _, ToF.fine_ok _, fun _ _ => rfl⟩
  | succ r ih =>
    obtain ⟨N1, x, h3, h4⟩ := advance_total hS h2 hc hI hf
    rcases h3 with ⟨o, rfl⟩ | rfl | rfl
    · cases o with
      | none => exact ⟨N1, .ok (s, true), ToF.fine_ok _, fun f hf => by unfold loops; rw [h4 f hf]⟩
      | some s' =>
        obtain ⟨N2, x, h5, h6⟩ := ih (N := max N N1) (s := s') (v := v + 1)
          (fun f hf => inv_advance hS (hI f (le_trans (le_max_left _ _) hf)) (h4 f (le_trans (le_max_right _ _) hf)))
          (fair_advance hc hf (h4 N1 le_rfl))
        refine ⟨max N1 N2, x, h5, fun f hf => ?_⟩
        unfold loops
        rw [h4 f (le_trans (le_max_left _ _) hf)]
        exact h6 f (le_trans (le_max_right _ _) hf)
    · exact ⟨N1, _, .inr (.inl rfl), fun f hf => by unfold loops; rw [h4 f hf]⟩
    · exact ⟨N1, _, .inr (.inr rfl), fun f hf => by unfold loops; rw [h4 f hf]⟩

/-! ## The counters -/

/-- What the calls add up to after `v` rounds with `n` walkers. -/
structure Tally (n v : Nat) (p : Prog K) : Prop where
  arrivals : (p.calls.map fun ev => SystemSpec.arrivals ev.op).sum = n + v
  departures : (p.calls.map fun ev => SystemSpec.departures ev.op).sum = v
  ids : (p.calls.map fun ev => idsTaken ev.op).sum = 2 * v
  hops : hopsIn p.calls = v
  thresholds : ∀ ev ∈ p.calls, ∀ x, ev.op = .setMinThreshold x → 0 ≤ x

/-- A call that counts for nothing. -/
structure Idle0 (op : Op K) : Prop where
  arrivals : SystemSpec.arrivals op = 0
  departures : SystemSpec.departures op = 0
  ids : idsTaken op = 0
  hops : isHop op = false
  thresholds : ∀ x, op = .setMinThreshold x → 0 ≤ x

theorem tally_start (h0 : 0 ≤ threshold) (h : start env mem m sites seed threshold cutoff rate luck ⟨World.new n0, []⟩ = .ok s) :
    Tally sites.length 0 s.prog := by
  unfold start at h
  obtain ⟨p1, h1, h⟩ := bind_eq_ok.1 h
  obtain ⟨inc, -, h⟩ := bind_eq_ok.1 h
  obtain ⟨p2, h2, h⟩ := bind_eq_ok.1 h
  obtain ⟨p3, h3, h⟩ := bind_eq_ok.1 h
  obtain ⟨p4, h4, h⟩ := bind_eq_ok.1 h
  obtain ⟨p5, h5, h⟩ := bind_eq_ok.1 h
  obtain ⟨p6, h6, h⟩ := bind_eq_ok.1 h
  obtain ⟨l, -, h⟩ := bind_eq_ok.1 h
  have a1 : AllOps Idle0 p1 := AllOps.place (fun k => ⟨rfl, rfl, rfl, rfl, fun _ e => nomatch e⟩)
    (fun k i => ⟨rfl, rfl, rfl, rfl, fun _ e => nomatch e⟩) (fun ev hev => by cases hev) h1
  have a5 : AllOps Idle0 p5 := AllOps.call (AllOps.call (AllOps.call (AllOps.call a1 h2
    ⟨rfl, rfl, rfl, rfl, fun _ e => nomatch e⟩) h3 ⟨rfl, rfl, rfl, rfl, fun _ e => by cases e; exact h0⟩) h4
    ⟨rfl, rfl, rfl, rfl, fun _ e => nomatch e⟩) h5 ⟨rfl, rfl, rfl, rfl, fun _ e => nomatch e⟩
  have hs : s.prog = p6 := by
    split at h
    · cases h
    · split at h
      · cases h; rfl
      · cases h
  have hz : ∀ f : Op K → Nat, (∀ op, Idle0 op → f op = 0) → (p5.calls.map fun ev => f ev.op).sum = 0 := by
    intro f hf
    refine List.sum_eq_zero fun x hx => ?_
    obtain ⟨ev, hev, rfl⟩ := List.mem_map.1 hx
    exact hf _ (a5 ev hev)
  obtain ⟨r, -, e⟩ := ToF.call_ok h6
  rw [hs]
  refine ⟨?_, ?_, ?_, ?_, fun ev hev x ho => ?_⟩
  · rw [e, List.map_append, List.sum_append, hz _ fun op h => h.arrivals]
    show 0 + ((ToF.entries sites.length luck.first).length + 0) = _
    unfold ToF.entries
    simp
  · rw [e, List.map_append, List.sum_append, hz _ fun op h => h.departures]
    rfl
  · rw [e, List.map_append, List.sum_append, hz _ fun op h => h.ids]
    rfl
  · rw [e, ToF.hopsIn_snoc]
    have : hopsIn p5.calls = 0 := by
      unfold hopsIn
      rw [List.countP_eq_zero]
      intro ev hev
      rw [(a5 ev hev).hops]
      simp
    rw [this]
    rfl
  · rw [e] at hev
    rcases List.mem_append.1 hev with hev | hev
    · exact (a5 ev hev).thresholds x ho
    · rw [List.mem_singleton.1 hev] at ho
      cases ho

theorem tally_advance {n k v : Nat} (hT : Tally k v s.prog) (h : advance env mem n cutoff luck s = .ok (some s')) : Tally k (v + 1) s'.prog := by
  obtain ⟨j, t, rest, p, x, -, -, -, hp, -, rfl⟩ := advance_some h
  obtain ⟨r, -, e⟩ := ToF.call_ok hp
  refine ⟨?_, ?_, ?_, ?_, fun ev hev x ho => ?_⟩
  · show (p.calls.map _).sum = _
    rw [e, List.map_append, List.sum_append, hT.arrivals]
    rfl
  · show (p.calls.map _).sum = _
    rw [e, List.map_append, List.sum_append, hT.departures]
    rfl
  · show (p.calls.map _).sum = _
    rw [e, List.map_append, List.sum_append, hT.ids]
    rfl
  · show hopsIn p.calls = _
    rw [e, ToF.hopsIn_snoc, hT.hops]
    rfl
  · have hev : ev ∈ p.calls := hev
    rw [e] at hev
    rcases List.mem_append.1 hev with hev | hev
    · exact hT.thresholds ev hev x ho
    · rw [List.mem_singleton.1 hev] at ho
      cases ho

/-- There is room for `v` rounds. -/
structure Room (r R : K) (n0 n v : Nat) : Prop where
  arrivals : ((n + v : Nat) : K) * (R / (r * r) + 3) ≤ 2 * 2147483647
  ids : n0 + 2 * v ≤ 2147483647
  hops : v < 2 ^ 30

theorem Room.mono {r R : K} (hr : 0 < r) (hR : 0 < R) {n v v' : Nat} (H : Room r R n0 n v') (h : v ≤ v') : Room r R n0 n v := by
  have h1 := H.ids
  have h2 := H.hops
  refine ⟨le_trans (mul_le_mul_of_nonneg_right ?_ ?_) H.arrivals, by omega, by omega⟩
  · exact_mod_cast by omega
  · have : 0 < R / (r * r) := div_pos hR (mul_pos hr hr)
    linarith

theorem advance_calm (hS : Setting mem m sites cutoff rate luck) {v : Nat} (hI : Inv env mem m n0 sites.length cutoff v s)
    {r R : K} (hr : 0 < r) (hR : 0 < R) (hw : ToFSpec.RowsWithin mem m r R) (hT : Tally sites.length v s.prog)
    (hroom : Room r R n0 sites.length (v + 1)) : Mythical.Calm (advance env mem sites.length cutoff luck s) := by
  unfold advance
  split
  · exact .err (by unfold Soft; decide)
  next k t rest he =>
  split
  swap
  · exact .ok _
  split
  swap
  · exact .err (by unfold Soft; decide)
  next hk =>
  have hka : k ∈ active s.prog.calls := by
    rw [hI.act]
    exact List.mem_map.2 ⟨k.toNat, List.mem_range.2 (by omega), by omega⟩
  have h1 := hroom.ids
  have h2 := hroom.hops
  have hfit : Fits n0 r R s.prog.calls (.hop k k (luck.draw s.prog.calls k)) := by
    refine ⟨?_, ?_, ?_, by rw [hT.hops]; omega⟩
    · unfold total
      rw [hT.arrivals]
      exact hroom.arrivals
    · unfold total
      rw [hT.departures]
      show v + 1 ≤ _
      omega
    · unfold total
      rw [hT.ids]
      show n0 + (2 * v + 2) ≤ _
      omega
  refine Calm.bind (ToF.call_calm (hI.log.trace.calm hI.log.usage.hopsReturn hI.log.fixed (hI.log.pos hS.proper) hr hR
    (hI.log.within hS.proper hS.closed hw) hT.thresholds trivial hfit)) fun p hp => ?_
  obtain ⟨-, -, y, hy⟩ := hI.log.hop hS.proper hS.closed hka (hS.draw _ _) hp
  rw [walkerOf_of hy, ok_bind]
  exact .ok _

theorem loops_calm (hS : Setting mem m sites cutoff rate luck) {v : Nat} (hI : Inv env mem m n0 sites.length cutoff v s)
    {r R : K} (hr : 0 < r) (hR : 0 < R) (hw : ToFSpec.RowsWithin mem m r R) (hT : Tally sites.length v s.prog) {N : Nat}
    (hroom : Room r R n0 sites.length (v + N)) : Mythical.Calm (loops env mem sites.length cutoff luck N s) := by
  induction N generalizing s v with
  | zero => exact .ok _
  | succ N ih =>
    have ha := advance_calm hS hI hr hR hw hT (hroom.mono hr hR (by omega))
    rw [loops]
    split
    · next f hf => exact ha.of_eq hf
    · exact .ok _
    · next s1 hs1 => exact ih (inv_advance hS hI hs1) (tally_advance hT hs1) (by rw [show v + 1 + N = v + (N + 1) by omega]; exact hroom)

end Mythical.Bench
