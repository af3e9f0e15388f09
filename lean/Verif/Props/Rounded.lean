import Verif.Lemmas.RoundedSite
import Verif.Model.System
import Mathlib.MeasureTheory.Measure.Lebesgue.Basic
import Mathlib.Data.Rat.Floor

/-! # Property C90: the picks of a site in rounded arithmetic -/

set_option linter.unusedSectionVars false

namespace Mythical
open Site SiteSpec RoundSpec
variable {K : Type} [Field K] [LinearOrder K] [IsStrictOrderedRing K] [FloorRing K]
variable {fl : K → K} {ε : K}

/-- **C90, doubles.** The rounding of `double` (53 bits, to nearest, ties to even, unbounded exponents) is a rounding with
relative error at most 2^-53. -/
theorem C90_binary64 : Rounding (Rounded.binary64 : K → K) (1 / 2 ^ 53) := Rounded.binary64_rounding

/-- **C90, no rounding.** Without rounding the rounded functions are those of the exact model. -/
theorem C90_exact (s : Site K) (ops : List ((Addr → K) × Op)) (u e : K) :
    Rounded.run (fun x => x) s ops = s.run ops ∧ Rounded.pickNewSiteId (fun x => x) s u = s.pickNewSiteId u ∧
    Rounded.getDwellTime (fun x => x) s e = s.getDwellTime e := by
  refine ⟨?_, ?_, rfl⟩
  · induction ops generalizing s with
    | nil => rfl
    | cons mo ops ih =>
      obtain ⟨mem, o⟩ := mo
      have hstep : Rounded.step (fun x => x) mem s o = s.step mem o := by cases o <;> rfl
      show (do let s ← Rounded.step (fun x => x) mem s o; Rounded.run (fun x => x) s ops) = do
        let s ← s.step mem o; s.run ops
      rw [hstep]
      cases s.step mem o with
      | error e => rfl
      | ok s1 => exact ih s1
  · unfold Rounded.pickNewSiteId Site.pickNewSiteId
    generalize (0 : K) = t
    generalize s.prob = l
    induction l generalizing t with
    | nil => rfl
    | cons x l ih =>
      unfold Rounded.pickLoop pickLoop
      split
      · rfl
      · exact ih _

theorem rounded_after {id : Int} {ops : List ((Addr → K) × Op)} {mem : Addr → K} {o : Op} {s : Site K}
    (hv : ∀ mo ∈ ops ++ [(mem, o)], ValidOp mo.2) (h : Rounded.run fl (Site.new id) (ops ++ [(mem, o)]) = .ok s) :
    Rounded.FreshR fl mem s ∧ s.neigh.WF ∧ ∀ n, s.neigh.get? n = neighOf (ops ++ [(mem, o)]) n := by
  obtain ⟨h1, h2, -, h4⟩ := Rounded.run_concat (s := (Site.new id : Site K)) (by simp [Site.new, IMap.WF]) hv h
  exact ⟨h1, h2, fun n => congrFun h4 n⟩

theorem rounded_pos {ops : List ((Addr → K) × Op)} {mem : Addr → K} {s : Site K} (hw : s.neigh.WF)
    (hn : ∀ n, s.neigh.get? n = neighOf ops n) (hpos : ∀ n a, neighOf ops n = some a → 0 < mem a) :
    ∀ na ∈ s.neigh, 0 < mem na.2 := fun na hna =>
  hpos na.1 na.2 (by rw [← hn, IMap.get?_eq_some_iff hw]; exact hna)

/-- **C90, availability.** In rounded arithmetic too, every update with positive rates (that are doubles themselves) is
accepted. -/
theorem C90_accepts (R : Rounding fl ε) (h1 : ε ≤ 1) {id : Int} {ops : List ((Addr → K) × Op)} {mem : Addr → K} {o : Op}
    {s : Site K} (hv : ∀ mo ∈ ops ++ [(mem, o)], ValidOp mo.2) (h : Rounded.run fl (Site.new id) ops = .ok s)
    (hpos : ∀ n a, neighOf (ops ++ [(mem, o)]) n = some a → 0 < mem a ∧ fl (mem a) = mem a)
    (ho : match o with
      | .setRates m => m ≠ []
      | .addNeigh n _ => neighOf ops n = none
      | .resetNeigh _ _ => True) :
    ∃ s', Rounded.run fl (Site.new id) (ops ++ [(mem, o)]) = .ok s' := by
  obtain ⟨hw, -, hn⟩ := Rounded.run_neigh (s := (Site.new id : Site K)) (by simp [Site.new, IMap.WF])
    (fun mo hm => hv mo (by simp [hm])) h
  have hn : ∀ n, s.neigh.get? n = neighOf ops n := fun n => congrFun hn n
  rw [Rounded.run_append, h, ok_bind]
  have hstep : ∃ s', Rounded.step fl mem s o = .ok s' := by
    have hlast : ∀ n, neighOf (ops ++ [(mem, o)]) n = neighAfter (fun n => s.neigh.get? n) o n := by
      intro n
      unfold neighOf
      rw [List.foldl_append]
      show neighAfter (neighOf ops) o n = _
      rw [show neighOf ops = fun n => s.neigh.get? n from funext fun n => (hn n).symm]
    have hvo := hv (mem, o) (by simp)
    cases o with
    | setRates m =>
      show ∃ s', Rounded.setRatesToNeighbors fl mem s m = .ok s'
      unfold Rounded.setRatesToNeighbors
      rw [if_neg (by simpa using ho)]
      have hm : ∀ na ∈ m, mem na.2 ≠ 0 := fun na hna => by
        refine (hpos na.1 na.2 ?_).1.ne'
        rw [hlast]
        simp only [neighAfter]
        rw [(IMap.get?_eq_some_iff hvo).2 hna]; rfl
      rw [Site.setRatesLoop_total hm, ok_bind]
      have hw2 := Site.foldl_set_wf m s.neigh hw
      have hg := Site.foldl_set_get? m hvo s.neigh
      apply Rounded.recalc_total R h1
      · intro na hna
        apply hpos na.1 na.2
        rw [hlast]
        show (IMap.get? m na.1).or (IMap.get? s.neigh na.1) = some na.2
        rw [← hg]
        exact (IMap.get?_eq_some_iff hw2).2 hna
      · intro he
        obtain ⟨x, hx⟩ := List.exists_mem_of_ne_nil m ho
        have := hg x.1
        rw [(IMap.get?_eq_some_iff hvo).2 hx] at this
        have he' : m.foldl (fun acc na => IMap.set acc na.1 na.2) s.neigh = [] := he
        rw [he'] at this
        cases this
    | addNeigh n a =>
      show ∃ s', Rounded.addNeighRate fl mem s n a = .ok s'
      unfold Rounded.addNeighRate
      rw [if_neg (by unfold IMap.has; rw [hn]; simp only at ho; rw [ho]; simp)]
      apply Rounded.recalc_total R h1
      · intro na hna
        apply hpos na.1 na.2
        rw [hlast]
        have := (IMap.get?_eq_some_iff (hw.set n a)).2 hna
        rw [IMap.get?_set] at this
        simp only [neighAfter, eq_comm] at this ⊢
        exact this
      · intro he
        have : (s.neigh.set n a).get? n = some a := by rw [IMap.get?_set, if_pos rfl]
        have he' : s.neigh.set n a = [] := he
        rw [he'] at this; cases this
    | resetNeigh n a =>
      show ∃ s', Rounded.resetNeighRate fl mem s n a = .ok s'
      unfold Rounded.resetNeighRate
      apply Rounded.recalc_total R h1
      · intro na hna
        apply hpos na.1 na.2
        rw [hlast]
        have := (IMap.get?_eq_some_iff (hw.set n a)).2 hna
        rw [IMap.get?_set] at this
        simp only [neighAfter, eq_comm] at this ⊢
        exact this
      · intro he
        have : (s.neigh.set n a).get? n = some a := by rw [IMap.get?_set, if_pos rfl]
        have he' : s.neigh.set n a = [] := he
        rw [he'] at this; cases this
  obtain ⟨s', hs'⟩ := hstep
  exact ⟨s', by unfold Rounded.run; rw [hs', ok_bind]; rfl⟩

/-- **C90, the law.** After any history of rate updates in rounded arithmetic, ending with contents `mem` in which the rates
to the `N` neighbours are positive: the draws that pick neighbour `n` form an interval whose length differs from the share
of its rate in the sum of the rates by at most `2 (N + 2) ε`. All draws below a threshold pick a neighbour. The
threshold differs from 1 by at most `(6 N + 4) ε`; the draws from it on get -1, which is no neighbour. -/
theorem C90_law_partial (R : Rounding fl ε) (h0 : 0 ≤ ε) {id : Int} {ops : List ((Addr → K) × Op)} {mem : Addr → K} {o : Op}
    {s : Site K} (hv : ∀ mo ∈ ops ++ [(mem, o)], ValidOp mo.2) (h : Rounded.run fl (Site.new id) (ops ++ [(mem, o)]) = .ok s)
    (hpos : ∀ n a, neighOf (ops ++ [(mem, o)]) n = some a → 0 < mem a)
    (hm1 : neighOf (ops ++ [(mem, o)]) (-1) = none)
    (hN : 8 * (((s.getRateToNeighbors mem).length + 1) * ε) ≤ 1) :
    ∃ last : K, |last - 1| ≤ (6 * (s.getRateToNeighbors mem).length + 4) * ε ∧
      (∀ u, 0 ≤ u → ((neighOf (ops ++ [(mem, o)]) (Rounded.pickNewSiteId fl s u)).isSome ↔ u < last) ∧
        (Rounded.pickNewSiteId fl s u = -1 ↔ last ≤ u)) ∧
      ∀ n a, neighOf (ops ++ [(mem, o)]) n = some a → ∃ lo hi : K, 0 ≤ lo ∧ lo ≤ hi ∧ hi ≤ last ∧
        |hi - lo - mem a / (s.getRateToNeighbors mem).sum| ≤ 2 * ((s.getRateToNeighbors mem).length + 2) * ε ∧
        ∀ u, 0 ≤ u → (Rounded.pickNewSiteId fl s u = n ↔ lo ≤ u ∧ u < hi) := by
  obtain ⟨hf, hw, hn⟩ := rounded_after hv h
  have hp := rounded_pos hw hn hpos
  have hsum : (s.getRateToNeighbors mem).sum = s.sumRates mem := (sumRates_eq mem s).symm
  have hlen : (s.getRateToNeighbors mem).length = s.neigh.length := List.length_map ..
  rw [hlen] at hN ⊢
  rw [hsum]
  obtain ⟨N, hl, -⟩ := hf.near R h0 hw hp hN
  have hx0 : (0 : K) ≤ s.neigh.length * ε := by positivity
  have e1 : 8 * ((s.prob.length : K) * ε) ≤ 1 := by rw [hl]; nlinarith
  have e2 : 4 * (((s.neigh.length : K) + 1) * ε) ≤ 1 := by nlinarith
  have e3 : 4 * (2 * (((s.neigh.length : K) + 1) * ε)) ≤ 1 := by nlinarith
  have e4 : 0 ≤ ((s.neigh.length : K) + 1) * ε := by positivity
  have e5 : 0 ≤ 2 * (((s.neigh.length : K) + 1) * ε) := by positivity
  obtain ⟨t1, t2⟩ := N.total R h0 e1 e4 e2 e5 e3
  have hnn := N.nonneg (by linarith)
  have hkeys : ∀ n, n ∈ IMap.keys s.prob ↔ (neighOf (ops ++ [(mem, o)]) n).isSome := by
    intro n
    rw [← hn, Option.isSome_iff_exists, ← IMap.mem_keys_iff_get?]
    have hp := hf.perm.map Prod.fst
    rw [List.map_map] at hp
    exact hp.mem_iff
  have hm : (-1 : Int) ∉ IMap.keys s.prob := by rw [hkeys, hm1]; simp
  have hoff : ∀ u, Rounded.pickNewSiteId fl s u = -1 ↔ Rounded.total fl 0 (s.prob.map Prod.snd) ≤ u := by
    intro u
    unfold Rounded.pickNewSiteId
    rw [Rounded.pickLoop_off R hnn hm R.zero]
    constructor
    · rintro (e | e)
      · have := N.one; rw [e] at this; simp at this
      · exact e
    · exact .inr
  have hin : ∀ (l : List (Int × K)) (t u : K), Rounded.pickLoop fl u t l = -1 ∨ Rounded.pickLoop fl u t l ∈ IMap.keys l := by
    intro l
    induction l with
    | nil => intro t u; exact .inl rfl
    | cons x l ih =>
      intro t u
      obtain ⟨k, p⟩ := x
      unfold Rounded.pickLoop
      simp only [IMap.keys, List.map_cons, List.mem_cons]
      split
      · exact .inr (.inl rfl)
      · rcases ih (fl (t + p)) u with h | h
        · exact .inl h
        · exact .inr (.inr h)
  refine ⟨Rounded.total fl 0 (s.prob.map Prod.snd), ?_, fun u hu => ⟨?_, hoff u⟩, ?_⟩
  · rw [hl] at t1 t2
    rw [abs_le]
    constructor
    · nlinarith
    · nlinarith
  · rw [← not_le, ← hoff, ← hkeys]
    constructor
    · intro h e; rw [e] at h; exact hm h
    · intro h; exact (hin _ _ _).resolve_left h
  · intro n a hna
    have hget : s.neigh.get? n = some a := (hn n).trans hna
    have hpn : ∃ p, IMap.get? s.prob n = some p := by
      have : n ∈ IMap.keys s.prob := (hkeys n).2 (by rw [hna]; rfl)
      exact IMap.mem_keys_iff_get?.1 this
    obtain ⟨p, hpn⟩ := hpn
    obtain ⟨i1, i2, i3, i4, i5⟩ := N.interval R h0 e1 e4 e2 e5 e3 hpn
    rw [hget] at i4 i5
    dsimp only [Option.map_some, Option.getD_some] at i4 i5
    have hS := sumRates_pos hp (by
      intro e; rw [e] at hget; cases hget)
    have hshare : mem a / s.sumRates mem ≤ 1 := (div_le_one hS).2 (mem_le_sum hp ((IMap.get?_eq_some_iff hw).1 hget))
    have hshare0 : 0 ≤ mem a / s.sumRates mem := div_nonneg (hpos n a hna).le hS.le
    refine ⟨_, _, i1, i2, i3, ?_, fun u hu => Rounded.pickLoop_start R hnn hm N.wf hpn R.zero hu⟩
    generalize mem a / s.sumRates mem = q at *
    rw [abs_le]
    constructor
    · nlinarith
    · nlinarith

/-- **C90, as a probability.** For a draw uniform in `[0,1)` the probability of picking a neighbour differs from the share of
its rate by at most `8 (N + 1) ε`. -/
theorem C90_probability {fl : ℝ → ℝ} {ε : ℝ} (R : Rounding fl ε) (h0 : 0 ≤ ε) {id : Int} {ops : List ((Addr → ℝ) × Op)}
    {mem : Addr → ℝ} {o : Op} {s : Site ℝ} (hv : ∀ mo ∈ ops ++ [(mem, o)], ValidOp mo.2)
    (h : Rounded.run fl (Site.new id) (ops ++ [(mem, o)]) = .ok s)
    (hpos : ∀ n a, neighOf (ops ++ [(mem, o)]) n = some a → 0 < mem a)
    (hm1 : neighOf (ops ++ [(mem, o)]) (-1) = none)
    (hN : 8 * (((s.getRateToNeighbors mem).length + 1) * ε) ≤ 1) {n : Int} {a : Addr}
    (hna : neighOf (ops ++ [(mem, o)]) n = some a) :
    ∃ p : ℝ, MeasureTheory.volume {u : ℝ | (0 ≤ u ∧ u < 1) ∧ Rounded.pickNewSiteId fl s u = n} = ENNReal.ofReal p ∧
      |p - mem a / (s.getRateToNeighbors mem).sum| ≤ 8 * ((s.getRateToNeighbors mem).length + 1) * ε := by
  obtain ⟨last, hlast, -, hint⟩ := C90_law_partial R h0 hv h hpos hm1 hN
  obtain ⟨lo, hi, i1, i2, i3, i4, i5⟩ := hint n a hna
  have hlen0 : (0 : ℝ) ≤ (s.getRateToNeighbors mem).length := Nat.cast_nonneg _
  refine ⟨min hi 1 - min lo 1, ?_, ?_⟩
  · have : {u : ℝ | (0 ≤ u ∧ u < 1) ∧ Rounded.pickNewSiteId fl s u = n} = Set.Ico (min lo 1) (min hi 1) := by
      ext u
      simp only [Set.mem_ofPred_eq, Set.mem_Ico]
      constructor
      · rintro ⟨hu, he⟩
        have := (i5 u hu.1).1 he
        exact ⟨(min_le_left _ _).trans this.1, lt_min this.2 hu.2⟩
      · intro hu
        have hu1 : u < 1 := lt_of_lt_of_le hu.2 (min_le_right _ _)
        have hlo : lo ≤ u := by
          rcases le_total lo 1 with g | g
          · rw [min_eq_left g] at hu; exact hu.1
          · rw [min_eq_right g] at hu; exact absurd hu.1 (not_le.2 hu1)
        have hu0 := i1.trans hlo
        exact ⟨⟨hu0, hu1⟩, (i5 u hu0).2 ⟨hlo, lt_of_lt_of_le hu.2 (min_le_left _ _)⟩⟩
    rw [this, Real.volume_Ico]
  · have hcut : |min hi 1 - min lo 1 - (hi - lo)| ≤ (6 * (s.getRateToNeighbors mem).length + 4) * ε := by
      have hl := abs_le.1 hlast
      have hx : 0 ≤ (6 * ((s.getRateToNeighbors mem).length : ℝ) + 4) * ε := by positivity
      rw [abs_le]
      rcases le_total hi 1 with a1 | a1
      · rw [min_eq_left a1, min_eq_left (i2.trans a1)]; constructor <;> linarith
      · rw [min_eq_right a1]
        rcases le_total lo 1 with a2 | a2
        · rw [min_eq_left a2]; constructor <;> linarith [hl.2]
        · rw [min_eq_right a2]; constructor <;> linarith [hl.2]
    have e : min hi 1 - min lo 1 - mem a / (s.getRateToNeighbors mem).sum =
        (min hi 1 - min lo 1 - (hi - lo)) + (hi - lo - mem a / (s.getRateToNeighbors mem).sum) := by ring
    rw [e]
    refine (abs_add_le _ _).trans ((add_le_add hcut i4).trans (le_of_eq (by ring)))

/-- **C90, the time constant.** It is off by a relative error of at most `2 (N + 1) ε`. -/
theorem C90_tau (R : Rounding fl ε) (h0 : 0 ≤ ε) {id : Int} {ops : List ((Addr → K) × Op)} {mem : Addr → K} {o : Op}
    {s : Site K} (hv : ∀ mo ∈ ops ++ [(mem, o)], ValidOp mo.2) (h : Rounded.run fl (Site.new id) (ops ++ [(mem, o)]) = .ok s)
    (hpos : ∀ n a, neighOf (ops ++ [(mem, o)]) n = some a → 0 < mem a)
    (hN : 8 * (((s.getRateToNeighbors mem).length + 1) * ε) ≤ 1) :
    |s.tau - 1 / (s.getRateToNeighbors mem).sum| ≤
      2 * (((s.getRateToNeighbors mem).length + 1) * ε) * (1 / (s.getRateToNeighbors mem).sum) := by
  obtain ⟨hf, hw, hn⟩ := rounded_after hv h
  have hp := rounded_pos hw hn hpos
  have hsum : (s.getRateToNeighbors mem).sum = s.sumRates mem := (sumRates_eq mem s).symm
  have hlen : (s.getRateToNeighbors mem).length = s.neigh.length := List.length_map ..
  rw [hlen] at hN ⊢
  rw [hsum, ← div_eq_mul_one_div]
  exact (hf.near R h0 hw hp hN).2.2

/-! ## A draw that picks no site -/

/-- The six neighbours of a site of a cubic lattice. -/
def sixNeighbours : IMap Addr := [(1, 0), (2, 0), (3, 0), (4, 0), (5, 0), (6, 0)]

/-- Site 0 with six neighbours at rate 1, in the arithmetic of `double`. -/
def sixSite : Site ℚ :=
  match Rounded.run Rounded.binary64 (Site.new 0) [(fun _ => 1, .setRates sixNeighbours)] with
  | .ok s => s
  | .error _ => Site.new 0

theorem sixSite_run : Rounded.run Rounded.binary64 (Site.new 0) [(fun _ => (1 : ℚ), .setRates sixNeighbours)] = .ok sixSite := by
  decide +kernel

/-- **C90, a draw that picks no site.** A site with six neighbours, all at rate 1, and the largest double below 1 as the draw:
the last threshold is that very double, so `pickNewSiteId` returns -1. In exact arithmetic every draw picks a neighbour
(`C31_pick_is_neighbour`). -/
theorem C90_counterexample : ∃ (s : Site ℚ) (u : ℚ),
    Rounded.run Rounded.binary64 (Site.new 0) [(fun _ => 1, .setRates sixNeighbours)] = .ok s ∧ Draw u ∧
    Rounded.binary64 u = u ∧ neighOf [((fun _ => 1 : Addr → ℚ), Op.setRates sixNeighbours)] (-1) = none ∧
    Rounded.pickNewSiteId Rounded.binary64 s u = -1 ∧
    (∀ n, n ∈ [1, 2, 3, 4, 5, 6] → neighOf [((fun _ => 1 : Addr → ℚ), Op.setRates sixNeighbours)] n = some 0) := by
  refine ⟨sixSite, 1 - 1 / 2 ^ 53, sixSite_run, ⟨by norm_num, by norm_num⟩, by decide +kernel, by decide +kernel,
    by decide +kernel, by decide +kernel⟩

/-- **C90, what comes of it.** A walker whose next site is -1 (and -1 is not a site of the system): its next hop
dereferences a null pointer (coarsegrainsystem.cpp 216-218). -/
theorem C90_null {env : Env K} {mem : Addr → K} {w : World K} {wid h : Int} {a : Choices K} {x : Walker K}
    (hx : w.walkers.get? h = some x) (hs : x.site ≠ unassignedId) (hp : x.pot = -1) (hf : w.feats.has (-1) = false) :
    w.hop env mem wid h a = (.error (.ub .nullDeref), w) := by
  have hm : w.hopMove wid h a = .error (.ub .nullDeref) := by
    unfold World.hopMove World.walkerOf
    rw [hx]
    simp only [ok_bind]
    unfold World.walkerSite World.walkerPot
    rw [if_neg hs, ok_bind, if_neg (by rw [hp]; decide), ok_bind, hp]
    have : w.feat (-1) = .null := by
      unfold World.feat
      unfold IMap.has at hf
      cases hg : w.feats.get? (-1) with
      | none => rfl
      | some y => rw [hg] at hf; cases hf
    rw [this]
    rfl
  unfold World.hop
  rw [hm]

/-- **C90, from the draw to the null pointer.** If the draw for a walker on a single site picks -1 when the walker is
initialised, the first hop of the walker dereferences a null pointer, whatever the draws are then. -/
theorem C90_undefined {env : Env K} {mem : Addr → K} {w w1 : World K} {b : Entry K} {a : Choices K} {x : Walker K} {id : Int}
    {s : Site K} (hx : w.walkers.get? b.handle = some x) (hi : x.site ≠ unassignedId) (hf : w.feats.get? x.site = some (.site id))
    (hs : w.siteOf id = .ok s) (hp : Rounded.pickNewSiteId fl s b.u = -1) (hm : w.feats.has (-1) = false)
    (h : Rounded.initWalker fl w b = .ok w1) : w1.hop env mem b.wid b.handle a = (.error (.ub .nullDeref), w1) := by
  unfold Rounded.initWalker at h
  rw [hx] at h
  simp only at h
  rw [hf] at h
  simp only at h
  rw [hs, ok_bind, bind_eq_ok] at h
  obtain ⟨s1, h1, h2⟩ := h
  have hpr : s1.prob = s.prob := by
    unfold Site.occupy at h1
    rw [bind_eq_ok] at h1
    obtain ⟨o, -, h1⟩ := h1
    rw [bind_eq_ok] at h1
    obtain ⟨v, -, h1⟩ := h1
    cases h1
    rfl
  have hp1 : Rounded.pickNewSiteId fl s1 b.u = -1 := by rw [← hp]; unfold Rounded.pickNewSiteId; rw [hpr]
  cases h2
  refine C90_null (x := { x with dwell := Rounded.getDwellTime fl s1 b.e, pot := Rounded.pickNewSiteId fl s1 b.u }) ?_ hi hp1 hm
  show IMap.get? (w.walkers.set b.handle _) b.handle = _
  rw [IMap.get?_set, if_pos rfl]

/-- A system with that site and walker 7 on it. -/
def sixWorld : World ℚ :=
  { World.new 0 with
    feats := [(0, .site 0)], sites := [(0, sixSite)], walkers := [(7, ⟨0, unassignedId, -1⟩)] }

/-- The hypotheses of `C90_undefined`. -/
example : ∃ w1 x, sixWorld.walkers.get? 7 = some x ∧ x.site ≠ unassignedId ∧ sixWorld.feats.get? x.site = some (.site 0) ∧
    sixWorld.siteOf 0 = .ok sixSite ∧ Rounded.pickNewSiteId Rounded.binary64 sixSite (1 - 1 / 2 ^ 53) = -1 ∧
    sixWorld.feats.has (-1) = false ∧ Rounded.initWalker Rounded.binary64 sixWorld ⟨7, 7, 1, 1 - 1 / 2 ^ 53⟩ = .ok w1 := by
  have h : (Rounded.initWalker Rounded.binary64 sixWorld ⟨7, 7, 1, 1 - 1 / 2 ^ 53⟩).isOk = true := by decide +kernel
  cases hw : Rounded.initWalker Rounded.binary64 sixWorld ⟨7, 7, 1, 1 - 1 / 2 ^ 53⟩ with
  | error e => rw [hw] at h; cases h
  | ok w1 => exact ⟨w1, ⟨0, unassignedId, -1⟩, rfl, by decide, rfl, rfl, by decide +kernel, rfl, rfl⟩

/-- The hypotheses of `C90_law_partial`, `C90_tau` and `C90_accepts` for that site. -/
example : Rounding (Rounded.binary64 : ℚ → ℚ) (1 / 2 ^ 53) ∧ (0 : ℚ) ≤ 1 / 2 ^ 53 ∧
    (∀ mo ∈ ([] : List ((Addr → ℚ) × Op)) ++ [(fun _ => 1, .setRates sixNeighbours)], ValidOp mo.2) ∧
    Rounded.run Rounded.binary64 (Site.new 0) ([] ++ [(fun _ => 1, .setRates sixNeighbours)]) = .ok sixSite ∧
    (∀ n a, neighOf (([] : List ((Addr → ℚ) × Op)) ++ [(fun _ => 1, .setRates sixNeighbours)]) n = some a →
      (0 : ℚ) < 1 ∧ Rounded.binary64 (1 : ℚ) = 1) ∧
    neighOf (([] : List ((Addr → ℚ) × Op)) ++ [(fun _ => 1, .setRates sixNeighbours)]) (-1) = none ∧
    8 * (((sixSite.getRateToNeighbors fun _ => 1).length + 1) * (1 / 2 ^ 53 : ℚ)) ≤ 1 := by
  refine ⟨C90_binary64, by norm_num, ?_, sixSite_run, fun _ _ _ => ⟨by norm_num, by decide +kernel⟩, by decide +kernel, ?_⟩
  · intro mo hm
    simp only [List.nil_append, List.mem_singleton] at hm
    rw [hm]
    show (sixNeighbours.map Prod.fst).Nodup
    decide
  · have : (sixSite.getRateToNeighbors fun _ => 1).length = 6 := by decide +kernel
    rw [this]
    norm_num

end Mythical
