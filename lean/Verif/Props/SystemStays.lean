import Verif.Lemmas.SystemStays
import Verif.Lemmas.SystemWitness
import Verif.Props.SystemTime

/-! # The clock of a walker advances (C78) -/

set_option linter.unusedSectionVars false
set_option linter.unusedVariables false

namespace Mythical
open World SystemSpec
variable {K : Type} [Field K] [LinearOrder K] [IsStrictOrderedRing K] [FloorRing K]

theorem World.sum_of_count {δ : K} {l : List K} (hδ : 0 ≤ δ) (h0 : ∀ t ∈ l, 0 < t) : δ * (l.countP fun t => δ ≤ t) ≤ l.sum := by
  induction l with
  | nil => simp
  | cons a l ih =>
    have ih := ih fun t ht => h0 t (List.mem_cons_of_mem _ ht)
    have ha := h0 a (List.mem_cons_self ..)
    rw [List.countP_cons, List.sum_cons]
    push_cast
    by_cases h : δ ≤ a
    · simp only [h, decide_true, if_true]
      linarith
    · simp only [h, decide_false, Bool.false_eq_true, if_false]
      linarith

/-- **C78.** The clock of a walker advances. In every properly used history in which every site has rates out of it that are
at least `r` each and at most `R` together, the time resolutions set are at least `θ` and the exponential draws at least `ε`:
all dwell times handed out are positive, at least every second one of those handed out for the walker id `wid` so far is at
least `δ`, the smaller one of `ε/R` and `(1/R) / max(2, R/(r²θ))`, and so their sum is at least `δ/2` times their number. The
bound depends neither on the clusters nor on the number of hops, walkers and sites. -/
theorem C78 (env : Env K) (n : Nat) (evs : List (Event K)) (w : World K) (ht : Trace env (World.new n) evs w) (hu : Usage evs)
    (mem : Addr → K) (hf : RatesFixed mem evs) (hp : RatesPositive mem evs) (r R θ ε : K) (hr : 0 < r) (hR : 0 < R) (hθ : 0 < θ)
    (hε : 0 < ε) (hw : RatesWithin mem r R w) (hres : ResolutionsAtLeast θ evs) (hd : DrawsAtLeast ε evs) (wid : Int) (δ : K)
    (hδ : δ = min (ε / R) (1 / R / max 2 (R / (r * r * θ)))) :
    0 < δ ∧ (∀ t ∈ staysOf wid evs, 0 < t) ∧
    (staysOf wid evs).length ≤ 2 * (staysOf wid evs).countP (fun t => δ ≤ t) ∧
    δ * (staysOf wid evs).length ≤ 2 * (staysOf wid evs).sum := by
  have hmax : (0 : K) < max 2 (R / (r * r * θ)) := lt_max_of_lt_left (by norm_num)
  have h0 : 0 < δ := by
    rw [hδ]
    exact lt_min (div_pos hε hR) (div_pos (one_div_pos.2 hR) hmax)
  have hpc := ht.paced hu hf hp hr hR hθ hε hres (within_iff.1 hw) hd h0
    (by rw [hδ, mul_one_div]; exact min_le_left _ _) (by rw [hδ]; exact min_le_right _ _) wid
  have hc := hpc.count
  have hlen := List.length_eq_countP_add_countP (fun t => decide (δ ≤ t)) (l := staysOf wid evs)
  have e : (staysOf wid evs).countP (fun a => decide (¬ decide (δ ≤ a) = true)) = (staysOf wid evs).countP fun t => decide (¬ δ ≤ t) := by
    refine List.countP_congr fun a _ => ?_
    simp
  rw [e] at hlen
  have h1 : (staysOf wid evs).length ≤ 2 * (staysOf wid evs).countP (fun t => δ ≤ t) := by omega
  refine ⟨h0, hpc.pos, h1, ?_⟩
  have h2 := World.sum_of_count h0.le hpc.pos
  have h3 : ((staysOf wid evs).length : K) ≤ 2 * ((staysOf wid evs).countP (fun t => δ ≤ t) : ℕ) := by exact_mod_cast h1
  calc δ * ((staysOf wid evs).length : K) ≤ δ * (2 * ((staysOf wid evs).countP (fun t => δ ≤ t) : ℕ)) :=
        mul_le_mul_of_nonneg_left h3 h0.le
    _ = 2 * (δ * ((staysOf wid evs).countP (fun t => δ ≤ t) : ℕ)) := by ring
    _ ≤ _ := by linarith

/-- The escape time constants of the clusters are between `1/R` and `R/r²`, and their time increments at least
`(1/R) / max(2, R/(r²θ))`, at any time of such a history. -/
theorem C78_constants (env : Env K) (n : Nat) (evs : List (Event K)) (w : World K) (ht : Trace env (World.new n) evs w)
    (hu : HopsReturn evs) (mem : Addr → K) (hf : RatesFixed mem evs) (hp : RatesPositive mem evs) (r R θ : K) (hr : 0 < r)
    (hR : 0 < R) (hθ : 0 < θ) (hw : RatesWithin mem r R w) (hres : ResolutionsAtLeast θ evs) (c : Int) (x : Cluster K)
    (hx : w.clusters.get? c = some x) :
    ∃ t inc, x.tau = some t ∧ 1 / R ≤ t ∧ t ≤ R / (r * r) ∧ x.getTimeIncrement = .ok inc ∧
      1 / R / max 2 (R / (r * r * θ)) ≤ inc := by
  have hst := ht.struct hu
  have hall := ht.settled hu hf hp
  have hz := ht.sized hu hf hp hr hR hθ hres (within_iff.1 hw)
  obtain ⟨-, t, dt, h1, h2, -, h4⟩ := (brisk_of hst (ht.good hu hf hp) hall hr hR hz (within_iff.1 hw) le_rfl).cluster c x hx
  obtain ⟨t', u1, u2, u3, -⟩ := hz c x hx
  rw [h1] at u1; cases u1
  exact ⟨t, dt, h1, u2, u3, by unfold Cluster.getTimeIncrement; simp only [h2], h4⟩

/-! ## A history -/

/-- Sufficient condition, by computation. -/
theorem World.ratesWithin_of {mem : Addr → K} {r R : K} {w : World K}
    (h : ∀ is ∈ w.sites, is.2.neigh ≠ [] ∧ (∀ na ∈ is.2.neigh, r ≤ mem na.2) ∧ is.2.sumRates mem ≤ R) :
    RatesWithin mem r R w :=
  within_iff.2 fun i s hs => h (i, s) (IMap.mem_of_get? hs)

/-- The draw of the exponential distribution is at least `ε`, by computation. -/
def World.drawsB (ε : ℚ) (op : Op ℚ) : Bool :=
  match op with
  | .initializeWalkers l => l.all fun a => decide (ε ≤ a.e)
  | .hop _ _ a => decide (ε ≤ a.e)
  | _ => true

theorem World.drawsAtLeast_of {ε : ℚ} {evs : List (Event ℚ)} (h : evs.all (fun ev => drawsB ε ev.op) = true) : DrawsAtLeast ε evs := by
  intro ev hev
  have := List.all_eq_true.1 h ev hev
  unfold drawsB at this
  split at this
  · next l hop =>
    rw [hop]
    intro a ha
    exact of_decide_eq_true (List.all_eq_true.1 this a ha)
  · next hop => rw [hop]; exact of_decide_eq_true this
  · next h1 h2 =>
    cases hop : ev.op with
    | initializeWalkers l => exact absurd hop (h1 l)
    | hop a b c => exact absurd hop (h2 a b c)
    | _ => trivial

/-- The time resolution set is at least `θ`, by computation. -/
def World.resB (θ : ℚ) (op : Op ℚ) : Bool :=
  match op with
  | .setTimeResolution t => decide (θ ≤ t)
  | _ => true

theorem World.resolutionsAtLeast_of {θ : ℚ} {evs : List (Event ℚ)} (h : evs.all (fun ev => resB θ ev.op) = true) :
    ResolutionsAtLeast θ evs := by
  intro ev hev t n hop _
  have := List.all_eq_true.1 h ev hev
  unfold resB at this
  rw [hop] at this
  exact of_decide_eq_true this

/-- The choices with the exponential draw `1/2 + 1/100000`. -/
def World.shortChoice : Choices ℚ := { witChoice (1 / 3) [1] with e := 1 / 2 + 1 / 100000 }

/-- Calls like those of the witness history, up to the cluster of sites 1 and 2; then a walker stays in the cluster, for a
little longer than one time increment. -/
def World.shortOps : List (Op ℚ) := [
  .setTimeResolution 1, .setMinThreshold 0, .setRandomSeed 7, .initializeSystem sysMap,
  .newWalker 10, .walkerOccupy 10 1, .initializeWalkers [⟨0, 10, 1, 1 / 2⟩],
  .hop 0 10 (witChoice (1 / 2) [1 / 100]), .hop 0 10 shortChoice, .hop 0 10 shortChoice]

/-- Their history. -/
def World.shortEvs : List (Event ℚ) := (runOps Cluster.witEnv sysRates (World.new 0) shortOps).1

/-- The world it leads to. -/
def World.shortWorld : World ℚ := (runOps Cluster.witEnv sysRates (World.new 0) shortOps).2

theorem World.shortFixed : RatesFixed sysRates shortEvs := by
  intro ev hev
  have : shortEvs.map (·.mem) = List.replicate shortEvs.length sysRates := rfl
  have hm := List.mem_map_of_mem (f := fun e : Event ℚ => e.mem) hev
  rw [this] at hm
  exact (List.mem_replicate.1 hm).2

/-- In this history all rates are at least 1, those out of a site at most 101 together, the time resolution is 1 and the draws
are at least 1/2: `δ` is 1/10201. The walker got four dwell times, the third one from the cluster. -/
theorem World.short_ready : Trace Cluster.witEnv (World.new 0) shortEvs shortWorld ∧ Usage shortEvs ∧ RatesFixed sysRates shortEvs ∧
    RatesPositive sysRates shortEvs ∧ RatesWithin sysRates 1 101 shortWorld ∧ ResolutionsAtLeast 1 shortEvs ∧
    DrawsAtLeast (1 / 2) shortEvs ∧ (staysOf 0 shortEvs).length = 4 ∧ SystemSpec.Exists shortWorld 0 :=
  ⟨runOps_trace (by decide +kernel), usageB_iff (by decide +kernel), shortFixed,
    ratesPositive_of (fun a => by unfold sysRates; split <;> norm_num) _, ratesWithin_of (by decide +kernel),
    resolutionsAtLeast_of (by decide +kernel), drawsAtLeast_of (by decide +kernel), by decide +kernel,
    by unfold SystemSpec.Exists; decide +kernel⟩

/-- The theorem applies to it. -/
example : (1 / 10201 : ℚ) * (staysOf 0 shortEvs).length ≤ 2 * (staysOf 0 shortEvs).sum := by
  obtain ⟨h1, h2, h3, h4, h5, h6, h7, -, -⟩ := short_ready
  exact (C78 _ _ _ _ h1 h2 _ h3 h4 1 101 1 (1 / 2) (by norm_num) (by norm_num) (by norm_num) (by norm_num) h5 h6 h7 0 (1 / 10201)
    (by norm_num)).2.2.2

/-- Not every single dwell time is that long: the last one of this history is the rest of a stay in the cluster. -/
theorem C78_short_counterexample :
    ∃ (evs : List (Event ℚ)) (w : World ℚ) (mem : Addr → ℚ), Trace Cluster.witEnv (World.new 0) evs w ∧ Usage evs ∧
      RatesFixed mem evs ∧ RatesPositive mem evs ∧ RatesWithin mem 1 101 w ∧ ResolutionsAtLeast 1 evs ∧ DrawsAtLeast (1 / 2) evs ∧
      ∃ t ∈ staysOf 0 evs, t < min ((1 / 2) / 101) (1 / 101 / max 2 (101 / (1 * 1 * 1))) := by
  obtain ⟨h1, h2, h3, h4, h5, h6, h7, -, -⟩ := short_ready
  exact ⟨_, _, _, h1, h2, h3, h4, h5, h6, h7, by decide +kernel⟩

end Mythical
