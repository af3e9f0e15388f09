import Verif.Lemmas.ClusterTrace
import Mathlib.Data.List.Sort
import Mathlib.Data.Rat.Floor

/-! # Concrete clusters over `ℚ`, used as witnesses beside the cluster theorems -/

set_option linter.unusedSectionVars false

instance {V : Type} (m : Mythical.IMap V) : Decidable m.WF := inferInstanceAs (Decidable (m.map Prod.fst).Nodup)

namespace Mythical.Cluster
open Mythical ClusterSpec

section General
variable {K : Type} [Field K] [LinearOrder K] [IsStrictOrderedRing K] [FloorRing K]

/-- Run calls one after the other with the same rates. -/
def runOps (env : Env K) (mem : Addr → K) : Cluster K → List (Op K) → List (Event K) × Cluster K
  | c, [] => ([], c)
  | c, op :: ops =>
    let r := c.step env mem op
    let rest := runOps env mem r.2 ops
    (⟨c, op, r.1⟩ :: rest.1, rest.2)

/-- Decidable form of `GoesOn`. -/
def goesOn {α : Type} : Except Fault α → Bool
  | .ok _ => true
  | .error e => e.isException

theorem goesOn_iff {α : Type} {r : Except Fault α} (h : goesOn r = true) : GoesOn r := by
  cases r with
  | ok => trivial
  | error e => exact h

theorem runOps_trace {env : Env K} {mem : Addr → K} {ops : List (Op K)} {c : Cluster K}
    (h : ((runOps env mem c ops).1.all fun ev => goesOn ev.res) = true) :
    Trace env c (runOps env mem c ops).1 (runOps env mem c ops).2 := by
  induction ops generalizing c with
  | nil => exact .nil c
  | cons op ops ih =>
    simp only [runOps, List.all_cons, Bool.and_eq_true] at h ⊢
    exact .cons mem rfl (goesOn_iff h.1) (ih h.2)

theorem sound_of {mem : Addr → K} {c : Cluster K} (hw : c.sites.WF)
    (h : ∀ is ∈ c.sites, is.2.neigh.WF ∧ (∀ na ∈ is.2.neigh, 0 < mem na.2) ∧ is.2.sumRates mem ≠ 0 ∧
      is.2.tau = 1 / is.2.sumRates mem ∧ is.2.prob.Perm (is.2.neigh.map fun na => (na.1, mem na.2 / is.2.sumRates mem))) :
    Sound mem c where
  wf := hw
  neighWF i s hs := (h (i, s) (IMap.mem_of_get? hs)).1
  pos i s hs := (h (i, s) (IMap.mem_of_get? hs)).2.1
  fresh i s hs := ⟨(h (i, s) (IMap.mem_of_get? hs)).2.2.1, (h (i, s) (IMap.mem_of_get? hs)).2.2.2.1,
    (h (i, s) (IMap.mem_of_get? hs)).2.2.2.2⟩

end General

/-- Insertion sort, descending. -/
def witSort : SortFn ℚ where
  f := List.insertionSort fun x y => y.2 ≤ x.2
  perm := List.perm_insertionSort _
  desc l := by
    have : Std.Total fun x y : Int × ℚ => y.2 ≤ x.2 := ⟨fun a b => le_total b.2 a.2⟩
    have : IsTrans (Int × ℚ) fun x y => y.2 ≤ x.2 := ⟨fun _ _ _ h1 h2 => h2.trans h1⟩
    exact List.pairwise_insertionSort _ l

/-- The environment of the witnesses. -/
def witEnv : Env ℚ := ⟨witSort, 100⟩

/-- All rates are 1 but the one at address 9, which is 3. -/
def witRates (a : Addr) : ℚ := if a = 9 then 3 else 1

/-- A site with the given rates. -/
def witSite (id : Int) (m : IMap Addr) : Site ℚ :=
  match (Site.new id : Site ℚ).setRatesToNeighbors witRates m with
  | .ok s => s
  | .error _ => Site.new id

/-- Site 1: to 2 and 3 at rate 1. -/
def wit1 : Site ℚ := witSite 1 [(2, 0), (3, 1)]
/-- Site 2: to 1 at rate 3. -/
def wit2 : Site ℚ := witSite 2 [(1, 9)]
/-- Site 3: to 1 and 4 at rate 1. -/
def wit3 : Site ℚ := witSite 3 [(1, 3), (4, 4)]

/-- A new cluster 0 gets sites 1 and 2; site 3 is outside. -/
def witOps : List (Op ℚ) := [.addSites [wit1, wit2]]

/-- The cluster before its first update. -/
def witC0 : Cluster ℚ := (runOps witEnv witRates (Cluster.new 0) witOps).2

/-- The history that leads to it. -/
def witEvs : List (Event ℚ) := (runOps witEnv witRates (Cluster.new 0) witOps).1

theorem witC0_trace : Trace witEnv (Cluster.new 0) witEvs witC0 := runOps_trace (by decide +kernel)

theorem witC0_sound : Sound witRates witC0 := sound_of (by decide +kernel) (by decide +kernel)

theorem witC0_mutual : Mutual witRates witC0 := by unfold Mutual; decide +kernel

theorem witC0_linked : Linked witRates witC0 := by unfold Linked; decide +kernel

theorem witC0_exit : HasExit witRates witC0 := ⟨1, by decide +kernel, 3, by decide +kernel, by decide +kernel⟩

theorem path_one {mem : Addr → ℚ} {c : Cluster ℚ} {i j : Int} (hj : j ∈ ids c) (h : 0 < rate mem c i j) : Path mem c i j :=
  .step (.refl i) hj h

theorem witC0_connected : Connected witRates witC0 := by
  have hids : ids witC0 = {1, 2} := by decide +kernel
  intro i hi j hj
  rw [hids] at hi hj
  simp only [Finset.mem_insert, Finset.mem_singleton] at hi hj
  rcases hi with rfl | rfl <;> rcases hj with rfl | rfl
  · exact .refl _
  · exact path_one (by decide +kernel) (by decide +kernel)
  · exact path_one (by decide +kernel) (by decide +kernel)
  · exact .refl _

/-- The cluster after its first update. -/
def witC1 : Cluster ℚ := (witC0.update witEnv witRates).2

theorem witC1_update : witC0.update witEnv witRates = (.ok (), witC1) := by decide +kernel

/-- The same cluster after site 3 has been added and the second update made. -/
def witC2 : Cluster ℚ := (runOps witEnv witRates (Cluster.new 0) (witOps ++ [.update, .addSite wit3])).2

/-- The history that leads to it. -/
def witEvs2 : List (Event ℚ) := (runOps witEnv witRates (Cluster.new 0) (witOps ++ [.update, .addSite wit3])).1

theorem witC2_trace : Trace witEnv (Cluster.new 0) witEvs2 witC2 := runOps_trace (by decide +kernel)

theorem witC2_sound : Sound witRates witC2 := sound_of (by decide +kernel) (by decide +kernel)

theorem witC2_mutual : Mutual witRates witC2 := by unfold Mutual; decide +kernel

theorem witC2_linked : Linked witRates witC2 := by unfold Linked; decide +kernel

/-- After the second update. -/
def witC3 : Cluster ℚ := (witC2.update witEnv witRates).2

theorem witC3_update : witC2.update witEnv witRates = (.ok (), witC3) := by decide +kernel

end Mythical.Cluster
