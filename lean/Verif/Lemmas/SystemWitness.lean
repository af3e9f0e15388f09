import Verif.Lemmas.SystemInvariant
import Verif.Lemmas.ClusterWitness

/-! # Concrete histories over `ℚ`, used as witnesses beside the system theorems -/

set_option linter.unusedSectionVars false
set_option linter.unusedVariables false

namespace Mythical.World
open Mythical SystemSpec

section General
variable {K : Type} [Field K] [LinearOrder K] [IsStrictOrderedRing K] [FloorRing K]
variable {env : Env K} {mem : Addr → K} {w : World K} {act : List Int}

/-- Run calls one after the other with the same rates. -/
def runOps (env : Env K) (mem : Addr → K) : World K → List (Op K) → List (Event K) × World K
  | w, [] => ([], w)
  | w, op :: ops =>
    let r := w.step env mem op
    let rest := runOps env mem r.2 ops
    (⟨w, mem, op, r.1, r.2⟩ :: rest.1, rest.2)

theorem runOps_trace' {ops : List (Op K)} {w0 w : World K} {evs : List (Event K)} (ht : Trace env w0 evs w)
    (h : ((runOps env mem w ops).1.all fun ev => Cluster.goesOn ev.res) = true) :
    Trace env w0 (evs ++ (runOps env mem w ops).1) (runOps env mem w ops).2 := by
  induction ops generalizing w evs with
  | nil => simpa [runOps] using ht
  | cons op ops ih =>
    simp only [runOps, List.all_cons, Bool.and_eq_true] at h ⊢
    have := ih (.snoc mem ht rfl (Cluster.goesOn_iff h.1)) h.2
    rwa [List.append_assoc, List.singleton_append] at this

theorem runOps_trace {ops : List (Op K)} {w : World K}
    (h : ((runOps env mem w ops).1.all fun ev => Cluster.goesOn ev.res) = true) :
    Trace env w (runOps env mem w ops).1 (runOps env mem w ops).2 := by
  simpa using runOps_trace' (.nil w) h

/-- The site of a walker. -/
def whereIs (w : World K) (h : Int) : Option Int := (w.walkers.get? h).map (·.site)

theorem whereIs_of {h i : Int} (o : On w h i) : whereIs w h = some i := by
  obtain ⟨x, hx, rfl, -⟩ := o
  unfold whereIs; rw [hx]; rfl

theorem on_of {h i : Int} (e : whereIs w h = some i) (hi : i ≠ unassignedId) : On w h i := by
  unfold whereIs at e
  obtain ⟨x, hx, e⟩ := Option.map_eq_some_iff.1 e
  exact ⟨x, hx, e, hi⟩

/-- Sufficient condition for a proper call, by computation. -/
def properB (act : List Int) (hopped : Bool) (ev : Event K) : Bool :=
  match ev.op with
  | .initializeWalkers l =>
    (match ev.res with | .ok _ => true | .error _ => false) && decide (l.map (·.handle)).Nodup &&
    (l.all fun a => decide (a.handle ∉ act)) &&
    (l.all fun a => l.all fun b => decide (a.handle = b.handle) || decide (whereIs ev.pre a.handle ≠ whereIs ev.pre b.handle)) &&
    (l.all fun a => act.all fun h => decide (whereIs ev.pre a.handle ≠ whereIs ev.pre h)) && !hopped
  | .hop _ h _ => decide (h ∈ act) && (match ev.res with | .ok _ => true | .error _ => false)
  | .removeWalker _ h => decide (h ∈ act)
  | .newWalker h => decide (h ∉ act)
  | .walkerOccupy h _ => decide (h ∉ act)
  | _ => true

/-- Sufficient condition for proper usage, by computation. -/
def usageB : List Int → Bool → List (Event K) → Bool
  | _, _, [] => true
  | act, hopped, ev :: evs => properB act hopped ev && usageB (enter act ev) (hopped || isHop ev.op) evs

theorem properB_iff {hopped : Bool} {P : Prop} (hP : P → hopped = true) {ev : Event K} (h : properB act hopped ev = true) :
    Proper act P ev := by
  have hok : ∀ {r : Except Fault Int}, (match r with | .ok _ => true | .error _ => false) = true → ∃ n, r = .ok n := by
    intro r hr
    cases r with
    | ok n => exact ⟨n, rfl⟩
    | error e => cases hr
  unfold properB at h
  unfold Proper
  cases hop : ev.op with
  | initializeWalkers l =>
    rw [hop] at h
    simp only [Bool.and_eq_true, List.all_eq_true, decide_eq_true_iff, Bool.or_eq_true, Bool.not_eq_true'] at h
    obtain ⟨⟨⟨⟨⟨h1, h2⟩, h3⟩, h4⟩, h5⟩, h6⟩ := h
    refine ⟨hok h1, h2, h3, ?_, ?_, ?_⟩
    · intro a ha b hb hne i o o'
      rcases h4 a ha b hb with e | e
      · exact hne e
      · exact e ((whereIs_of o).trans (whereIs_of o').symm)
    · intro a ha k hk i o o'
      exact h5 a ha k hk ((whereIs_of o).trans (whereIs_of o').symm)
    · left
      intro p
      rw [hP p] at h6
      cases h6
  | hop wid k a =>
    rw [hop] at h
    simp only [Bool.and_eq_true, decide_eq_true_iff] at h
    exact ⟨h.1, hok h.2⟩
  | removeWalker wid k => rw [hop] at h; simpa using h
  | newWalker k => rw [hop] at h; simpa using h
  | walkerOccupy k i => rw [hop] at h; simpa using h
  | _ => trivial

theorem isHop_of {op : Op K} (h : ∃ wid k a, op = .hop wid k a) : isHop op = true := by
  obtain ⟨wid, k, a, rfl⟩ := h; rfl

theorem usageB_iff' {evs before : List (Event K)} {hopped : Bool} (hb : Usage before)
    (hP : Hopped before → hopped = true) (h : usageB (active before) hopped evs = true) : Usage (before ++ evs) := by
  induction evs generalizing before hopped with
  | nil => simpa using hb
  | cons ev evs ih =>
    simp only [usageB, Bool.and_eq_true] at h
    have hp := properB_iff hP h.1
    have hb' : Usage (before ++ [ev]) := by
      intro b e a he
      rcases List.eq_nil_or_concat a with rfl | ⟨a', x, rfl⟩
      · obtain ⟨rfl, e⟩ := List.append_inj' he rfl
        cases e
        exact hp
      · rw [List.concat_eq_append, ← List.cons_append, ← List.append_assoc] at he
        obtain ⟨e, -⟩ := List.append_inj' he rfl
        exact hb b _ a' e
    have := ih (before := before ++ [ev]) (hopped := hopped || isHop ev.op) hb' (by
      intro hh
      rcases hopped_snoc.1 hh with hh | hh
      · rw [hP hh]; rfl
      · rw [isHop_of hh, Bool.or_true]) (by rw [active_snoc]; exact h.2)
    rwa [List.append_assoc, List.singleton_append] at this

theorem usageB_iff {evs : List (Event K)} (h : usageB [] false evs = true) : Usage evs := by
  have := usageB_iff' (before := []) (hopped := false) (evs := evs) (by intro b e a he; simp at he)
    (by rintro ⟨e, he, -⟩; simp at he) h
  simpa using this

end General

/-- A graph visitor that takes the edges as they come. -/
def witVis : Visitor where
  order _ _ l := l
  order_perm _ _ l := List.Perm.refl l
  next _ _ := 0
  out l := l
  out_perm l := List.Perm.refl l

/-- Choices: draws 1 and `u`, and the traversal times. -/
def witChoice (u : ℚ) (times : List ℚ) : Choices ℚ := ⟨1, u, witVis, times, fun l => l, fun l => List.Perm.refl l⟩

/-- Rates: 100 at address 0, otherwise 1. -/
def sysRates (a : Addr) : ℚ := if a = 0 then 100 else 1

/-- Sites 1 and 2 with fast rates between them, slow rates to and from site 3, site 4 beyond it. -/
def sysMap : IMap (IMap Addr) := [(1, [(2, 0)]), (2, [(1, 0), (3, 1)]), (3, [(2, 1), (4, 2)]), (4, [(3, 2)])]

/-- Walker 10 on site 1 and walker 11 on site 3; every hop is followed by an attempt at coarse graining. -/
def sysOps : List (Op ℚ) := [
  .setTimeResolution 1, .setMinThreshold 0, .setRandomSeed 7, .initializeSystem sysMap,
  .newWalker 10, .newWalker 11, .walkerOccupy 10 1, .walkerOccupy 11 3,
  .initializeWalkers [⟨0, 10, 1, 1 / 2⟩, ⟨1, 11, 1, 1 / 4⟩],
  .hop 0 10 (witChoice (1 / 2) [1 / 100]), .hop 1 11 (witChoice (3 / 4) [1 / 100]), .hop 0 10 (witChoice (99 / 100) [1 / 100]),
  .getVisitFrequencyOfSite 2,
  .hop 1 11 (witChoice (1 / 8) [1]), .removeWalker 1 11, .hop 0 10 (witChoice (1 / 3) [1])]

/-- The history of these calls. -/
def sysEvs : List (Event ℚ) := (runOps Cluster.witEnv sysRates (World.new 0) sysOps).1

/-- The world it leads to. -/
def sysWorld : World ℚ := (runOps Cluster.witEnv sysRates (World.new 0) sysOps).2

theorem sysTrace : Trace Cluster.witEnv (World.new 0) sysEvs sysWorld := runOps_trace (by decide +kernel)

theorem sysUsage : Usage sysEvs := usageB_iff (by decide +kernel)

/-- Rates: 100 at address 0, 10 at address 1, otherwise 1. -/
def mergeRates (a : Addr) : ℚ := if a = 0 then 100 else if a = 1 then 10 else 1

/-- Two pairs of sites, 1 and 2, 3 and 4, with fast rates in them, slower ones between them, and a slow one at each end. -/
def mergeMap : IMap (IMap Addr) :=
  [(10, [(1, 2)]), (1, [(2, 0), (10, 2)]), (2, [(1, 0), (3, 1)]), (3, [(2, 1), (4, 0)]), (4, [(3, 0), (5, 2)]), (5, [(4, 2)])]

/-- Calls that lead to two clusters, in hops 1 and 2, which are merged in hop 3. -/
def mergeOps : List (Op ℚ) := [
  .setTimeResolution 1, .setMinThreshold 0, .setRandomSeed 7, .initializeSystem mergeMap,
  .newWalker 10, .newWalker 11, .walkerOccupy 10 1, .walkerOccupy 11 4,
  .initializeWalkers [⟨0, 10, 1, 1 / 2⟩, ⟨1, 11, 1, 1 / 4⟩],
  .hop 0 10 (witChoice (1 / 2) [1 / 100]), .hop 1 11 (witChoice (3 / 4) [1 / 100]),
  .hop 0 10 (witChoice (1 / 3) [1 / 10]), .hop 0 10 (witChoice (1 / 3) [1 / 10]), .hop 1 11 (witChoice (1 / 3) [1 / 10])]

/-- The history of these calls. -/
def mergeEvs : List (Event ℚ) := (runOps Cluster.witEnv mergeRates (World.new 0) mergeOps).1

/-- The world it leads to. -/
def mergeWorld : World ℚ := (runOps Cluster.witEnv mergeRates (World.new 0) mergeOps).2

theorem mergeTrace : Trace Cluster.witEnv (World.new 0) mergeEvs mergeWorld := runOps_trace (by decide +kernel)

theorem mergeUsage : Usage mergeEvs := usageB_iff (by decide +kernel)

end Mythical.World
