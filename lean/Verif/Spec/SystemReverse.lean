import Verif.Spec.SystemWalk

/-! # A walk and the same walk backwards -/

namespace Mythical.SystemSpec
open Mythical World

/-- Walker `h` is the only walker in the world `w`, which a run with the rates in `mem` has led to, and it is about to hop to site
`v`. Neither a cluster nor a site without a rate out of it exists, and none of the next `N` hops makes coarse graining due or a
counter overflow. -/
def Alone (env : Env ℝ) (mem : Addr → ℝ) (w : World ℝ) (h v : Int) (N : Nat) : Prop :=
  (∃ n evs, Trace env (World.new n) evs w ∧ Usage evs ∧ RatesFixed mem evs ∧ RatesPositive mem evs ∧ SystemsReturn evs ∧
    Draws evs ∧ SentToKnown evs ∧ walkersIn evs + hopsIn evs + N < 2 ^ 31 ∧ (pace evs).since + N ≤ (pace evs).thr ∧
    active evs = [h]) ∧
  (∀ c, ¬ SystemSpec.Exists w c) ∧ (∀ i, ¬ Drain w i) ∧ ∃ x, w.walkers.get? h = some x ∧ x.pot = v ∧ x.site ≠ v

/-- The uniform numbers with which the walker `h` makes `N` hops along `path`, and gets on each site `i` a dwell time longer than
`t i`. -/
def Along (env : Env ℝ) (mem : Addr → ℝ) (w : World ℝ) (wid h : Int) (a : Nat → Choices ℝ) (N : Nat) (path : Nat → Int)
    (t : Int → ℝ) : Set (Fin N → ℝ × ℝ) :=
  {x | (∀ k, Uniform (x k)) ∧ ∀ k : Fin N, ∃ y, (worldAfter env mem w (fun _ => (wid, h)) a x (k + 1)).walkers.get? h = some y ∧
    y.site = path k ∧ y.pot = path (k + 1) ∧ t (path k) < y.dwell}

/-- The rates are in detailed balance for the weights `B` of the sites. -/
def DetailedBalance (B : Int → ℝ) (mem : Addr → ℝ) (w : World ℝ) : Prop :=
  ∀ i j, B i * rateTo mem w i j = B j * rateTo mem w j i

end Mythical.SystemSpec
