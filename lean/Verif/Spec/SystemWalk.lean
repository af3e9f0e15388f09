import Verif.Spec.System
import Mathlib.Analysis.SpecialFunctions.Log.Basic

/-! # Walkers that hop with the rates and block each other

The process that the system is meant to simulate, hop by hop. -/

namespace Mythical.SystemSpec
open Mythical World
variable {K : Type}

/-- The sum of the rates that the user has given from site `i` to site `j`. -/
def rateTo [Field K] (mem : Addr → K) (w : World K) (i j : Int) : K :=
  (((ratesOf w i).filter fun na => na.1 = j).map fun na => mem na.2).sum

/-- The sum of the rates out of site `i`. -/
def rateOut [Field K] (mem : Addr → K) (w : World K) (i : Int) : K := ((ratesOf w i).map fun na => mem na.2).sum

/-- The sites and the next sites of the walkers in the world. -/
def placesIn (w : World K) (h : Int) : Int × Int :=
  match w.walkers.get? h with
  | some x => (x.site, x.pot)
  | none => (unassignedId, unassignedId)

/-- Where walker `h` is after its next hop: on its next site, or where it was if one of the walkers `act` is on that site. -/
def landing (act : List Int) (places : Int → Int × Int) (h : Int) : Int :=
  if ∃ h' ∈ act, (places h').1 = (places h).2 then (places h).1 else (places h).2

/-- The sites and the next sites of the walkers after `k` hops, when hop `m` is made by the walker `hops m` and the next site
that it then gets is `out m`. -/
def placesAfter (act : List Int) (places : Int → Int × Int) (hops : Nat → Int × Int) (out : Nat → Int) : Nat → Int → Int × Int
  | 0 => places
  | k + 1 => Function.update (placesAfter act places hops out k) (hops k).2
      (landing act (placesAfter act places hops out k) (hops k).2, out k)

/-- A pair of numbers from the uniform distribution on `(0,1)` and `[0,1)`: the first for the dwell time, the second for the
next site. -/
def Uniform (x : ℝ × ℝ) : Prop := (0 < x.1 ∧ x.1 < 1) ∧ SiteSpec.Draw x.2

/-- The choices `a` with the draws made from the uniform numbers `x` (topology_feature.cpp 64-67, site.cpp 97-108). -/
noncomputable def withDraws (a : Choices ℝ) (x : ℝ × ℝ) : Choices ℝ := { a with e := -Real.log x.1, u := x.2 }

/-- The world after `k` hops, where hop `m` is the hop of the walker `hops m` (its id and its handle) with the uniform numbers
`x m`. -/
noncomputable def worldAfter (env : Env ℝ) (mem : Addr → ℝ) (w : World ℝ) (hops : Nat → Int × Int) (a : Nat → Choices ℝ) {N : Nat}
    (x : Fin N → ℝ × ℝ) : Nat → World ℝ
  | 0 => w
  | k + 1 => if h : k < N then
      ((worldAfter env mem w hops a x k).step env mem (.hop (hops k).1 (hops k).2 (withDraws (a k) (x ⟨k, h⟩)))).2
    else worldAfter env mem w hops a x k

end Mythical.SystemSpec
