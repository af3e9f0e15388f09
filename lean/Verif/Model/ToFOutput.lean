import Verif.Model.ToF
import Verif.Model.ToFMain

/-!
# Model of the rest of examples/ToF/ToF_example.cpp: site energies (24-38), the output file (117-137) and `main` (139-221)

* The numbers drawn from the normal distribution and whether the file can be opened are arguments. The numbers written to the
  file are kept as they are; how a stream formats them (six digits) is not modelled, nor is the output to the screen.
* The rates that `calculateRates` returns are the variables to which the system will keep pointers: they get the addresses
  0, 1, 2, ... in the order in which `initializeSystem` meets them (`layout`).
-/

namespace Mythical.ToF
open World

/-- ToF_example.cpp 24-38: `generateSiteEnergies`, with the numbers drawn. -/
def generateSiteEnergies {K : Type} [Zero K] (n : Nat) (draw : Nat → K) : Except Fault (List K) :=
  (List.range n).foldlM (fun v i => if i < v.length then .ok (v.set i (draw i)) else .error .outOfRange) (List.replicate n 0)

/-- A line of the file (ToF_example.cpp 134). -/
structure Row (K : Type) where
  time : K
  /-- `none` stands for a value that is not a finite number -/
  current : Option K
  left : Int
  deriving DecidableEq

/-- The file transient_current.txt. -/
structure File (K : Type) where
  title : String
  size : Nat
  rows : List (Row K)
  deriving DecidableEq

/-- ToF_example.cpp 132-135: the rows from index `ind` on, with `left` of them still to write. -/
def writeRows {K : Type} [Add K] (cur : List (Option K)) (charges : List Int) (dt : K) : Nat → Nat → K → Except Fault (List (Row K))
  | 0, _, _ => .ok []
  | left + 1, ind, t =>
    match cur[ind]?, charges[ind]? with
    | some j, some n => do
      let rows ← writeRows cur charges dt left (ind + 1) (t + dt)
      .ok (⟨t + dt, j, n⟩ :: rows)
    | _, _ => .error .outOfRange

/-- ToF_example.cpp 117-137: `printTransientCurrent`; `opens` tells whether the file can be opened. -/
def printTransientCurrent {K : Type} [Add K] [Zero K] (opens : Bool) (cur : List (Option K)) (charges : List Int) (dt : K) :
    Except Fault (File K) :=
  if opens then do
    let rows ← writeRows cur charges dt cur.length 0 0
    .ok ⟨"Transient Current", cur.length, rows⟩
  else .error .runtimeError

/-- The contents of the rate variables, in the order of their addresses. -/
def rateList {K : Type} (R : IMap (IMap K)) : List K := R.flatMap fun ir => ir.2.map Prod.snd

/-- The variable at address `a`. -/
def memOf {K : Type} [Zero K] (R : IMap (IMap K)) (a : Addr) : K := (rateList R).getD a 0

/-- The references to the rates of a site, from address `a` on. -/
def layoutRow {K : Type} : Addr → IMap K → IMap Addr
  | _, [] => []
  | a, (j, _) :: row => (j, a) :: layoutRow (a + 1) row

/-- The references to the rates, from address `a` on. -/
def layoutFrom {K : Type} : Addr → IMap (IMap K) → IMap (IMap Addr)
  | _, [] => []
  | a, (i, row) :: R => (i, layoutRow a row) :: layoutFrom (a + row.length) R

/-- The argument of `initializeSystem` (ToF_example.cpp 171). -/
def layout {K : Type} (R : IMap (IMap K)) : IMap (IMap Addr) := layoutFrom 0 R

/-- The constants of `main` (ToF_example.cpp 140-167) and of `calculateRates` (44-56). -/
structure Setup where
  len : Int
  wid : Int
  hei : Int
  spacing : ℝ
  xb : Cuboid.Boundary
  yb : Cuboid.Boundary
  zb : Cuboid.Boundary
  params : Params
  charges : Nat
  cutoffTime : ℝ
  dt : ℝ
  seed : Nat
  q : ℝ
  nm : ℝ

/-- ToF_example.cpp 140-167, 44-56: their values. -/
noncomputable def setup : Setup :=
  ⟨200, 80, 80, 1, .fixed, .periodic, .periodic, params, 200, 0.4e-8, 2e-9 / 300, 1943, 1.602176634e-19, 1e-7⟩

/-- ToF_example.cpp 184: the constants of the loops, with the volume computed. -/
noncomputable def Setup.config (S : Setup) : Config ℝ :=
  ⟨S.charges, S.cutoffTime, S.dt, S.seed, S.q, S.nm, ((S.len * S.wid * S.hei : Int) : ℝ) * S.nm * S.nm * S.nm⟩

/-- ToF_example.cpp 139-221: `main`, with the first `n` steps in the loops. `energy` are the numbers drawn for the energies, `visit`
and `visit'` the orders in which `calculateRates` and `initializeSystem` meet the entries of the maps of maps. Returns the
state of the loops and, if they are over, the file. The product in 148 and 184 is also computed by the constructor of the
lattice and checked there. -/
noncomputable def main (env : Env ℝ) (S : Setup) (energy : Nat → ℝ) (visit visit' : IMap (IMap ℝ) → List (Int × List (Int × ℝ)))
    (ch : Chances ℝ) (opens : Bool) (n : Nat) : Except Fault (Sim ℝ × Option (File ℝ)) := do
  let c ← Cuboid.construct S.len S.wid S.hei S.spacing S.xb S.yb S.zb
  let energies ← generateSiteEnergies c.total.toNat energy
  let rates ← calculateRates c S.params energies visit
  let (s, fin) ← program env (memOf (visit' rates)) c (layout (visit' rates)) S.config ch n
  if fin then do
    let file ← printTransientCurrent opens (s.samples.map Prod.fst) (s.samples.map Prod.snd) S.dt
    .ok (s, some file)
  else .ok (s, none)

end Mythical.ToF
